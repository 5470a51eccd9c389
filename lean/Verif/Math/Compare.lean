import Verif.Math.Matrix

/-!
Constructors and comparisons of vectors, matrices and quaternions: `math/vector.hpp`, `math/vectors/vector2.hpp`,
`vector3.hpp`, `vector4.hpp`, `math/matrix.hpp`, `math/matrices/matrix4x4.hpp`, `math/quaternion.hpp`.

`cast` stands for `static_cast<T>`, one function for each type of argument; an argument is given as a function of
the cast (`U → T`) and a value.  `three` stands for the built-in `<=>` of the component type: `none` is
`std::partial_ordering::unordered`, which floating-point types have.
-/

set_option autoImplicit false

namespace Verif.Math

section Construct

variable {T : Type}

/-- `Vector(Args... args) : m_data({static_cast<T>(args)...})` of the general template: the list initialises the
array from the front, the rest is value-initialised; too many initialisers do not compile (`none`).  vector.hpp
51-54, 120. -/
def vecOfArgs [Zero T] (n : Nat) (args : List T) : Option (Vec T n) :=
  if args.length ≤ n then some (fun i => args.getD i.val 0) else none

/-- `Vector(_x, _y)`: vector2.hpp 49. -/
def vec2 (x y : T) : Vec T 2 := ![x, y]

/-- `Vector(_x, _y, _z)`: vector3.hpp 54-55. -/
def vec3 (x y z : T) : Vec T 3 := ![x, y, z]

/-- `Vector(s, v)` with a vector of two: vector3.hpp 57-58. -/
def vec3SV {U : Type} (cast : U → T) (s : T) (v : Vec U 2) : Vec T 3 := vec3 s (cast (v 0)) (cast (v 1))

/-- `Vector(v, s)` with a vector of two: vector3.hpp 60-61. -/
def vec3VS {U : Type} (cast : U → T) (v : Vec U 2) (s : T) : Vec T 3 := vec3 (cast (v 0)) (cast (v 1)) s

/-- `Vector(_x, _y, _z, _w)`: vector4.hpp 57-58. -/
def vec4 (x y z w : T) : Vec T 4 := ![x, y, z, w]

/-- `Vector(s1, s2, v)`: vector4.hpp 60-61. -/
def vec4SSV {U : Type} (cast : U → T) (s1 s2 : T) (v : Vec U 2) : Vec T 4 := vec4 s1 s2 (cast (v 0)) (cast (v 1))

/-- `Vector(s1, v, s2)`: vector4.hpp 63-64. -/
def vec4SVS {U : Type} (cast : U → T) (s1 : T) (v : Vec U 2) (s2 : T) : Vec T 4 :=
  vec4 s1 (cast (v 0)) (cast (v 1)) s2

/-- `Vector(v, s1, s2)`: vector4.hpp 66-67. -/
def vec4VSS {U : Type} (cast : U → T) (v : Vec U 2) (s1 s2 : T) : Vec T 4 := vec4 (cast (v 0)) (cast (v 1)) s1 s2

/-- `Vector(v1, v2)` with two vectors of two: vector4.hpp 69-71. -/
def vec4VV {U W : Type} (cast : U → T) (cast' : W → T) (v : Vec U 2) (w : Vec W 2) : Vec T 4 :=
  vec4 (cast (v 0)) (cast (v 1)) (cast' (w 0)) (cast' (w 1))

/-- `Vector(s, v)` with a vector of three: vector4.hpp 73-74. -/
def vec4SV {U : Type} (cast : U → T) (s : T) (v : Vec U 3) : Vec T 4 :=
  vec4 s (cast (v 0)) (cast (v 1)) (cast (v 2))

/-- `Vector(v, s)` with a vector of three: vector4.hpp 76-77. -/
def vec4VS {U : Type} (cast : U → T) (v : Vec U 3) (s : T) : Vec T 4 :=
  vec4 (cast (v 0)) (cast (v 1)) (cast (v 2)) s

/-- Conversion of a vector with other components, and assignment from one: vector.hpp 56-60, 75-80, vector2.hpp
51-52, 64-69 (the assignment has no `static_cast`; the implicit conversion is the same), vector3.hpp 63-64, 76-82,
vector4.hpp 79-80, 92-99. -/
def vecConvert {U : Type} [Indet T] (cast : U → T) : {n : Nat} → Vec U n → Vec T n
  | 2, v => vec2 (cast (v 0)) (cast (v 1))
  | 3, v => vec3 (cast (v 0)) (cast (v 1)) (cast (v 2))
  | 4, v => vec4 (cast (v 0)) (cast (v 1)) (cast (v 2)) (cast (v 3))
  | n, v => forLoop n (fun i r => store r i (cast (v i))) (uninit n)

/-- `Matrix(args...)` from its columns, one per column: matrix.hpp 64-67, matrix4x4.hpp 63-64 (for columns of two to four
components only with components of the same type, because the conversion of such a vector is explicit; see `Math/Init`). -/
def matOfColumns {U : Type} [Indet T] (cast : U → T) {c r : Nat} (args : Fin c → Vec U r) : Mat T c r :=
  fun i => vecConvert cast (args i)

/-- Conversion of a matrix with other components, and assignment from one: matrix.hpp 69-73, 109-114,
matrix4x4.hpp 66-68 (does not compile for other components, the conversion of a vector of four being explicit),
112-119. -/
def matConvert {U : Type} [Zero T] [Indet T] (cast : U → T) : {c r : Nat} → Mat U c r → Mat T c r
  | 4, 4, m => ![vecConvert cast (m 0), vecConvert cast (m 1), vecConvert cast (m 2), vecConvert cast (m 3)]
  | c, _, m => forLoop c (fun i res => fun j => if j = i then vecConvert cast (m i) else res j) (fun _ => splat 0)

/-- `Matrix(m)` of a 3x3 matrix with other components: matrix4x4.hpp 70-77. -/
def matEmbed {U : Type} [Zero T] [One T] (cast : U → T) (m : Mat U 3 3) : Mat T 4 4 :=
  ![vec4VS cast (m 0) 0, vec4VS cast (m 1) 0, vec4VS cast (m 2) 0, vec4 0 0 0 1]

/-- `Quaternion(_w, _x, _y, _z)`: quaternion.hpp 11-12. -/
def quatOf (w x y z : T) : Quat T := ⟨w, x, y, z⟩

/-- `q[i]`: `(&w)[i]`, counting the members in the order of their declaration; `none` beyond the last.
quaternion.hpp 37-45, 53-56. -/
def Quat.get? (q : Quat T) (i : Nat) : Option T := [q.w, q.x, q.y, q.z][i]?

end Construct

section Compare

variable {T : Type} (eqT : T → T → Bool) (threeT : T → T → Option Ordering)

/-- The defaulted `==` of members (or array elements) compared in order: vector.hpp 100, vector2.hpp 89, vector3.hpp
102, vector4.hpp 119, matrix.hpp 132, matrix4x4.hpp 137, quaternion.hpp 48. -/
def eqMembers {M : Type} (eq : M → M → Bool) : List (M × M) → Bool
  | [] => true
  | (a, b) :: l => if eq a b then eqMembers eq l else false

/-- The defaulted `<=>`: the first member whose comparison is not equal decides: vector.hpp 103 (array elements
likewise), vector2.hpp 92, vector3.hpp 105, vector4.hpp 122, matrix.hpp 135, matrix4x4.hpp 140, quaternion.hpp
51. -/
def threeMembers {M : Type} (three : M → M → Option Ordering) : List (M × M) → Option Ordering
  | [] => some .eq
  | (a, b) :: l =>
    match three a b with
    | some .eq => threeMembers three l
    | r => r

/-- The members of two vectors side by side, in the order of their declaration: vector.hpp 120, vector2.hpp
106-107, vector3.hpp 119-121, vector4.hpp 136-139. -/
def vecMembers {n : Nat} (a b : Vec T n) : List (T × T) := (List.finRange n).map fun i => (a i, b i)

/-- `a == b` of vectors: vector.hpp 100, vector2.hpp 89, vector3.hpp 102, vector4.hpp 119. -/
def vecEq {n : Nat} (a b : Vec T n) : Bool := eqMembers eqT (vecMembers a b)

/-- `a <=> b` of vectors: vector.hpp 103, vector2.hpp 92, vector3.hpp 105, vector4.hpp 122. -/
def vecThree {n : Nat} (a b : Vec T n) : Option Ordering := threeMembers threeT (vecMembers a b)

/-- The columns of two matrices side by side: matrix.hpp 151, matrix4x4.hpp 163. -/
def matMembers {c r : Nat} (a b : Mat T c r) : List (Vec T r × Vec T r) :=
  (List.finRange c).map fun i => (a i, b i)

/-- `a == b` of matrices: matrix.hpp 132, matrix4x4.hpp 137. -/
def matEq {c r : Nat} (a b : Mat T c r) : Bool := eqMembers (vecEq eqT) (matMembers a b)

/-- `a <=> b` of matrices: matrix.hpp 135, matrix4x4.hpp 140. -/
def matThree {c r : Nat} (a b : Mat T c r) : Option Ordering := threeMembers (vecThree threeT) (matMembers a b)

/-- `p == q` of quaternions: quaternion.hpp 48, 53-56. -/
def quatEq (p q : Quat T) : Bool := eqMembers eqT [(p.w, q.w), (p.x, q.x), (p.y, q.y), (p.z, q.z)]

/-- `p <=> q` of quaternions: quaternion.hpp 51, 53-56. -/
def quatThree (p q : Quat T) : Option Ordering :=
  threeMembers threeT [(p.w, q.w), (p.x, q.x), (p.y, q.y), (p.z, q.z)]

end Compare

end Verif.Math
