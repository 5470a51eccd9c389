import Mathlib.Data.List.Basic

/-!
# What vectors, matrices and quaternions are made from

Overload resolution of the constructors of `Vector`, `Matrix` and `Quaternion`, and the deduction of their template
arguments. V stands for `include/xme/math/vector.hpp`, V2, V3 and V4 for `vector2.hpp`, `vector3.hpp` and `vector4.hpp` in
`include/xme/math/vectors`, M for `include/xme/math/matrix.hpp`, M4 for `include/xme/math/matrices/matrix4x4.hpp`, Q for
`include/xme/math/quaternion.hpp`.

Only types and the origin of each component are modelled; what a conversion does to a value is in `Math/Compare`. Arguments
are numbers, vectors, matrices and quaternions of the library. `K` is the set of arithmetic types; matrices and quaternions
exist for floating-point types only (M 45, Q 6), so that what is said about them is meant for these.

Simplifications: no braced lists; lvalues and rvalues are not distinguished (the copy constructor stands for the move
constructor as well); a constructor that would need a user-defined conversion of its argument is not a candidate, which
makes no difference because a template that needs none is always there if such a conversion exists.
-/

set_option autoImplicit false

namespace Verif.MathInit

variable {K : Type} [DecidableEq K]

/-- The type of an argument: a number, `Vector<k, n>`, `Matrix<k, c, r>`, `Quaternion<k>`. V 39-40, M 45-46, Q 6-7. -/
inductive Arg (K : Type)
  | num (k : K)
  | vec (k : K) (n : Nat)
  | mat (k : K) (c r : Nat)
  | quat (k : K)
  deriving DecidableEq

/-- Where a component of the result comes from: component `j` of argument `i`, converted (the components of a matrix are
counted column by column); the constants 0 and 1; or it has no value yet. Part of the model, not of the code. -/
inductive Src
  | arg (i j : Nat)
  | zero
  | one
  | junk
  deriving DecidableEq

/-- What the compiler does with an initialisation: no constructor fits or more than one fit equally well (`no`), the
constructor that fits does not compile (`error`), or the components come from where the list says. Part of the model, not of
the code. -/
inductive Out
  | no
  | error
  | ok (comps : List Src)
  deriving DecidableEq

/-- A constructor: whether it is explicit, for which arguments it is a candidate, how specialised it is (0 for a template that
takes anything or a parameter pack, 1 for a template that is more specialised, 2 for a function that is not a template; two
that are not ordered by partial ordering have the same number), and what its definition does. Part of the model, not of the
code. -/
structure Ctor (K : Type) where
  explicit : Bool
  viable : List (Arg K) → Bool
  rank : Nat
  body : List (Arg K) → Out

/-- Overload resolution; explicit constructors take part in direct initialisation only. Part of the model, not of the code. -/
def pick (direct : Bool) (cs : List (Ctor K)) (args : List (Arg K)) : Out :=
  let v := cs.filter fun c => c.viable args && (direct || !c.explicit)
  match v.filter fun c => v.all fun d => decide (d.rank ≤ c.rank) with
  | [c] => c.body args
  | _ => .no

/-- Whether `static_cast<T>(a)` compiles for an arithmetic `T`. V 54, V2 49, V3 55, V4 58. -/
def Arg.isNum : Arg K → Bool
  | .num _ => true
  | _ => false

/-- Whether the argument is a vector of `n` components. V 57, V2 52, V3 58, V4 61. -/
def Arg.isVec (n : Nat) : Arg K → Bool
  | .vec _ m => m == n
  | _ => false

/-- A scalar expression of an initialiser: its type and where it comes from. V2 49, V3 54-55, V4 57-58. -/
abbrev Item (K : Type) := Arg K × Src

/-- `x{static_cast<T>(_x)}, ...`: V 54, V2 49, V3 54-55, V4 57-58, Q 11-12. -/
def scalars (l : List (Item K)) : Out := if l.all fun p => p.1.isNum then .ok (l.map (·.2)) else .error

/-- The argument `i` itself as a scalar. V2 49, V3 54-55, V4 57-58. -/
def whole (i : Nat) (a : Arg K) : Item K := (a, .arg i 0)

/-- The members `v.x`, `v.y`, ... of the argument `i`, a vector. V2 52, V3 58-64, V4 61-80. -/
def parts (i : Nat) : Arg K → List (Item K)
  | .vec k n => (List.range n).map fun j => (.num k, .arg i j)
  | _ => []

/-- All components of the argument `0`, copied: the implicitly declared copy constructors. V 39-40, V2 41-42, V3 45-46,
V4 49-50, M 45-46, M4 46-47, Q 6-7. -/
def copied (n : Nat) : Out := .ok ((List.range n).map (.arg 0))

/-- `Vector() = default` and the copy constructor. V 44, V2 45, V3 49, V4 53. -/
def vecOwn (T : K) (n : Nat) : List (Ctor K) :=
  [⟨false, fun as => as == [], 2, fun _ => .ok (List.replicate n .junk)⟩,
   ⟨false, fun as => as == [.vec T n], 2, fun _ => copied n⟩]

/-- A constructor with parameters given one by one: `none` for `auto`, `some n` for `const Vector<U, n>&`; it passes the
arguments and the members of vectors on to the constructor with one number for each component. V3 54-61, V4 57-77. -/
def spread (ps : List (Option Nat)) (rank : Nat) : Ctor K :=
  { explicit := false
    viable := fun as => as.length == ps.length && (as.zip ps).all fun q =>
      match q.2 with
      | none => true
      | some n => q.1.isVec n
    rank := rank
    body := fun as => scalars ((as.zip ps).zipIdx.flatMap fun q =>
      match q.1.2 with
      | none => [whole q.2 q.1.1]
      | some _ => parts q.2 q.1.1) }

/-- `explicit Vector(auto s) : Vector(s, ..., s)`. V2 47, V3 51-52, V4 55. -/
def splatC (n : Nat) : Ctor K :=
  ⟨true, fun as => as.length == 1, 0, fun as => scalars (as.flatMap fun a => List.replicate n (whole 0 a))⟩

/-- `explicit Vector(const Vector<U, n>& v) : Vector(v.x, ...)`. V2 51-52, V3 63-64, V4 79-80. -/
def convC (n : Nat) : Ctor K :=
  ⟨true, fun as => as.length == 1 && as.all (·.isVec n), 1, fun as => scalars (as.flatMap (parts 0))⟩

/-- The constructors of `Vector<T, 2>`: V2 45-52. -/
def vec2 (T : K) : List (Ctor K) := vecOwn T 2 ++ [splatC 2, spread [none, none] 0, convC 2]

/-- The constructors of `Vector<T, 3>`: V3 49-64. -/
def vec3 (T : K) : List (Ctor K) :=
  vecOwn T 3 ++ [splatC 3, spread [none, none, none] 0, spread [none, some 2] 1, spread [some 2, none] 1, convC 3]

/-- The constructors of `Vector<T, 4>`: V4 53-80. -/
def vec4 (T : K) : List (Ctor K) :=
  vecOwn T 4 ++
    [splatC 4, spread [none, none, none, none] 0, spread [none, none, some 2] 1, spread [none, some 2, none] 1,
     spread [some 2, none, none] 1, spread [some 2, some 2] 1, spread [none, some 3] 1, spread [some 3, none] 1, convC 4]

/-- `Vector(U s)` of the general template, for a number: `m_data.fill(s)`. V 46-49. -/
def fillC (n : Nat) : Ctor K :=
  ⟨false, fun as => as.length == 1 && as.all (·.isNum), 1, fun _ => .ok (List.replicate n (.arg 0 0))⟩

/-- `Vector(Args... args)` of the general template, if it has more than one component: `m_data({static_cast<T>(args)...})`.
What is missing becomes zero; too many initialisers are an error. V 51-54. -/
def packC (n : Nat) : Ctor K :=
  ⟨false, fun _ => decide (1 < n), 0, fun as =>
    if as.all (·.isNum) && decide (as.length ≤ n)
    then .ok ((List.range as.length).map (.arg · 0) ++ List.replicate (n - as.length) .zero)
    else .error⟩

/-- `Vector(const Vector<U, Size>& v)` of the general template. V 56-60. -/
def convGen (n : Nat) : Ctor K :=
  ⟨false, fun as => as.length == 1 && as.all (·.isVec n), 1, fun _ => copied n⟩

/-- The constructors of the general template: V 44-60. -/
def vecGen (T : K) (n : Nat) : List (Ctor K) := vecOwn T n ++ [fillC n, packC n, convGen n]

/-- The constructors of `Vector<T, n>`: V 39-60 and the specialisations V2 41-52, V3 45-64, V4 49-80. -/
def vecCtors (T : K) (n : Nat) : List (Ctor K) :=
  if n = 2 then vec2 T else if n = 3 then vec3 T else if n = 4 then vec4 T else vecGen T n

/-- `Vector<T, n> v(args...)` (direct) and `Vector<T, n> v = arg`. V 44-60, V2 45-52, V3 49-64, V4 53-80. -/
def vecInit (direct : Bool) (T : K) (n : Nat) (args : List (Arg K)) : Out := pick direct (vecCtors T n) args

/-- Whether `Vector<T, r>` is made from the argument without mention of its type: the elements of `m_data({args...})`. M 65,
M4 64, 68. -/
def colOk (T : K) (r : Nat) (a : Arg K) : Bool :=
  match vecInit false T r [a] with
  | .ok _ => true
  | _ => false

/-- The components of `cols` columns of `r`, one from each argument, the other columns zero. M 65, M4 64. -/
def columns (cols r given : Nat) : List Src :=
  (List.range cols).flatMap fun i => (List.range r).map fun j => if i < given then .arg i j else .zero

/-- A diagonal matrix. M 57-62, M4 55-61. -/
def diagonal (x : Src) (cols r : Nat) : List Src :=
  (List.range cols).flatMap fun i => (List.range r).map fun j => if i = j then x else .zero

/-- The matrix with the columns and rows of a 3x3 matrix and a fourth of the unit matrix. M4 71-77. -/
def embedded : List Src :=
  (List.range 4).flatMap fun i => (List.range 4).map fun j =>
    if i < 3 ∧ j < 3 then .arg 0 (3 * i + j) else if i = j then .one else .zero

/-- Whether the arguments are one or more vectors of one size: the parameters `const Vector<Args, Size>&... args`. M 64-65. -/
def sameSize : List (Arg K) → Bool
  | .vec _ n :: l => l.all (·.isVec n)
  | _ => false

/-- The constructors of the general matrix: M 54-73. -/
def matGen (T : K) (c r : Nat) : List (Ctor K) :=
  [⟨false, fun as => as == [], 2, fun _ => .ok (diagonal .one c r)⟩,
   ⟨false, fun as => as == [.mat T c r], 2, fun _ => copied (c * r)⟩,
   ⟨true, fun as => as.length == 1 && as.all (·.isNum), 0, fun _ => .ok (diagonal (.arg 0 0) c r)⟩,
   ⟨false, sameSize, 0, fun as =>
     if as.length = c ∧ as.all (colOk T r) then .ok (columns c r c) else .error⟩,
   ⟨true, fun as => as.length == 1 && as.all fun a => match a with | .mat _ c' r' => c' == c && r' == r | _ => false, 1,
     fun _ => copied (c * r)⟩]

/-- The constructors of the matrix with four columns of four: M4 52-77. -/
def mat4 (T : K) : List (Ctor K) :=
  [⟨false, fun as => as == [], 2, fun _ => .ok (diagonal .one 4 4)⟩,
   ⟨false, fun as => as == [.mat T 4 4], 2, fun _ => copied 16⟩,
   ⟨true, fun as => as.length == 1, 0, fun as => if as.all (·.isNum) then .ok (diagonal (.arg 0 0) 4 4) else .error⟩,
   ⟨false, fun as => as.all (·.isVec 4), 0, fun as =>
     if as.length ≤ 4 ∧ as.all (colOk T 4) then .ok (columns 4 4 as.length) else .error⟩,
   ⟨true, fun as => as.length == 1 && as.all fun a => match a with | .mat _ c r => c == 4 && r == 4 | _ => false, 1,
     fun as => if as.all fun a => match a with | .mat k _ _ => colOk T 4 (.vec k 4) | _ => false then copied 16 else .error⟩,
   ⟨true, fun as => as.length == 1 && as.all fun a => match a with | .mat _ c r => c == 3 && r == 3 | _ => false, 1,
     fun _ => .ok embedded⟩]

/-- `Matrix<T, c, r> m(args...)` (direct) and `Matrix<T, c, r> m = arg`. M 54-73, M4 52-77. -/
def matInit (direct : Bool) (T : K) (c r : Nat) (args : List (Arg K)) : Out :=
  pick direct (if c = 4 ∧ r = 4 then mat4 T else matGen T c r) args

/-- The constructors of a quaternion: Q 9-12. -/
def quatCtors (T : K) : List (Ctor K) :=
  [⟨false, fun as => as == [], 2, fun _ => .ok (List.replicate 4 .junk)⟩,
   ⟨false, fun as => as == [.quat T], 2, fun _ => copied 4⟩,
   spread [none, none, none, none] 0]

/-- `Quaternion<T> q(args...)` (direct) and `Quaternion<T> q = arg`. Q 9-12. -/
def quatInit (direct : Bool) (T : K) (args : List (Arg K)) : Out := pick direct (quatCtors T) args

end Verif.MathInit
