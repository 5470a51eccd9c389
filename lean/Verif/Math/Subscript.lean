import Mathlib.Data.List.Basic

/-!
# Subscripts of vectors and matrices

Of `include/xme/math/vector.hpp`, `vectors/vector2.hpp` to `vector4.hpp`, `vectors/functions.hpp`, `matrix.hpp` and
`matrices/matrix4x4.hpp`.

The other models of vectors take `v[i]` to be component `i`. Here it is derived. `Vector<T, 2>` to `Vector<T, 4>` have one
member per component and reach the others by a pointer to the first; the other vectors have an array. Two sets of rules for
pointers are distinguished: those of the machine, where members of one type follow each other in memory (an assumption
about the compiler), and those of the C++ standard, where a pointer to a member can be used as if the member was an array
of one element ([expr.add], [basic.compound]). Constant expressions are evaluated by the latter.
-/

set_option autoImplicit false

namespace Verif.Math.Sub

/-- What can go wrong: undefined behaviour, a failed `assert`. Part of the model, not of the code. -/
inductive Fault
  | ub | assertion
  deriving DecidableEq

/-- The rules by which pointers are used. Part of the model, not of the code. -/
inductive Rules
  | machine | standard
  deriving DecidableEq

variable {T : Type}

/-- Length of the array that the first component is in, for `n` components: vector2.hpp 106-107, vector3.hpp 119-121, vector4.hpp 136-139 have
members, which count as arrays of one element, vector.hpp 120 has an array. -/
def firstArray (n : Nat) : Nat := if n = 2 ∨ n = 3 ∨ n = 4 then 1 else n

/-- A pointer: its position in the object, and the array it may be used in, from the start of the object. vector.hpp 90, vector2.hpp 79,
vector3.hpp 92, vector4.hpp 109. -/
structure Ptr where
  len : Nat
  off : Nat
  deriving DecidableEq

/-- `&x` (vector2.hpp 79, vector3.hpp 92, vector4.hpp 109), and the start of `m_data` (vector.hpp 90). -/
def first (n : Nat) : Ptr := ⟨firstArray n, 0⟩

/-- `p + i` in an object of `n` components: one past the end is allowed. vector.hpp 90, vector2.hpp 79, vector3.hpp 92, vector4.hpp 109. -/
def plus (R : Rules) (n : Nat) (p : Ptr) (i : Nat) : Except Fault Ptr :=
  match R with
  | .machine => if p.off + i ≤ n then .ok ⟨p.len, p.off + i⟩ else .error .ub
  | .standard => if p.off + i ≤ p.len then .ok ⟨p.len, p.off + i⟩ else .error .ub

/-- Whether `*p` designates a component of an object of `n` components. vector.hpp 90, vector2.hpp 79, vector3.hpp 92, vector4.hpp 109. -/
def usable (R : Rules) (n : Nat) (p : Ptr) : Bool :=
  match R with
  | .machine => p.off < n
  | .standard => p.off < p.len

/-- `operator[]`: vector.hpp 87-97, vector2.hpp 76-86, vector3.hpp 89-99, vector4.hpp 106-116. The result is the position of the designated component. -/
def subscript (R : Rules) (checked : Bool) (n i : Nat) : Except Fault Nat := do
  if checked && !decide (i < n) then .error .assertion
  let p ← plus R n (first n) i
  if usable R n p then .ok p.off else .error .ub

/-- `v[i]` as a value. vector.hpp 93-97, vector2.hpp 82-86, vector3.hpp 95-99, vector4.hpp 112-116. -/
def get (R : Rules) (checked : Bool) (v : List T) (i : Nat) : Except Fault T := do
  let k ← subscript R checked v.length i
  match v[k]? with
  | some x => .ok x
  | none => .error .ub

/-- `v[i] = x`. vector.hpp 87-91, vector2.hpp 76-80, vector3.hpp 89-93, vector4.hpp 106-110. -/
def set (R : Rules) (checked : Bool) (v : List T) (i : Nat) (x : T) : Except Fault (List T) := do
  let k ← subscript R checked v.length i
  .ok (v.set k x)

/-- `m[c]` of a matrix with the given columns, without an assertion: matrix.hpp 121-129 and matrix4x4.hpp 126-134; also `column(c)`, matrix.hpp 145-148
and matrix4x4.hpp 147-150. -/
def column (cols : List (List T)) (c : Nat) : Except Fault (List T) :=
  match cols[c]? with
  | some v => .ok v
  | none => .error .ub

/-- `m[c][r]`. matrix.hpp 126-129, matrix4x4.hpp 131-134, with `operator[]` of the column. -/
def entry (R : Rules) (checked : Bool) (cols : List (List T)) (c r : Nat) : Except Fault T := do
  let v ← column cols c
  get R checked v r

/-- The loop of `row`, matrix.hpp 140-141: columns `i` and following. -/
def rowLoop (R : Rules) (checked : Bool) (cols : List (List T)) (r : Nat) : Nat → Nat → List T → Except Fault (List T)
  | 0, _, res => .ok res
  | k + 1, i, res => do
    let x ← entry R checked cols i r
    let res ← set R checked res i x
    rowLoop R checked cols r k (i + 1) res

/-- `row(r)`: matrix.hpp 137-143, where `junk` is the uninitialised result, and matrix4x4.hpp 142-145 for four columns of four. -/
def row (R : Rules) (checked : Bool) (junk : List T) (cols : List (List T)) (rows r : Nat) : Except Fault (List T) :=
  if cols.length = 4 ∧ rows = 4 then do
    let a ← entry R checked cols 0 r
    let b ← entry R checked cols 1 r
    let c ← entry R checked cols 2 r
    let d ← entry R checked cols 3 r
    .ok [a, b, c, d]
  else rowLoop R checked cols r cols.length 0 junk

/-- A loop that makes a vector component by component, `result[i] = f(v[i])`: `sign`, vectors/functions.hpp 43-50. -/
def mapLoop (R : Rules) (checked : Bool) (f : T → T) (v : List T) : Nat → Nat → List T → Except Fault (List T)
  | 0, _, res => .ok res
  | k + 1, i, res => do
    let x ← get R checked v i
    let res ← set R checked res i (f x)
    mapLoop R checked f v k (i + 1) res

/-- `sign(v)`, vectors/functions.hpp 43-50; `junk` is the uninitialised result. -/
def signV (R : Rules) (checked : Bool) (f : T → T) (junk v : List T) : Except Fault (List T) :=
  mapLoop R checked f v v.length 0 junk

end Verif.Math.Sub
