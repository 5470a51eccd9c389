import Verif.Math.IntVector

/-!
Vectors of `bool` (`bvec2`, `bvec3`, `bvec4` and `Vector<bool, n>`): `math/vector.hpp`, `math/vectors/*.hpp` with
`T = bool`, which `CArithmetic` accepts (core/concepts/arithmetic.hpp 8, 17).

As C++ says: in arithmetic a `bool` is the `int` 0 or 1, and a number is converted to `bool` by asking whether it differs
from zero. `none` is undefined behaviour. Both operands have components of type `bool`; a scalar of another type is
converted to `bool` before the operation.
-/

set_option autoImplicit false

namespace Verif.Math

/-- A `bool` as an `int`. The C++ rule for vector.hpp 13, 21, 28, 34. -/
def bInt (b : Bool) : ℤ := if b then 1 else 0

/-- The type `bool` as an operand: promoted to `int`. Part of the model, not of the code. -/
def boolTy : IntTy := ⟨1, false⟩

/-- `static_cast<bool>` of an integer. The C++ rule for vector.hpp 13, 21. -/
def toBool (z : ℤ) : Bool := decide (z ≠ 0)

open Classical in
/-- `static_cast<bool>` of a floating-point number, vector.hpp 13, 110. -/
noncomputable def realToBool (x : ℝ) : Bool := decide (x ≠ 0)

/-- `a op b`, converted to `bool`: vector.hpp 13, 21, 28, 34, vector2.hpp 11-12, 19-20, 26-27, 32-33, vector3.hpp 11-13,
20-22, 28-30, 35-37, vector4.hpp 11-14, 21-24, 30-33, 38-41. -/
def boolAt (op : ArithOp) (a b : Bool) : Option Bool := (op.eval boolTy (bInt a) (bInt b)).map toBool

/-- `VEC_OP(op)` between two vectors: vector.hpp 16-23, vector2.hpp 15-22, vector3.hpp 16-24, vector4.hpp 17-26. -/
def boolOp (op : ArithOp) : {n : Nat} → Vec Bool n → Vec Bool n → Option (Vec Bool n)
  | 2, a, b => do
    let x ← boolAt op (a 0) (b 0)
    let y ← boolAt op (a 1) (b 1)
    pure ![x, y]
  | 3, a, b => do
    let x ← boolAt op (a 0) (b 0)
    let y ← boolAt op (a 1) (b 1)
    let z ← boolAt op (a 2) (b 2)
    pure ![x, y, z]
  | 4, a, b => do
    let x ← boolAt op (a 0) (b 0)
    let y ← boolAt op (a 1) (b 1)
    let z ← boolAt op (a 2) (b 2)
    let w ← boolAt op (a 3) (b 3)
    pure ![x, y, z, w]
  | n, a, b => forLoopM n (fun i r => (boolAt op (a i) (b i)).map (store r i)) (fun _ => false)

/-- `VEC_SELF_OP(op)` with a vector, which may be the object itself: vector.hpp 31-36, vector2.hpp 30-35, vector3.hpp 33-39,
vector4.hpp 36-43. -/
def boolSelfOp (op : ArithOp) : {n : Nat} → Vec Bool n → Operand Bool n → Option (Vec Bool n)
  | 2, r, b => do
    let r ← (boolAt op (r 0) (b.at r 0)).map (store r 0)
    (boolAt op (r 1) (b.at r 1)).map (store r 1)
  | 3, r, b => do
    let r ← (boolAt op (r 0) (b.at r 0)).map (store r 0)
    let r ← (boolAt op (r 1) (b.at r 1)).map (store r 1)
    (boolAt op (r 2) (b.at r 2)).map (store r 2)
  | 4, r, b => do
    let r ← (boolAt op (r 0) (b.at r 0)).map (store r 0)
    let r ← (boolAt op (r 1) (b.at r 1)).map (store r 1)
    let r ← (boolAt op (r 2) (b.at r 2)).map (store r 2)
    (boolAt op (r 3) (b.at r 3)).map (store r 3)
  | n, r, b => forLoopM n (fun i r => (boolAt op (r i) (b.at r i)).map (store r i)) r

/-- `VEC_OP(op)` with a scalar converted to `bool` (`static_cast<T>(s)`): vector.hpp 9-15, vector2.hpp 8-14, vector3.hpp
8-15, vector4.hpp 8-16. The cast is written once per component; it is the same value each time. -/
def boolOpS (op : ArithOp) : {n : Nat} → Vec Bool n → Bool → Option (Vec Bool n)
  | 2, a, s => do
    let x ← boolAt op (a 0) s
    let y ← boolAt op (a 1) s
    pure ![x, y]
  | 3, a, s => do
    let x ← boolAt op (a 0) s
    let y ← boolAt op (a 1) s
    let z ← boolAt op (a 2) s
    pure ![x, y, z]
  | 4, a, s => do
    let x ← boolAt op (a 0) s
    let y ← boolAt op (a 1) s
    let z ← boolAt op (a 2) s
    let w ← boolAt op (a 3) s
    pure ![x, y, z, w]
  | n, a, s => forLoopM n (fun i r => (boolAt op (a i) s).map (store r i)) (fun _ => false)

/-- `v op s` with a floating-point scalar: `static_cast<bool>(s)`, vector.hpp 13, vector2.hpp 11-12, vector3.hpp 11-13,
vector4.hpp 11-14. -/
noncomputable def boolOpReal (op : ArithOp) {n : Nat} (a : Vec Bool n) (s : ℝ) : Option (Vec Bool n) :=
  boolOpS op a (realToBool s)

/-- `-x`, converted to `bool`: vector.hpp 66, vector2.hpp 56, vector3.hpp 68, vector4.hpp 84. -/
def boolNegAt (a : Bool) : Bool := toBool (-bInt a)

/-- Unary minus: vector.hpp 62-68, vector2.hpp 54-57, vector3.hpp 66-69, vector4.hpp 82-85. -/
def boolNeg [Indet Bool] : {n : Nat} → Vec Bool n → Vec Bool n
  | 2, a => ![boolNegAt (a 0), boolNegAt (a 1)]
  | 3, a => ![boolNegAt (a 0), boolNegAt (a 1), boolNegAt (a 2)]
  | 4, a => ![boolNegAt (a 0), boolNegAt (a 1), boolNegAt (a 2), boolNegAt (a 3)]
  | n, a => forLoop n (fun i r => store r i (boolNegAt (a i))) (uninit n)

/-- `result += (v1[i] * v2[i])` with `bool result`: the sum of two `int`s, converted. geometry.hpp 16, vector.hpp 109. -/
def boolAcc (r a b : Bool) : Bool := toBool (bInt r + bInt a * bInt b)

/-- `dot`: vectors/geometry.hpp 13-18. -/
def boolDot {n : Nat} (a b : Vec Bool n) : Bool := forLoop n (fun i r => boolAcc r (a i) (b i)) (toBool 0)

/-- `a * d - b * c`, converted: geometry.hpp 27-29. -/
def boolCrossAt (a d b c : Bool) : Bool := toBool (bInt a * bInt d - bInt b * bInt c)

/-- `cross`: vectors/geometry.hpp 24-31. -/
def boolCross (v1 v2 : Vec Bool 3) : Vec Bool 3 :=
  ![boolCrossAt (v1 1) (v2 2) (v1 2) (v2 1), boolCrossAt (v1 2) (v2 0) (v1 0) (v2 2),
    boolCrossAt (v1 0) (v2 1) (v1 1) (v2 0)]

/-- `reflect`: vectors/geometry.hpp 70-75. `static_cast<bool>(2)` is `true`. -/
def boolReflect {n : Nat} (v k : Vec Bool n) : Option (Vec Bool n) := do
  let p ← boolOpS .mul k (boolDot v k)
  let q ← boolOpS .mul p (toBool 2)
  boolOp .sub v q

/-- `faceforward`: vectors/geometry.hpp 63-68. -/
def boolFaceforward [Indet Bool] {n : Nat} (v i k : Vec Bool n) : Vec Bool n :=
  if bInt (boolDot k i) < 0 then v else boolNeg v

/-- The argument of `std::sqrt` in `v.length()`: vector.hpp 107-110, vector2.hpp 96, vector3.hpp 109, vector4.hpp 126. -/
def boolLengthArg : {n : Nat} → Vec Bool n → ℤ
  | 2, v => bInt (v 0) * bInt (v 0) + bInt (v 1) * bInt (v 1)
  | 3, v => bInt (v 0) * bInt (v 0) + bInt (v 1) * bInt (v 1) + bInt (v 2) * bInt (v 2)
  | 4, v => bInt (v 0) * bInt (v 0) + bInt (v 1) * bInt (v 1) + bInt (v 2) * bInt (v 2) + bInt (v 3) * bInt (v 3)
  | n, v => bInt (forLoop n (fun i r => boolAcc r (v i) (v i)) (toBool 0))

/-- `v.length()` where the return type is `bool`: vector.hpp 105-111, vector2.hpp 94-97, vector3.hpp 107-110. -/
noncomputable def boolLength {n : Nat} (v : Vec Bool n) : Option Bool := (sqrtInt (boolLengthArg v)).map realToBool

/-- `v.length()` of a vector of four, of type `double`: vector4.hpp 124-127. -/
noncomputable def boolLength4 (v : Vec Bool 4) : Option ℝ := sqrtInt (boolLengthArg v)

end Verif.Math
