import Verif.Math.IntVector

/-!
Operators between vectors of different component types: `VEC_OP`/`VEC_SELF_OP` with a `Vector<U, Size>` whose
component type `U` is not that of the left operand (`math/vector.hpp`, `math/vectors/*.hpp`), for a left operand
of integers.

Each component of the right operand is converted to the left operand's component type before the operation.
`none` is undefined behaviour.  Simplifications as in `IntVector.lean`; a floating-point component is a real
number (no NaN, no infinity).
-/

set_option autoImplicit false

namespace Verif.Math

/-- A component of the right operand: of some integer type, or of a floating-point type.  core/concepts/
arithmetic.hpp 9-16 (`CArithmetic`). -/
inductive Num
  | int (z : ℤ)
  | real (x : ℝ)

/-- `static_cast<T>(v.x)`: vector.hpp 21, 34, vector2.hpp 19-20, 32-33, vector3.hpp 20-22, 35-37, vector4.hpp
21-24, 38-41. -/
noncomputable def Num.cast (t : IntTy) : Num → Option ℤ
  | .int z => some (t.conv z)
  | .real x => castReal t x

/-- `x op static_cast<T>(v.x)`, converted back to `T`: the same lines as `Num.cast`. -/
noncomputable def mixAt (t : IntTy) (op : ArithOp) (a : ℤ) (b : Num) : Option ℤ := do
  let b ← b.cast t
  op.at t a b

/-- `VEC_OP(op)` between vectors of different component types: vector.hpp 16-23, vector2.hpp 15-22, vector3.hpp
16-24, vector4.hpp 17-26. -/
noncomputable def mixOp (t : IntTy) (op : ArithOp) : {n : Nat} → Vec ℤ n → Vec Num n → Option (Vec ℤ n)
  | 2, a, b => do
    let x ← mixAt t op (a 0) (b 0)
    let y ← mixAt t op (a 1) (b 1)
    pure ![x, y]
  | 3, a, b => do
    let x ← mixAt t op (a 0) (b 0)
    let y ← mixAt t op (a 1) (b 1)
    let z ← mixAt t op (a 2) (b 2)
    pure ![x, y, z]
  | 4, a, b => do
    let x ← mixAt t op (a 0) (b 0)
    let y ← mixAt t op (a 1) (b 1)
    let z ← mixAt t op (a 2) (b 2)
    let w ← mixAt t op (a 3) (b 3)
    pure ![x, y, z, w]
  | n, a, b => forLoopM n (fun i r => (mixAt t op (a i) (b i)).map (store r i)) (fun _ => 0)

/-- `VEC_SELF_OP(op)` between vectors of different component types, component by component in place (the operands
are then different objects): vector.hpp 31-36, vector2.hpp 30-35, vector3.hpp 33-39, vector4.hpp 36-43. -/
noncomputable def mixSelfOp (t : IntTy) (op : ArithOp) : {n : Nat} → Vec ℤ n → Vec Num n → Option (Vec ℤ n)
  | 2, r, b => do
    let r ← (mixAt t op (r 0) (b 0)).map (store r 0)
    (mixAt t op (r 1) (b 1)).map (store r 1)
  | 3, r, b => do
    let r ← (mixAt t op (r 0) (b 0)).map (store r 0)
    let r ← (mixAt t op (r 1) (b 1)).map (store r 1)
    (mixAt t op (r 2) (b 2)).map (store r 2)
  | 4, r, b => do
    let r ← (mixAt t op (r 0) (b 0)).map (store r 0)
    let r ← (mixAt t op (r 1) (b 1)).map (store r 1)
    let r ← (mixAt t op (r 2) (b 2)).map (store r 2)
    (mixAt t op (r 3) (b 3)).map (store r 3)
  | n, r, b => forLoopM n (fun i r => (mixAt t op (r i) (b i)).map (store r i)) r

/-- The constructor of a vector from one of another component type, each component converted: vector.hpp 56-60,
vector2.hpp 49-52, vector3.hpp 54-55, 63-64, vector4.hpp 57-58, 79-80. -/
noncomputable def mixConv (t : IntTy) : {n : Nat} → Vec Num n → Option (Vec ℤ n)
  | 2, b => do
    let x ← (b 0).cast t
    let y ← (b 1).cast t
    pure ![x, y]
  | 3, b => do
    let x ← (b 0).cast t
    let y ← (b 1).cast t
    let z ← (b 2).cast t
    pure ![x, y, z]
  | 4, b => do
    let x ← (b 0).cast t
    let y ← (b 1).cast t
    let z ← (b 2).cast t
    let w ← (b 3).cast t
    pure ![x, y, z, w]
  | n, b => forLoopM n (fun i r => ((b i).cast t).map (store r i)) (fun _ => 0)

end Verif.Math
