import Verif.Math.MixedVector

/-!
Operators between vectors of different component types with a left operand of floating-point numbers:
`VEC_OP`/`VEC_SELF_OP` with a `Vector<U, Size>` or a scalar of another type (`math/vector.hpp`, `math/vectors/*.hpp`).

The numbers are those of `Rounding.lean`: the exponent is unbounded, no NaN, no infinity. Conversions of integers and of
floating-point numbers to the type round in the same way (C++ leaves the direction open; the usual implementations round
to nearest).
-/

set_option autoImplicit false

namespace Verif.Math

variable {R : Rounding}

/-- The value of a component. Part of the model, not of the code. -/
noncomputable def Num.value : Num → ℝ
  | .int z => z
  | .real x => x

/-- `static_cast<T>(v.x)` for a floating-point type `T`: vector.hpp 21, 34, vector2.hpp 19-20, 32-33, vector3.hpp 20-22,
35-37, vector4.hpp 21-24, 38-41. -/
noncomputable def Num.toFP (R : Rounding) (b : Num) : FP R := .round R b.value

/-- The operators of `VEC_OP` on components, vector.hpp 70-73. -/
noncomputable def ArithOp.fp : ArithOp → FP R → FP R → FP R
  | .add, a, b => a + b
  | .sub, a, b => a - b
  | .mul, a, b => a * b
  | .div, a, b => a / b

/-- `v op w`: vector.hpp 16-23, vector2.hpp 15-22, vector3.hpp 16-24, vector4.hpp 17-26. -/
noncomputable def fmixOp (op : ArithOp) {n : Nat} (a : Vec (FP R) n) (b : Vec Num n) : Vec (FP R) n :=
  vecOp op.fp a fun i => (b i).toFP R

/-- `v op= w`: vector.hpp 31-36, vector2.hpp 30-35, vector3.hpp 33-39, vector4.hpp 36-43. -/
noncomputable def fmixSelfOp (op : ArithOp) {n : Nat} (a : Vec (FP R) n) (b : Vec Num n) : Vec (FP R) n :=
  vecSelfOp op.fp a (.other fun i => (b i).toFP R)

/-- `v op s` with a scalar of another type: vector.hpp 9-15, vector2.hpp 8-14, vector3.hpp 8-15, vector4.hpp 8-16. -/
noncomputable def fmixOpS (op : ArithOp) {n : Nat} (a : Vec (FP R) n) (s : Num) : Vec (FP R) n :=
  vecOpS op.fp a (s.toFP R)

/-- `v op= s` with a scalar of another type: vector.hpp 26-30, vector2.hpp 25-29, vector3.hpp 27-32, vector4.hpp
29-35. -/
noncomputable def fmixSelfOpS (op : ArithOp) {n : Nat} (a : Vec (FP R) n) (s : Num) : Vec (FP R) n :=
  vecSelfOpS op.fp a (s.toFP R)

end Verif.Math
