import Verif.Math.FloatMixed

/-!
Operations between matrices, quaternions and axes whose components have two different floating-point types:
`Matrix<double, ...> + Matrix<float, ...>`, `Quaternion<float> * Quaternion<double>`, `rotate` of a `Matrix<double, 4, 4>`
about a `Vector<float, 3>`.

The numbers are those of `Rounding.lean`: the exponent is unbounded, no NaN, no infinity. `R` is the format of the left
operand's type `T`, `Q` that of the other type `U` and `C` that of the type the usual arithmetic conversions choose. No
extended precision and no contraction of `a * b + c`.
-/

set_option autoImplicit false

namespace Verif.Math

variable {R Q : Rounding}

/-- `static_cast<S>(x)` and the implicit conversions between floating-point types. Part of the model, not of the code. -/
def FP.conv {R : Rounding} (S : Rounding) (x : FP R) : FP S := .round S x.val

/-- The usual arithmetic conversions: the common type is one of the two types and has the values of both. Part of the
model, not of the code. -/
structure Common (R Q C : Rounding) : Prop where
  oneOf : C = R ∨ C = Q
  left : ∀ x : FP R, C.rnd x.val = x.val
  right : ∀ x : FP Q, C.rnd x.val = x.val

/-- The constructor from four numbers of other types: quaternion.hpp 11-12; also the operands converted to the common
type, quaternion.hpp 17, 23, 30-33. -/
def Quat.conv (S : Rounding) (q : Quat (FP R)) : Quat (FP S) := ⟨q.w.conv S, q.x.conv S, q.y.conv S, q.z.conv S⟩

/-- `operator+`: quaternion.hpp 14-18. The sums have the common type, the constructor converts them to `T`. -/
def Quat.addMix (C : Rounding) (p : Quat (FP R)) (q : Quat (FP Q)) : Quat (FP R) :=
  ((p.conv C).add (q.conv C)).conv R

/-- `operator-`: quaternion.hpp 20-24. -/
def Quat.subMix (C : Rounding) (p : Quat (FP R)) (q : Quat (FP Q)) : Quat (FP R) :=
  ((p.conv C).sub (q.conv C)).conv R

/-- `operator*`: quaternion.hpp 26-35. -/
def Quat.mulMix (C : Rounding) (p : Quat (FP R)) (q : Quat (FP Q)) : Quat (FP R) :=
  ((p.conv C).mul (q.conv C)).conv R

/-- `a op b` on matrices: matrix.hpp 17-26, matrix4x4.hpp 15-21. Each column is an operation on vectors, which converts
the components of the right operand to `T` first: vector.hpp 16-23, vector2.hpp 15-22, vector3.hpp 16-24, vector4.hpp
17-26. -/
noncomputable def matOpMix (op : ArithOp) {c r : Nat} (a : Mat (FP R) c r) (b : Mat (FP Q) c r) : Mat (FP R) c r :=
  matOp op.fp a fun i j => (b i j).conv R

/-- `a op= b` on matrices: matrix.hpp 35-42, matrix4x4.hpp 30-37, with vector.hpp 31-36, vector2.hpp 30-35, vector3.hpp
33-39, vector4.hpp 36-43. -/
noncomputable def matSelfOpMix (op : ArithOp) {c r : Nat} (a : Mat (FP R) c r) (b : Mat (FP Q) c r) : Mat (FP R) c r :=
  matSelfOp op.fp a (some fun i j => (b i j).conv R)

/-- `m op s` with a scalar: matrix.hpp 8-15, matrix4x4.hpp 6-13. -/
noncomputable def matOpSMix (op : ArithOp) {c r : Nat} (a : Mat (FP R) c r) (s : FP Q) : Mat (FP R) c r :=
  matOpS op.fp a (s.conv R)

/-- `m op= s` with a scalar: matrix.hpp 28-33, matrix4x4.hpp 23-28. -/
noncomputable def matSelfOpSMix (op : ArithOp) {c r : Nat} (a : Mat (FP R) c r) (s : FP Q) : Mat (FP R) c r :=
  matSelfOpS op.fp a (s.conv R)

/-- `translate`: transformation.hpp 9-19. `m[0] * v[0]` converts `v[0]` to `T`, vector4.hpp 8-16. -/
def translateMix (m : Mat (FP R) 4 4) (v : Vec (FP Q) 3) : Mat (FP R) 4 4 :=
  translate m fun i => (v i).conv R

/-- `scale`: transformation.hpp 21-31. -/
def scaleMix (m : Mat (FP R) 4 4) (v : Vec (FP Q) 3) : Mat (FP R) 4 4 :=
  scale m fun i => (v i).conv R

/-- `rotate`: transformation.hpp 33-65. `n * (1 - c)` converts `1 - c` to `U` and multiplies in `U` (vector3.hpp 8-15);
`temp` and the entries of `Rotate` are converted back to `T`; the other sums and products are computed in the common
type. `A` is the type of the angle. -/
noncomputable def rotateMix {A : Rounding} (C : Rounding) [Libm R] (m : Mat (FP R) 4 4) (angle : FP A)
    (n : Vec (FP Q) 3) : Mat (FP R) 4 4 :=
  let s : FP R := MathFns.sin (angle.conv R)
  let c : FP R := MathFns.cos (angle.conv R)
  let temp : Vec (FP R) 3 := fun i => (mulS n ((1 - c).conv Q) i).conv R
  let t : Vec (FP C) 3 := fun i => (temp i).conv C
  let k : Vec (FP C) 3 := fun i => (n i).conv C
  let sc : FP C := s.conv C
  let cc : FP C := c.conv C
  let E : Mat (FP R) 3 3 := fresh
  let E := store2 E 0 0 ((cc + t 0 * k 0).conv R)
  let E := store2 E 0 1 ((t 0 * k 1 + sc * k 2).conv R)
  let E := store2 E 0 2 ((t 0 * k 2 - sc * k 1).conv R)
  let E := store2 E 1 0 ((t 1 * k 0 - sc * k 2).conv R)
  let E := store2 E 1 1 ((cc + t 1 * k 1).conv R)
  let E := store2 E 1 2 ((t 1 * k 2 + sc * k 0).conv R)
  let E := store2 E 2 0 ((t 2 * k 0 + sc * k 1).conv R)
  let E := store2 E 2 1 ((t 2 * k 1 - sc * k 0).conv R)
  let E := store2 E 2 2 ((cc + t 2 * k 2).conv R)
  ![add (add (mulS (m 0) (E 0 0)) (mulS (m 1) (E 0 1))) (mulS (m 2) (E 0 2)),
    add (add (mulS (m 0) (E 1 0)) (mulS (m 1) (E 1 1))) (mulS (m 2) (E 1 2)),
    add (add (mulS (m 0) (E 2 0)) (mulS (m 1) (E 2 1))) (mulS (m 2) (E 2 2)),
    m 3]

end Verif.Math
