import Verif.Math.Vector
import Mathlib.Analysis.SpecialFunctions.Trigonometric.Basic

/-!
Model of `math/matrix.hpp`, `math/matrices/matrix4x4.hpp`, `math/matrices/functions.hpp`,
`math/matrices/transformation.hpp`, `math/matrices/perspective.hpp` and `math/quaternion.hpp`.

The simplifications of `Vector.lean` apply.
-/

set_option autoImplicit false

namespace Verif.Math

/-- `Matrix<T, c, r>`: an array of `c` columns of `r` components (matrix.hpp 151, matrix4x4.hpp 163);
`m[i][j]` is `m i j`. -/
abbrev Mat (T : Type) (c r : Nat) := Fin c → Vec T r

section

variable {T : Type} {c r : Nat}

/-- The assignment `m[i][j] = x`. matrix.hpp 59-61, matrices/functions.hpp 47-51, transformation.hpp 46-56. -/
def store2 (m : Mat T c r) (i : Fin c) (j : Fin r) (x : T) : Mat T c r := store m i (store (m i) j x)

/-- `Matrix(U s)`: `s` on the diagonal, 0 elsewhere.  matrix.hpp 56-62 (fill, then the loop over
`min(Cols, Rows)`), matrix4x4.hpp 54-61. -/
def diagonal [Zero T] (s : T) : {c r : Nat} → Mat T c r
  | 4, 4 => ![![s, 0, 0, 0], ![0, s, 0, 0], ![0, 0, s, 0], ![0, 0, 0, s]]
  | c, r => forLoop (min c r) (fun i m =>
      store2 m (Fin.castLE (Nat.min_le_left c r) i) (Fin.castLE (Nat.min_le_right c r) i) s)
      (fun _ => splat 0)

/-- `Matrix()`: matrix.hpp 54, matrix4x4.hpp 52. -/
def defaultMat [Zero T] [One T] : Mat T c r := diagonal 1

/-- `Matrix result;` in functions.hpp: the default constructor, matrix.hpp 54. -/
abbrev fresh [Zero T] [One T] : Mat T c r := defaultMat

/-- `MAT_OP1(op)`: matrix.hpp 8-15, matrix4x4.hpp 6-13. -/
def matOpS [Zero T] (op : T → T → T) : {c r : Nat} → Mat T c r → T → Mat T c r
  | 4, 4, m, s => ![vecOpS op (m 0) s, vecOpS op (m 1) s, vecOpS op (m 2) s, vecOpS op (m 3) s]
  | c, _, m, s => forLoop c (fun i a => store a i (vecOpS op (m i) s)) (diagonal 0)

/-- `MAT_OP2(op)`: matrix.hpp 17-26, matrix4x4.hpp 15-21. -/
def matOp [Zero T] (op : T → T → T) : {c r : Nat} → Mat T c r → Mat T c r → Mat T c r
  | 4, 4, a, b => ![vecOp op (a 0) (b 0), vecOp op (a 1) (b 1), vecOp op (a 2) (b 2),
      vecOp op (a 3) (b 3)]
  | c, _, a, b => forLoop c (fun i m => store m i (vecOp op (a i) (b i))) (diagonal 0)

/-- `MAT_SELF_OP1(op)`: matrix.hpp 28-33, matrix4x4.hpp 23-28. -/
def matSelfOpS (op : T → T → T) (m : Mat T c r) (s : T) : Mat T c r :=
  forLoop c (fun i a => store a i (vecSelfOpS op (a i) s)) m

/-- `MAT_SELF_OP2(op)`: matrix.hpp 35-42, matrix4x4.hpp 30-37; `none` stands for the object itself as
right operand. -/
def matSelfOp (op : T → T → T) (m : Mat T c r) (b : Option (Mat T c r)) : Mat T c r :=
  forLoop c (fun i a => store a i (vecSelfOp op (a i) (match b with
    | some b => .other (b i)
    | none => .itself))) m

/-- Unary minus: matrix.hpp 75-81, matrix4x4.hpp 79-82. -/
def matNeg [Zero T] [Neg T] [Indet T] : {c r : Nat} → Mat T c r → Mat T c r
  | 4, 4, m => ![neg (m 0), neg (m 1), neg (m 2), neg (m 3)]
  | c, _, m => forLoop c (fun i a => store a i (neg (m i))) (diagonal 0)

/-- `row(j)`: matrix.hpp 137-143, matrix4x4.hpp 142-145. -/
def row [Indet T] : {c r : Nat} → Mat T c r → Fin r → Vec T c
  | 4, 4, m, j => ![m 0 j, m 1 j, m 2 j, m 3 j]
  | c, _, m, j => forLoop c (fun i a => store a i (m i j)) (uninit c)

/-- `column(i)`: matrix.hpp 145-148, matrix4x4.hpp 147-150. -/
def column (m : Mat T c r) (i : Fin c) : Vec T r := m i

/-- matrix * vector: matrix.hpp 88-95, matrix4x4.hpp 89-98. -/
def mulVec [Zero T] [Add T] [Mul T] [Indet T] : {c r : Nat} → Mat T c r → Vec T c → Vec T r
  | 4, 4, m, v => ![dot (row m 0) v, dot (row m 1) v, dot (row m 2) v, dot (row m 3) v]
  | _, r, m, v => forLoop r (fun j a => store a j (dot (row m j) v)) (uninit r)

/-- matrix * matrix: matrix.hpp 96-107, matrix4x4.hpp 100-110 (the same loops). -/
def mulMat [Zero T] [Add T] [Mul T] [Indet T] {k : Nat} (a : Mat T c r) (b : Mat T k c) : Mat T k r :=
  forLoop r (fun j m =>
    let rw := row a j
    forLoop k (fun i m => store2 m i j (dot rw (b i))) m) (diagonal 0)

/-- Scalar product: `MAT_OP1(*)`, matrix.hpp 85, matrix4x4.hpp 86. -/
def matMulS [Zero T] [Mul T] (m : Mat T c r) (s : T) : Mat T c r := matOpS (· * ·) m s
/-- Scalar quotient: `MAT_OP1(/)`, matrix.hpp 86, matrix4x4.hpp 87. -/
def matDivS [Zero T] [Div T] (m : Mat T c r) (s : T) : Mat T c r := matOpS (· / ·) m s
/-- Sum: `MAT_OP2(+)`, matrix.hpp 83, matrix4x4.hpp 84. -/
def matAdd [Zero T] [Add T] (a b : Mat T c r) : Mat T c r := matOp (· + ·) a b
/-- Difference: `MAT_OP2(-)`, matrix.hpp 84, matrix4x4.hpp 85. -/
def matSub [Zero T] [Sub T] (a b : Mat T c r) : Mat T c r := matOp (· - ·) a b

/-- Conversion and assignment between matrices of one shape: matrix.hpp 69-73, 109-114, matrix4x4.hpp
66-68, 112-119. -/
def matAssign [Zero T] [Indet T] : {c r : Nat} → Mat T c r → Mat T c r
  | 4, 4, m => ![m 0, m 1, m 2, m 3]
  | c, r, m => forLoop c (fun i a => store a i (m i)) (fun _ => uninit r)

/-! ### matrices/functions.hpp -/

/-- `determinant` of a 2x2 matrix: matrices/functions.hpp 9-13. -/
def det2 [Sub T] [Mul T] (m : Mat T 2 2) : T := m 0 0 * m 1 1 - m 1 0 * m 0 1

/-- `determinant` of a 3x3 matrix: matrices/functions.hpp 14-21. -/
def det3 [Add T] [Sub T] [Mul T] (m : Mat T 3 3) : T :=
  let cofactor01 := m 0 1 * m 1 2 - m 1 1 * m 0 2
  let cofactor12 := m 1 1 * m 2 2 - m 2 1 * m 1 2
  let cofactor02 := m 0 1 * m 2 2 - m 2 1 * m 0 2
  m 0 0 * cofactor12 - (m 1 0 * cofactor02) + (m 2 0 * cofactor01)

/-- `determinant` of a 4x4 matrix: matrices/functions.hpp 23-38 (and matrix4x4.hpp 152-155). -/
def det4 [Add T] [Sub T] [Mul T] (m : Mat T 4 4) : T :=
  let cf01 := m 0 2 * m 1 3 - m 1 2 * m 0 3
  let cf12 := m 1 2 * m 2 3 - m 2 2 * m 1 3
  let cf23 := m 2 2 * m 3 3 - m 3 2 * m 2 3
  let cf02 := m 0 2 * m 2 3 - m 2 2 * m 0 3
  let cf03 := m 0 2 * m 3 3 - m 3 2 * m 0 3
  let cf13 := m 1 2 * m 3 3 - m 3 2 * m 1 3
  let factor0 := m 0 0 * ((m 1 1 * cf23) - (m 2 1 * cf13) + (m 3 1 * cf12))
  let factor1 := m 1 0 * ((m 0 1 * cf23) - (m 2 1 * cf03) + (m 3 1 * cf02))
  let factor2 := m 2 0 * ((m 0 1 * cf13) - (m 1 1 * cf03) + (m 3 1 * cf01))
  let factor3 := m 3 0 * ((m 0 1 * cf12) - (m 1 1 * cf02) + (m 2 1 * cf01))
  factor0 - factor1 + factor2 - factor3

/-- `transpose`: matrices/functions.hpp 40-53 (and matrix4x4.hpp 157-160). -/
def transpose [Zero T] [One T] (m : Mat T c r) : Mat T r c :=
  forLoop c (fun i a => forLoop r (fun j a => store2 a j i (m i j)) a) fresh

/-- `outer_product`: matrices/functions.hpp 55-63. -/
def outerProduct [Zero T] [One T] [Mul T] {n1 n2 : Nat} (v1 : Vec T n1) (v2 : Vec T n2) : Mat T n2 n1 :=
  forLoop n2 (fun i a => store a i (mulS v1 (v2 i))) fresh

/-- `hadamard_product`: matrices/functions.hpp 65-77. -/
def hadamard [Zero T] [One T] [Mul T] (m1 m2 : Mat T c r) : Mat T c r :=
  forLoop c (fun i a => store a i (mul (m1 i) (m2 i))) fresh

/-! ### matrices/transformation.hpp -/

/-- `translate`: transformation.hpp 9-19. -/
def translate [Zero T] [Add T] [Mul T] (m : Mat T 4 4) (v : Vec T 3) : Mat T 4 4 :=
  ![m 0, m 1, m 2, add (add (add (mulS (m 0) (v 0)) (mulS (m 1) (v 1))) (mulS (m 2) (v 2))) (m 3)]

/-- `scale`: transformation.hpp 21-31. -/
def scale [Zero T] [Mul T] (m : Mat T 4 4) (v : Vec T 3) : Mat T 4 4 :=
  ![mulS (m 0) (v 0), mulS (m 1) (v 1), mulS (m 2) (v 2), m 3]

end

/-- `rotate`: transformation.hpp 33-65.  `castU` is the conversion of the scalar `1 - c` to the axis'
component type `U` that `n * (1 - c)` performs (vector3.hpp 9-15): the identity for a floating-point
axis, truncation for an integral one. -/
def rotateWith {T : Type} [Zero T] [One T] [Add T] [Sub T] [Mul T] [MathFns T] (castU : T → T)
    (m : Mat T 4 4) (angle : T) (n : Vec T 3) : Mat T 4 4 :=
  let s := MathFns.sin angle
  let c := MathFns.cos angle
  let temp := mulS n (castU (1 - c))
  let R : Mat T 3 3 := fresh
  let R := store2 R 0 0 (c + temp 0 * n 0)
  let R := store2 R 0 1 (temp 0 * n 1 + s * n 2)
  let R := store2 R 0 2 (temp 0 * n 2 - s * n 1)
  let R := store2 R 1 0 (temp 1 * n 0 - s * n 2)
  let R := store2 R 1 1 (c + temp 1 * n 1)
  let R := store2 R 1 2 (temp 1 * n 2 + s * n 0)
  let R := store2 R 2 0 (temp 2 * n 0 + s * n 1)
  let R := store2 R 2 1 (temp 2 * n 1 - s * n 0)
  let R := store2 R 2 2 (c + temp 2 * n 2)
  ![add (add (mulS (m 0) (R 0 0)) (mulS (m 1) (R 0 1))) (mulS (m 2) (R 0 2)),
    add (add (mulS (m 0) (R 1 0)) (mulS (m 1) (R 1 1))) (mulS (m 2) (R 1 2)),
    add (add (mulS (m 0) (R 2 0)) (mulS (m 1) (R 2 1))) (mulS (m 2) (R 2 2)),
    m 3]

/-- `rotate` with a floating-point axis: transformation.hpp 33-65. -/
def rotate {T : Type} [Zero T] [One T] [Add T] [Sub T] [Mul T] [MathFns T] (m : Mat T 4 4) (angle : T)
    (n : Vec T 3) : Mat T 4 4 :=
  rotateWith id m angle n

/-- Conversion of a floating-point number to an integer type: towards zero. transformation.hpp 44. -/
noncomputable def truncate (x : ℝ) : ℝ := if 0 ≤ x then (⌊x⌋ : ℤ) else (⌈x⌉ : ℤ)

/-- `rotate` with an axis of integers (for instance `ivec3`): transformation.hpp 33-65. -/
noncomputable def rotateInt (m : Mat ℝ 4 4) (angle : ℝ) (n : Vec ℤ 3) : Mat ℝ 4 4 :=
  rotateWith truncate m angle fun i => (n i : ℝ)

/-! ### matrices/perspective.hpp -/

/-- `std::tan`. perspective.hpp 15, 30. -/
class TanFn (T : Type) where
  tan : T → T

/-- On the reals it is the exact function. Part of the model, not of the code. -/
noncomputable instance : TanFn ℝ := ⟨Real.tan⟩

@[simp] theorem tan_real (x : ℝ) : TanFn.tan x = Real.tan x := rfl

section Projection

variable {T : Type} [Zero T] [One T] [OfNat T 2] [Add T] [Sub T] [Neg T] [Mul T] [Div T]

/-- `perspective_rh(fov, ...)`: perspective.hpp 11-24. -/
def perspectiveRh [TanFn T] (fov aspect near far : T) : Mat T 4 4 :=
  let halfTan := TanFn.tan (fov / 2)
  let m : Mat T 4 4 := diagonal 0
  let m := store2 m 0 0 (1 / (aspect * halfTan))
  let m := store2 m 1 1 (1 / halfTan)
  let m := store2 m 2 2 (-(far + near) / (far - near))
  let m := store2 m 2 3 (-1 : T)
  store2 m 3 2 (-(2 * far * near) / (far - near))

/-- `perspective_lh(fov, ...)`: perspective.hpp 26-39. -/
def perspectiveLh [TanFn T] (fov aspect near far : T) : Mat T 4 4 :=
  let halfTan := TanFn.tan (fov / 2)
  let m : Mat T 4 4 := diagonal 0
  let m := store2 m 0 0 (1 / (aspect * halfTan))
  let m := store2 m 1 1 (1 / halfTan)
  let m := store2 m 2 2 ((far + near) / (far - near))
  let m := store2 m 2 3 1
  store2 m 3 2 (-(2 * far * near) / (far - near))

/-- `perspective(fov, ...)`: perspective.hpp 41-50; `clipLh` is whether `XME_MATH_CLIP_LH` is defined. -/
def perspective [TanFn T] (clipLh : Bool) (fov aspect near far : T) : Mat T 4 4 :=
  if clipLh then perspectiveRh fov aspect far near else perspectiveRh fov aspect near far

/-- `perspective_lh(left, ...)`: perspective.hpp 52-65. -/
def frustumLh (left right bottom top near far : T) : Mat T 4 4 :=
  let m : Mat T 4 4 := diagonal 0
  let m := store2 m 0 0 ((2 * near) / (right - left))
  let m := store2 m 1 1 ((2 * near) / (top - bottom))
  let m := store2 m 2 0 (-(right + left) / (right - near))
  let m := store2 m 2 1 (-(top + bottom) / (top - bottom))
  let m := store2 m 2 2 ((far + near) / (far - near))
  let m := store2 m 2 3 1
  store2 m 3 2 (-(2 * far * near) / (far - near))

/-- `perspective_rh(left, ...)`: perspective.hpp 67-80. -/
def frustumRh (left right bottom top near far : T) : Mat T 4 4 :=
  let m : Mat T 4 4 := diagonal 0
  let m := store2 m 0 0 ((2 * near) / (right - left))
  let m := store2 m 1 1 ((2 * near) / (top - bottom))
  let m := store2 m 2 0 ((right + left) / (right - near))
  let m := store2 m 2 1 ((top + bottom) / (top - bottom))
  let m := store2 m 2 2 (-(far + near) / (far - near))
  let m := store2 m 2 3 (-1 : T)
  store2 m 3 2 (-(2 * far * near) / (far - near))

/-- `perspective(left, ...)`: perspective.hpp 82-91. -/
def frustum (clipLh : Bool) (left right bottom top near far : T) : Mat T 4 4 :=
  if clipLh then frustumLh left right bottom top near far
  else frustumRh left right bottom top near far

/-- `ortho_lh`: perspective.hpp 93-105. -/
def orthoLh (left right bottom top near far : T) : Mat T 4 4 :=
  let m : Mat T 4 4 := diagonal 1
  let m := store2 m 0 0 (2 / (right - left))
  let m := store2 m 1 1 (2 / (top - bottom))
  let m := store2 m 1 1 (2 / (far - near))
  let m := store2 m 2 0 (-(right + left) / (right - left))
  let m := store2 m 2 1 (-(top + bottom) / (top - bottom))
  store2 m 2 2 (-(far + near) / (far - near))

/-- `ortho_rh`: perspective.hpp 107-119. -/
def orthoRh (left right bottom top near far : T) : Mat T 4 4 :=
  let m : Mat T 4 4 := diagonal 1
  let m := store2 m 0 0 (2 / (right - left))
  let m := store2 m 1 1 (2 / (top - bottom))
  let m := store2 m 1 1 (-2 / (far - near))
  let m := store2 m 2 0 (-(right + left) / (right - left))
  let m := store2 m 2 1 (-(top + bottom) / (top - bottom))
  store2 m 2 2 (-(far + near) / (far - near))

/-- `ortho`: perspective.hpp 121-130. -/
def ortho (clipLh : Bool) (left right bottom top near far : T) : Mat T 4 4 :=
  if clipLh then orthoLh left right bottom top near far else orthoRh left right bottom top near far

end Projection

/-! ### quaternion.hpp -/

/-- `Quaternion<T>`: quaternion.hpp 53-56. -/
@[ext]
structure Quat (T : Type) where
  w : T
  x : T
  y : T
  z : T

/-- `operator+`: quaternion.hpp 14-18. -/
def Quat.add {T : Type} [Add T] (p q : Quat T) : Quat T := ⟨p.w + q.w, p.x + q.x, p.y + q.y, p.z + q.z⟩

/-- `operator-`: quaternion.hpp 20-24. -/
def Quat.sub {T : Type} [Sub T] (p q : Quat T) : Quat T := ⟨p.w - q.w, p.x - q.x, p.y - q.y, p.z - q.z⟩

/-- `operator*`: quaternion.hpp 26-35. -/
def Quat.mul {T : Type} [Add T] [Sub T] [Mul T] (p q : Quat T) : Quat T :=
  ⟨p.w * q.w - p.x * q.x - p.y * q.y - p.z * q.z,
   p.x * q.w + p.w * q.x + p.y * q.z - p.z * q.y,
   p.w * q.y - p.x * q.z + p.y * q.w + p.z * q.x,
   p.w * q.z + p.x * q.y - p.y * q.x + p.z * q.w⟩

end Verif.Math
