import Verif.Math.MatrixLemmas
import Verif.Math.VectorProps
import Mathlib.Algebra.Quaternion
import Mathlib.LinearAlgebra.Matrix.Hadamard
import Mathlib.LinearAlgebra.Matrix.Notation

/-!
Properties of matrices and quaternions (C66 - C68, C75).  `toM m` is the mathematical matrix of `m`
(row index first); `m i j` is what the C++ expression `m[i][j]` (column first) gives.
-/

set_option autoImplicit false

namespace Verif.Math

variable {T : Type} {c r k l : Nat}

/-! ### C66: products -/

/-- C66, first part.  The products and sums are the mathematical ones, for every shape; the
default-constructed matrix has ones on the diagonal. -/
theorem matrix_ops [CommRing T] [Indet T] (a b : Mat T c r) (d : Mat T k c) (v : Vec T c) (s : T) :
    toM (mulMat a d) = toM a * toM d ∧ mulVec a v = (toM a).mulVec v ∧
    toM (matAdd a b) = toM a + toM b ∧ toM (matSub a b) = toM a - toM b ∧
    toM (matMulS a s) = s • toM a ∧ toM (matNeg a) = -toM a ∧
    toM (defaultMat : Mat T c c) = 1 ∧ matAssign a = a ∧
    (∀ j, row a j = toM a j) ∧ (∀ i, column a i = fun j => toM a j i) := by
  refine ⟨?_, ?_, ?_, ?_, ?_, ?_, ?_, matAssign_apply a, fun j => row_apply a j, fun i => rfl⟩
  · rw [mulMat_apply]; rfl
  · rw [mulVec_apply]; rfl
  · rw [matAdd, matOp_apply]; rfl
  · rw [matSub, matOp_apply]; rfl
  · rw [matMulS, matOpS_apply]; ext j i; exact mul_comm _ _
  · rw [matNeg_apply]; rfl
  · ext j i
    simp only [toM, defaultMat, diagonal_apply, Matrix.one_apply, Fin.ext_iff, eq_comm]

theorem toM_inj {a b : Mat T c r} (h : toM a = toM b) : a = b := by
  funext i j; exact congrFun (congrFun h j) i

/-- C66: compound assignments, also with the object itself as operand. -/
theorem matrix_compound [Field T] (a b : Mat T c r) (s : T) :
    toM (matSelfOp (· + ·) a (some b)) = toM a + toM b ∧
    toM (matSelfOp (· - ·) a (some b)) = toM a - toM b ∧
    toM (matSelfOp (· + ·) a none) = toM a + toM a ∧ toM (matSelfOp (· - ·) a none) = 0 ∧
    toM (matSelfOpS (· * ·) a s) = s • toM a ∧
    (s ≠ 0 → toM (matSelfOpS (· / ·) a s) = s⁻¹ • toM a ∧ toM (matDivS a s) = s⁻¹ • toM a) := by
  refine ⟨?_, ?_, ?_, ?_, ?_, fun _ => ⟨?_, ?_⟩⟩
  · rw [matSelfOp_apply]; rfl
  · rw [matSelfOp_apply]; rfl
  · rw [matSelfOp_apply]; rfl
  · rw [matSelfOp_apply]; ext j i; exact sub_self _
  · rw [matSelfOpS_apply]; ext j i; exact mul_comm _ _
  · rw [matSelfOpS_apply]; ext j i; exact div_eq_inv_mul _ _
  · rw [matDivS, matOpS_apply]; ext j i; exact div_eq_inv_mul _ _

/-- C66, second part.  The laws, stated on the code's operators. -/
theorem matrix_laws [CommRing T] [Indet T] (a a' : Mat T c r) (b b' : Mat T k c) (d : Mat T l k)
    (v : Vec T k) :
    mulMat (mulMat a b) d = mulMat a (mulMat b d) ∧
    mulVec (mulMat a b) v = mulVec a (mulVec b v) ∧
    mulMat a (matAdd b b') = matAdd (mulMat a b) (mulMat a b') ∧
    mulMat (matAdd a a') b = matAdd (mulMat a b) (mulMat a' b) ∧
    mulMat a defaultMat = a ∧ mulMat defaultMat a = a := by
  have m := fun {c r k : Nat} (a : Mat T c r) (d : Mat T k c) =>
    (matrix_ops a a d (fun _ => 0) 0).1
  have p := fun {c r : Nat} (a b : Mat T c r) =>
    (matrix_ops a b (defaultMat : Mat T c c) (fun _ => 0) 0).2.2.1
  have o := fun (c : Nat) => (matrix_ops (defaultMat : Mat T c c) defaultMat (defaultMat : Mat T c c)
    (fun _ => 0) 0).2.2.2.2.2.2.1
  have w := fun {c r : Nat} (a : Mat T c r) (v : Vec T c) =>
    (matrix_ops a a (defaultMat : Mat T c c) v 0).2.1
  refine ⟨toM_inj ?_, ?_, toM_inj ?_, toM_inj ?_, toM_inj ?_, toM_inj ?_⟩
  · simp only [m, Matrix.mul_assoc]
  · simp only [m, w, Matrix.mulVec_mulVec]
  · simp only [m, p, Matrix.mul_add]
  · simp only [m, p, Matrix.add_mul]
  · simp only [m, o, Matrix.mul_one]
  · simp only [m, o, Matrix.one_mul]

instance : Indet ℤ := ⟨fun _ => 0⟩

example : mulMat ![![1, 3], ![(2 : ℤ), 4]] ![![5, 7], ![6, 8]] = ![![19, 43], ![22, 50]] := by decide

/-! ### C67: determinants -/

/-- C67. -/
theorem determinant_correct [CommRing T] :
    (∀ m : Mat T 2 2, det2 m = (toM m).det) ∧ (∀ m : Mat T 3 3, det3 m = (toM m).det) ∧
    (∀ m : Mat T 4 4, det4 m = (toM m).det) := by
  refine ⟨fun m => ?_, fun m => ?_, fun m => ?_⟩
  · rw [Matrix.det_fin_two]; simp only [toM, det2]
  · rw [Matrix.det_fin_three]; simp only [toM, det3]; ring
  · rw [Matrix.det_succ_row_zero]
    simp only [Fin.sum_univ_four, Matrix.det_fin_three, Matrix.submatrix_apply, toM, det4]
    simp [Fin.succAbove]
    ring

/-- C67: the consequences. -/
theorem determinant_laws [CommRing T] [Indet T] :
    (∀ a b : Mat T 2 2, det2 (mulMat a b) = det2 a * det2 b ∧ det2 (transpose a) = det2 a) ∧
    (∀ a b : Mat T 3 3, det3 (mulMat a b) = det3 a * det3 b ∧ det3 (transpose a) = det3 a) ∧
    (∀ a b : Mat T 4 4, det4 (mulMat a b) = det4 a * det4 b ∧ det4 (transpose a) = det4 a) ∧
    det2 (defaultMat : Mat T 2 2) = 1 ∧ det3 (defaultMat : Mat T 3 3) = 1 ∧
    det4 (defaultMat : Mat T 4 4) = 1 := by
  obtain ⟨h2, h3, h4⟩ := determinant_correct (T := T)
  have ht : ∀ {c : Nat} (a : Mat T c c), toM (transpose a) = (toM a).transpose := by
    intro c a; rw [transpose_apply]; rfl
  have m := fun {c : Nat} (a b : Mat T c c) => (matrix_ops a a b (fun _ => 0) 0).1
  have o := fun (c : Nat) => (matrix_ops (defaultMat : Mat T c c) defaultMat (defaultMat : Mat T c c)
    (fun _ => 0) 0).2.2.2.2.2.2.1
  refine ⟨fun a b => ?_, fun a b => ?_, fun a b => ?_, ?_, ?_, ?_⟩
  · simp only [h2, m, ht, Matrix.det_mul, Matrix.det_transpose, and_self]
  · simp only [h3, m, ht, Matrix.det_mul, Matrix.det_transpose, and_self]
  · simp only [h4, m, ht, Matrix.det_mul, Matrix.det_transpose, and_self]
  · rw [h2, o, Matrix.det_one]
  · rw [h3, o, Matrix.det_one]
  · rw [h4, o, Matrix.det_one]

example : det4 ![![2, 0, 0, 1], ![0, (3 : ℤ), 0, 0], ![0, 0, 4, 0], ![1, 0, 0, 1]] = 12 := by decide

/-! ### C68: transpose, outer product, component-wise product -/

/-- C68. -/
theorem transpose_outer_hadamard [CommRing T] [Indet T] (a a' : Mat T c r) (b : Mat T k c)
    (u : Vec T c) (w : Vec T r) :
    toM (transpose a) = (toM a).transpose ∧ transpose (transpose a) = a ∧
    transpose (mulMat a b) = mulMat (transpose b) (transpose a) ∧
    (∀ i j, outerProduct w u i j = w j * u i) ∧
    toM (outerProduct w u) = Matrix.vecMulVec w u ∧
    (∀ i j, hadamard a a' i j = a i j * a' i j) ∧ toM (hadamard a a') = (toM a).hadamard (toM a') := by
  refine ⟨?_, ?_, ?_, ?_, ?_, ?_, ?_⟩
  · rw [transpose_apply]; rfl
  · rw [transpose_apply, transpose_apply]
  · simp only [transpose_apply, mulMat_apply]
    funext i j
    exact Finset.sum_congr rfl fun x _ => mul_comm _ _
  · intro i j; rw [outerProduct_apply]
  · rw [outerProduct_apply]; rfl
  · intro i j; rw [hadamard_apply]
  · rw [hadamard_apply]; rfl

example : transpose ![![1, 2, 3], ![(4 : ℤ), 5, 6]] = ![![1, 4], ![2, 5], ![3, 6]] := by decide

/-! ### C75: quaternions -/

/-- Mathlib's (Hamilton's) quaternion with the same coordinates. -/
def toQ {T : Type} [CommRing T] (q : Quat T) : Quaternion T := ⟨q.w, q.x, q.y, q.z⟩

section
variable {T : Type} [CommRing T] (q : Quat T)
@[simp] theorem toQ_re : (toQ q).re = q.w := rfl
@[simp] theorem toQ_imI : (toQ q).imI = q.x := rfl
@[simp] theorem toQ_imJ : (toQ q).imJ = q.y := rfl
@[simp] theorem toQ_imK : (toQ q).imK = q.z := rfl
end

/-- C75. -/
theorem quaternion_algebra {T : Type} [CommRing T] (p q s : Quat T) :
    toQ (p.add q) = toQ p + toQ q ∧ toQ (p.sub q) = toQ p - toQ q ∧ toQ (p.mul q) = toQ p * toQ q ∧
    (p.mul q).mul s = p.mul (q.mul s) ∧ p.mul (q.add s) = (p.mul q).add (p.mul s) ∧
    (p.add q).mul s = (p.mul s).add (q.mul s) ∧
    p.mul ⟨1, 0, 0, 0⟩ = p ∧ (Quat.mk 1 0 0 0).mul p = p ∧
    (∀ N : Quat T → T, (N = fun q => q.w ^ 2 + q.x ^ 2 + q.y ^ 2 + q.z ^ 2) →
      N (p.mul q) = N p * N q) := by
  refine ⟨?_, ?_, ?_, ?_, ?_, ?_, ?_, ?_, ?_⟩
  · ext <;> simp [Quat.add]
  · ext <;> simp [Quat.sub]
  · ext <;> simp [Quat.mul]
    ring
  · ext <;> (simp [Quat.mul]; ring)
  · ext <;> simp [Quat.mul, Quat.add] <;> ring
  · ext <;> simp [Quat.mul, Quat.add] <;> ring
  · ext <;> simp [Quat.mul]
  · ext <;> simp [Quat.mul]
  · rintro N rfl; simp only [Quat.mul]; ring

/-- C75: the product is not commutative; `i j = k`, `j i = -k`. -/
example : (Quat.mk 0 1 0 0).mul ⟨0, 0, 1, 0⟩ = Quat.mk (0 : ℤ) 0 0 1 ∧
    (Quat.mk 0 0 1 0).mul ⟨0, 1, 0, 0⟩ = Quat.mk (0 : ℤ) 0 0 (-1) := ⟨rfl, rfl⟩

end Verif.Math
