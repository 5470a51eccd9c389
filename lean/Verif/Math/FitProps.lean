import Verif.Math.TransformProps
import Mathlib.LinearAlgebra.Matrix.Adjugate
import Mathlib.Tactic.LinearCombination
import Mathlib.Tactic.FieldSimp
import Mathlib.Tactic.Positivity

/-!
C165: the operations of the vectors, matrices and quaternions fit together, as programs that combine them rely on:
triple products and determinants, rotations by matrices and by quaternions, linear systems solved with determinants,
orthonormal frames, the point of a line nearest to a point.
-/

set_option autoImplicit false

namespace Verif.Math

/-! ### Products of three and four vectors -/

section

variable {T : Type} [CommRing T]

/-- **C165** Products of several vectors: `dot(a, cross(b, c))` is the determinant of the matrix with these columns and
does not change when they are cycled; `cross(a, cross(b, c))` is `b * dot(a, c) - c * dot(a, b)`; the three cycled
double products add up to zero; products of two cross products expand into scalar products; a matrix multiplies the
triple product by its determinant. -/
theorem vector_products [Indet T] (a b c d : Vec T 3) (m : Mat T 3 3) :
    dot a (cross b c) = det3 ![a, b, c] ∧ dot a (cross b c) = dot b (cross c a) ∧
    cross a (cross b c) = sub (mulS b (dot a c)) (mulS c (dot a b)) ∧
    add (add (cross a (cross b c)) (cross b (cross c a))) (cross c (cross a b)) = splat 0 ∧
    dot (cross a b) (cross c d) = dot a c * dot b d - dot a d * dot b c ∧
    dot (mulVec m a) (cross (mulVec m b) (mulVec m c)) = det3 m * dot a (cross b c) := by
  refine ⟨?_, ?_, ?_, ?_, ?_, ?_⟩
  · simp [dot_eq, Fin.sum_univ_three, cross, det3]; ring
  · simp [dot_eq, Fin.sum_univ_three, cross]; ring
  · rw [sub_eq, mulS_eq, mulS_eq]
    funext i
    fin_cases i <;> simp [dot_eq, Fin.sum_univ_three, cross] <;> ring
  · rw [add_eq, add_eq, splat_apply]
    funext i
    fin_cases i <;> simp [cross] <;> ring
  · simp [dot_eq, Fin.sum_univ_three, cross]; ring
  · simp [dot_eq, Fin.sum_univ_three, cross, det3, mulVec_apply]; ring

example : dot ![1, 2, 3] (cross ![0, 1, 4] (![5, 6, 0] : Vec ℤ 3)) = 1 := by decide

end

/-! ### Rotations by matrices and by quaternions -/

/-- The unit quaternion of a rotation, as a user writes it: `Quaternion(cos(a / 2), sin(a / 2) * n[0], …)`.
Specification, not part of the code. -/
noncomputable def turnQuat (a : ℝ) (n : Vec ℝ 3) : Quat ℝ :=
  ⟨Real.cos (a / 2), Real.sin (a / 2) * n 0, Real.sin (a / 2) * n 1, Real.sin (a / 2) * n 2⟩

/-- `Quaternion(q.w, -q.x, -q.y, -q.z)`. Specification, not part of the code. -/
def conjQuat (q : Quat ℝ) : Quat ℝ := ⟨q.w, -q.x, -q.y, -q.z⟩

/-- `Quaternion(0, p[0], p[1], p[2])`. Specification, not part of the code. -/
def pointQuat (p : Vec ℝ 3) : Quat ℝ := ⟨0, p 0, p 1, p 2⟩

theorem turnQuat_turns (a : ℝ) (n p : Vec ℝ 3) (hn : n 0 * n 0 + n 1 * n 1 + n 2 * n 2 = 1) :
    ((turnQuat a n).mul (pointQuat p)).mul (conjQuat (turnQuat a n)) = pointQuat (turned a n p) := by
  have h1 := Real.sin_sq_add_cos_sq (a / 2)
  have hc : Real.cos a = Real.cos (a / 2) ^ 2 - Real.sin (a / 2) ^ 2 := by
    rw [← Real.cos_two_mul']; congr 1; ring
  have hs : Real.sin a = 2 * Real.sin (a / 2) * Real.cos (a / 2) := by
    rw [← Real.sin_two_mul]; congr 1; ring
  rw [turned_apply, hc, hs]
  simp only [turnQuat, conjQuat]
  generalize Real.sin (a / 2) = s at *
  generalize Real.cos (a / 2) = c at *
  ext
  · simp [Quat.mul, pointQuat]; ring
  · simp only [Quat.mul, pointQuat, Matrix.cons_val_zero]
    linear_combination (-(s ^ 2 * p 0)) * hn + ((n 0 * p 0 + n 1 * p 1 + n 2 * p 2) * n 0) * h1
  · simp only [Quat.mul, pointQuat, Matrix.cons_val_one, Matrix.cons_val_zero]
    linear_combination (-(s ^ 2 * p 1)) * hn + ((n 0 * p 0 + n 1 * p 1 + n 2 * p 2) * n 1) * h1
  · simp only [Quat.mul, pointQuat, Matrix.cons_val]
    linear_combination (-(s ^ 2 * p 2)) * hn + ((n 0 * p 0 + n 1 * p 1 + n 2 * p 2) * n 2) * h1

theorem conj_mul (q r : Quat ℝ) : conjQuat (q.mul r) = (conjQuat r).mul (conjQuat q) := by
  ext <;> simp [conjQuat, Quat.mul] <;> ring

theorem mul_assoc' (p q r : Quat ℝ) : (p.mul q).mul r = p.mul (q.mul r) := (quaternion_algebra p q r).2.2.2.1

theorem conj_turnQuat (a : ℝ) (n : Vec ℝ 3) (hn : n 0 * n 0 + n 1 * n 1 + n 2 * n 2 = 1) :
    (conjQuat (turnQuat a n)).mul (turnQuat a n) = ⟨1, 0, 0, 0⟩ := by
  have h1 := Real.sin_sq_add_cos_sq (a / 2)
  ext
  · simp only [conjQuat, turnQuat, Quat.mul]
    linear_combination (Real.sin (a / 2) ^ 2) * hn + h1
  · simp only [conjQuat, turnQuat, Quat.mul]; ring
  · simp only [conjQuat, turnQuat, Quat.mul]; ring
  · simp only [conjQuat, turnQuat, Quat.mul]; ring

theorem rotate_default (a : ℝ) (n p : Vec ℝ 3) (w : ℝ) :
    mulVec (rotate defaultMat a n) (hom p w) = hom (turned a n p) w := by
  rw [(rotate_turns _ _ _ _ _).1, toM_mulVec,
    (matrix_ops (defaultMat : Mat ℝ 4 4) defaultMat (defaultMat : Mat ℝ 4 4) 0 0).2.2.2.2.2.2.1,
    Matrix.one_mulVec]

/-- **C165** A rotation with a matrix and with a quaternion agree: for unit axes, the product
`q * Quaternion(0, p) * conjugate(q)` with `q = (cos(a / 2), sin(a / 2) * n)` has a zero real part, its vector part is what
`rotate(identity, a, n)` makes of the point or direction `p`, and the product of two such quaternions is the product of
the two matrices, whatever the two axes are. -/
theorem rotation_by_quaternion (a b : ℝ) (n k p : Vec ℝ 3) (w : ℝ) (hn : dot n n = 1) (hk : dot k k = 1) :
    (∃ p' : Vec ℝ 3, ((turnQuat a n).mul (pointQuat p)).mul (conjQuat (turnQuat a n)) = pointQuat p' ∧
      mulVec (rotate defaultMat a n) (hom p w) = hom p' w) ∧
    (∃ p' : Vec ℝ 3, (((turnQuat a n).mul (turnQuat b k)).mul (pointQuat p)).mul
        (conjQuat ((turnQuat a n).mul (turnQuat b k))) = pointQuat p' ∧
      mulVec (mulMat (rotate defaultMat a n) (rotate defaultMat b k)) (hom p w) = hom p' w) := by
  rw [dot_eq, Fin.sum_univ_three] at hn hk
  refine ⟨⟨turned a n p, turnQuat_turns a n p hn, rotate_default a n p w⟩,
    turned a n (turned b k p), ?_, ?_⟩
  · rw [conj_mul]
    calc _ = ((turnQuat a n).mul (((turnQuat b k).mul (pointQuat p)).mul (conjQuat (turnQuat b k)))).mul
          (conjQuat (turnQuat a n)) := by simp only [mul_assoc']
      _ = _ := by rw [turnQuat_turns b k p hk, turnQuat_turns a n _ hn]
  · rw [toM_mulVec, (matrix_ops (rotate defaultMat a n) defaultMat (rotate defaultMat b k) 0 0).1,
      ← Matrix.mulVec_mulVec, ← toM_mulVec, ← toM_mulVec, rotate_default, rotate_default]

theorem point_mul (p q : Vec ℝ 3) : (pointQuat p).mul (pointQuat q) =
    ⟨-dot p q, cross p q 0, cross p q 1, cross p q 2⟩ := by
  ext <;> simp [pointQuat, Quat.mul, dot_eq, Fin.sum_univ_three, cross] <;> ring

/-- **C165** A rotation keeps cross products: the cross product of two rotated directions is the rotated cross product.
-/
theorem rotation_keeps_cross (a : ℝ) (n p q p' q' : Vec ℝ 3) (w : ℝ) (hn : dot n n = 1)
    (hp : mulVec (rotate defaultMat a n) (hom p w) = hom p' w)
    (hq : mulVec (rotate defaultMat a n) (hom q w) = hom q' w) :
    mulVec (rotate defaultMat a n) (hom (cross p q) w) = hom (cross p' q') w := by
  rw [rotate_default] at hp hq ⊢
  have hinj : ∀ x y : Vec ℝ 3, hom x w = hom y w → x = y := by
    intro x y h
    funext i
    fin_cases i
    · exact congrFun h 0
    · exact congrFun h 1
    · exact congrFun h 2
  rw [← hinj _ _ hp, ← hinj _ _ hq]
  congr 1
  have hdot := (turned_laws a 0 n p q hn).1
  rw [dot_eq, Fin.sum_univ_three] at hn
  have h1 : (pointQuat (turned a n p)).mul (pointQuat (turned a n q)) =
      ((turnQuat a n).mul ((pointQuat p).mul (pointQuat q))).mul (conjQuat (turnQuat a n)) := by
    rw [← turnQuat_turns a n p hn, ← turnQuat_turns a n q hn]
    calc _ = ((turnQuat a n).mul (pointQuat p)).mul
          ((((conjQuat (turnQuat a n)).mul (turnQuat a n)).mul (pointQuat q)).mul
            (conjQuat (turnQuat a n))) := by simp only [mul_assoc']
      _ = _ := by
        rw [conj_turnQuat a n hn, (quaternion_algebra (pointQuat q) (pointQuat q) (pointQuat q)).2.2.2.2.2.2.2.1]
        simp only [mul_assoc']
  have h2 := turnQuat_turns a n (cross p q) hn
  have h3 := conj_turnQuat a n hn
  rw [point_mul, point_mul] at h1
  -- the real part commutes with everything
  have h4 : ((turnQuat a n).mul ⟨-dot p q, cross p q 0, cross p q 1, cross p q 2⟩).mul
      (conjQuat (turnQuat a n)) =
      (Quat.mk (-dot p q * ((turnQuat a n).mul (conjQuat (turnQuat a n))).w) 0 0 0).add
        (((turnQuat a n).mul (pointQuat (cross p q))).mul (conjQuat (turnQuat a n))) := by
    ext <;> simp [Quat.mul, Quat.add, conjQuat, pointQuat] <;> ring
  rw [h4, h2] at h1
  simp only [Quat.add, pointQuat, zero_add, Quat.mk.injEq] at h1
  funext i
  fin_cases i
  · exact h1.2.1.symm
  · exact h1.2.2.1.symm
  · exact h1.2.2.2.symm

/-- A quarter turn about the third axis. -/
example : mulVec (rotate defaultMat (Real.pi / 2) ![0, 0, 1]) (hom ![1, 0, 0] 1) = hom ![0, 1, 0] 1 := by
  rw [rotate_default, turned_apply]
  congr 1
  funext i; fin_cases i <;> simp

/-! ### Linear systems -/

theorem cramer_aux {K : Type} [Field K] {n : Nat} (A : Matrix (Fin n) (Fin n) K) (h : A.det ≠ 0)
    (x b : Fin n → K) : A.mulVec x = b ↔ x = fun i => (A.updateCol i b).det / A.det := by
  have hc : (fun i => (A.updateCol i b).det / A.det) = A.det⁻¹ • A.cramer b := by
    funext i
    rw [Pi.smul_apply, Matrix.cramer_apply, smul_eq_mul, div_eq_inv_mul]
  rw [hc]
  constructor
  · rintro rfl
    rw [Matrix.cramer_eq_adjugate_mulVec, Matrix.mulVec_mulVec, Matrix.adjugate_mul, Matrix.smul_mulVec,
      Matrix.one_mulVec, smul_smul, inv_mul_cancel₀ h, one_smul]
  · rintro rfl
    rw [Matrix.mulVec_smul, Matrix.mulVec_cramer, smul_smul, inv_mul_cancel₀ h, one_smul]

theorem toM_update {T : Type} {c r : Nat} (m : Mat T c r) (i : Fin c) (b : Vec T r) :
    toM (Function.update m i b) = (toM m).updateCol i b := by
  ext j k
  by_cases hk : k = i
  · subst hk; simp [toM]
  · simp [toM, hk]

/-- **C165** Linear systems are solved with `determinant`: when the determinant of `m` is not zero, `m * x == b` exactly
when each `x[i]` is the determinant of `m` with column `i` replaced by `b` (`m[i] = b`), divided by that of `m`. -/
theorem determinant_solves {K : Type} [Field K] [Indet K] :
    (∀ (m : Mat K 2 2) (x b : Vec K 2), det2 m ≠ 0 →
      (mulVec m x = b ↔ ∀ i, x i = det2 (Function.update m i b) / det2 m)) ∧
    (∀ (m : Mat K 3 3) (x b : Vec K 3), det3 m ≠ 0 →
      (mulVec m x = b ↔ ∀ i, x i = det3 (Function.update m i b) / det3 m)) ∧
    (∀ (m : Mat K 4 4) (x b : Vec K 4), det4 m ≠ 0 →
      (mulVec m x = b ↔ ∀ i, x i = det4 (Function.update m i b) / det4 m)) := by
  obtain ⟨d2, d3, d4⟩ := determinant_correct (T := K)
  refine ⟨fun m x b h => ?_, fun m x b h => ?_, fun m x b h => ?_⟩
  · rw [toM_mulVec, cramer_aux _ (by rw [← d2]; exact h), funext_iff]
    simp only [d2, toM_update]
  · rw [toM_mulVec, cramer_aux _ (by rw [← d3]; exact h), funext_iff]
    simp only [d3, toM_update]
  · rw [toM_mulVec, cramer_aux _ (by rw [← d4]; exact h), funext_iff]
    simp only [d4, toM_update]

/-- The system `x + 3 y = 7`, `2 x + 4 y = 10`. -/
example : det2 (![![1, 2], ![3, 4]] : Mat ℝ 2 2) ≠ 0 ∧
    mulVec (![![1, 2], ![3, 4]] : Mat ℝ 2 2) ![1, 2] = ![7, 10] := by
  constructor
  · simp [det2]; norm_num
  · rw [mulVec_apply]; funext i; fin_cases i <;> simp [Fin.sum_univ_two] <;> norm_num

/-! ### Orthonormal frames -/

theorem dot_normalize (v : Vec ℝ 3) (hv : v ≠ 0) : dot (normalize v) (normalize v) = 1 := by
  have h := (normalize_unit v hv).1
  rw [← length_norm] at h
  rw [← (length_sq (normalize v)).2.2.1, h]; norm_num

/-- **C165** The frame of two directions that are not parallel: with `x = normalize(u)`, `z = normalize(cross(u, v))` and
`y = cross(z, x)` the three are of length one and orthogonal to each other, `Matrix(x, y, z)` has determinant one, `v` has no
part along `z` and a positive part along `y`, and every `p` is the sum of its parts along the three. -/
theorem orthonormal_frame (u v p x y z : Vec ℝ 3) (h : cross u v ≠ 0) (hx : x = normalize u)
    (hz : z = normalize (cross u v)) (hy : y = cross z x) :
    dot x x = 1 ∧ dot y y = 1 ∧ dot z z = 1 ∧ dot x y = 0 ∧ dot y z = 0 ∧ dot z x = 0 ∧
    det3 ![x, y, z] = 1 ∧ dot v z = 0 ∧ 0 < dot v y ∧
    add (add (mulS x (dot p x)) (mulS y (dot p y))) (mulS z (dot p z)) = p := by
  have hu : u ≠ 0 := by
    rintro rfl; apply h
    funext i; fin_cases i <;> simp [cross]
  have xx : dot x x = 1 := by rw [hx]; exact dot_normalize u hu
  have zz : dot z z = 1 := by rw [hz]; exact dot_normalize _ h
  obtain ⟨k, kpos, hk⟩ := (normalize_unit u hu).2.1
  obtain ⟨l, lpos, hl⟩ := (normalize_unit (cross u v) h).2.1
  rw [← hx] at hk
  rw [← hz] at hl
  have zx : dot z x = 0 := by
    rw [hl, hk]; simp [dot_eq, Fin.sum_univ_three, cross]; ring
  have vz : dot v z = 0 := by
    rw [hl]; simp [dot_eq, Fin.sum_univ_three, cross]; ring
  have yy : dot y y = 1 := by
    have := (vector_products z x z x (defaultMat)).2.2.2.2.1
    rw [hy, this, xx, zz, zx]; ring
  have xy : dot x y = 0 := by
    rw [hy]; simp [dot_eq, Fin.sum_univ_three, cross]; ring
  have yz : dot y z = 0 := by
    rw [hy]; simp [dot_eq, Fin.sum_univ_three, cross]; ring
  have hdet : det3 ![x, y, z] = 1 := by
    have h1 := (vector_products x y z z defaultMat).1
    have h2 : dot x (cross y z) = dot z z * dot x x - dot z x * dot z x := by
      rw [hy]; simp [dot_eq, Fin.sum_univ_three, cross]; ring
    rw [← h1, h2, xx, zz, zx]; ring
  have vy : 0 < dot v y := by
    have h1 : dot v y = l * k * dot (cross u v) (cross u v) := by
      rw [hy, hl, hk]; simp [dot_eq, Fin.sum_univ_three, cross]; ring
    have h2 : 0 < dot (cross u v) (cross u v) := by
      rw [dot_eq]
      apply Finset.sum_pos'
      · intro i _; exact mul_self_nonneg _
      · obtain ⟨i, hi⟩ := Function.ne_iff.mp h
        exact ⟨i, Finset.mem_univ i, mul_self_pos.mpr hi⟩
    rw [h1]; positivity
  refine ⟨xx, yy, zz, xy, yz, zx, hdet, vz, vy, ?_⟩
  have hQ : (toM ![x, y, z]).transpose * toM ![x, y, z] = 1 := by
    simp only [dot_eq, Fin.sum_univ_three] at xx yy zz xy yz zx
    ext i j
    rw [Matrix.mul_apply, Fin.sum_univ_three]
    fin_cases i <;> fin_cases j <;> simp [toM] <;> linarith
  have hQ' := mul_eq_one_comm.mp hQ
  rw [add_eq, add_eq, mulS_eq, mulS_eq, mulS_eq]
  have key : (toM ![x, y, z] * (toM ![x, y, z]).transpose).mulVec p = p := by
    rw [hQ', Matrix.one_mulVec]
  rw [← Matrix.mulVec_mulVec] at key
  funext i
  have ki := congrFun key i
  simp only [Matrix.mulVec, dotProduct, Fin.sum_univ_three, Matrix.transpose_apply, toM] at ki
  simp only [Pi.add_apply, Pi.smul_apply, smul_eq_mul, dot_eq, Fin.sum_univ_three]
  rw [← ki]
  simp
  ring

example : cross ![1, 0, 0] ![1, 1, 0] ≠ (0 : Vec ℝ 3) := fun h => by
  have := congrFun h 2
  simp [cross] at this

/-! ### The nearest point of a line -/

/-- **C165** The point of the line `a + t * d` nearest to `p`: its distance times `length(d)` is
`length(cross(p - a, d))`, no point of the line is nearer, and it is reached exactly at
`t = dot(p - a, d) / dot(d, d)`. -/
theorem nearest_on_line (p a d : Vec ℝ 3) (hd : d ≠ 0) (t : ℝ) :
    length (cross (sub p a) d) ≤ distance p (add a (mulS d t)) * length d ∧
    (length (cross (sub p a) d) = distance p (add a (mulS d t)) * length d ↔
      t = dot (sub p a) d / dot d d) := by
  have hdd : 0 < dot d d := by
    rw [dot_eq]
    apply Finset.sum_pos'
    · intro i _; exact mul_self_nonneg _
    · obtain ⟨i, hi⟩ := Function.ne_iff.mp hd
      exact ⟨i, Finset.mem_univ i, mul_self_pos.mpr hi⟩
  have hdist : distance p (add a (mulS d t)) = length (sub (add a (mulS d t)) p) := by
    rw [distance, (length_sq _).2.1, length_norm]
  rw [hdist]
  have h1 := (length_sq (cross (sub p a) d)).2.2
  have h2 := (length_sq (sub (add a (mulS d t)) p)).2.2
  have h3 := (length_sq d).2.2
  have key : (length (sub (add a (mulS d t)) p) * length d) ^ 2 =
      length (cross (sub p a) d) ^ 2 + (dot (sub p a) d - t * dot d d) ^ 2 := by
    rw [mul_pow, h1.1, h2.1, h3.1]
    simp only [sub_eq, add_eq, mulS_eq]
    simp [dot_eq, Fin.sum_univ_three, cross]
    ring
  have hpos : 0 ≤ length (sub (add a (mulS d t)) p) * length d := mul_nonneg h2.2 h3.2
  constructor
  · apply (sq_le_sq₀ h1.2 hpos).mp
    rw [key]; nlinarith [sq_nonneg (dot (sub p a) d - t * dot d d)]
  · rw [eq_div_iff hdd.ne']
    constructor
    · intro h
      rw [← h] at key
      have : (dot (sub p a) d - t * dot d d) ^ 2 = 0 := by linarith
      have := pow_eq_zero_iff (two_ne_zero) |>.mp this
      linarith
    · intro h
      rw [h] at key
      have : length (cross (sub p a) d) ^ 2 = (length (sub (add a (mulS d t)) p) * length d) ^ 2 := by
        rw [key]; ring
      exact (sq_eq_sq₀ h1.2 hpos).mp this

example : (![0, 0, 2] : Vec ℝ 3) ≠ 0 := fun h => by simpa using congrFun h 2

end Verif.Math
