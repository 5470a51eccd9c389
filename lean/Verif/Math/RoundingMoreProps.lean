import Verif.Math.RoundingProps
import Verif.Math.MatrixProps
import Verif.Math.ConstantsProps
import Verif.Math.Trigonometry

/-!
Rounding errors of determinants, quaternion products, reflections, translations, rotations, of the
constants and of the conversions between degrees and radians.
-/

set_option autoImplicit false

namespace Verif.Math

variable {R : Rounding} {n : Nat}

/-- The real matrix that a floating-point matrix represents. -/
def valM {c r : Nat} (m : Mat (FP R) c r) : Mat ℝ c r := fun i j => (m i j).val

/-! ### C85: determinants, quaternions, transformations -/

/-- C85. Determinants of matrices with entries of magnitude at most `B`. -/
theorem fp_determinant_error (B : ℝ) :
    (∀ m : Mat (FP R) 2 2, (∀ i j, |(m i j).val| ≤ B) →
      |(det2 m).val - Matrix.det (Matrix.of (valM m))| ≤ ((1 + R.u) ^ 2 - 1) * (2 * B ^ 2)) ∧
    (∀ m : Mat (FP R) 3 3, (∀ i j, |(m i j).val| ≤ B) →
      |(det3 m).val - Matrix.det (Matrix.of (valM m))| ≤ ((1 + R.u) ^ 5 - 1) * (6 * B ^ 3)) ∧
    (∀ m : Mat (FP R) 4 4, (∀ i j, |(m i j).val| ≤ B) →
      |(det4 m).val - Matrix.det (Matrix.of (valM m))| ≤ ((1 + R.u) ^ 9 - 1) * (24 * B ^ 4)) := by
  have hT : ∀ {k : Nat} (m : Mat ℝ k k), Matrix.det (Matrix.of m) = (toM m).det := by
    intro k m; rw [← Matrix.det_transpose]; rfl
  obtain ⟨d2, d3, d4⟩ := determinant_correct (T := ℝ)
  have leaf : ∀ {k : Nat} (m : Mat (FP R) k k), (∀ i j, |(m i j).val| ≤ B) → ∀ i j,
      Approx (m i j) (m i j).val B 0 := fun m h i j => (Approx.exact _).mono le_rfl (h i j)
  refine ⟨fun m h => ?_, fun m h => ?_, fun m h => ?_⟩
  · have L := leaf m h
    rw [hT, ← d2]
    have := (((L 0 0).mul (L 1 1)).sub ((L 1 0).mul (L 0 1))).err
    rw [show B * B + B * B = 2 * B ^ 2 by ring] at this
    exact this
  · have L := leaf m h
    rw [hT, ← d3]
    have cf : ∀ i j k l i' j' k' l', Approx (m i j * m k l - m i' j' * m k' l')
        ((m i j).val * (m k l).val - (m i' j').val * (m k' l').val) (B * B + B * B) 2 :=
      fun i j k l i' j' k' l' => ((L i j).mul (L k l)).sub ((L i' j').mul (L k' l'))
    have := ((((L 0 0).mul (cf 1 1 2 2 2 1 1 2)).sub ((L 1 0).mul (cf 0 1 2 2 2 1 0 2))).add
      (((L 2 0).mul (cf 0 1 1 2 1 1 0 2)).mono (by omega : 0 + 2 + 1 ≤ 0 + 2 + 1 + 1) le_rfl)).err
    rw [show B * (B * B + B * B) + B * (B * B + B * B) + B * (B * B + B * B) = 6 * B ^ 3 by ring] at this
    exact this
  · have L := leaf m h
    rw [hT, ← d4]
    have cf : ∀ i j k l i' j' k' l', Approx (m i j * m k l - m i' j' * m k' l')
        ((m i j).val * (m k l).val - (m i' j').val * (m k' l').val) (B * B + B * B) 2 :=
      fun i j k l i' j' k' l' => ((L i j).mul (L k l)).sub ((L i' j').mul (L k' l'))
    have c01 := cf 0 2 1 3 1 2 0 3
    have c12 := cf 1 2 2 3 2 2 1 3
    have c23 := cf 2 2 3 3 3 2 2 3
    have c02 := cf 0 2 2 3 2 2 0 3
    have c03 := cf 0 2 3 3 3 2 0 3
    have c13 := cf 1 2 3 3 3 2 1 3
    have three : ∀ {a b c x y z : FP R} {ex ey ez ea eb ec : ℝ},
        Approx a ea B 0 → Approx b eb B 0 → Approx c ec B 0 →
        Approx x ex (B * B + B * B) 2 → Approx y ey (B * B + B * B) 2 → Approx z ez (B * B + B * B) 2 →
        Approx ((a * x) - (b * y) + (c * z)) ((ea * ex) - (eb * ey) + (ec * ez)) (6 * B ^ 3) 5 := by
      intro a b c x y z ex ey ez ea eb ec ha hb hc hx hy hz
      have := ((ha.mul hx).sub (hb.mul hy)).add ((hc.mul hz).mono (by omega : 0 + 2 + 1 ≤ 0 + 2 + 1 + 1) le_rfl)
      rw [show B * (B * B + B * B) + B * (B * B + B * B) + B * (B * B + B * B) = 6 * B ^ 3 by ring] at this
      exact this
    have f0 := (L 0 0).mul (three (L 1 1) (L 2 1) (L 3 1) c23 c13 c12)
    have f1 := (L 1 0).mul (three (L 0 1) (L 2 1) (L 3 1) c23 c03 c02)
    have f2 := (L 2 0).mul (three (L 0 1) (L 1 1) (L 3 1) c13 c03 c01)
    have f3 := (L 3 0).mul (three (L 0 1) (L 1 1) (L 2 1) c12 c02 c01)
    have := (((f0.sub f1).add (f2.mono (by omega : 0 + 5 + 1 ≤ 0 + 5 + 1 + 1) le_rfl)).sub
      (f3.mono (by omega : 0 + 5 + 1 ≤ 0 + 5 + 1 + 1 + 1) le_rfl)).err
    rw [show B * (6 * B ^ 3) + B * (6 * B ^ 3) + B * (6 * B ^ 3) + B * (6 * B ^ 3) = 24 * B ^ 4 by ring] at this
    exact this

/-- The real quaternion that a quaternion of floating-point numbers represents. -/
def valQ (q : Quat (FP R)) : Quaternion ℝ := ⟨q.w.val, q.x.val, q.y.val, q.z.val⟩

/-- C85. Each coordinate of a quaternion product is within `((1+u)⁴ - 1) |p| |q|` of the exact (Hamilton)
product, each coordinate of a sum or difference within one rounding. -/
theorem fp_quaternion_error (p q : Quat (FP R)) :
    (∀ f : Quaternion ℝ → ℝ,
      f = QuaternionAlgebra.re ∨ f = QuaternionAlgebra.imI ∨ f = QuaternionAlgebra.imJ ∨ f = QuaternionAlgebra.imK →
      |f (valQ (p.mul q)) - f (valQ p * valQ q)| ≤ ((1 + R.u) ^ 4 - 1) *
        (√(p.w.val ^ 2 + p.x.val ^ 2 + p.y.val ^ 2 + p.z.val ^ 2) *
         √(q.w.val ^ 2 + q.x.val ^ 2 + q.y.val ^ 2 + q.z.val ^ 2)) ∧
      |f (valQ (p.add q)) - f (valQ p + valQ q)| ≤ R.u * |f (valQ p + valQ q)| ∧
      |f (valQ (p.sub q)) - f (valQ p - valQ q)| ≤ R.u * |f (valQ p - valQ q)|) := by
  -- Cauchy's inequality for four terms
  have cauchy : ∀ a b c d a' b' c' d' : ℝ, a * a' + b * b' + c * c' + d * d' ≤
      √(a ^ 2 + b ^ 2 + c ^ 2 + d ^ 2) * √(a' ^ 2 + b' ^ 2 + c' ^ 2 + d' ^ 2) := by
    intro a b c d a' b' c' d'
    rw [← Real.sqrt_mul (by positivity)]
    refine Real.le_sqrt_of_sq_le ?_
    nlinarith [sq_nonneg (a * b' - b * a'), sq_nonneg (a * c' - c * a'), sq_nonneg (a * d' - d * a'),
      sq_nonneg (b * c' - c * b'), sq_nonneg (b * d' - d * b'), sq_nonneg (c * d' - d * c')]
  have p1 := Approx.pow_ge R 4
  have E := fun x : FP R => Approx.exact x
  have M := fun x y : FP R => (E x).mul (E y)
  -- the bound of a coordinate, whatever the order of the terms
  have bound : ∀ (x : FP R) (e : ℝ) (a b c d a' b' c' d' S T : ℝ),
      Approx x e (|a| * |a'| + |b| * |b'| + |c| * |c'| + |d| * |d'|) 4 →
      S = a ^ 2 + b ^ 2 + c ^ 2 + d ^ 2 → T = a' ^ 2 + b' ^ 2 + c' ^ 2 + d' ^ 2 →
      |x.val - e| ≤ ((1 + R.u) ^ 4 - 1) * (√S * √T) := by
    intro x e a b c d a' b' c' d' S T h hS hT
    refine h.err.trans (mul_le_mul_of_nonneg_left ?_ (by linarith))
    have := cauchy |a| |b| |c| |d| |a'| |b'| |c'| |d'|
    simp only [sq_abs] at this
    rw [hS, hT]; exact this
  have m2 : 0 + 0 + 1 ≤ 0 + 0 + 1 + 1 := by omega
  have m3 : 0 + 0 + 1 ≤ 0 + 0 + 1 + 1 + 1 := by omega
  have hw := ((((M p.w q.w).sub (M p.x q.x)).sub ((M p.y q.y).mono m2 le_rfl)).sub ((M p.z q.z).mono m3 le_rfl))
  have hx := ((((M p.x q.w).add (M p.w q.x)).add ((M p.y q.z).mono m2 le_rfl)).sub ((M p.z q.y).mono m3 le_rfl))
  have hy := ((((M p.w q.y).sub (M p.x q.z)).add ((M p.y q.w).mono m2 le_rfl)).add ((M p.z q.x).mono m3 le_rfl))
  have hz := ((((M p.w q.z).add (M p.x q.y)).sub ((M p.y q.x).mono m2 le_rfl)).add ((M p.z q.w).mono m3 le_rfl))
  rintro f (rfl | rfl | rfl | rfl)
  · refine ⟨?_, R.err _, R.err _⟩
    have := bound _ _ _ _ _ _ _ _ _ _ (p.w.val ^ 2 + p.x.val ^ 2 + p.y.val ^ 2 + p.z.val ^ 2)
      (q.w.val ^ 2 + q.x.val ^ 2 + q.y.val ^ 2 + q.z.val ^ 2) hw rfl rfl
    have e : (valQ p * valQ q).re = p.w.val * q.w.val - p.x.val * q.x.val - p.y.val * q.y.val - p.z.val * q.z.val := by
      rw [Quaternion.re_mul]; rfl
    rw [e]; exact this
  · refine ⟨?_, R.err _, R.err _⟩
    have := bound _ _ _ _ _ _ _ _ _ _ (p.w.val ^ 2 + p.x.val ^ 2 + p.y.val ^ 2 + p.z.val ^ 2)
      (q.w.val ^ 2 + q.x.val ^ 2 + q.y.val ^ 2 + q.z.val ^ 2) hx (by ring) (by ring)
    have e : (valQ p * valQ q).imI = p.x.val * q.w.val + p.w.val * q.x.val + p.y.val * q.z.val - p.z.val * q.y.val := by
      rw [Quaternion.imI_mul]; simp only [valQ]; ring
    rw [e]; exact this
  · refine ⟨?_, R.err _, R.err _⟩
    have := bound _ _ _ _ _ _ _ _ _ _ (p.w.val ^ 2 + p.x.val ^ 2 + p.y.val ^ 2 + p.z.val ^ 2)
      (q.w.val ^ 2 + q.x.val ^ 2 + q.y.val ^ 2 + q.z.val ^ 2) hy (by ring) (by ring)
    have e : (valQ p * valQ q).imJ = p.w.val * q.y.val - p.x.val * q.z.val + p.y.val * q.w.val + p.z.val * q.x.val := by
      rw [Quaternion.imJ_mul]; rfl
    rw [e]; exact this
  · refine ⟨?_, R.err _, R.err _⟩
    have := bound _ _ _ _ _ _ _ _ _ _ (p.w.val ^ 2 + p.x.val ^ 2 + p.y.val ^ 2 + p.z.val ^ 2)
      (q.w.val ^ 2 + q.x.val ^ 2 + q.y.val ^ 2 + q.z.val ^ 2) hz (by ring) (by ring)
    have e : (valQ p * valQ q).imK = p.w.val * q.z.val + p.x.val * q.y.val - p.y.val * q.x.val + p.z.val * q.w.val := by
      rw [Quaternion.imK_mul]; rfl
    rw [e]; exact this

/-- C85. `reflect`: the error of a component. -/
theorem fp_reflect_error (v k : Vec (FP R) n) (i : Fin n) :
    |(reflect v k i).val - ((v i).val - 2 * (∑ j, (v j).val * (k j).val) * (k i).val)| ≤
      ((1 + R.u) ^ (n + 2) - 1) * (|(v i).val| + 2 * (∑ j, |(v j).val * (k j).val|) * |(k i).val|) := by
  have h := ((Approx.exact (v i)).mono (by omega : 0 ≤ 0 + n + 1) le_rfl).sub
    ((Approx.exact (k i)).mul (Approx.dot v k)).two
  have := h.err
  simp only [reflect, sub, mulS, vecOp_apply, vecOpS_apply]
  rw [show (v i).val - 2 * (∑ j, (v j).val * (k j).val) * (k i).val =
      (v i).val - (k i).val * (∑ j, (v j).val * (k j).val) * 2 by ring,
    show n + 2 = 0 + n + 1 + 1 by ring,
    show |(v i).val| + 2 * (∑ j, |(v j).val * (k j).val|) * |(k i).val| =
      |(v i).val| + |(k i).val| * (∑ j, |(v j).val * (k j).val|) * 2 by ring]
  exact this

/-- C85. `translate` and `scale`: the error of each entry. -/
theorem fp_translate_scale_error (m : Mat (FP R) 4 4) (v : Vec (FP R) 3) (j : Fin 4) :
    (∀ i, i ≠ 3 → translate m v i = m i) ∧
    |(translate m v 3 j).val -
        ((m 0 j).val * (v 0).val + (m 1 j).val * (v 1).val + (m 2 j).val * (v 2).val + (m 3 j).val)| ≤
      ((1 + R.u) ^ 4 - 1) *
        (|(m 0 j).val * (v 0).val| + |(m 1 j).val * (v 1).val| + |(m 2 j).val * (v 2).val| + |(m 3 j).val|) ∧
    (∀ i : Fin 3, |(scale m v i.castSucc j).val - (m i.castSucc j).val * (v i).val| ≤
      R.u * |(m i.castSucc j).val * (v i).val|) ∧ scale m v 3 = m 3 := by
  have E := fun x : FP R => Approx.exact x
  refine ⟨?_, ?_, ?_, rfl⟩
  · intro i hi
    unfold translate
    fin_cases i
    · rfl
    · rfl
    · rfl
    · exact absurd rfl hi
  · have h := (((((E (m 0 j)).mul (E (v 0))).add ((E (m 1 j)).mul (E (v 1)))).add
      (((E (m 2 j)).mul (E (v 2))).mono (by omega : 0 + 0 + 1 ≤ 0 + 0 + 1 + 1) le_rfl)).add
      ((E (m 3 j)).mono (by omega : 0 ≤ 0 + 0 + 1 + 1 + 1) le_rfl)).err
    have e : translate m v 3 j = m 0 j * v 0 + m 1 j * v 1 + m 2 j * v 2 + m 3 j := by
      simp [translate, add, mulS, vecOp_apply, vecOpS_apply]
    rw [e, abs_mul, abs_mul, abs_mul]
    exact h
  · intro i
    have e : scale m v i.castSucc j = m i.castSucc j * v i := by
      fin_cases i <;> simp [scale, mulS, vecOpS_apply]
    rw [e]; exact R.err _

/-- The entries of `rotate`, whatever the arithmetic. -/
theorem rotate_entries {T : Type} [Zero T] [One T] [Add T] [Sub T] [Mul T] [MathFns T] (m : Mat T 4 4) (a : T)
    (k : Vec T 3) (j : Fin 4) :
    let s := MathFns.sin a
    let c := MathFns.cos a
    let t := fun i => k i * (1 - c)
    rotate m a k 0 j = m 0 j * (c + t 0 * k 0) + m 1 j * (t 0 * k 1 + s * k 2) + m 2 j * (t 0 * k 2 - s * k 1) ∧
    rotate m a k 1 j = m 0 j * (t 1 * k 0 - s * k 2) + m 1 j * (c + t 1 * k 1) + m 2 j * (t 1 * k 2 + s * k 0) ∧
    rotate m a k 2 j = m 0 j * (t 2 * k 0 + s * k 1) + m 1 j * (t 2 * k 1 - s * k 0) + m 2 j * (c + t 2 * k 2) ∧
    rotate m a k 3 j = m 3 j := by
  unfold rotate rotateWith
  refine ⟨?_, ?_, ?_, ?_⟩ <;> simp [add, mulS, vecOp_apply, vecOpS_apply, store2_apply]

/-- C85. `rotate` about an axis with coordinates of magnitude at most 1, with a library whose `sin` and `cos`
are within `(1+u)^k - 1` of the true values: the distance of each entry from that of the exact rotation. -/
theorem fp_rotate_error [Libm R] (m : Mat (FP R) 4 4) (angle : FP R) (axis : Vec (FP R) 3) (k : Nat)
    (hs : |(Libm.sin angle).val - Real.sin angle.val| ≤ (1 + R.u) ^ k - 1)
    (hc : |(Libm.cos angle).val - Real.cos angle.val| ≤ (1 + R.u) ^ k - 1)
    (ha : ∀ i, |(axis i).val| ≤ 1) (i j : Fin 4) :
    (i ≠ 3 → |(rotate m angle axis i j).val - rotate (valM m) angle.val (fun i => (axis i).val) i j| ≤
      ((1 + R.u) ^ (k + 7) - 1) * (3 * (|(m 0 j).val| + |(m 1 j).val| + |(m 2 j).val|))) ∧
    (rotate m angle axis 3 j = m 3 j) := by
  have S : Approx (MathFns.sin angle) (Real.sin angle.val) 1 k := ⟨by rw [mul_one]; exact hs, Real.abs_sin_le_one _⟩
  have C : Approx (MathFns.cos angle) (Real.cos angle.val) 1 k := ⟨by rw [mul_one]; exact hc, Real.abs_cos_le_one _⟩
  have A : ∀ i, Approx (axis i) (axis i).val 1 0 := fun i => (Approx.exact _).mono le_rfl (ha i)
  have one : Approx (1 : FP R) 1 1 k := by
    refine ⟨?_, by simp⟩
    rw [FP.val_one]; simpa using Approx.pow_ge R k
  have T : ∀ i, Approx (axis i * (1 - MathFns.cos angle)) ((axis i).val * (1 - Real.cos angle.val)) 2 (k + 2) := by
    intro i
    exact ((A i).mul (one.sub C)).mono (by omega) (by norm_num)
  have TT : ∀ i l, Approx (axis i * (1 - MathFns.cos angle) * axis l)
      ((axis i).val * (1 - Real.cos angle.val) * (axis l).val) 2 (k + 3) :=
    fun i l => ((T i).mul (A l)).mono (by omega) (by norm_num)
  have SA : ∀ i, Approx (MathFns.sin angle * axis i) (Real.sin angle.val * (axis i).val) 1 (k + 3) :=
    fun i => (S.mul (A i)).mono (by omega) (by norm_num)
  have D : ∀ i, Approx (MathFns.cos angle + axis i * (1 - MathFns.cos angle) * axis i)
      (Real.cos angle.val + (axis i).val * (1 - Real.cos angle.val) * (axis i).val) 3 (k + 4) :=
    fun i => ((C.mono (by omega : k ≤ k + 3) le_rfl).add (TT i i)).mono le_rfl (by norm_num)
  have P : ∀ i l o, Approx (axis i * (1 - MathFns.cos angle) * axis l + MathFns.sin angle * axis o)
      ((axis i).val * (1 - Real.cos angle.val) * (axis l).val + Real.sin angle.val * (axis o).val) 3 (k + 4) :=
    fun i l o => ((TT i l).add (SA o)).mono le_rfl (by norm_num)
  have Q : ∀ i l o, Approx (axis i * (1 - MathFns.cos angle) * axis l - MathFns.sin angle * axis o)
      ((axis i).val * (1 - Real.cos angle.val) * (axis l).val - Real.sin angle.val * (axis o).val) 3 (k + 4) :=
    fun i l o => ((TT i l).sub (SA o)).mono le_rfl (by norm_num)
  have three : ∀ {x y z : FP R} {ex ey ez : ℝ}, Approx x ex 3 (k + 4) → Approx y ey 3 (k + 4) →
      Approx z ez 3 (k + 4) →
      |(m 0 j * x + m 1 j * y + m 2 j * z).val - ((m 0 j).val * ex + (m 1 j).val * ey + (m 2 j).val * ez)| ≤
        ((1 + R.u) ^ (k + 7) - 1) * (3 * (|(m 0 j).val| + |(m 1 j).val| + |(m 2 j).val|)) := by
    intro x y z ex ey ez hx hy hz
    have M : ∀ {w : FP R} {e : ℝ} (l : Fin 4), Approx w e 3 (k + 4) →
        Approx (m l j * w) ((m l j).val * e) (|(m l j).val| * 3) (k + 5) :=
      fun l h => ((Approx.exact (m l j)).mul h).mono (by omega) le_rfl
    have := (((M 0 hx).add (M 1 hy)).add ((M 2 hz).mono (by omega : k + 5 ≤ k + 5 + 1) le_rfl)).err
    rw [show 3 * (|(m 0 j).val| + |(m 1 j).val| + |(m 2 j).val|) =
      |(m 0 j).val| * 3 + |(m 1 j).val| * 3 + |(m 2 j).val| * 3 by ring]
    exact this
  obtain ⟨h0, h1, h2, h3⟩ := rotate_entries m angle axis j
  obtain ⟨g0, g1, g2, -⟩ := rotate_entries (valM m) angle.val (fun i => (axis i).val) j
  refine ⟨fun hi => ?_, h3⟩
  fin_cases i
  · simp only [Fin.zero_eta, Fin.isValue]
    rw [h0, g0]; exact three (D 0) (P 0 1 2) (Q 0 2 1)
  · simp only [Fin.mk_one, Fin.isValue]
    rw [h1, g1]; exact three (Q 1 0 2) (D 1) (P 1 2 0)
  · simp only [Fin.reduceFinMk]
    rw [h2, g2]; exact three (P 2 0 1) (Q 2 1 0) (D 2)
  · exact absurd rfl hi

/-- C85: a library that meets the hypotheses of `fp_rotate_error`, for any angle: the correctly rounded one. -/
example (R : Rounding) (angle : FP R) :
    |(Libm.sin angle).val - Real.sin angle.val| ≤ (1 + R.u) ^ 1 - 1 ∧
    |(Libm.cos angle).val - Real.cos angle.val| ≤ (1 + R.u) ^ 1 - 1 := by
  rw [pow_one, add_sub_cancel_left]
  constructor
  · refine (R.err _).trans ?_
    have := mul_le_mul_of_nonneg_left (Real.abs_sin_le_one angle.val) R.u_nonneg
    linarith
  · refine (R.err _).trans ?_
    have := mul_le_mul_of_nonneg_left (Real.abs_cos_le_one angle.val) R.u_nonneg
    linarith

/-! ### C86: constants and angles -/

/-- C86. A constant of the library as a number of the type: `L` is the format of `long double`.  Each of the
constants meets the hypothesis, by the theorems of C77. -/
theorem fp_constant_error (L : Rounding) (lit : ℚ) (x : ℝ) (h : Const.Near lit x) :
    |(constantOf L R lit).val - x| ≤ ((1 + R.u) * (1 + L.u) * (1 + 2⁻¹ ^ 64) - 1) * |x| := by
  unfold Const.Near at h
  have h1 := R.err (L.rnd lit)
  have h2 := L.err lit
  have hx := abs_nonneg x
  have u0 := R.u_nonneg
  have u1 := L.u_nonneg
  set d : ℝ := 2⁻¹ ^ 64
  have hd : 0 ≤ d := by positivity
  have a1 : |(lit : ℝ)| ≤ (1 + d) * |x| := by
    have := abs_sub_abs_le_abs_sub (lit : ℝ) x; linarith
  have a2 : |L.rnd lit| ≤ (1 + L.u) * ((1 + d) * |x|) := by
    have := abs_sub_abs_le_abs_sub (L.rnd lit) (lit : ℝ)
    nlinarith
  have a3 : |R.rnd (L.rnd lit) - x| ≤ |R.rnd (L.rnd lit) - L.rnd lit| + |L.rnd lit - lit| + |(lit : ℝ) - x| := by
    have b1 := abs_add_le (R.rnd (L.rnd lit) - L.rnd lit + (L.rnd lit - lit)) ((lit : ℝ) - x)
    have b2 := abs_add_le (R.rnd (L.rnd lit) - L.rnd lit) (L.rnd lit - lit)
    rw [show R.rnd (L.rnd lit) - L.rnd lit + (L.rnd lit - lit) + ((lit : ℝ) - x) = R.rnd (L.rnd lit) - x by ring] at b1
    linarith
  have a4 : R.u * |L.rnd lit| ≤ R.u * ((1 + L.u) * ((1 + d) * |x|)) := mul_le_mul_of_nonneg_left a2 u0
  have a5 : L.u * |(lit : ℝ)| ≤ L.u * ((1 + d) * |x|) := mul_le_mul_of_nonneg_left a1 u1
  change |R.rnd (L.rnd lit) - x| ≤ _
  nlinarith

/-- A relative error, as a factor. -/
theorem rel_factor {a e d : ℝ} (h : |a - e| ≤ d * |e|) (he : e ≠ 0) : ∃ t, |t| ≤ d ∧ a = e * (1 + t) := by
  refine ⟨(a - e) / e, ?_, by field_simp; ring⟩
  rw [abs_div, div_le_iff₀ (abs_pos.mpr he)]; exact h

/-- C86. `radians` and `degrees`: with a π accurate to the relative error `d`, two roundings more. -/
theorem fp_angle_error (pi c180 x : FP R) (d : ℝ) (hd : d < 1) (hpi : |pi.val - Real.pi| ≤ d * Real.pi)
    (h180 : c180.val = 180) :
    |(Trig.radiansOf pi c180 x).val - x.val * Real.pi / 180| ≤
      ((1 + R.u) ^ 2 * (1 + d) - 1) * |x.val * Real.pi / 180| ∧
    |(Trig.degreesOf pi c180 x).val - x.val * 180 / Real.pi| ≤
      ((1 + R.u) ^ 2 / (1 - d) - 1) * |x.val * 180 / Real.pi| := by
  have u0 := R.u_nonneg
  have hp := Real.pi_pos
  have hd0 : 0 ≤ d := by
    have := abs_nonneg (pi.val - Real.pi); nlinarith
  obtain ⟨t, ht, htpi⟩ := rel_factor (a := pi.val) (e := Real.pi) (d := d) (by rwa [abs_of_pos hp]) hp.ne'
  obtain ⟨ht1, ht2⟩ := abs_le.mp ht
  have htpos : 0 < 1 + t := by linarith
  have fact : ∀ z : ℝ, ∃ s, |s| ≤ R.u ∧ R.rnd z = z * (1 + s) := by
    intro z
    by_cases hz : z = 0
    · exact ⟨0, by simpa using u0, by rw [hz, R.zero]; ring⟩
    · exact rel_factor (R.err z) hz
  -- two factors `1 + s` and one between `lo` and `hi`
  have comb : ∀ (e s1 s2 f hi : ℝ), |s1| ≤ R.u → |s2| ≤ R.u → 0 < f → f ≤ hi → 1 ≤ hi → 2 - hi ≤ f →
      |e * (f * (1 + s1)) * (1 + s2) - e| ≤ ((1 + R.u) ^ 2 * hi - 1) * |e| := by
    intro e s1 s2 f hi h1 h2 hf hfh hhi hlo
    obtain ⟨a1, a2⟩ := abs_le.mp h1
    obtain ⟨b1, b2⟩ := abs_le.mp h2
    have ul := R.u_lt
    rw [show e * (f * (1 + s1)) * (1 + s2) - e = (f * ((1 + s1) * (1 + s2)) - 1) * e by ring, abs_mul]
    refine mul_le_mul_of_nonneg_right ?_ (abs_nonneg _)
    have c1 : (1 + s1) * (1 + s2) ≤ (1 + R.u) ^ 2 := by nlinarith
    have c2 : (1 - R.u) ^ 2 ≤ (1 + s1) * (1 + s2) := by nlinarith
    have c3 : 0 < (1 - R.u) ^ 2 := by have : 0 < 1 - R.u := by linarith
                                      positivity
    rw [abs_le]
    constructor
    · have e1 : f * (1 - R.u) ^ 2 ≤ f * ((1 + s1) * (1 + s2)) := mul_le_mul_of_nonneg_left c2 hf.le
      have e2 : 2 - (1 + R.u) ^ 2 * hi ≤ f * (1 - R.u) ^ 2 := by
        by_cases h2 : 2 - hi ≤ 0
        · have : 2 ≤ (1 + R.u) ^ 2 * hi := by nlinarith
          have : 0 < f * (1 - R.u) ^ 2 := mul_pos hf c3
          linarith
        · have e3 : (2 - hi) * (1 - R.u) ^ 2 ≤ f * (1 - R.u) ^ 2 := mul_le_mul_of_nonneg_right hlo c3.le
          nlinarith
      linarith
    · have e1 : f * ((1 + s1) * (1 + s2)) ≤ hi * (1 + R.u) ^ 2 := by
        refine (mul_le_mul_of_nonneg_left c1 hf.le).trans ?_
        exact mul_le_mul_of_nonneg_right hfh (by positivity)
      linarith
  constructor
  · obtain ⟨s1, h1, q1⟩ := fact (pi.val / c180.val)
    obtain ⟨s2, h2, q2⟩ := fact (x.val * R.rnd (pi.val / c180.val))
    change |R.rnd (x.val * R.rnd (pi.val / c180.val)) - _| ≤ _
    have := comb (x.val * Real.pi / 180) s1 s2 (1 + t) (1 + d) h1 h2 htpos (by linarith) (by linarith) (by linarith)
    rw [q2, q1, h180, htpi]
    rw [show x.val * (Real.pi * (1 + t) / 180 * (1 + s1)) * (1 + s2) =
      x.val * Real.pi / 180 * ((1 + t) * (1 + s1)) * (1 + s2) by ring]
    exact this
  · obtain ⟨s1, h1, q1⟩ := fact (c180.val / pi.val)
    obtain ⟨s2, h2, q2⟩ := fact (x.val * R.rnd (c180.val / pi.val))
    change |R.rnd (x.val * R.rnd (c180.val / pi.val)) - _| ≤ _
    have hdp : 0 < 1 - d := by linarith
    have := comb (x.val * 180 / Real.pi) s1 s2 (1 / (1 + t)) (1 / (1 - d)) h1 h2 (by positivity)
      (one_div_le_one_div_of_le hdp (by linarith)) (by rw [le_div_iff₀ hdp]; linarith)
      (by
        have w1 : 1 - d ≤ 1 / (1 + t) := by rw [le_div_iff₀ htpos]; nlinarith
        have w2 : 1 + d ≤ 1 / (1 - d) := by rw [le_div_iff₀ hdp]; nlinarith
        linarith)
    rw [q2, q1, h180, htpi]
    rw [show x.val * (180 / (Real.pi * (1 + t)) * (1 + s1)) * (1 + s2) =
      x.val * 180 / Real.pi * (1 / (1 + t) * (1 + s1)) * (1 + s2) by field_simp]
    rw [show ((1 + R.u) ^ 2 / (1 - d) - 1) = ((1 + R.u) ^ 2 * (1 / (1 - d)) - 1) by ring]
    exact this

end Verif.Math
