import Verif.Math.Precision
import Verif.Math.RoundingMoreProps
import Verif.Math.FloatMixedProps
import Mathlib.Analysis.Real.Pi.Bounds

/-!
C143: operations between matrices, quaternions and axes of different floating-point types.
-/

set_option autoImplicit false

namespace Verif.Math

variable {R Q C A : Rounding}

/-! ### Conversions -/

theorem conv_val (x : FP R) : (x.conv Q).val = Q.rnd x.val := rfl

theorem conv_self (x : FP R) : x.conv R = x := FP.ext x.rep

theorem Common.convLeft (h : Common R Q C) (x : FP R) : (x.conv C).val = x.val := h.left x

theorem Common.convRight (h : Common R Q C) (x : FP Q) : (x.conv C).val = x.val := h.right x

theorem conv_conv (h : Common R Q C) (x : FP R) : (x.conv C).conv R = x := by
  apply FP.ext; rw [conv_val, h.convLeft, x.rep]

theorem quatConv_self (q : Quat (FP R)) : q.conv R = q := by
  unfold Quat.conv; simp only [conv_self]

/-- The values of a narrower format are values of a wider one. -/
theorem roundTo_of_le {p q : Nat} (h : p ≤ q) {z : ℝ} (hz : roundTo p z = z) : roundTo q z = z := by
  refine roundTo_exact (rne (z / 2 ^ lastPlace p z) * 2 ^ (q - p)) ?_
  have e : lastPlace p z = ((q - p : Nat) : ℤ) + lastPlace q z := by
    unfold lastPlace; push_cast [h]; ring
  have h1 : z = rne (z / 2 ^ lastPlace p z) * 2 ^ lastPlace p z := hz.symm
  generalize rne (z / 2 ^ lastPlace p z) = N at h1 ⊢
  rw [e, zpow_add₀ (by norm_num : (2 : ℝ) ≠ 0), zpow_natCast] at h1
  push_cast
  rw [mul_assoc]; exact h1

/-- `float` and `double` on the left and right: the common type is `double`. -/
theorem common_of_le {p q : Nat} (hp : 1 ≤ p) (hq : 1 ≤ q) (h : p ≤ q) :
    Common (nearestEven q hq) (nearestEven p hp) (nearestEven q hq) ∧
    Common (nearestEven p hp) (nearestEven q hq) (nearestEven q hq) :=
  ⟨⟨.inl rfl, fun x => x.rep, fun x => roundTo_of_le h x.rep⟩, ⟨.inr rfl, fun x => roundTo_of_le h x.rep, fun x => x.rep⟩⟩

/-! ### Quaternions -/

/-- One more rounding of a number known up to an error. -/
theorem round_again {z e d M : ℝ} (hd : |z - e| ≤ d * M) (he : |e| ≤ M) :
    |R.rnd z - e| ≤ ((1 + R.u) * (1 + d) - 1) * M := by
  have h1 := R.err z
  have h2 := abs_sub_abs_le_abs_sub z e
  have h3 := abs_add_le (R.rnd z - z) (z - e)
  rw [sub_add_sub_cancel] at h3
  have h4 : R.u * |z| ≤ R.u * ((1 + d) * M) := mul_le_mul_of_nonneg_left (by linarith) R.u_nonneg
  nlinarith

/-- A coordinate of a product of quaternions is at most the product of the norms. -/
theorem coordinate_le (p : Quat (FP R)) (q' : Quat (FP Q)) (f : Quaternion ℝ → ℝ)
    (hf : f = QuaternionAlgebra.re ∨ f = QuaternionAlgebra.imI ∨ f = QuaternionAlgebra.imJ ∨ f = QuaternionAlgebra.imK) :
    |f (valQ p * valQ q')| ≤ √(p.w.val ^ 2 + p.x.val ^ 2 + p.y.val ^ 2 + p.z.val ^ 2) *
         √(q'.w.val ^ 2 + q'.x.val ^ 2 + q'.y.val ^ 2 + q'.z.val ^ 2) := by
  rw [← Real.sqrt_mul (by positivity)]
  apply Real.abs_le_sqrt
  have e1 : (valQ p * valQ q').re = p.w.val * q'.w.val - p.x.val * q'.x.val - p.y.val * q'.y.val - p.z.val * q'.z.val := by
    rw [Quaternion.re_mul]; rfl
  have e2 : (valQ p * valQ q').imI = p.w.val * q'.x.val + p.x.val * q'.w.val + p.y.val * q'.z.val - p.z.val * q'.y.val := by
    rw [Quaternion.imI_mul]; rfl
  have e3 : (valQ p * valQ q').imJ = p.w.val * q'.y.val - p.x.val * q'.z.val + p.y.val * q'.w.val + p.z.val * q'.x.val := by
    rw [Quaternion.imJ_mul]; rfl
  have e4 : (valQ p * valQ q').imK = p.w.val * q'.z.val + p.x.val * q'.y.val - p.y.val * q'.x.val + p.z.val * q'.w.val := by
    rw [Quaternion.imK_mul]; rfl
  have four : (valQ p * valQ q').re ^ 2 + (valQ p * valQ q').imI ^ 2 + (valQ p * valQ q').imJ ^ 2 +
      (valQ p * valQ q').imK ^ 2 = (p.w.val ^ 2 + p.x.val ^ 2 + p.y.val ^ 2 + p.z.val ^ 2) *
      (q'.w.val ^ 2 + q'.x.val ^ 2 + q'.y.val ^ 2 + q'.z.val ^ 2) := by
    rw [e1, e2, e3, e4]; ring
  rw [← four]
  have a1 := sq_nonneg (valQ p * valQ q').re
  have a2 := sq_nonneg (valQ p * valQ q').imI
  have a3 := sq_nonneg (valQ p * valQ q').imJ
  have a4 := sq_nonneg (valQ p * valQ q').imK
  rcases hf with rfl | rfl | rfl | rfl <;> linarith

theorem valQ_convLeft (h : Common R Q C) (p : Quat (FP R)) : valQ (p.conv C) = valQ p := by
  unfold valQ Quat.conv; simp only [h.convLeft]; rfl

theorem valQ_convRight (h : Common R Q C) (q : Quat (FP Q)) : valQ (q.conv C) = valQ q := by
  unfold valQ Quat.conv; simp only [h.convRight]; rfl

theorem coordinate_conv (p : Quat (FP C)) (f : Quaternion ℝ → ℝ)
    (hf : f = QuaternionAlgebra.re ∨ f = QuaternionAlgebra.imI ∨ f = QuaternionAlgebra.imJ ∨ f = QuaternionAlgebra.imK) :
    f (valQ (p.conv R)) = R.rnd (f (valQ p)) := by
  rcases hf with rfl | rfl | rfl | rfl <;> rfl

/-- C143. Quaternions of two types: each coordinate of a sum or difference is the exact one up to one rounding of the
wider type and one of the left type, each coordinate of a product up to four roundings of the wider type and one of the
left type. -/
theorem mixed_quaternion_error (h : Common R Q C) (p : Quat (FP R)) (q : Quat (FP Q)) (f : Quaternion ℝ → ℝ)
    (hf : f = QuaternionAlgebra.re ∨ f = QuaternionAlgebra.imI ∨ f = QuaternionAlgebra.imJ ∨ f = QuaternionAlgebra.imK) :
    |f (valQ (p.mulMix C q)) - f (valQ p * valQ q)| ≤ ((1 + R.u) * (1 + C.u) ^ 4 - 1) *
      (√(p.w.val ^ 2 + p.x.val ^ 2 + p.y.val ^ 2 + p.z.val ^ 2) *
       √(q.w.val ^ 2 + q.x.val ^ 2 + q.y.val ^ 2 + q.z.val ^ 2)) ∧
    |f (valQ (p.addMix C q)) - f (valQ p + valQ q)| ≤ ((1 + R.u) * (1 + C.u) - 1) * |f (valQ p + valQ q)| ∧
    |f (valQ (p.subMix C q)) - f (valQ p - valQ q)| ≤ ((1 + R.u) * (1 + C.u) - 1) * |f (valQ p - valQ q)| := by
  obtain ⟨hm, ha, hs⟩ := fp_quaternion_error (p.conv C) (q.conv C) f hf
  rw [valQ_convLeft h, valQ_convRight h] at hm ha hs
  have c1 : (p.conv C).w.val = p.w.val ∧ (p.conv C).x.val = p.x.val ∧ (p.conv C).y.val = p.y.val ∧
      (p.conv C).z.val = p.z.val := ⟨h.convLeft _, h.convLeft _, h.convLeft _, h.convLeft _⟩
  have c2 : (q.conv C).w.val = q.w.val ∧ (q.conv C).x.val = q.x.val ∧ (q.conv C).y.val = q.y.val ∧
      (q.conv C).z.val = q.z.val := ⟨h.convRight _, h.convRight _, h.convRight _, h.convRight _⟩
  rw [c1.1, c1.2.1, c1.2.2.1, c1.2.2.2, c2.1, c2.2.1, c2.2.2.1, c2.2.2.2] at hm
  refine ⟨?_, ?_, ?_⟩
  · have := round_again (R := R) hm (coordinate_le p q f hf)
    rw [add_sub_cancel] at this
    unfold Quat.mulMix; rw [coordinate_conv _ f hf]; exact this
  · unfold Quat.addMix; rw [coordinate_conv _ f hf]; exact round_again ha le_rfl
  · unfold Quat.subMix; rw [coordinate_conv _ f hf]; exact round_again hs le_rfl

/-- C143. If the left type has all values of the right type, then the mixed operations are those of the left type, applied
to the right quaternion with the same coordinates. -/
theorem mixed_quaternion_narrow (h : Common R Q R) (p : Quat (FP R)) (q : Quat (FP Q)) :
    ∃ q' : Quat (FP R), q'.w.val = q.w.val ∧ q'.x.val = q.x.val ∧ q'.y.val = q.y.val ∧ q'.z.val = q.z.val ∧
      p.mulMix R q = p.mul q' ∧ p.addMix R q = p.add q' ∧ p.subMix R q = p.sub q' := by
  refine ⟨q.conv R, h.convRight _, h.convRight _, h.convRight _, h.convRight _, ?_, ?_, ?_⟩
  · unfold Quat.mulMix; rw [quatConv_self, quatConv_self]
  · unfold Quat.addMix; rw [quatConv_self, quatConv_self]
  · unfold Quat.subMix; rw [quatConv_self, quatConv_self]

/-! ### Matrices -/

variable {c r : Nat}

/-- The four forms, and what is computed. -/
theorem matMix_forms (op : ArithOp) (a : Mat (FP R) c r) (b : Mat (FP Q) c r) (s : FP Q) (i : Fin c) (j : Fin r) :
    (matOpMix op a b i j).val = R.rnd (realResult op (a i j).val (R.rnd (b i j).val)) ∧
    (matSelfOpMix op a b i j).val = R.rnd (realResult op (a i j).val (R.rnd (b i j).val)) ∧
    (matOpSMix op a s i j).val = R.rnd (realResult op (a i j).val (R.rnd s.val)) ∧
    (matSelfOpSMix op a s i j).val = R.rnd (realResult op (a i j).val (R.rnd s.val)) := by
  refine ⟨?_, ?_, ?_, ?_⟩
  · unfold matOpMix; rw [matOp_apply, fp_val, conv_val]
  · unfold matSelfOpMix; rw [matSelfOp_apply, fp_val, Option.getD_some, conv_val]
  · unfold matOpSMix; rw [matOpS_apply, fp_val, conv_val]
  · unfold matSelfOpSMix; rw [matSelfOpS_apply, fp_val, conv_val]

/-- C143, as far as it holds. Where the right operand is a value of the left type, each entry is the exact result rounded
once, in place or not. -/
theorem mixed_matrix_partial (op : ArithOp) (a : Mat (FP R) c r) (b : Mat (FP Q) c r) (s : FP Q) (i : Fin c) (j : Fin r) :
    (R.rnd (b i j).val = (b i j).val →
      (matOpMix op a b i j).val = R.rnd (realResult op (a i j).val (b i j).val) ∧
      (matSelfOpMix op a b i j).val = R.rnd (realResult op (a i j).val (b i j).val)) ∧
    (R.rnd s.val = s.val →
      (matOpSMix op a s i j).val = R.rnd (realResult op (a i j).val s.val) ∧
      (matSelfOpSMix op a s i j).val = R.rnd (realResult op (a i j).val s.val)) := by
  obtain ⟨h1, h2, h3, h4⟩ := matMix_forms op a b s i j
  refine ⟨fun h => ?_, fun h => ?_⟩
  · rw [h] at h1 h2; exact ⟨h1, h2⟩
  · rw [h] at h3 h4; exact ⟨h3, h4⟩

/-- C143 fails for matrices: the right operand is rounded to the left type before the operation. For any number that the
left type does not have, there is a matrix for which the sum is 0 although the exact sum is not; the sum of quaternions
with the same numbers is not 0. -/
theorem mixed_matrix_wrong (h : Common R Q Q) (b : FP Q) (hb : R.rnd b.val ≠ b.val) :
    ∃ a : FP R, a.val + b.val ≠ 0 ∧
      (∀ (i : Fin c) (j : Fin r), (matOpMix .add (fun _ _ => a) (fun _ _ => b) i j).val = 0 ∧
        (matSelfOpMix .add (fun _ _ => a) (fun _ _ => b) i j).val = 0) ∧
      (Quat.addMix Q ⟨a, a, a, a⟩ ⟨b, b, b, b⟩).w.val ≠ 0 := by
  have sum : ∀ x : ℝ, x ≠ 0 → ∀ S : Rounding, S.rnd x ≠ 0 := by
    intro x hx S h0
    have := S.err x
    rw [h0, zero_sub, abs_neg] at this
    have hpos := abs_pos.mpr hx
    nlinarith [S.u_lt]
  have hne : - R.rnd b.val + b.val ≠ 0 := fun e => hb (by linarith)
  refine ⟨⟨- R.rnd b.val, by rw [R.odd, R.idem]⟩, hne, fun i j => ?_, ?_⟩
  · obtain ⟨h1, h2, -, -⟩ := matMix_forms .add (fun (_ : Fin c) (_ : Fin r) => (⟨- R.rnd b.val, by rw [R.odd, R.idem]⟩ : FP R))
      (fun _ _ => b) b i j
    rw [h1, h2]
    have : realResult .add (- R.rnd b.val) (R.rnd b.val) = 0 := by
      show - R.rnd b.val + R.rnd b.val = 0
      ring
    simp only [this, R.zero, and_self]
  · refine sum _ (sum _ ?_ Q) R
    show Q.rnd (- R.rnd b.val) + Q.rnd b.val ≠ 0
    have := h.left ⟨- R.rnd b.val, by rw [R.odd, R.idem]⟩
    simp only at this
    rw [this, b.rep]; exact hne

/-- C143. `translate` and `scale` with a vector of another type: within one rounding more than with the same type. -/
theorem mixed_transform_error (m : Mat (FP R) 4 4) (v : Vec (FP Q) 3) (j : Fin 4) :
    |(translateMix m v 3 j).val - translate (valM m) (fun i => (v i).val) 3 j| ≤ ((1 + R.u) ^ 5 - 1) *
      (|(m 0 j).val * (v 0).val| + |(m 1 j).val * (v 1).val| + |(m 2 j).val * (v 2).val| + |(m 3 j).val|) ∧
    (∀ i : Fin 3, translateMix m v i.castSucc j = m i.castSucc j) ∧
    (∀ i : Fin 3, |(scaleMix m v i.castSucc j).val - (m i.castSucc j).val * (v i).val| ≤
      ((1 + R.u) ^ 2 - 1) * |(m i.castSucc j).val * (v i).val|) ∧
    scaleMix m v 3 j = m 3 j := by
  have V : ∀ i, Approx ((v i).conv R) (v i).val |(v i).val| 1 := fun i =>
    Approx.rounded (k := 0) (conv_val (Q := R) (v i)) (by simp) le_rfl
  have P : ∀ (l : Fin 4) (i : Fin 3), Approx (m l j * (v i).conv R) ((m l j).val * (v i).val) |(m l j).val * (v i).val| 2 :=
    fun l i => ((Approx.exact (m l j)).mul (V i)).mono le_rfl (abs_mul _ _).ge
  refine ⟨?_, fun i => ?_, fun i => ?_, ?_⟩
  · have t := (((P 0 0).add (P 1 1)).add ((P 2 2).mono (by omega : 2 ≤ 2 + 1) le_rfl)).add
      ((Approx.exact (m 3 j)).mono (by omega : 0 ≤ 2 + 1 + 1) le_rfl)
    have e1 : translateMix m v 3 j =
        m 0 j * (v 0).conv R + m 1 j * (v 1).conv R + m 2 j * (v 2).conv R + m 3 j := by
      simp [translateMix, translate, add, mulS, vecOp_apply, vecOpS_apply]
    have e2 : translate (valM m) (fun i => (v i).val) 3 j =
        (m 0 j).val * (v 0).val + (m 1 j).val * (v 1).val + (m 2 j).val * (v 2).val + (m 3 j).val := by
      simp [translate, add, mulS, vecOp_apply, vecOpS_apply, valM]
    rw [e1, e2]; exact t.err
  · fin_cases i <;> rfl
  · have e : scaleMix m v i.castSucc j = m i.castSucc j * (v i).conv R := by
      fin_cases i <;> simp [scaleMix, scale, mulS, vecOpS_apply]
    rw [e]; exact (P i.castSucc i).err
  · rfl

/-! ### Rotations -/

/-- `x` is `e` up to `k` roundings with relative error at most `u` of terms with total magnitude `M`. -/
structure Near (u x e M : ℝ) (k : Nat) : Prop where
  err : |x - e| ≤ ((1 + u) ^ k - 1) * M
  mag : |e| ≤ M

namespace Near

variable {u x y e f M N : ℝ} {j k : Nat}

theorem pow_ge (hu : 0 ≤ u) (k : Nat) : (1 : ℝ) ≤ (1 + u) ^ k := one_le_pow₀ (by linarith)

theorem exact (x : ℝ) : Near u x x |x| 0 := ⟨by simp, le_rfl⟩

theorem mono (hu : 0 ≤ u) {k' : Nat} {M' : ℝ} (h : Near u x e M k) (hk : k ≤ k') (hM : M ≤ M') : Near u x e M' k' := by
  have h1 := pow_ge hu k
  have h2 : (1 + u) ^ k ≤ (1 + u) ^ k' := pow_le_pow_right₀ (by linarith) hk
  have hM0 := (abs_nonneg e).trans h.mag
  exact ⟨h.err.trans (mul_le_mul (by linarith) hM hM0 (by linarith)), h.mag.trans hM⟩

theorem round (hu : 0 ≤ u) (h : Near u x e M k) (S : Rounding) (hS : S.u ≤ u) : Near u (S.rnd x) e M (k + 1) := by
  refine ⟨?_, h.mag⟩
  have h1 := S.err x
  have h2 := abs_sub_abs_le_abs_sub x e
  have h3 := abs_add_le (S.rnd x - x) (x - e)
  rw [sub_add_sub_cancel] at h3
  have h0 := h.err
  have h4 : S.u * |x| ≤ u * ((1 + u) ^ k * M) :=
    mul_le_mul hS (by linarith [h.mag]) (abs_nonneg _) hu
  rw [pow_succ]
  linarith

theorem add (h1 : Near u x e M k) (h2 : Near u y f N k) : Near u (x + y) (e + f) (M + N) k := by
  refine ⟨?_, (abs_add_le _ _).trans (add_le_add h1.mag h2.mag)⟩
  rw [show x + y - (e + f) = (x - e) + (y - f) by ring, mul_add]
  exact (abs_add_le _ _).trans (add_le_add h1.err h2.err)

theorem neg (h : Near u x e M k) : Near u (-x) (-e) M k := by
  refine ⟨?_, by rw [abs_neg]; exact h.mag⟩
  rw [← neg_sub', abs_neg]; exact h.err

theorem sub (h1 : Near u x e M k) (h2 : Near u y f N k) : Near u (x - y) (e - f) (M + N) k := by
  rw [sub_eq_add_neg, sub_eq_add_neg]; exact h1.add h2.neg

theorem mul (hu : 0 ≤ u) (h1 : Near u x e M j) (h2 : Near u y f N k) : Near u (x * y) (e * f) (M * N) (j + k) := by
  have p1 := pow_ge hu j
  have p2 := pow_ge hu k
  have hM := (abs_nonneg e).trans h1.mag
  have hN := (abs_nonneg f).trans h2.mag
  have a2 : |y| ≤ (1 + u) ^ k * N := by
    have := abs_sub_abs_le_abs_sub y f
    linarith [h2.err, h2.mag]
  refine ⟨?_, by rw [abs_mul]; exact mul_le_mul h1.mag h2.mag (abs_nonneg _) hM⟩
  rw [show x * y - e * f = (x - e) * y + e * (y - f) by ring]
  refine (abs_add_le _ _).trans ?_
  rw [abs_mul, abs_mul]
  have d1 : |x - e| * |y| ≤ (((1 + u) ^ j - 1) * M) * ((1 + u) ^ k * N) :=
    mul_le_mul h1.err a2 (abs_nonneg _) ((abs_nonneg _).trans h1.err)
  have d2 : |e| * |y - f| ≤ M * (((1 + u) ^ k - 1) * N) := mul_le_mul h1.mag h2.err (abs_nonneg _) hM
  rw [pow_add]
  nlinarith

end Near

/-- The entries of `rotate` with an axis of another type. -/
theorem rotateMix_entries [Libm R] (h : Common R Q C) (m : Mat (FP R) 4 4) (angle : FP A) (n : Vec (FP Q) 3) (j : Fin 4) :
    let s := (Libm.sin (angle.conv R)).val
    let c := (Libm.cos (angle.conv R)).val
    let k := fun i => (n i).val
    let t := fun i => R.rnd (Q.rnd (k i * Q.rnd (R.rnd (1 - c))))
    let D := fun i => R.rnd (C.rnd (c + C.rnd (t i * k i)))
    let P := fun i l o => R.rnd (C.rnd (C.rnd (t i * k l) + C.rnd (s * k o)))
    let M := fun i l o => R.rnd (C.rnd (C.rnd (t i * k l) - C.rnd (s * k o)))
    let row := fun x y z => R.rnd (R.rnd (R.rnd ((m 0 j).val * x) + R.rnd ((m 1 j).val * y)) + R.rnd ((m 2 j).val * z))
    (rotateMix C m angle n 0 j).val = row (D 0) (P 0 1 2) (M 0 2 1) ∧
    (rotateMix C m angle n 1 j).val = row (M 1 0 2) (D 1) (P 1 2 0) ∧
    (rotateMix C m angle n 2 j).val = row (P 2 0 1) (M 2 1 0) (D 2) ∧
    rotateMix C m angle n 3 j = m 3 j := by
  intro s c k t D P M row
  have ht : ∀ i, C.rnd (R.rnd (Q.rnd (k i * Q.rnd (R.rnd (1 - c))))) = t i := fun i =>
    h.left (.round R (Q.rnd (k i * Q.rnd (R.rnd (1 - c)))))
  have hk : ∀ i, C.rnd (n i).val = k i := fun i => h.right (n i)
  have hs : C.rnd (Libm.sin (angle.conv R)).val = s := h.left _
  have hc : C.rnd (Libm.cos (angle.conv R)).val = c := h.left _
  have row_eq : ∀ x y z : FP R, (m 0 j * x + m 1 j * y + m 2 j * z).val = row x.val y.val z.val := fun _ _ _ => rfl
  have DD : ∀ i, (((MathFns.cos (angle.conv R) : FP R).conv C +
      ((n i * (1 - (MathFns.cos (angle.conv R) : FP R)).conv Q).conv R).conv C * (n i).conv C).conv R).val = D i := by
    intro i
    show R.rnd (C.rnd (C.rnd (Libm.cos (angle.conv R)).val +
      C.rnd (C.rnd (R.rnd (Q.rnd (k i * Q.rnd (R.rnd (1 - c))))) * C.rnd (n i).val))) = D i
    rw [ht, hk, hc]
  have PP : ∀ i l o, ((((n i * (1 - (MathFns.cos (angle.conv R) : FP R)).conv Q).conv R).conv C * (n l).conv C +
      (MathFns.sin (angle.conv R) : FP R).conv C * (n o).conv C).conv R).val = P i l o := by
    intro i l o
    show R.rnd (C.rnd (C.rnd (C.rnd (R.rnd (Q.rnd (k i * Q.rnd (R.rnd (1 - c))))) * C.rnd (n l).val) +
      C.rnd (C.rnd (Libm.sin (angle.conv R)).val * C.rnd (n o).val))) = P i l o
    rw [ht, hk, hk, hs]
  have MM : ∀ i l o, ((((n i * (1 - (MathFns.cos (angle.conv R) : FP R)).conv Q).conv R).conv C * (n l).conv C -
      (MathFns.sin (angle.conv R) : FP R).conv C * (n o).conv C).conv R).val = M i l o := by
    intro i l o
    show R.rnd (C.rnd (C.rnd (C.rnd (R.rnd (Q.rnd (k i * Q.rnd (R.rnd (1 - c))))) * C.rnd (n l).val) -
      C.rnd (C.rnd (Libm.sin (angle.conv R)).val * C.rnd (n o).val))) = M i l o
    rw [ht, hk, hk, hs]
  refine ⟨?_, ?_, ?_, ?_⟩
  · rw [← DD, ← PP, ← MM, ← row_eq]
    unfold rotateMix
    simp [add, mulS, vecOp_apply, vecOpS_apply, store2_apply]
  · rw [← DD, ← PP, ← MM, ← row_eq]
    unfold rotateMix
    simp [add, mulS, vecOp_apply, vecOpS_apply, store2_apply]
  · rw [← DD, ← PP, ← MM, ← row_eq]
    unfold rotateMix
    simp [add, mulS, vecOp_apply, vecOpS_apply, store2_apply]
  · rfl

/-- C143. `rotate` with an axis of another type, coordinates of magnitude at most 1, and a library whose `sin` and `cos`
are within `(1+u)^k - 1` of the true values, where `u` bounds the rounding errors of both types: the distance of each
entry from that of the exact rotation. If the axis' type is at least as precise as the matrix', `u` is the unit of the
matrix' type. -/
theorem mixed_rotate_error [Libm R] (h : Common R Q C) (m : Mat (FP R) 4 4) (angle : FP A) (axis : Vec (FP Q) 3)
    (k : Nat) (u : ℝ) (hR : R.u ≤ u) (hQ : Q.u ≤ u)
    (hs : |(Libm.sin (angle.conv R)).val - Real.sin (R.rnd angle.val)| ≤ (1 + u) ^ k - 1)
    (hc : |(Libm.cos (angle.conv R)).val - Real.cos (R.rnd angle.val)| ≤ (1 + u) ^ k - 1)
    (ha : ∀ i, |(axis i).val| ≤ 1) (i j : Fin 4) :
    (i ≠ 3 → |(rotateMix C m angle axis i j).val -
        rotate (valM m) (R.rnd angle.val) (fun i => (axis i).val) i j| ≤
      ((1 + u) ^ (k + 10) - 1) * (3 * (|(m 0 j).val| + |(m 1 j).val| + |(m 2 j).val|))) ∧
    (rotateMix C m angle axis 3 j = m 3 j) := by
  have hu : 0 ≤ u := R.u_nonneg.trans hR
  have hC : C.u ≤ u := by rcases h.oneOf with rfl | rfl <;> assumption
  have S : Near u (Libm.sin (angle.conv R)).val (Real.sin (R.rnd angle.val)) 1 k :=
    ⟨by rw [mul_one]; exact hs, Real.abs_sin_le_one _⟩
  have K : Near u (Libm.cos (angle.conv R)).val (Real.cos (R.rnd angle.val)) 1 k :=
    ⟨by rw [mul_one]; exact hc, Real.abs_cos_le_one _⟩
  have N : ∀ i, Near u (axis i).val (axis i).val 1 0 := fun i => (Near.exact _).mono hu le_rfl (ha i)
  have one : Near u 1 1 1 k := ⟨by simpa using Near.pow_ge hu k, by simp⟩
  have T : ∀ i, Near u (R.rnd (Q.rnd ((axis i).val * Q.rnd (R.rnd (1 - (Libm.cos (angle.conv R)).val)))))
      ((axis i).val * (1 - Real.cos (R.rnd angle.val))) 2 (k + 4) := fun i =>
    ((((N i).mul hu (((one.sub K).round hu R hR).round hu Q hQ)).round hu Q hQ).round hu R hR).mono hu (by omega)
      (by norm_num)
  have TT : ∀ i l, Near u (C.rnd (R.rnd (Q.rnd ((axis i).val * Q.rnd (R.rnd (1 - (Libm.cos (angle.conv R)).val)))) *
      (axis l).val)) ((axis i).val * (1 - Real.cos (R.rnd angle.val)) * (axis l).val) 2 (k + 5) := fun i l =>
    (((T i).mul hu (N l)).round hu C hC).mono hu (by omega) (by norm_num)
  have SA : ∀ i, Near u (C.rnd ((Libm.sin (angle.conv R)).val * (axis i).val))
      (Real.sin (R.rnd angle.val) * (axis i).val) 1 (k + 5) := fun i =>
    ((S.mul hu (N i)).round hu C hC).mono hu (by omega) (by norm_num)
  have D := fun i => ((((K.mono hu (by omega : k ≤ k + 5) le_rfl).add (TT i i)).round hu C hC).round hu R hR).mono hu
    (le_refl (k + 7)) (by norm_num : (1 : ℝ) + 2 ≤ 3)
  have P := fun i l o => ((((TT i l).add (SA o)).round hu C hC).round hu R hR).mono hu
    (le_refl (k + 7)) (by norm_num : (2 : ℝ) + 1 ≤ 3)
  have M := fun i l o => ((((TT i l).sub (SA o)).round hu C hC).round hu R hR).mono hu
    (le_refl (k + 7)) (by norm_num : (2 : ℝ) + 1 ≤ 3)
  have three : ∀ {x y z ex ey ez : ℝ}, Near u x ex 3 (k + 7) → Near u y ey 3 (k + 7) → Near u z ez 3 (k + 7) →
      |R.rnd (R.rnd (R.rnd ((m 0 j).val * x) + R.rnd ((m 1 j).val * y)) + R.rnd ((m 2 j).val * z)) -
        ((m 0 j).val * ex + (m 1 j).val * ey + (m 2 j).val * ez)| ≤
        ((1 + u) ^ (k + 10) - 1) * (3 * (|(m 0 j).val| + |(m 1 j).val| + |(m 2 j).val|)) := by
    intro x y z ex ey ez hx hy hz
    have G : ∀ {w e : ℝ} (l : Fin 4), Near u w e 3 (k + 7) →
        Near u (R.rnd ((m l j).val * w)) ((m l j).val * e) (|(m l j).val| * 3) (k + 8) :=
      fun l g => (((Near.exact (m l j).val).mul hu g).round hu R hR).mono hu (by omega) le_rfl
    have := ((((G 0 hx).add (G 1 hy)).round hu R hR).add
      ((G 2 hz).mono hu (by omega : k + 8 ≤ k + 8 + 1) le_rfl)).round hu R hR
    rw [show 3 * (|(m 0 j).val| + |(m 1 j).val| + |(m 2 j).val|) =
      |(m 0 j).val| * 3 + |(m 1 j).val| * 3 + |(m 2 j).val| * 3 by ring]
    exact this.err
  obtain ⟨h0, h1, h2, h3⟩ := rotateMix_entries h m angle axis j
  obtain ⟨g0, g1, g2, -⟩ := rotate_entries (valM m) (R.rnd angle.val) (fun i => (axis i).val) j
  refine ⟨fun hi => ?_, h3⟩
  fin_cases i
  · simp only [Fin.zero_eta, Fin.isValue]
    rw [h0, g0]; exact three (D 0) (P 0 1 2) (M 0 2 1)
  · simp only [Fin.mk_one, Fin.isValue]
    rw [h1, g1]; exact three (M 1 0 2) (D 1) (P 1 2 0)
  · simp only [Fin.reduceFinMk]
    rw [h2, g2]; exact three (P 2 0 1) (M 2 1 0) (D 2)
  · exact absurd rfl hi

/-- With one type everywhere it is the `rotate` of one type. -/
theorem rotateMix_same [Libm R] (m : Mat (FP R) 4 4) (angle : FP R) (axis : Vec (FP R) 3) :
    rotateMix R m angle axis = rotate m angle axis := by
  have hc : ∀ x : FP R, x.conv R = x := conv_self
  unfold rotateMix rotate rotateWith
  simp only [hc, id]

/-! ### A quarter of a half turn about the first axis -/

/-- The first entry of the rotation of the unit matrix about `(1, 0, 0)`. -/
theorem rotateMix_unit [Libm R] (h : Common R Q R) (angle : FP A) :
    (rotateMix R (diagonal 1 : Mat (FP R) 4 4) angle (![1, 0, 0] : Vec (FP Q) 3) 0 0).val =
      R.rnd ((Libm.cos (angle.conv R)).val + Q.rnd (R.rnd (1 - (Libm.cos (angle.conv R)).val))) := by
  have e := (rotateMix_entries h (diagonal 1 : Mat (FP R) 4 4) angle (![1, 0, 0] : Vec (FP Q) 3) 0).1
  have d0 : ((diagonal 1 : Mat (FP R) 4 4) 0 0).val = 1 := by simp [diagonal_apply]
  have d1 : ((diagonal 1 : Mat (FP R) 4 4) 1 0).val = 0 := by simp [diagonal_apply]
  have d2 : ((diagonal 1 : Mat (FP R) 4 4) 2 0).val = 0 := by simp [diagonal_apply]
  have k0 : ((![1, 0, 0] : Vec (FP Q) 3) 0).val = 1 := rfl
  have q : ∀ x, R.rnd (Q.rnd x) = Q.rnd x := fun x => h.right (.round Q x)
  rw [e]
  simp only [d0, d1, d2, k0, one_mul, mul_one, zero_mul, R.zero, add_zero, R.idem, Q.idem, q]

theorem sqrt_half_bounds : (0.70710678118 : ℝ) < √2 / 2 ∧ √2 / 2 < 0.70710678119 := by
  have h1 : (1.41421356236 : ℝ) < √2 := Real.lt_sqrt_of_sq_lt (by norm_num)
  have h2 : √2 < 1.41421356238 := by
    rw [Real.sqrt_lt' (by norm_num)]; norm_num
  constructor <;> linarith

/-- The precision of `double`. -/
noncomputable abbrev double53 : Rounding := nearestEven 53 (by norm_num)

/-- The precision of `float`. -/
noncomputable abbrev float24 : Rounding := nearestEven 24 (by norm_num)

/-- C143 fails for `rotate` with a narrower axis: with a matrix of `double`, an axis `(1, 0, 0)` of `float` and an angle of
45 degrees, the first entry of the rotation is off by more than a hundred millionth, with any library whose `cos` is
accurate. With an axis of `double` it is right up to `2⁻⁵²`. -/
theorem mixed_rotate_wrong (lib : Libm double53)
    (hc : |(lib.cos (FP.round _ (Real.pi / 4))).val - Real.cos (Real.pi / 4)| ≤ 2 ^ (-50 : ℤ)) :
    let angle : FP double53 := .round _ (Real.pi / 4)
    let m : Mat (FP double53) 4 4 := diagonal 1
    let axis : Vec (FP float24) 3 := ![1, 0, 0]
    let wide : Vec (FP double53) 3 := ![1, 0, 0]
    (1 : ℝ) + 1 / 10 ^ 8 < (rotateMix double53 m angle axis 0 0).val ∧
    |(rotateMix double53 m angle wide 0 0).val - 1| ≤ 2 ^ (-52 : ℤ) := by
  intro angle m axis wide
  obtain ⟨b1, b2⟩ := sqrt_half_bounds
  rw [Real.cos_pi_div_four, abs_le] at hc
  have e50 : (2 : ℝ) ^ (-50 : ℤ) < 1 / 10 ^ 12 := by norm_num
  set cv := (lib.cos (FP.round _ (Real.pi / 4))).val with hcv
  have hconv : angle.conv double53 = angle := conv_self _
  have c1 : 0.707106781179 < cv := by linarith [hc.1]
  have c2 : cv < 0.707106781191 := by linarith [hc.2]
  have hy := double53.err (1 - cv)
  have hu : double53.u = (2 : ℝ) ^ (-53 : ℤ) := rfl
  rw [hu, abs_of_pos (by linarith : 0 < 1 - cv)] at hy
  have e53 : (2 : ℝ) ^ (-53 : ℤ) = 1 / 9007199254740992 := by norm_num
  rw [e53] at hy
  constructor
  · have e := rotateMix_unit (R := double53) (Q := float24) (common_of_le _ _ (by norm_num)).1 angle
    rw [hconv] at e
    show _ < (rotateMix double53 (diagonal 1) angle ![1, 0, 0] 0 0).val
    rw [e]
    show _ < double53.rnd (cv + float24.rnd (double53.rnd (1 - cv)))
    generalize double53.rnd (1 - cv) = y at hy
    have hy' := abs_le.mp hy
    have y1 : 9827865.5 / 2 ^ 25 < y := by linarith [hy'.1]
    have y2 : y < 9827866.5 / 2 ^ 25 := by linarith [hy'.2]
    have r : roundTo 24 y = 9827866 / 2 ^ 25 := by
      have hl : lastPlace 24 y = -25 := by
        unfold lastPlace
        rw [abs_of_pos (by linarith), log_of_binade (k := -2) (by norm_num; linarith) (by norm_num; linarith)]; norm_num
      unfold roundTo
      rw [hl]
      have : rne (y / 2 ^ (-25 : ℤ)) = 9827866 := by
        have z1 : (9827865.5 : ℝ) < y / 2 ^ (-25 : ℤ) := by norm_num; linarith
        have z2 : y / 2 ^ (-25 : ℤ) < (9827866.5 : ℝ) := by norm_num; linarith
        have := abs_le.mp (rne_err (y / 2 ^ (-25 : ℤ)))
        have a1 : (9827865 : ℝ) < rne (y / 2 ^ (-25 : ℤ)) := by linarith
        have a2 : (rne (y / 2 ^ (-25 : ℤ)) : ℝ) < 9827867 := by linarith
        have a3 : (9827865 : ℤ) < rne (y / 2 ^ (-25 : ℤ)) := by exact_mod_cast a1
        have a4 : rne (y / 2 ^ (-25 : ℤ)) < 9827867 := by exact_mod_cast a2
        omega
      rw [this]; norm_num
    show _ < double53.rnd (cv + roundTo 24 y)
    rw [r]
    have hz := double53.err (cv + 9827866 / 2 ^ 25)
    rw [hu, e53, abs_of_pos (by linarith : 0 < cv + 9827866 / 2 ^ 25)] at hz
    have := (abs_le.mp hz).1
    linarith
  · have e := rotateMix_unit (R := double53) (Q := double53) (common_of_le _ _ le_rfl).1 angle
    rw [hconv] at e
    show |(rotateMix double53 (diagonal 1) angle ![1, 0, 0] 0 0).val - 1| ≤ _
    rw [e, double53.idem]
    show |double53.rnd (cv + double53.rnd (1 - cv)) - 1| ≤ _
    generalize double53.rnd (1 - cv) = y at hy
    have hy' := abs_le.mp hy
    have hz := double53.err (cv + y)
    rw [hu, e53, abs_of_pos (by linarith [hy'.1] : 0 < cv + y)] at hz
    have hz' := abs_le.mp hz
    rw [abs_le]
    norm_num
    constructor <;> linarith [hz'.1, hz'.2, hy'.1, hy'.2]

/-! ### Cases -/

/-- A library that meets the hypothesis of `mixed_rotate_wrong`: the correctly rounded one. -/
example : |((exampleLibm double53).cos (FP.round _ (Real.pi / 4))).val - Real.cos (Real.pi / 4)| ≤
    2 ^ (-50 : ℤ) := by
  show |roundTo 53 (Real.cos (roundTo 53 (Real.pi / 4))) - Real.cos (Real.pi / 4)| ≤ _
  have h1 := roundTo_err (p := 53) (Real.pi / 4)
  have h2 := roundTo_err (p := 53) (Real.cos (roundTo 53 (Real.pi / 4)))
  have h3 : |Real.cos (roundTo 53 (Real.pi / 4)) - Real.cos (Real.pi / 4)| ≤ |roundTo 53 (Real.pi / 4) - Real.pi / 4| :=
    Real.abs_cos_sub_cos_le _ _
  have h4 := Real.abs_cos_le_one (roundTo 53 (Real.pi / 4))
  have h5 : |Real.pi / 4| ≤ 1 := by rw [abs_of_pos (by positivity)]; linarith [Real.pi_lt_four]
  have h6 := abs_add_le (roundTo 53 (Real.cos (roundTo 53 (Real.pi / 4))) - Real.cos (roundTo 53 (Real.pi / 4)))
    (Real.cos (roundTo 53 (Real.pi / 4)) - Real.cos (Real.pi / 4))
  rw [sub_add_sub_cancel] at h6
  norm_num at h1 h2
  norm_num only
  linarith

/-- A number of `double` that `float` does not have meets the hypothesis of `mixed_matrix_wrong`. -/
example : ∃ b : FP double53, b.val = 16777217 ∧
    float24.rnd b.val ≠ b.val := by
  refine ⟨⟨16777217, ?_⟩, rfl, ?_⟩
  · refine roundTo_exact (16777217 * 2 ^ 28) ?_
    have hl : lastPlace 53 16777217 = -28 := by
      unfold lastPlace
      rw [abs_of_pos (by norm_num), log_of_binade (k := 24) (by norm_num) (by norm_num)]; norm_num
    rw [hl]; norm_num
  · show roundTo 24 16777217 ≠ 16777217
    have hl : lastPlace 24 16777217 = 1 := by
      unfold lastPlace
      rw [abs_of_pos (by norm_num), log_of_binade (k := 24) (by norm_num) (by norm_num)]; norm_num
    unfold roundTo
    rw [hl]
    intro e
    have e' : ((rne (16777217 / 2 ^ (1 : ℤ)) * 2 : ℤ) : ℝ) = ((16777217 : ℤ) : ℝ) := by push_cast; simpa using e
    have := Int.cast_injective e'
    omega

/-- The hypotheses of `mixed_rotate_error` with a `float` matrix, a `double` axis and the unit of `float`. -/
example (angle : FP double53) :
    Common float24 double53 double53 ∧
    double53.u ≤ float24.u ∧
    |(Libm.cos (angle.conv float24)).val -
      Real.cos (float24.rnd angle.val)| ≤ (1 + float24.u) ^ 1 - 1 := by
  refine ⟨(common_of_le (by norm_num) (by norm_num) (by norm_num)).2, ?_, ?_⟩
  · show (2 : ℝ) ^ (-(53 : ℤ)) ≤ 2 ^ (-(24 : ℤ))
    norm_num
  · rw [pow_one, add_sub_cancel_left]
    refine (float24.err _).trans ?_
    have := mul_le_mul_of_nonneg_left (Real.abs_cos_le_one (float24.rnd angle.val))
      float24.u_nonneg
    rw [mul_one] at this; exact this

end Verif.Math
