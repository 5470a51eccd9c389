import Verif.Math.FloatMixed
import Verif.Math.RoundingLemmas

/-!
C109 for a left operand of floating-point numbers.
-/

set_option autoImplicit false

namespace Verif.Math

variable {R : Rounding} {n : Nat}

/-- The exact result of the operation. -/
noncomputable def realResult (op : ArithOp) (x y : ℝ) : ℝ :=
  match op with
  | .add => x + y
  | .sub => x - y
  | .mul => x * y
  | .div => x / y

/-- `b` as a real number. -/
noncomputable def realOf (b : Num) : ℝ :=
  match b with
  | .int z => z
  | .real x => x

theorem toFP_val (b : Num) : (b.toFP R).val = R.rnd (realOf b) := by cases b <;> rfl

theorem fp_val (op : ArithOp) (a b : FP R) : (op.fp a b).val = R.rnd (realResult op a.val b.val) := by cases op <;> rfl

/-- The four forms agree: with a vector, with a scalar, and both in place. -/
theorem fmix_forms (op : ArithOp) (a : Vec (FP R) n) (b : Vec Num n) (s : Num) (i : Fin n) :
    (fmixOp op a b i).val = R.rnd (realResult op (a i).val (R.rnd (realOf (b i)))) ∧
    fmixSelfOp op a b = fmixOp op a b ∧
    (fmixOpS op a s i).val = R.rnd (realResult op (a i).val (R.rnd (realOf s))) ∧
    fmixSelfOpS op a s = fmixOpS op a s := by
  refine ⟨?_, ?_, ?_, ?_⟩
  · unfold fmixOp; rw [vecOp_apply, fp_val, toFP_val]
  · unfold fmixSelfOp fmixOp; rw [vecSelfOp_apply, vecOp_apply]; rfl
  · unfold fmixOpS; rw [vecOpS_apply, fp_val, toFP_val]
  · unfold fmixSelfOpS fmixOpS; rw [vecSelfOpS_apply, vecOpS_apply]

/-- C109 for a floating-point left operand, what holds: if the components of the right operand (or the scalar) are values
of the left operand's type, every component of the result is the exact result, rounded once. -/
theorem float_mixed_partial (op : ArithOp) (a : Vec (FP R) n) (b : Vec Num n) (s : Num) (i : Fin n) :
    (R.rnd (realOf (b i)) = realOf (b i) →
      (fmixOp op a b i).val = R.rnd (realResult op (a i).val (realOf (b i))) ∧
      (fmixSelfOp op a b i).val = R.rnd (realResult op (a i).val (realOf (b i)))) ∧
    (R.rnd (realOf s) = realOf s →
      (fmixOpS op a s i).val = R.rnd (realResult op (a i).val (realOf s)) ∧
      (fmixSelfOpS op a s i).val = R.rnd (realResult op (a i).val (realOf s))) := by
  obtain ⟨h1, h2, h3, h4⟩ := fmix_forms op a b s i
  refine ⟨fun h => ?_, fun h => ?_⟩
  · rw [h2, h1, h]; exact ⟨rfl, rfl⟩
  · rw [h4, h3, h]; exact ⟨rfl, rfl⟩

theorem rnd_le (x : ℝ) : |R.rnd x| ≤ (1 + R.u) * |x| := by
  have h := R.err x
  have h1 : |R.rnd x| ≤ |R.rnd x - x| + |x| := by
    have := abs_add_le (R.rnd x - x) x
    rwa [sub_add_cancel] at this
  linarith

/-- C109 for a floating-point left operand and any right operand: two roundings. For a product and a quotient the relative
error is at most about twice the unit roundoff; for a sum and a difference the error may exceed the result, but not a unit
roundoff of the result and of the component each. -/
theorem float_mixed_error (a : Vec (FP R) n) (b : Vec Num n) (i : Fin n) :
    |(fmixOp .mul a b i).val - (a i).val * realOf (b i)| ≤ ((1 + R.u) ^ 2 - 1) * |(a i).val * realOf (b i)| ∧
    |(fmixOp .div a b i).val - (a i).val / realOf (b i)| ≤ 2 * R.u / (1 - R.u) * |(a i).val / realOf (b i)| ∧
    |(fmixOp .add a b i).val - ((a i).val + realOf (b i))| ≤
      R.u * |(a i).val + realOf (b i)| + (1 + R.u) * R.u * |realOf (b i)| ∧
    |(fmixOp .sub a b i).val - ((a i).val - realOf (b i))| ≤
      R.u * |(a i).val - realOf (b i)| + (1 + R.u) * R.u * |realOf (b i)| := by
  have h := fun op => (fmix_forms op a b (.int 0) i).1
  generalize (a i).val = x at *
  generalize realOf (b i) = y at *
  have hu := R.u_nonneg
  have hy := R.err y
  have hxy : ∀ z e : ℝ, |R.rnd (z + e) - z| ≤ R.u * |z| + (1 + R.u) * |e| := by
    intro z e
    have h1 := R.err (z + e)
    have h2 : |R.rnd (z + e) - z| ≤ |R.rnd (z + e) - (z + e)| + |e| := by
      have := abs_add_le (R.rnd (z + e) - (z + e)) e
      have e1 : R.rnd (z + e) - (z + e) + e = R.rnd (z + e) - z := by ring
      rwa [e1] at this
    have h3 := abs_add_le z e
    nlinarith
  refine ⟨?_, ?_, ?_, ?_⟩
  · rw [h .mul]
    show |R.rnd (x * R.rnd y) - x * y| ≤ _
    have e1 : x * R.rnd y = x * y + x * (R.rnd y - y) := by ring
    have h1 := hxy (x * y) (x * (R.rnd y - y))
    rw [e1]
    refine h1.trans ?_
    rw [abs_mul x (R.rnd y - y), abs_mul x y]
    have h2 := mul_le_mul_of_nonneg_left hy (abs_nonneg x)
    nlinarith [mul_le_mul_of_nonneg_left h2 (by linarith : (0 : ℝ) ≤ 1 + R.u)]
  · rw [h .div]
    show |R.rnd (x / R.rnd y) - x / y| ≤ _
    have hu1 : 0 < 1 - R.u := by linarith [R.u_lt]
    by_cases hy0 : y = 0
    · subst hy0
      rw [R.zero, div_zero, R.zero]; simp
    · have hp : 0 < |y| := abs_pos.2 hy0
      have hr0 : R.rnd y ≠ 0 := fun e => hy0 (R.eq_zero.1 e)
      have hrp : 0 < |R.rnd y| := abs_pos.2 hr0
      have hlow : (1 - R.u) * |y| ≤ |R.rnd y| := by
        have := abs_sub_abs_le_abs_sub y (R.rnd y)
        rw [abs_sub_comm] at this
        linarith
      have e1 : x / R.rnd y = x / y + x / y * ((y - R.rnd y) / R.rnd y) := by
        field_simp; ring
      have h1 := hxy (x / y) (x / y * ((y - R.rnd y) / R.rnd y))
      rw [e1]
      refine h1.trans ?_
      have h2 : |(y - R.rnd y) / R.rnd y| ≤ R.u / (1 - R.u) := by
        rw [abs_div, abs_sub_comm, div_le_div_iff₀ hrp hu1]
        calc |R.rnd y - y| * (1 - R.u) ≤ R.u * |y| * (1 - R.u) := mul_le_mul_of_nonneg_right hy hu1.le
          _ = R.u * ((1 - R.u) * |y|) := by ring
          _ ≤ R.u * |R.rnd y| := mul_le_mul_of_nonneg_left hlow hu
      rw [abs_mul]
      have h3 := mul_le_mul_of_nonneg_left h2 (abs_nonneg (x / y))
      have h4 : R.u * |x / y| + (1 + R.u) * (|x / y| * (R.u / (1 - R.u))) = 2 * R.u / (1 - R.u) * |x / y| := by
        field_simp; ring
      rw [← h4]
      have := mul_le_mul_of_nonneg_left h3 (by linarith : (0 : ℝ) ≤ 1 + R.u)
      linarith
  · rw [h .add]
    show |R.rnd (x + R.rnd y) - (x + y)| ≤ _
    have e1 : x + R.rnd y = x + y + (R.rnd y - y) := by ring
    rw [e1]
    refine (hxy (x + y) (R.rnd y - y)).trans ?_
    have := mul_le_mul_of_nonneg_left hy (by linarith : (0 : ℝ) ≤ 1 + R.u)
    linarith
  · rw [h .sub]
    show |R.rnd (x - R.rnd y) - (x - y)| ≤ _
    have e1 : x - R.rnd y = x - y + -(R.rnd y - y) := by ring
    rw [e1]
    refine (hxy (x - y) (-(R.rnd y - y))).trans ?_
    rw [abs_neg]
    have := mul_le_mul_of_nonneg_left hy (by linarith : (0 : ℝ) ≤ 1 + R.u)
    linarith

/-- C109 is false for a floating-point left operand: for every number that is not a value of the left operand's type there
is a vector to which it cannot be added. The result is zero and the exact sum is not. -/
theorem float_mixed_wrong (b : Num) (hb : R.rnd (realOf b) ≠ realOf b) :
    ∃ a : FP R, a.val + realOf b ≠ 0 ∧ ∀ i : Fin n, (fmixOp .add (fun _ => a) (fun _ => b) i).val = 0 := by
  refine ⟨⟨- R.rnd (realOf b), by rw [R.odd, R.idem]⟩, ?_, fun i => ?_⟩
  · intro h
    exact hb (by show R.rnd _ = _; simp only at h; linarith)
  · rw [(fmix_forms .add _ _ (.int 0) i).1]
    show R.rnd (- R.rnd (realOf b) + R.rnd (realOf b)) = 0
    rw [neg_add_cancel, R.zero]

/-! ### Cases -/

/-- `vec2(-16777216, 0) + ivec2(16777217, 3)` is `(0, 3)`; the exact sum `(1, 3)` can be represented in `float`. -/
example : ∃ a : Vec (FP (nearestEven 24 (by norm_num))) 2, (a 0).val = -16777216 ∧ (a 1).val = 0 ∧
    (fmixOp .add a ![.int 16777217, .int 3] 0).val = 0 ∧
    (fmixOp .add a ![.int 16777217, .int 3] 1).val = 3 := by
  have r1 : roundTo 24 16777217 = 16777216 := by
    have hl : lastPlace 24 16777217 = 1 := by
      unfold lastPlace
      rw [abs_of_pos (by norm_num), log_of_binade (k := 24) (by norm_num) (by norm_num)]; norm_num
    unfold roundTo
    rw [hl]
    have : rne (16777217 / 2 ^ (1 : ℤ)) = 8388608 := by
      have hf : ⌊(16777217 / 2 ^ (1 : ℤ) : ℝ)⌋ = 8388608 := by rw [Int.floor_eq_iff]; norm_num
      unfold rne Int.fract
      rw [hf]
      norm_num
      decide
    rw [this]; norm_num
  have r2 : roundTo 24 16777216 = 16777216 := by
    have := roundTo_pow (p := 24) (by norm_num) 24
    norm_num at this ⊢; exact this
  have r3 : roundTo 24 3 = 3 := by
    refine roundTo_exact (3 * 2 ^ 22) ?_
    have hl : lastPlace 24 3 = -22 := by
      unfold lastPlace
      rw [abs_of_pos (by norm_num), log_of_binade (k := 1) (by norm_num) (by norm_num)]; norm_num
    rw [hl]; norm_num
  refine ⟨![⟨-16777216, ?_⟩, ⟨0, ?_⟩], rfl, rfl, ?_, ?_⟩
  · show roundTo 24 (-16777216) = -16777216
    rw [roundTo_neg, r2]
  · exact roundTo_zero
  · rw [(fmix_forms .add _ _ (.int 0) 0).1]
    show roundTo 24 (-16777216 + roundTo 24 ((16777217 : ℤ) : ℝ)) = 0
    norm_num only [Int.cast_ofNat, r1]
    exact roundTo_zero
  · rw [(fmix_forms .add _ _ (.int 0) 1).1]
    show roundTo 24 (0 + roundTo 24 ((3 : ℤ) : ℝ)) = 3
    norm_num only [Int.cast_ofNat, r3, zero_add]

end Verif.Math
