import Verif.Math.Trigonometry
import Mathlib.Analysis.Real.Pi.Bounds
import Mathlib.Tactic.FieldSimp
import Mathlib.Tactic.Ring
import Mathlib.Tactic.Linarith

/-! # Properties of the angle conversions and reciprocal functions -/

set_option autoImplicit false

namespace Verif.Math.Trig

theorem pi_lit_pos : (0 : ℝ) < (Lit.pi_v : ℝ) := by
  have : (0 : ℚ) < Lit.pi_v := by unfold Lit.pi_v; norm_num
  exact_mod_cast this

theorem pi_lit_near : |(Lit.pi_v : ℝ) - Real.pi| < 1 / 10 ^ 19 := by
  have h1 : ((3.14159265358979323846 : ℚ) : ℝ) < (Lit.pi_v : ℝ) := by
    have : (3.14159265358979323846 : ℚ) < Lit.pi_v := by unfold Lit.pi_v; norm_num
    exact_mod_cast this
  have h2 : (Lit.pi_v : ℝ) < ((3.14159265358979323847 : ℚ) : ℝ) := by
    have : Lit.pi_v < (3.14159265358979323847 : ℚ) := by unfold Lit.pi_v; norm_num
    exact_mod_cast this
  have h3 := Real.pi_gt_d20
  have h4 := Real.pi_lt_d20
  rw [abs_lt]
  norm_num at *
  constructor <;> linarith

/-- C76. The conversions are mutually inverse. -/
theorem radians_degrees (x : ℝ) : radians (degrees x) = x ∧ degrees (radians x) = x := by
  have := pi_lit_pos
  unfold radians degrees radiansOf degreesOf
  constructor <;> field_simp

/-- C76. The conversions are linear. -/
theorem radians_linear (a b x y : ℝ) :
    radians (a * x + b * y) = a * radians x + b * radians y ∧
    degrees (a * x + b * y) = a * degrees x + b * degrees y := by
  unfold radians degrees radiansOf degreesOf
  constructor <;> ring

/-- C76. `x` degrees are `x π / 180` radians, up to the error of the literal of π: less than `10⁻²¹` for each degree. -/
theorem radians_true (x : ℝ) : |radians x - x * Real.pi / 180| ≤ |x| * (1 / 10 ^ 21) := by
  have e : radians x - x * Real.pi / 180 = x * (((Lit.pi_v : ℝ) - Real.pi) / 180) := by unfold radians radiansOf; ring
  rw [e, abs_mul]
  apply mul_le_mul_of_nonneg_left _ (abs_nonneg x)
  have := pi_lit_near
  rw [abs_div, abs_of_pos (by norm_num : (0 : ℝ) < 180), div_le_iff₀ (by norm_num)]
  refine le_trans this.le ?_
  norm_num

/-- C76. 180 degrees are π radians, π being the literal, which differs from the number by less than `10⁻¹⁹`. -/
theorem radians_180 : radians 180 = Lit.pi_v ∧ |radians 180 - Real.pi| < 1 / 10 ^ 19 := by
  have e : radians 180 = Lit.pi_v := by unfold radians radiansOf; ring
  exact ⟨e, by rw [e]; exact pi_lit_near⟩

/-- C76. `sec`, `csc`, `cot` are the reciprocals of `cos`, `sin`, `tan` where these are not zero. -/
theorem reciprocals (x : ℝ) (hc : Real.cos x ≠ 0) (hs : Real.sin x ≠ 0) :
    sec x * Real.cos x = 1 ∧ csc x * Real.sin x = 1 ∧ cot x * Real.tan x = 1 ∧ cot x * Real.sin x = Real.cos x := by
  unfold sec csc cot
  rw [Real.tan_eq_sin_div_cos]
  refine ⟨?_, ?_, ?_, ?_⟩ <;> field_simp

/-- C76. The Pythagorean identities hold. -/
theorem pythagorean (x : ℝ) (hc : Real.cos x ≠ 0) (hs : Real.sin x ≠ 0) :
    sec x ^ 2 = 1 + Real.tan x ^ 2 ∧ csc x ^ 2 = 1 + cot x ^ 2 := by
  unfold sec csc cot
  rw [Real.tan_eq_sin_div_cos]
  have := Real.sin_sq_add_cos_sq x
  constructor
  · field_simp
    linarith
  · field_simp
    linarith

/-! ### Cases -/

example : Real.cos (Real.pi / 4) ≠ 0 ∧ Real.sin (Real.pi / 4) ≠ 0 := by
  rw [Real.cos_pi_div_four, Real.sin_pi_div_four]
  constructor <;> positivity
example : degrees (radians 90 + radians 45) = 135 := by
  rw [show radians 90 + radians 45 = radians 135 by unfold radians radiansOf; ring]
  exact (radians_degrees 135).2

end Verif.Math.Trig
