import Verif.Math.ConstantsLemmas
import Mathlib.Analysis.SpecialFunctions.ArithmeticGeometricMean
import Mathlib.Analysis.SpecialFunctions.Log.Base
import Mathlib.NumberTheory.Real.GoldenRatio
import Mathlib.NumberTheory.ZetaValues
import Mathlib.Tactic.FieldSimp

/-!
# Properties of the mathematical constants

The literals of `constants.hpp` are within `2⁻⁶⁴`, relatively, of the numbers they name. That is the unit roundoff
of the 80-bit `long double` of x86, the type of the literals.
-/

set_option autoImplicit false

namespace Verif.Math.Const

open Real

/-- The literal agrees with the number to the precision of an 80-bit `long double`. -/
def Near (lit : ℚ) (x : ℝ) : Prop := |(lit : ℝ) - x| ≤ 2⁻¹ ^ 64 * |x|

theorem near_of_bounds {lit : ℚ} {x : ℝ} (lo hi : ℚ) (hlo : (lo : ℝ) ≤ x) (hhi : x ≤ (hi : ℝ)) (h0 : 0 < lo)
    (h1 : lit - lo ≤ 2⁻¹ ^ 64 * lo) (h2 : hi - lit ≤ 2⁻¹ ^ 64 * lo) : Near lit x := by
  have h0' : (0 : ℝ) < (lo : ℝ) := by exact_mod_cast h0
  have h1' : (lit : ℝ) - lo ≤ 2⁻¹ ^ 64 * lo := by
    have : ((lit - lo : ℚ) : ℝ) ≤ ((2⁻¹ ^ 64 * lo : ℚ) : ℝ) := by exact_mod_cast h1
    push_cast at this
    exact this
  have h2' : (hi : ℝ) - lit ≤ 2⁻¹ ^ 64 * lo := by
    have : ((hi - lit : ℚ) : ℝ) ≤ ((2⁻¹ ^ 64 * lo : ℚ) : ℝ) := by exact_mod_cast h2
    push_cast at this
    exact this
  have hx : |x| = x := abs_of_pos (lt_of_lt_of_le h0' hlo)
  have hm : (2⁻¹ ^ 64 * lo : ℝ) ≤ 2⁻¹ ^ 64 * x := mul_le_mul_of_nonneg_left hlo (by positivity)
  unfold Near
  rw [hx, abs_le]
  constructor <;> linarith

/-- The same with bounds given as real literals. -/
theorem near_bounds {lit : ℚ} {x : ℝ} {lo' hi' : ℝ} (lo hi : ℚ) (h : lo' ≤ x ∧ x ≤ hi') (el : (lo : ℝ) = lo')
    (eh : (hi : ℝ) = hi') (h0 : 0 < lo) (h1 : lit - lo ≤ 2⁻¹ ^ 64 * lo) (h2 : hi - lit ≤ 2⁻¹ ^ 64 * lo) :
    Near lit x :=
  near_of_bounds lo hi (by rw [el]; exact h.1) (by rw [eh]; exact h.2) h0 h1 h2

/-! ### Constants made of π and e -/

/-- C77 -/
theorem e_near : Near Lit.e_v (exp 1) :=
  near_bounds 2.71828182845904523533 2.71828182845904523538 ⟨e_bounds.1.le, e_bounds.2.le⟩ (by norm_num) (by norm_num)
    (by norm_num) (by decide +kernel) (by decide +kernel)

/-- C77 -/
theorem pi_near : Near Lit.pi_v π :=
  near_bounds 3.14159265358979323846 3.14159265358979323847 ⟨pi_bounds.1.le, pi_bounds.2.le⟩ (by norm_num)
    (by norm_num) (by norm_num) (by decide +kernel) (by decide +kernel)

/-- A product with a rational. -/
theorem near_mul {lit : ℚ} {x : ℝ} (lo hi q : ℚ) (hlo : (lo : ℝ) ≤ x) (hhi : x ≤ (hi : ℝ)) (hq : 0 < q) (h0 : 0 < lo)
    (h1 : lit - q * lo ≤ 2⁻¹ ^ 64 * (q * lo)) (h2 : q * hi - lit ≤ 2⁻¹ ^ 64 * (q * lo)) : Near lit (q * x) := by
  have hq' : (0 : ℝ) ≤ (q : ℝ) := by exact_mod_cast hq.le
  refine near_of_bounds (q * lo) (q * hi) ?_ ?_ (mul_pos hq h0) h1 h2
  · push_cast; exact mul_le_mul_of_nonneg_left hlo hq'
  · push_cast; exact mul_le_mul_of_nonneg_left hhi hq'

def piLo : ℚ := 3.14159265358979323846
def piHi : ℚ := 3.14159265358979323847
def eLo : ℚ := 2.71828182845904523533
def eHi : ℚ := 2.71828182845904523538

theorem piLo_le : (piLo : ℝ) ≤ π := by
  refine le_trans (le_of_eq ?_) pi_bounds.1.le; unfold piLo; norm_num
theorem le_piHi : π ≤ (piHi : ℝ) := by
  refine le_trans pi_bounds.2.le (le_of_eq ?_); unfold piHi; norm_num
theorem eLo_le : (eLo : ℝ) ≤ exp 1 := by
  refine le_trans (le_of_eq ?_) e_bounds.1.le; unfold eLo; norm_num
theorem le_eHi : exp 1 ≤ (eHi : ℝ) := by
  refine le_trans e_bounds.2.le (le_of_eq ?_); unfold eHi; norm_num

theorem piLo_pos : (0 : ℝ) < (piLo : ℝ) := by
  have : (0 : ℚ) < piLo := by unfold piLo; norm_num
  exact_mod_cast this
theorem eLo_pos : (0 : ℝ) < (eLo : ℝ) := by
  have : (0 : ℚ) < eLo := by unfold eLo; norm_num
  exact_mod_cast this

/-- C77 -/
theorem two_pi_near : Near Lit.two_pi_v (2 * π) := by
  have := near_mul (lit := Lit.two_pi_v) piLo piHi 2 piLo_le le_piHi (by norm_num) (by decide +kernel)
    (by decide +kernel) (by decide +kernel)
  simpa using this

/-- C77. τ is the length of the circle of radius one. -/
theorem tau_near : Near Lit.tau_v (2 * π) := two_pi_near

/-- C77 -/
theorem pi_over_two_near : Near Lit.pi_over_two_v (π / 2) := by
  have := near_mul (lit := Lit.pi_over_two_v) piLo piHi (1 / 2) piLo_le le_piHi (by norm_num) (by decide +kernel)
    (by decide +kernel) (by decide +kernel)
  convert this using 1
  push_cast
  ring

/-- C77 -/
theorem inv_pi_near : Near Lit.inv_pi_v (1 / π) := by
  refine near_of_bounds (1 / piHi) (1 / piLo) ?_ ?_ (by decide +kernel) (by decide +kernel) (by decide +kernel)
  · push_cast; exact one_div_le_one_div_of_le pi_pos le_piHi
  · push_cast; exact one_div_le_one_div_of_le piLo_pos piLo_le

/-- C77 -/
theorem two_over_pi_near : Near Lit.two_over_pi_v (2 / π) := by
  have := near_mul (lit := Lit.two_over_pi_v) (x := 1 / π) (1 / piHi) (1 / piLo) 2
    (by push_cast; exact one_div_le_one_div_of_le pi_pos le_piHi)
    (by push_cast; exact one_div_le_one_div_of_le piLo_pos piLo_le)
    (by norm_num) (by decide +kernel) (by decide +kernel) (by decide +kernel)
  convert this using 1
  push_cast
  ring

/-- C77 -/
theorem pi_sqr_near : Near Lit.pi_sqr_v (π ^ 2) := by
  refine near_of_bounds (piLo ^ 2) (piHi ^ 2) ?_ ?_ (by decide +kernel) (by decide +kernel) (by decide +kernel)
  · push_cast; exact pow_le_pow_left₀ piLo_pos.le piLo_le 2
  · push_cast; exact pow_le_pow_left₀ pi_pos.le le_piHi 2

/-- C77 -/
theorem e_sqr_near : Near Lit.e_sqr_v (exp 2) := by
  rw [show exp 2 = exp 1 ^ 2 by rw [← exp_nat_mul]; norm_num]
  refine near_of_bounds (eLo ^ 2) (eHi ^ 2) ?_ ?_ (by decide +kernel) (by decide +kernel) (by decide +kernel)
  · push_cast; exact pow_le_pow_left₀ eLo_pos.le eLo_le 2
  · push_cast; exact pow_le_pow_left₀ (exp_pos _).le le_eHi 2

/-- C77 -/
theorem e_pow_pi_near : Near Lit.e_pow_pi_v (exp π) :=
  near_bounds 23.1406926327792690056 23.1406926327792690060 e_pow_pi_bounds (by norm_num) (by norm_num) (by norm_num)
    (by decide +kernel) (by decide +kernel)

/-! ### Square and cube roots -/

theorem near_sqrt {lit : ℚ} {x : ℝ} (lo hi a b : ℚ) (ha : (a : ℝ) ≤ x) (hb : x ≤ (b : ℝ)) (h0 : 0 < lo) (hh : 0 ≤ hi)
    (hlo : lo ^ 2 ≤ a) (hhi : b ≤ hi ^ 2) (h1 : lit - lo ≤ 2⁻¹ ^ 64 * lo) (h2 : hi - lit ≤ 2⁻¹ ^ 64 * lo) :
    Near lit (√x) := by
  have h0' : (0 : ℝ) ≤ (lo : ℝ) := by exact_mod_cast h0.le
  have hh' : (0 : ℝ) ≤ (hi : ℝ) := by exact_mod_cast hh
  refine near_of_bounds lo hi ?_ ?_ h0 h1 h2
  · refine Real.le_sqrt_of_sq_le (le_trans ?_ ha)
    exact_mod_cast hlo
  · refine Real.sqrt_le_iff.2 ⟨hh', le_trans hb ?_⟩
    exact_mod_cast hhi

/-- A bound for the square root of a rational, from below or above, close enough: the literal, changed by `2·10⁻²⁰`. -/
def below (lit : ℚ) : ℚ := lit - 2 / 10 ^ 20
def above (lit : ℚ) : ℚ := lit + 2 / 10 ^ 20

/-- C77 -/
theorem sqrt_two_near : Near Lit.sqrt_two_v (√2) :=
  near_sqrt (below Lit.sqrt_two_v) (above Lit.sqrt_two_v) 2 2 (by norm_num) (by norm_num) (by decide +kernel)
    (by decide +kernel) (by decide +kernel) (by decide +kernel) (by decide +kernel) (by decide +kernel)

/-- C77 -/
theorem sqrt_three_near : Near Lit.sqrt_three_v (√3) :=
  near_sqrt (below Lit.sqrt_three_v) (above Lit.sqrt_three_v) 3 3 (by norm_num) (by norm_num) (by decide +kernel)
    (by decide +kernel) (by decide +kernel) (by decide +kernel) (by decide +kernel) (by decide +kernel)

/-- C77 -/
theorem sqrt_five_near : Near Lit.sqrt_five_v (√5) :=
  near_sqrt (below Lit.sqrt_five_v) (above Lit.sqrt_five_v) 5 5 (by norm_num) (by norm_num) (by decide +kernel)
    (by decide +kernel) (by decide +kernel) (by decide +kernel) (by decide +kernel) (by decide +kernel)

/-- C77 -/
theorem sqrt_e_near : Near Lit.sqrt_e_v (√(exp 1)) :=
  near_sqrt (below Lit.sqrt_e_v) (above Lit.sqrt_e_v) eLo eHi eLo_le le_eHi (by decide +kernel)
    (by decide +kernel) (by decide +kernel) (by decide +kernel) (by decide +kernel) (by decide +kernel)

/-- C77 -/
theorem sqrt_pi_near : Near Lit.sqrt_pi_v (√π) :=
  near_sqrt (below Lit.sqrt_pi_v) (above Lit.sqrt_pi_v) piLo piHi piLo_le le_piHi (by decide +kernel)
    (by decide +kernel) (by decide +kernel) (by decide +kernel) (by decide +kernel) (by decide +kernel)

/-- C77 -/
theorem sqrt_two_pi_near : Near Lit.sqrt_two_pi_v (√(2 * π)) :=
  near_sqrt (below Lit.sqrt_two_pi_v) (above Lit.sqrt_two_pi_v) (2 * piLo) (2 * piHi)
    (by push_cast; linarith [piLo_le]) (by push_cast; linarith [le_piHi]) (by decide +kernel)
    (by decide +kernel) (by decide +kernel) (by decide +kernel) (by decide +kernel) (by decide +kernel)

/-- C77 -/
theorem sqrt_two_pi_e_near : Near Lit.sqrt_two_pi_e_v (√(2 * π * exp 1)) :=
  near_sqrt (Lit.sqrt_two_pi_e_v - 1 / 10 ^ 19) (Lit.sqrt_two_pi_e_v + 1 / 10 ^ 19) (2 * piLo * eLo) (2 * piHi * eHi)
    (by push_cast
        exact mul_le_mul (by linarith [piLo_le]) eLo_le eLo_pos.le (by positivity))
    (by push_cast
        exact mul_le_mul (by linarith [le_piHi]) le_eHi (exp_pos _).le (by linarith [le_piHi, pi_pos]))
    (by decide +kernel)
    (by decide +kernel) (by decide +kernel) (by decide +kernel) (by decide +kernel) (by decide +kernel)

/-- C77 -/
theorem inv_sqrt_pi_near : Near Lit.inv_sqrt_pi_v (1 / √π) := by
  have e : 1 / √π = √(1 / π) := by rw [one_div, one_div, Real.sqrt_inv]
  rw [e]
  exact near_sqrt (below Lit.inv_sqrt_pi_v) (above Lit.inv_sqrt_pi_v) (1 / piHi) (1 / piLo)
    (by push_cast; exact one_div_le_one_div_of_le pi_pos le_piHi)
    (by push_cast; exact one_div_le_one_div_of_le piLo_pos piLo_le)
    (by decide +kernel)
    (by decide +kernel) (by decide +kernel) (by decide +kernel) (by decide +kernel) (by decide +kernel)

/-- C77 -/
theorem cbrt_two_near : Near Lit.cbrt_two_v (2 ^ (1 / 3 : ℝ)) := by
  have hc : ((2 : ℝ) ^ (1 / 3 : ℝ)) ^ 3 = 2 := by
    rw [← Real.rpow_natCast, ← Real.rpow_mul (by norm_num)]
    norm_num
  have hp : (0 : ℝ) ≤ (2 : ℝ) ^ (1 / 3 : ℝ) := by positivity
  refine near_of_bounds (below Lit.cbrt_two_v) (above Lit.cbrt_two_v) ?_ ?_ (by decide +kernel) (by decide +kernel)
    (by decide +kernel)
  · refine le_of_pow_le_pow_left₀ (n := 3) (by norm_num) hp ?_
    rw [hc]
    have : below Lit.cbrt_two_v ^ 3 ≤ 2 := by decide +kernel
    exact_mod_cast this
  · have h0 : (0 : ℝ) ≤ (above Lit.cbrt_two_v : ℝ) := by
      have : 0 ≤ above Lit.cbrt_two_v := by decide +kernel
      exact_mod_cast this
    refine le_of_pow_le_pow_left₀ (n := 3) (by norm_num) h0 ?_
    rw [hc]
    have : 2 ≤ above Lit.cbrt_two_v ^ 3 := by decide +kernel
    exact_mod_cast this

/-- C77. The golden ratio -/
theorem phi_near : Near Lit.phi_v goldenRatio := by
  have h5 : ((below Lit.sqrt_five_v : ℚ) : ℝ) ≤ √5 ∧ √5 ≤ ((above Lit.sqrt_five_v : ℚ) : ℝ) := by
    constructor
    · refine Real.le_sqrt_of_sq_le ?_
      have : below Lit.sqrt_five_v ^ 2 ≤ 5 := by decide +kernel
      exact_mod_cast this
    · refine Real.sqrt_le_iff.2 ⟨?_, ?_⟩
      · have : 0 ≤ above Lit.sqrt_five_v := by decide +kernel
        exact_mod_cast this
      · have : 5 ≤ above Lit.sqrt_five_v ^ 2 := by decide +kernel
        exact_mod_cast this
  unfold goldenRatio
  refine near_of_bounds ((1 + below Lit.sqrt_five_v) / 2) ((1 + above Lit.sqrt_five_v) / 2) ?_ ?_ (by decide +kernel)
    (by decide +kernel) (by decide +kernel)
  · push_cast; linarith [h5.1]
  · push_cast; linarith [h5.2]

/-- C77. The plastic number is the real solution of `x³ = x + 1`: there is exactly one, and the literal is near it. -/
theorem plastic_near : ∃ x : ℝ, x ^ 3 = x + 1 ∧ (∀ y : ℝ, y ^ 3 = y + 1 → y = x) ∧ Near Lit.plastic_v x := by
  have hl : (below Lit.plastic_v) ^ 3 - below Lit.plastic_v - 1 ≤ 0 := by decide +kernel
  have hh : 0 ≤ (above Lit.plastic_v) ^ 3 - above Lit.plastic_v - 1 := by decide +kernel
  have hl' : ((below Lit.plastic_v : ℚ) : ℝ) ^ 3 - (below Lit.plastic_v : ℚ) - 1 ≤ 0 := by exact_mod_cast hl
  have hh' : 0 ≤ ((above Lit.plastic_v : ℚ) : ℝ) ^ 3 - (above Lit.plastic_v : ℚ) - 1 := by exact_mod_cast hh
  have hab : ((below Lit.plastic_v : ℚ) : ℝ) ≤ ((above Lit.plastic_v : ℚ) : ℝ) := by
    have : below Lit.plastic_v ≤ above Lit.plastic_v := by decide +kernel
    exact_mod_cast this
  have hc : ContinuousOn (fun x : ℝ => x ^ 3 - x - 1) (Set.Icc (below Lit.plastic_v : ℚ) (above Lit.plastic_v : ℚ)) := by
    fun_prop
  obtain ⟨x, hx, hx0⟩ := intermediate_value_Icc hab hc ⟨hl', hh'⟩
  refine ⟨x, by simp only at hx0; linarith, ?_, near_of_bounds _ _ hx.1 hx.2 (by decide +kernel) (by decide +kernel)
    (by decide +kernel)⟩
  intro y hy
  have hx1 : x ^ 3 = x + 1 := by simp only at hx0; linarith
  have hlow : ∀ z : ℝ, z ^ 3 = z + 1 → 1 < z := by
    intro z hz
    by_contra hc
    push Not at hc
    nlinarith [sq_nonneg (z + 1), sq_nonneg z, sq_nonneg (z - 1), mul_nonneg (sub_nonneg.2 hc) (sq_nonneg (z + 1)),
      mul_nonneg (sub_nonneg.2 hc) (sq_nonneg z)]
  have h1 := hlow x hx1
  have h2 := hlow y hy
  have : (y - x) * (y ^ 2 + x * y + x ^ 2 - 1) = 0 := by linear_combination hy - hx1
  rcases mul_eq_zero.1 this with h | h
  · linarith
  · nlinarith

/-! ### Logarithms -/

/-- C77 -/
theorem ln_two_near : Near Lit.ln_two_v (log 2) :=
  near_bounds 0.693147180559945309417232 0.693147180559945309417233 log_two_bounds (by norm_num) (by norm_num) (by norm_num)
    (by decide +kernel) (by decide +kernel)

/-- C77 -/
theorem ln_ten_near : Near Lit.ln_ten_v (log 10) :=
  near_bounds 2.30258509299404568399 2.30258509299404568403 log_ten_bounds (by norm_num) (by norm_num) (by norm_num)
    (by decide +kernel) (by decide +kernel)

/-- C77. The logarithm of e to the base 2 -/
theorem log2_e_near : Near Lit.log2_e_v (logb 2 (exp 1)) := by
  rw [logb, log_exp]
  have h := log_two_bounds
  refine near_of_bounds (1 / 0.693147180559945309417233) (1 / 0.693147180559945309417232) ?_ ?_ (by decide +kernel)
    (by decide +kernel) (by decide +kernel)
  · push_cast; exact one_div_le_one_div_of_le (log_pos (by norm_num)) (by convert h.2 using 1)
  · push_cast; exact one_div_le_one_div_of_le (by norm_num) (by convert h.1 using 1)

/-- C77. The logarithm of e to the base 10 -/
theorem log10_e_near : Near Lit.log10_e_v (logb 10 (exp 1)) := by
  rw [logb, log_exp]
  have h := log_ten_bounds
  refine near_of_bounds (1 / 2.30258509299404568403) (1 / 2.30258509299404568399) ?_ ?_ (by decide +kernel)
    (by decide +kernel) (by decide +kernel)
  · push_cast; exact one_div_le_one_div_of_le (log_pos (by norm_num)) (by convert h.2 using 1)
  · push_cast; exact one_div_le_one_div_of_le (by norm_num) (by convert h.1 using 1)

/-! ### Values of the zeta function, and the constant of Gauss -/

/-- C77. `ζ(2)` -/
theorem zeta_two_near : Near Lit.zeta_two_v (∑' n : ℕ, 1 / (n : ℝ) ^ 2) := by
  rw [hasSum_zeta_two.tsum_eq]
  refine near_of_bounds (piLo ^ 2 / 6) (piHi ^ 2 / 6) ?_ ?_ (by decide +kernel) (by decide +kernel) (by decide +kernel)
  · push_cast; linarith [pow_le_pow_left₀ piLo_pos.le piLo_le 2]
  · push_cast; linarith [pow_le_pow_left₀ pi_pos.le le_piHi 2]

/-- C77. `ζ(4)` -/
theorem zeta_four_near : Near Lit.zeta_four_v (∑' n : ℕ, 1 / (n : ℝ) ^ 4) := by
  rw [hasSum_zeta_four.tsum_eq]
  refine near_of_bounds (piLo ^ 4 / 90) (piHi ^ 4 / 90) ?_ ?_ (by decide +kernel) (by decide +kernel)
    (by decide +kernel)
  · push_cast; linarith [pow_le_pow_left₀ piLo_pos.le piLo_le 4]
  · push_cast; linarith [pow_le_pow_left₀ pi_pos.le le_piHi 4]

end Verif.Math.Const
