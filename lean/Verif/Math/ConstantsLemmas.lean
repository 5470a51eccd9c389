import Verif.Math.Constants
import Mathlib.Analysis.Complex.ExponentialBounds
import Mathlib.Analysis.Real.Pi.Bounds
import Mathlib.Tactic.NormNum
import Mathlib.Tactic.Linarith

/-! Rational bounds, to about 20 digits, for the real numbers named by the constants. -/

set_option autoImplicit false

namespace Verif.Math

open Real

theorem e_bounds : (2.71828182845904523533 : ℝ) < exp 1 ∧ exp 1 < 2.71828182845904523538 := by
  have h := abs_sub_le_iff.1 exp_one_near_20
  have h1 := h.1
  have h2 := h.2
  constructor
  · refine lt_of_lt_of_le ?_ (sub_le_comm.1 h2)
    norm_num
  · refine lt_of_le_of_lt (sub_le_iff_le_add.1 h1) ?_
    norm_num

theorem pi_bounds : (3.14159265358979323846 : ℝ) < π ∧ π < 3.14159265358979323847 :=
  ⟨pi_gt_d20, pi_lt_d20⟩

/-- The partial sums of the series of `-log (1 - x)`, in rationals. -/
def logSum (x : ℚ) : ℕ → ℚ
  | 0 => 0
  | n + 1 => logSum x n + x ^ (n + 1) / (n + 1)

theorem logSum_cast (x : ℚ) (n : ℕ) :
    ((logSum x n : ℚ) : ℝ) = ∑ i ∈ Finset.range n, (x : ℝ) ^ (i + 1) / (i + 1) := by
  induction n with
  | zero => simp [logSum]
  | succ n ih => rw [Finset.sum_range_succ, ← ih]; simp [logSum]

theorem log_series {x : ℚ} (h0 : 0 ≤ x) (h1 : x < 1) (n : ℕ) :
    |((logSum x n : ℚ) : ℝ) + log (1 - x)| ≤ ((x ^ (n + 1) / (1 - x) : ℚ) : ℝ) := by
  have h0' : (0 : ℝ) ≤ (x : ℝ) := by exact_mod_cast h0
  have h1' : (x : ℝ) < 1 := by exact_mod_cast h1
  have t : |(x : ℝ)| = x := abs_of_nonneg h0'
  have z := Real.abs_log_sub_add_sum_range_le (x := (x : ℝ)) (by rw [t]; exact h1') n
  rw [logSum_cast]
  rw [t] at z
  push_cast
  exact z

theorem log_bounds {x lo hi : ℚ} (n : ℕ) (h0 : 0 ≤ x) (h1 : x < 1) (hlo : lo + x ^ (n + 1) / (1 - x) ≤ logSum x n)
    (hhi : logSum x n + x ^ (n + 1) / (1 - x) ≤ hi) : (lo : ℝ) ≤ -log (1 - x) ∧ -log (1 - x) ≤ (hi : ℝ) := by
  have h := abs_le.1 (log_series h0 h1 n)
  have hlo' : (lo : ℝ) + ((x ^ (n + 1) / (1 - x) : ℚ) : ℝ) ≤ ((logSum x n : ℚ) : ℝ) := by exact_mod_cast hlo
  have hhi' : ((logSum x n : ℚ) : ℝ) + ((x ^ (n + 1) / (1 - x) : ℚ) : ℝ) ≤ (hi : ℝ) := by exact_mod_cast hhi
  constructor <;> linarith [h.1, h.2]

theorem log_two_bounds : (0.693147180559945309417232 : ℝ) ≤ log 2 ∧ log 2 ≤ 0.693147180559945309417233 := by
  have h := log_bounds (x := 1 / 2) (lo := 0.693147180559945309417232) (hi := 0.693147180559945309417233) 84
    (by norm_num) (by norm_num) (by decide +kernel) (by decide +kernel)
  have e : -log (1 - ((1 / 2 : ℚ) : ℝ)) = log 2 := by
    rw [show (1 - ((1 / 2 : ℚ) : ℝ) : ℝ) = 2⁻¹ by norm_num, log_inv, neg_neg]
  rw [e] at h
  constructor
  · refine le_trans (le_of_eq ?_) h.1; norm_num
  · refine le_trans h.2 (le_of_eq ?_); norm_num

/-- `log (5/4)` -/
theorem log_five_fourths_bounds : (0.22314355131420975576 : ℝ) ≤ log (5 / 4) ∧ log (5 / 4) ≤ 0.22314355131420975577 := by
  have h := log_bounds (x := 1 / 5) (lo := 0.22314355131420975576) (hi := 0.22314355131420975577) 34
    (by norm_num) (by norm_num) (by decide +kernel) (by decide +kernel)
  have e : -log (1 - ((1 / 5 : ℚ) : ℝ)) = log (5 / 4) := by
    rw [show (1 - ((1 / 5 : ℚ) : ℝ) : ℝ) = (5 / 4)⁻¹ by norm_num, log_inv, neg_neg]
  rw [e] at h
  constructor
  · refine le_trans (le_of_eq ?_) h.1; norm_num
  · refine le_trans h.2 (le_of_eq ?_); norm_num

theorem log_ten_bounds : (2.30258509299404568399 : ℝ) ≤ log 10 ∧ log 10 ≤ 2.30258509299404568403 := by
  have e : log 10 = 3 * log 2 + log (5 / 4) := by
    rw [show (10 : ℝ) = 2 ^ 3 * (5 / 4) by norm_num, log_mul (by norm_num) (by norm_num), log_pow]
    norm_num
  have h1 := log_two_bounds
  have h2 := log_five_fourths_bounds
  rw [e]
  constructor
  · refine le_trans ?_ (add_le_add (mul_le_mul_of_nonneg_left h1.1 (by norm_num)) h2.1); norm_num
  · refine le_trans (add_le_add (mul_le_mul_of_nonneg_left h1.2 (by norm_num)) h2.2) ?_; norm_num

/-! Powers of e -/

/-- The partial sums of the exponential series, in rationals. -/
def expSum (x : ℚ) : ℕ → ℚ
  | 0 => 0
  | n + 1 => expSum x n + x ^ n / n.factorial

theorem expSum_cast (x : ℚ) (n : ℕ) :
    ((expSum x n : ℚ) : ℝ) = ∑ i ∈ Finset.range n, (x : ℝ) ^ i / i.factorial := by
  induction n with
  | zero => simp [expSum]
  | succ n ih => rw [Finset.sum_range_succ, ← ih]; simp [expSum]

theorem exp_bounds {x lo hi : ℚ} {n : ℕ} (hn : 0 < n) (h0 : 0 ≤ x) (h1 : x ≤ 1)
    (hlo : lo + x ^ n * ((n + 1) / (n.factorial * n)) ≤ expSum x n)
    (hhi : expSum x n + x ^ n * ((n + 1) / (n.factorial * n)) ≤ hi) : (lo : ℝ) ≤ exp x ∧ exp x ≤ (hi : ℝ) := by
  have h0' : (0 : ℝ) ≤ (x : ℝ) := by exact_mod_cast h0
  have h1' : (x : ℝ) ≤ 1 := by exact_mod_cast h1
  have h := Real.exp_bound (x := (x : ℝ)) (by rw [abs_of_nonneg h0']; exact h1') hn
  rw [abs_of_nonneg h0', ← expSum_cast] at h
  have hlo' : (lo : ℝ) + ((x ^ n * ((n + 1) / (n.factorial * n)) : ℚ) : ℝ) ≤ ((expSum x n : ℚ) : ℝ) := by
    exact_mod_cast hlo
  have hhi' : ((expSum x n : ℚ) : ℝ) + ((x ^ n * ((n + 1) / (n.factorial * n)) : ℚ) : ℝ) ≤ (hi : ℝ) := by
    exact_mod_cast hhi
  push_cast at hlo' hhi' h
  have h := abs_le.1 h
  constructor <;> linarith [h.1, h.2]

theorem e_pow_pi_bounds : (23.1406926327792690056 : ℝ) ≤ exp π ∧ exp π ≤ 23.1406926327792690060 := by
  have lo := (exp_bounds (x := 3.14159265358979323846 / 4) (lo := 2.193280050738015456558) (hi := 3) (n := 24)
    (by norm_num) (by norm_num) (by norm_num) (by decide +kernel) (by decide +kernel)).1
  have hi := (exp_bounds (x := 3.14159265358979323847 / 4) (lo := 2) (hi := 2.193280050738015456565) (n := 24)
    (by norm_num) (by norm_num) (by norm_num) (by decide +kernel) (by decide +kernel)).2
  have hp := pi_bounds
  have e : exp π = exp (π / 4) ^ 4 := by rw [← exp_nat_mul]; congr 1; push_cast; ring
  have l1 : (2.193280050738015456558 : ℝ) ≤ exp (π / 4) := by
    refine le_trans ?_ (exp_le_exp.2 (?_ : ((3.14159265358979323846 / 4 : ℚ) : ℝ) ≤ π / 4))
    · refine le_trans (le_of_eq ?_) lo; norm_num
    · have := hp.1; push_cast; norm_num at this ⊢; linarith
  have l2 : exp (π / 4) ≤ (2.193280050738015456565 : ℝ) := by
    refine le_trans (exp_le_exp.2 (?_ : π / 4 ≤ ((3.14159265358979323847 / 4 : ℚ) : ℝ))) ?_
    · have := hp.2; push_cast; norm_num at this ⊢; linarith
    · refine le_trans hi (le_of_eq ?_); norm_num
  rw [e]
  constructor
  · refine le_trans ?_ (pow_le_pow_left₀ (by norm_num) l1 4); norm_num
  · refine le_trans (pow_le_pow_left₀ (exp_pos _).le l2 4) ?_; norm_num

end Verif.Math
