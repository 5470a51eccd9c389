import Verif.Math.ConstantsProps
import Verif.Math.ConstantsSteps
import Mathlib.NumberTheory.Harmonic.EulerMascheroni
import Mathlib.Topology.Algebra.InfiniteSum.NatInt
import Mathlib.Data.Nat.Fib.Basic

/-! # The constants defined by series -/

set_option autoImplicit false

namespace Verif.Math.Const

open Real Filter Topology

/-- A series between two telescoping ones. -/
theorem tsum_bounds {f h g : ℕ → ℝ} (hf : ∀ n, 0 ≤ f n) (N : ℕ) (hh : Tendsto h atTop (𝓝 0))
    (hg : Tendsto g atTop (𝓝 0)) (hup : ∀ n, N ≤ n → f n ≤ h n - h (n + 1))
    (hlo : ∀ n, N ≤ n → g n - g (n + 1) ≤ f n) :
    Summable f ∧ ∑ i ∈ Finset.range N, f i + g N ≤ ∑' n, f n ∧ ∑' n, f n ≤ ∑ i ∈ Finset.range N, f i + h N := by
  have up : ∀ k, ∑ i ∈ Finset.range (N + k), f i + h (N + k) ≤ ∑ i ∈ Finset.range N, f i + h N := by
    intro k
    induction k with
    | zero => exact le_refl _
    | succ k ih =>
      rw [← Nat.add_assoc, Finset.sum_range_succ]
      linarith [hup (N + k) (by omega)]
  have lo : ∀ k, ∑ i ∈ Finset.range N, f i + g N ≤ ∑ i ∈ Finset.range (N + k), f i + g (N + k) := by
    intro k
    induction k with
    | zero => exact le_refl _
    | succ k ih =>
      rw [← Nat.add_assoc, Finset.sum_range_succ]
      linarith [hlo (N + k) (by omega)]
  have hpos : ∀ n, N ≤ n → 0 ≤ h n := by
    intro n hn
    have anti : ∀ k, h (n + k) ≤ h n := by
      intro k
      induction k with
      | zero => exact le_refl _
      | succ k ih =>
        have := hup (n + k) (by omega)
        have := hf (n + k)
        rw [← Nat.add_assoc]
        linarith
    refine le_of_tendsto (hh.comp (tendsto_add_atTop_nat n)) (Eventually.of_forall fun k => ?_)
    simpa [Nat.add_comm] using anti k
  have hs : Summable f := by
    refine summable_of_sum_range_le (c := ∑ i ∈ Finset.range N, f i + h N) hf fun n => ?_
    have mono : ∑ i ∈ Finset.range n, f i ≤ ∑ i ∈ Finset.range (N + n), f i :=
      Finset.sum_le_sum_of_subset_of_nonneg (Finset.range_mono (by omega)) fun i _ _ => hf i
    linarith [up n, hpos (N + n) (by omega)]
  have ht := hs.hasSum.tendsto_sum_nat
  have hshift : ∀ {u : ℕ → ℝ} {l : ℝ}, Tendsto u atTop (𝓝 l) → Tendsto (fun k => u (N + k)) atTop (𝓝 l) := by
    intro u l hu
    have := hu.comp (tendsto_add_atTop_nat N)
    simpa [Function.comp_def, Nat.add_comm] using this
  refine ⟨hs, ?_, ?_⟩
  · refine ge_of_tendsto (hshift (u := fun n => ∑ i ∈ Finset.range n, f i + g n) (l := ∑' n, f n) ?_)
      (Eventually.of_forall lo)
    simpa using ht.add hg
  · refine le_of_tendsto (hshift (u := fun n => ∑ i ∈ Finset.range n, f i + h n) (l := ∑' n, f n) ?_)
      (Eventually.of_forall up)
    simpa using ht.add hh

theorem tendsto_inv_pow {u : ℕ → ℝ} (hu : Tendsto u atTop atTop) (c : ℝ) {k : ℕ} (hk : k ≠ 0) :
    Tendsto (fun n => c / u n ^ k) atTop (𝓝 0) :=
  tendsto_const_nhds.div_atTop ((tendsto_pow_atTop hk).comp hu)

/-! ### `ζ(3)` -/

def zetaSum : ℕ → ℚ
  | 0 => 0
  | n + 1 => zetaSum n + 1 / (n + 1) ^ 3

theorem zetaSum_cast (n : ℕ) : ((zetaSum n : ℚ) : ℝ) = ∑ i ∈ Finset.range n, 1 / ((i : ℝ) + 1) ^ 3 := by
  induction n with
  | zero => simp [zetaSum]
  | succ n ih => rw [Finset.sum_range_succ, ← ih]; simp [zetaSum]

theorem tendsto_succ : Tendsto (fun n : ℕ => (n : ℝ) + 1) atTop atTop :=
  tendsto_atTop_add_const_right _ _ tendsto_natCast_atTop_atTop

/-- C77. `ζ(3)` -/
theorem zeta_three_near : Near Lit.zeta_three_v (∑' n : ℕ, 1 / ((n : ℝ) + 1) ^ 3) := by
  have hU : Tendsto (fun n : ℕ => zUp ((n : ℝ) + 1)) atTop (𝓝 0) := by
    have t := tendsto_succ
    simpa [zUp] using ((((tendsto_inv_pow t (1 / 2) two_ne_zero).add (tendsto_inv_pow t (1 / 2) three_ne_zero)).add
      (tendsto_inv_pow t (1 / 4) four_ne_zero)).add (tendsto_inv_pow t ((-1) / 12) (by norm_num : (6 : ℕ) ≠ 0))).add
      (tendsto_inv_pow t (1 / 12) (by norm_num : (8 : ℕ) ≠ 0))
  have hL : Tendsto (fun n : ℕ => zLo ((n : ℝ) + 1)) atTop (𝓝 0) := by
    have t := tendsto_succ
    simpa [zLo] using (((tendsto_inv_pow t (1 / 2) two_ne_zero).add (tendsto_inv_pow t (1 / 2) three_ne_zero)).add
      (tendsto_inv_pow t (1 / 4) four_ne_zero)).add (tendsto_inv_pow t ((-1) / 12) (by norm_num : (6 : ℕ) ≠ 0))
  obtain ⟨-, h1, h2⟩ := tsum_bounds (f := fun n : ℕ => 1 / ((n : ℝ) + 1) ^ 3) (fun n => by positivity) 300 hU hL
    (fun n _ => by
      have := zUp_step (m := n) (by positivity)
      push_cast
      rw [show (1 : ℝ) + 1 * n = n + 1 by ring, show (2 : ℝ) + 1 * n = n + 1 + 1 by ring] at this
      linarith)
    (fun n _ => by
      have := zLo_step (m := n) (by positivity)
      push_cast
      rw [show (1 : ℝ) + 1 * n = n + 1 by ring, show (2 : ℝ) + 1 * n = n + 1 + 1 by ring] at this
      linarith)
  rw [← zetaSum_cast] at h1 h2
  refine near_of_bounds (zetaSum 300 + ((1 / 2) / 301 ^ 2 + (1 / 2) / 301 ^ 3 + (1 / 4) / 301 ^ 4 + ((-1) / 12) / 301 ^ 6))
    (zetaSum 300 + ((1 / 2) / 301 ^ 2 + (1 / 2) / 301 ^ 3 + (1 / 4) / 301 ^ 4 + ((-1) / 12) / 301 ^ 6 + (1 / 12) / 301 ^ 8))
    ?_ ?_ (by decide +kernel) (by decide +kernel) (by decide +kernel)
  · refine le_trans (le_of_eq ?_) h1
    push_cast
    unfold zLo
    norm_num
  · refine le_trans h2 (le_of_eq ?_)
    push_cast
    unfold zUp
    norm_num

/-! ### The constant of Catalan -/

def catSum : ℕ → ℚ
  | 0 => 0
  | n + 1 => catSum n + (1 / (4 * n + 1) ^ 2 - 1 / (4 * n + 3) ^ 2)

theorem catSum_cast (n : ℕ) :
    ((catSum n : ℚ) : ℝ) = ∑ i ∈ Finset.range n, (1 / (4 * (i : ℝ) + 1) ^ 2 - 1 / (4 * (i : ℝ) + 3) ^ 2) := by
  induction n with
  | zero => simp [catSum]
  | succ n ih => rw [Finset.sum_range_succ, ← ih]; simp [catSum]

theorem tendsto_four : Tendsto (fun n : ℕ => 4 * (n : ℝ)) atTop atTop :=
  tendsto_natCast_atTop_atTop.const_mul_atTop (by norm_num)

/-- C77. The constant of Catalan, `1 - 1/3² + 1/5² - …` -/
theorem catalan_near : Near Lit.catalan_v (∑' n : ℕ, (-1) ^ n / (2 * (n : ℝ) + 1) ^ 2) := by
  have habs : Summable fun n : ℕ => 1 / (2 * (n : ℝ) + 1) ^ 2 := by
    refine Summable.of_nonneg_of_le (fun n => by positivity) (fun n => ?_)
      ((summable_nat_add_iff 1).2 (Real.summable_one_div_nat_pow.2 (by norm_num : 1 < 2)))
    push_cast
    exact one_div_le_one_div_of_le (by positivity) (by gcongr; linarith [(Nat.cast_nonneg n : (0 : ℝ) ≤ n)])
  have hs : Summable fun n : ℕ => (-1) ^ n / (2 * (n : ℝ) + 1) ^ 2 := by
    refine Summable.of_norm_bounded habs fun n => ?_
    rw [norm_div, norm_pow, norm_neg, norm_one, one_pow, Real.norm_of_nonneg (by positivity)]
  have e1 : ∀ n : ℕ, (-1 : ℝ) ^ (2 * n) / (2 * ((2 * n : ℕ) : ℝ) + 1) ^ 2 = 1 / (4 * (n : ℝ) + 1) ^ 2 := by
    intro n
    rw [pow_mul]
    push_cast
    norm_num
    ring
  have e2 : ∀ n : ℕ, (-1 : ℝ) ^ (2 * n + 1) / (2 * ((2 * n + 1 : ℕ) : ℝ) + 1) ^ 2 = -(1 / (4 * (n : ℝ) + 3) ^ 2) := by
    intro n
    rw [pow_succ, pow_mul]
    push_cast
    norm_num
    ring
  have hse : Summable fun n : ℕ => 1 / (4 * (n : ℝ) + 1) ^ 2 := by
    have := hs.comp_injective (i := fun n : ℕ => 2 * n) (fun a b h => by simpa using h)
    simpa only [Function.comp_def, e1] using this
  have hso : Summable fun n : ℕ => -(1 / (4 * (n : ℝ) + 3) ^ 2) := by
    have := hs.comp_injective (i := fun n : ℕ => 2 * n + 1) (fun a b h => by simpa using h)
    simpa only [Function.comp_def, e2] using this
  have hpair : ∑' n : ℕ, (-1) ^ n / (2 * (n : ℝ) + 1) ^ 2 =
      ∑' n : ℕ, (1 / (4 * (n : ℝ) + 1) ^ 2 - 1 / (4 * (n : ℝ) + 3) ^ 2) := by
    rw [← tsum_even_add_odd (f := fun n : ℕ => (-1) ^ n / (2 * (n : ℝ) + 1) ^ 2)]
    · simp only [e1, e2]
      rw [← hse.tsum_add hso]
      rfl
    · simpa only [e1] using hse
    · simpa only [e2] using hso
  rw [hpair]
  have t := tendsto_four
  have hU : Tendsto (fun n : ℕ => bUp (4 * (n : ℝ))) atTop (𝓝 0) := by
    simpa [bUp] using ((tendsto_inv_pow t (1 / 2) two_ne_zero).add (tendsto_inv_pow t ((-3) / 2) four_ne_zero)).add
      (tendsto_inv_pow t (25 / 2) (by norm_num : (6 : ℕ) ≠ 0))
  have hL : Tendsto (fun n : ℕ => bLo (4 * (n : ℝ))) atTop (𝓝 0) := by
    simpa [bLo] using (((tendsto_inv_pow t (1 / 2) two_ne_zero).add (tendsto_inv_pow t ((-3) / 2) four_ne_zero)).add
      (tendsto_inv_pow t (25 / 2) (by norm_num : (6 : ℕ) ≠ 0))).add
      (tendsto_inv_pow t ((-427) / 2) (by norm_num : (8 : ℕ) ≠ 0))
  have hcast : ∀ n : ℕ, 200 ≤ n → ∃ m : ℝ, 0 ≤ m ∧ (n : ℝ) = m + 1 := by
    intro n hn
    refine ⟨(n : ℝ) - 1, ?_, by ring⟩
    have : (200 : ℝ) ≤ n := by exact_mod_cast hn
    linarith
  obtain ⟨-, h1, h2⟩ := tsum_bounds
    (f := fun n : ℕ => 1 / (4 * (n : ℝ) + 1) ^ 2 - 1 / (4 * (n : ℝ) + 3) ^ 2)
    (fun n => by
      have : 1 / (4 * (n : ℝ) + 3) ^ 2 ≤ 1 / (4 * (n : ℝ) + 1) ^ 2 :=
        one_div_le_one_div_of_le (by positivity) (by gcongr; norm_num)
      linarith) 200 hU hL
    (fun n hn => by
      obtain ⟨m, hm, e⟩ := hcast n hn
      have := bUp_step hm
      push_cast
      rw [e, show 4 * (m + 1) + 1 = 5 + 4 * m by ring, show 4 * (m + 1) + 3 = 7 + 4 * m by ring,
        show 4 * (m + 1 + 1) = 8 + 4 * m by ring, show 4 * (m + 1) = 4 + 4 * m by ring]
      linarith)
    (fun n hn => by
      obtain ⟨m, hm, e⟩ := hcast n hn
      have := bLo_step hm
      push_cast
      rw [e, show 4 * (m + 1) + 1 = 5 + 4 * m by ring, show 4 * (m + 1) + 3 = 7 + 4 * m by ring,
        show 4 * (m + 1 + 1) = 8 + 4 * m by ring, show 4 * (m + 1) = 4 + 4 * m by ring]
      linarith)
  rw [← catSum_cast] at h1 h2
  refine near_of_bounds
    (catSum 200 + ((1 / 2) / 800 ^ 2 + ((-3) / 2) / 800 ^ 4 + (25 / 2) / 800 ^ 6 + ((-427) / 2) / 800 ^ 8))
    (catSum 200 + ((1 / 2) / 800 ^ 2 + ((-3) / 2) / 800 ^ 4 + (25 / 2) / 800 ^ 6))
    ?_ ?_ (by decide +kernel) (by decide +kernel) (by decide +kernel)
  · refine le_trans (le_of_eq ?_) h1
    push_cast
    unfold bLo
    norm_num
  · refine le_trans h2 (le_of_eq ?_)
    push_cast
    unfold bUp
    norm_num

/-! ### The reciprocal Fibonacci constant -/

def fibSum : ℕ → ℚ
  | 0 => 0
  | n + 1 => fibSum n + 1 / (Nat.fib (n + 1) : ℚ)

theorem fibSum_cast (n : ℕ) : ((fibSum n : ℚ) : ℝ) = ∑ i ∈ Finset.range n, 1 / (Nat.fib (i + 1) : ℝ) := by
  induction n with
  | zero => simp [fibSum]
  | succ n ih => rw [Finset.sum_range_succ, ← ih]; simp [fibSum]

theorem tendsto_fib (k : ℕ) : Tendsto (fun n : ℕ => 1 / (Nat.fib (n + k) : ℝ)) atTop (𝓝 0) := by
  have hf : Tendsto (fun n : ℕ => (Nat.fib (n + 2) : ℝ)) atTop atTop :=
    tendsto_natCast_atTop_atTop.comp Nat.fib_add_two_strictMono.tendsto_atTop
  have h2 : Tendsto (fun n : ℕ => (Nat.fib n : ℝ)) atTop atTop := (tendsto_add_atTop_iff_nat 2).1 hf
  exact tendsto_const_nhds.div_atTop (h2.comp (tendsto_add_atTop_nat k))

/-- C77. The sum of the reciprocals of the Fibonacci numbers -/
theorem inv_fibonacci_near : Near Lit.inv_fibonacci_v (∑' n : ℕ, 1 / (Nat.fib (n + 1) : ℝ)) := by
  have hU : Tendsto (fun n : ℕ => 2 * (1 / (Nat.fib (n + 1) : ℝ)) + 2 * (1 / (Nat.fib (n + 2) : ℝ))) atTop (𝓝 0) := by
    simpa using ((tendsto_fib 1).const_mul 2).add ((tendsto_fib 2).const_mul 2)
  obtain ⟨-, h1, h2⟩ := tsum_bounds (f := fun n : ℕ => 1 / (Nat.fib (n + 1) : ℝ)) (g := fun _ => 0)
    (fun n => by positivity) 100 hU tendsto_const_nhds
    (fun n _ => by
      have hp : (0 : ℝ) < Nat.fib (n + 1) := by exact_mod_cast Nat.fib_pos.2 (by omega)
      have h3 : Nat.fib (n + 3) = Nat.fib (n + 1) + Nat.fib (n + 2) := Nat.fib_add_two
      have hle : Nat.fib (n + 1) ≤ Nat.fib (n + 2) := Nat.fib_le_fib_succ
      have : 1 / (Nat.fib (n + 3) : ℝ) ≤ 1 / (2 * (Nat.fib (n + 1) : ℝ)) := by
        refine one_div_le_one_div_of_le (by positivity) ?_
        have : 2 * Nat.fib (n + 1) ≤ Nat.fib (n + 3) := by omega
        exact_mod_cast this
      have e : 1 / (2 * (Nat.fib (n + 1) : ℝ)) = 1 / (Nat.fib (n + 1) : ℝ) / 2 := by field_simp
      rw [e] at this
      show 1 / (Nat.fib (n + 1) : ℝ) ≤ 2 * (1 / (Nat.fib (n + 1) : ℝ)) + 2 * (1 / (Nat.fib (n + 2) : ℝ)) -
        (2 * (1 / (Nat.fib (n + 1 + 1) : ℝ)) + 2 * (1 / (Nat.fib (n + 1 + 2) : ℝ)))
      linarith)
    (fun n _ => by
      simp only [sub_zero]
      positivity)
  rw [← fibSum_cast] at h1 h2
  refine near_of_bounds (fibSum 100) (fibSum 100 + (2 * (1 / (Nat.fib 101 : ℚ)) + 2 * (1 / (Nat.fib 102 : ℚ))))
    ?_ ?_ (by decide +kernel) (by decide +kernel) (by decide +kernel)
  · simpa using h1
  · refine le_trans h2 (le_of_eq ?_)
    push_cast
    rfl

/-! ### The constant of Euler and Mascheroni -/

theorem log_step_lower {n : ℝ} (hn : 0 < n) :
    (2 / 1) / (1 + 2 * n) ^ 1 + (2 / 3) / (1 + 2 * n) ^ 3 + (2 / 5) / (1 + 2 * n) ^ 5 + (2 / 7) / (1 + 2 * n) ^ 7 ≤
      log (1 + n⁻¹) := by
  have h := hasSum_log_one_add_inv hn
  have := sum_le_hasSum (Finset.range 4) (fun i _ => by positivity) h
  refine le_trans (le_of_eq ?_) this
  have : 1 + 2 * n ≠ 0 := by positivity
  simp only [Finset.sum_range_succ, Finset.sum_range_zero]
  push_cast
  rw [show 2 * n + 1 = 1 + 2 * n by ring]
  field_simp
  ring

theorem log_step_upper {n : ℝ} (hn : 1 ≤ n) :
    log (1 + n⁻¹) ≤ (2 / 1) / (1 + 2 * n) ^ 1 + (2 / 3) / (1 + 2 * n) ^ 3 + (2 / 5) / (1 + 2 * n) ^ 5 +
      (2 / 7) / (1 + 2 * n) ^ 7 + (2 / 9) / (1 + 2 * n) ^ 9 + (9 / 44) / (1 + 2 * n) ^ 11 := by
  have hn0 : 0 < n := by linarith
  have h := hasSum_log_one_add_inv hn0
  have hs := h.summable
  rw [← h.tsum_eq, ← hs.sum_add_tsum_nat_add 5]
  have hp : (0 : ℝ) < 1 + 2 * n := by positivity
  set t : ℝ := 1 / (1 + 2 * n) with ht
  have ht0 : 0 < t := by positivity
  have ht1 : t ^ 2 ≤ 1 / 9 := by
    rw [ht, one_div_pow]
    exact one_div_le_one_div_of_le (by norm_num) (by nlinarith)
  have tail : ∑' i : ℕ, 2 * (1 / (2 * ((i + 5 : ℕ) : ℝ) + 1)) * (1 / (2 * n + 1)) ^ (2 * (i + 5) + 1) ≤
      (9 / 44) * t ^ 11 := by
    have hg : HasSum (fun i : ℕ => (2 / 11) * t ^ 11 * (1 / 9 : ℝ) ^ i) ((2 / 11) * t ^ 11 * (1 - 1 / 9)⁻¹) :=
      (hasSum_geometric_of_lt_one (by norm_num) (by norm_num)).mul_left _
    have hle : ∀ i : ℕ, 2 * (1 / (2 * ((i + 5 : ℕ) : ℝ) + 1)) * (1 / (2 * n + 1)) ^ (2 * (i + 5) + 1) ≤
        (2 / 11) * t ^ 11 * (1 / 9 : ℝ) ^ i := by
      intro i
      rw [show 2 * n + 1 = 1 + 2 * n by ring, ← ht, show 2 * (i + 5) + 1 = 11 + 2 * i by ring, pow_add, pow_mul]
      have a : 2 * (1 / (2 * ((i + 5 : ℕ) : ℝ) + 1)) ≤ 2 / 11 := by
        push_cast
        rw [mul_one_div]
        refine div_le_div_of_nonneg_left (by norm_num) (by norm_num) ?_
        linarith [(Nat.cast_nonneg i : (0 : ℝ) ≤ i)]
      have b : (t ^ 2) ^ i ≤ (1 / 9) ^ i := pow_le_pow_left₀ (by positivity) ht1 i
      calc _ ≤ 2 / 11 * (t ^ 11 * (t ^ 2) ^ i) := mul_le_mul_of_nonneg_right a (by positivity)
        _ ≤ 2 / 11 * (t ^ 11 * (1 / 9) ^ i) := by gcongr
        _ = _ := by ring
    have hsum := (summable_nat_add_iff 5).2 hs
    refine le_trans (hsum.tsum_le_tsum hle hg.summable) (le_of_eq ?_)
    rw [hg.tsum_eq]
    norm_num
    ring
  have e : (9 / 44) * t ^ 11 = (9 / 44) / (1 + 2 * n) ^ 11 := by
    rw [ht, one_div_pow]
    ring
  rw [e] at tail
  refine le_trans (add_le_add (le_refl _) tail) (le_of_eq ?_)
  simp only [Finset.sum_range_succ, Finset.sum_range_zero]
  push_cast
  rw [show 2 * n + 1 = 1 + 2 * n by ring]
  field_simp
  ring

def harmSum : ℕ → ℚ
  | 0 => 0
  | n + 1 => harmSum n + 1 / (n + 1)

theorem harmSum_eq (n : ℕ) : harmSum n = harmonic n := by
  induction n with
  | zero => simp [harmSum]
  | succ n ih => rw [harmonic_succ, ← ih]; simp [harmSum]

theorem euler_bounds :
    (harmonic 256 : ℝ) - log 256 - rLo 256 ≤ eulerMascheroniConstant ∧
    eulerMascheroniConstant ≤ (harmonic 256 : ℝ) - log 256 - rUp 256 := by
  have ht := tendsto_harmonic_sub_log
  have t : Tendsto (fun n : ℕ => (n : ℝ)) atTop atTop := tendsto_natCast_atTop_atTop
  have hU : Tendsto (fun n : ℕ => rUp (n : ℝ)) atTop (𝓝 0) := by
    simpa [rUp] using (((tendsto_inv_pow t (1 / 2) one_ne_zero).add (tendsto_inv_pow t ((-1) / 12) two_ne_zero)).add
      (tendsto_inv_pow t (1 / 120) four_ne_zero)).add (tendsto_inv_pow t ((-1) / 252) (by norm_num : (6 : ℕ) ≠ 0))
  have hL : Tendsto (fun n : ℕ => rLo (n : ℝ)) atTop (𝓝 0) := by
    simpa [rLo] using ((((tendsto_inv_pow t (1 / 2) one_ne_zero).add (tendsto_inv_pow t ((-1) / 12) two_ne_zero)).add
      (tendsto_inv_pow t (1 / 120) four_ne_zero)).add (tendsto_inv_pow t ((-1) / 252) (by norm_num : (6 : ℕ) ≠ 0))).add
      (tendsto_inv_pow t (1 / 240) (by norm_num : (8 : ℕ) ≠ 0))
  have hlog : ∀ n : ℕ, 0 < n → log ((n + 1 : ℕ) : ℝ) = log n + log (1 + (n : ℝ)⁻¹) := by
    intro n hn
    have hp : (0 : ℝ) < n := by exact_mod_cast hn
    rw [← log_mul (by positivity) (by positivity)]
    congr 1
    push_cast
    field_simp
  have hcast : ∀ n : ℕ, 256 ≤ n → ∃ m : ℝ, 0 ≤ m ∧ (n : ℝ) = 10 + 1 * m := by
    intro n hn
    refine ⟨(n : ℝ) - 10, ?_, by ring⟩
    have : (256 : ℝ) ≤ n := by exact_mod_cast hn
    linarith
  have hshift : ∀ {u : ℕ → ℝ} {l : ℝ}, Tendsto u atTop (𝓝 l) → Tendsto (fun k => u (256 + k)) atTop (𝓝 l) := by
    intro u l hu
    have := hu.comp (tendsto_add_atTop_nat 256)
    simpa [Function.comp_def, Nat.add_comm] using this
  constructor
  · have step : ∀ k : ℕ, (harmonic 256 : ℝ) - log (256 : ℕ) - rLo (256 : ℕ) ≤
        (harmonic (256 + k) : ℝ) - log ((256 + k : ℕ) : ℝ) - rLo ((256 + k : ℕ) : ℝ) := by
      intro k
      induction k with
      | zero => exact le_refl _
      | succ k ih =>
        refine le_trans ih ?_
        obtain ⟨m, hm, e⟩ := hcast (256 + k) (by omega)
        have h1 := rLo_step hm
        have h2 := log_step_upper (n := ((256 + k : ℕ) : ℝ)) (by rw [e]; linarith)
        rw [← Nat.add_assoc, harmonic_succ, hlog _ (by omega)]
        push_cast at h2 e ⊢
        rw [e] at h2 ⊢
        rw [show 1 + 2 * (10 + 1 * m) = 21 + 2 * m by ring] at h2
        rw [show 10 + 1 * m + 1 = 11 + 1 * m by ring]
        rw [one_div] at h1
        linarith
    have hlim : Tendsto (fun n : ℕ => (harmonic n : ℝ) - log n - rLo n) atTop (𝓝 eulerMascheroniConstant) := by
      simpa using ht.sub hL
    have := ge_of_tendsto (hshift hlim) (Eventually.of_forall step)
    rwa [Nat.cast_ofNat] at this
  · have step : ∀ k : ℕ, (harmonic (256 + k) : ℝ) - log ((256 + k : ℕ) : ℝ) - rUp ((256 + k : ℕ) : ℝ) ≤
        (harmonic 256 : ℝ) - log (256 : ℕ) - rUp (256 : ℕ) := by
      intro k
      induction k with
      | zero => exact le_refl _
      | succ k ih =>
        refine le_trans ?_ ih
        obtain ⟨m, hm, e⟩ := hcast (256 + k) (by omega)
        have h1 := rUp_step hm
        have h2 := log_step_lower (n := ((256 + k : ℕ) : ℝ)) (by rw [e]; linarith)
        rw [← Nat.add_assoc, harmonic_succ, hlog _ (by omega)]
        push_cast at h2 e ⊢
        rw [e] at h2 ⊢
        rw [show 1 + 2 * (10 + 1 * m) = 21 + 2 * m by ring] at h2
        rw [show 10 + 1 * m + 1 = 11 + 1 * m by ring]
        rw [one_div] at h1
        linarith
    have hlim : Tendsto (fun n : ℕ => (harmonic n : ℝ) - log n - rUp n) atTop (𝓝 eulerMascheroniConstant) := by
      simpa using ht.sub hU
    have := le_of_tendsto (hshift hlim) (Eventually.of_forall step)
    rwa [Nat.cast_ofNat] at this

/-- C77. The constant of Euler and Mascheroni -/
theorem euler_near : Near Lit.euler_v eulerMascheroniConstant := by
  have h := euler_bounds
  have e : log 256 = 8 * log 2 := by
    rw [show (256 : ℝ) = 2 ^ 8 by norm_num, log_pow]
    norm_num
  rw [e, ← harmSum_eq] at h
  have h2 := log_two_bounds
  refine near_of_bounds (harmSum 256 - 8 * 0.693147180559945309417233 - ((1 / 2) / 256 ^ 1 + ((-1) / 12) / 256 ^ 2 +
      (1 / 120) / 256 ^ 4 + ((-1) / 252) / 256 ^ 6 + (1 / 240) / 256 ^ 8))
    (harmSum 256 - 8 * 0.693147180559945309417232 - ((1 / 2) / 256 ^ 1 + ((-1) / 12) / 256 ^ 2 + (1 / 120) / 256 ^ 4 +
      ((-1) / 252) / 256 ^ 6))
    ?_ ?_ (by decide +kernel) (by decide +kernel) (by decide +kernel)
  · refine le_trans ?_ h.1
    unfold rLo
    have := h2.2
    push_cast
    norm_num at this ⊢
    linarith
  · refine le_trans h.2 ?_
    unfold rUp
    have := h2.1
    push_cast
    norm_num at this ⊢
    linarith

/-! ### The constant of Gauss -/

open NNReal in
/-- Bounds for one step of the arithmetic-geometric mean. -/
theorem agm_step {x y : ℝ≥0} {l1 h1 l2 h2 : ℚ} (L1 H1 L2 H2 : ℚ)
    (hx : (l1 : ℝ) ≤ x ∧ (x : ℝ) ≤ h1) (hy : (l2 : ℝ) ≤ y ∧ (y : ℝ) ≤ h2) (hl1 : 0 ≤ l1) (hl2 : 0 ≤ l2) (hH1 : 0 ≤ H1)
    (a1 : L1 ^ 2 ≤ l1 * l2) (b1 : h1 * h2 ≤ H1 ^ 2) (a2 : L2 ≤ (l1 + l2) / 2) (b2 : (h1 + h2) / 2 ≤ H2) :
    ((L1 : ℝ) ≤ (NNReal.sqrt (x * y) : ℝ≥0) ∧ ((NNReal.sqrt (x * y) : ℝ≥0) : ℝ) ≤ H1) ∧
    ((L2 : ℝ) ≤ ((x + y) / 2 : ℝ≥0) ∧ (((x + y) / 2 : ℝ≥0) : ℝ) ≤ H2) := by
  have l1' : (0 : ℝ) ≤ l1 := by exact_mod_cast hl1
  have l2' : (0 : ℝ) ≤ l2 := by exact_mod_cast hl2
  have H1' : (0 : ℝ) ≤ H1 := by exact_mod_cast hH1
  have a1' : (L1 : ℝ) ^ 2 ≤ l1 * l2 := by exact_mod_cast a1
  have b1' : (h1 : ℝ) * h2 ≤ (H1 : ℝ) ^ 2 := by exact_mod_cast b1
  have a2' : (L2 : ℝ) ≤ (l1 + l2) / 2 := by
    have : ((L2 : ℚ) : ℝ) ≤ (((l1 + l2) / 2 : ℚ) : ℝ) := by exact_mod_cast a2
    push_cast at this
    exact this
  have b2' : ((h1 : ℝ) + h2) / 2 ≤ H2 := by
    have : (((h1 + h2) / 2 : ℚ) : ℝ) ≤ ((H2 : ℚ) : ℝ) := by exact_mod_cast b2
    push_cast at this
    exact this
  rw [Real.coe_sqrt, NNReal.coe_mul, NNReal.coe_div, NNReal.coe_add]
  refine ⟨⟨?_, ?_⟩, ?_, ?_⟩
  · exact Real.le_sqrt_of_sq_le (le_trans a1' (mul_le_mul hx.1 hy.1 l2' (by positivity)))
  · exact Real.sqrt_le_iff.2 ⟨H1', le_trans (mul_le_mul hx.2 hy.2 (by positivity) (by linarith [hx.1, hx.2])) b1'⟩
  · have : ((2 : ℝ≥0) : ℝ) = 2 := rfl
    rw [this]
    linarith [hx.1, hy.1]
  · have : ((2 : ℝ≥0) : ℝ) = 2 := rfl
    rw [this]
    linarith [hx.2, hy.2]

theorem agm_between {x y : NNReal} {l1 h1 l2 h2 c d : ℚ} (hx : (l1 : ℝ) ≤ x ∧ (x : ℝ) ≤ h1)
    (hy : (l2 : ℝ) ≤ y ∧ (y : ℝ) ≤ h2) (c1 : c ≤ l1) (c2 : c ≤ l2) (d1 : h1 ≤ d) (d2 : h2 ≤ d) :
    (c : ℝ) ≤ (NNReal.agm x y : ℝ) ∧ (NNReal.agm x y : ℝ) ≤ d := by
  have c1' : (c : ℝ) ≤ l1 := by exact_mod_cast c1
  have c2' : (c : ℝ) ≤ l2 := by exact_mod_cast c2
  have d1' : (h1 : ℝ) ≤ d := by exact_mod_cast d1
  have d2' : (h2 : ℝ) ≤ d := by exact_mod_cast d2
  have h1 : ((min x y : NNReal) : ℝ) ≤ (NNReal.agm x y : ℝ) := NNReal.coe_le_coe.2 NNReal.min_le_agm
  have h2 : (NNReal.agm x y : ℝ) ≤ ((max x y : NNReal) : ℝ) := NNReal.coe_le_coe.2 NNReal.agm_le_max
  rw [NNReal.coe_min] at h1
  rw [NNReal.coe_max] at h2
  refine ⟨le_trans (le_min ?_ ?_) h1, le_trans h2 (max_le ?_ ?_)⟩ <;> linarith [hx.1, hx.2, hy.1, hy.2]

/-- C77. The constant of Gauss, `1 / agm(1, √2)` -/
theorem gauss_near : Near Lit.gauss_v (1 / (NNReal.agm 1 (NNReal.sqrt 2) : ℝ)) := by
  have h0 : ((1 : ℚ) : ℝ) ≤ (1 : NNReal) ∧ ((1 : NNReal) : ℝ) ≤ (1 : ℚ) := by norm_num
  have k0 : ((1.41421356237309504880168872 : ℚ) : ℝ) ≤ (NNReal.sqrt 2 : NNReal) ∧
      ((NNReal.sqrt 2 : NNReal) : ℝ) ≤ (1.41421356237309504880168873 : ℚ) := by
    rw [Real.coe_sqrt]
    constructor
    · exact Real.le_sqrt_of_sq_le (by norm_num)
    · exact Real.sqrt_le_iff.2 ⟨by norm_num, by norm_num⟩
  obtain ⟨h1, k1⟩ := agm_step 1.18920711500272106671749995 1.18920711500272106671750000
    1.20710678118654752440084434 1.20710678118654752440084439 h0 k0
    (by norm_num) (by norm_num) (by norm_num) (by norm_num) (by norm_num) (by norm_num) (by norm_num)
  obtain ⟨h2, k2⟩ := agm_step 1.19812352149312012260658553 1.19812352149312012260658562
    1.19815694809463429555917212 1.19815694809463429555917221 h1 k1
    (by norm_num) (by norm_num) (by norm_num) (by norm_num) (by norm_num) (by norm_num) (by norm_num)
  obtain ⟨h3, k3⟩ := agm_step 1.19814023467730720579838372 1.19814023467730720579838385
    1.19814023479387720908287880 1.19814023479387720908287893 h2 k2
    (by norm_num) (by norm_num) (by norm_num) (by norm_num) (by norm_num) (by norm_num) (by norm_num)
  obtain ⟨h4, k4⟩ := agm_step 1.19814023473559220743921357 1.19814023473559220743921374
    1.19814023473559220744063124 1.19814023473559220744063141 h3 k3
    (by norm_num) (by norm_num) (by norm_num) (by norm_num) (by norm_num) (by norm_num) (by norm_num)
  rw [NNReal.agm_eq_agm_gm_am, NNReal.agm_eq_agm_gm_am, NNReal.agm_eq_agm_gm_am, NNReal.agm_eq_agm_gm_am]
  obtain ⟨hl, hh⟩ := agm_between h4 k4 (c := 1.198140234735592207439) (d := 1.198140234735592207441) (by norm_num) (by norm_num)
    (by norm_num) (by norm_num)
  refine near_of_bounds (1 / 1.198140234735592207441) (1 / 1.198140234735592207439) ?_ ?_ (by decide +kernel)
    (by decide +kernel) (by decide +kernel)
  · push_cast
    refine one_div_le_one_div_of_le (lt_of_lt_of_le ?_ hl) (le_trans hh (le_of_eq ?_)) <;> norm_num
  · push_cast
    refine one_div_le_one_div_of_le ?_ (le_trans (le_of_eq ?_) hl) <;> norm_num

end Verif.Math.Const
