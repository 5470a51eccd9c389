import Verif.Math.Rounding

/-!
Floating-point component types with everything IEEE 754 has: a bounded exponent, subnormal numbers, signed
zeros, infinities, NaN, and the exceptions an operation raises (`std::fetestexcept`).  `float` is `binary32`,
`double` is `binary64`; the operations round to nearest, ties to even.

`IVal F` are the values; `Flagged F` is a value with the record of whether an exception was raised on the way
to it.  Both have the operations the library's templates use, so that the very definitions of `Vector.lean`
and `Matrix.lean` run on them.

Simplifications: one NaN (no sign, no payload); no operation is contracted into a fused multiply-add or
carried out in a wider type; subnormal numbers are not flushed to zero; the exception "inexact" is not
recorded.  Nothing is assumed about `sin` and `cos`.
-/

set_option autoImplicit false

namespace Verif.Math

/-- A binary interchange format of IEEE 754: `p` digits, exponents from `1 - emax` to `emax`. The `T` of
vector.hpp, matrix.hpp and quaternion.hpp. Part of the model, not of the code. -/
structure Format where
  p : Nat
  emax : ℤ
  hp : 3 ≤ p
  hemax : (p : ℤ) ≤ emax

namespace Format

/-- `float`. Part of the model, not of the code. -/
def binary32 : Format := ⟨24, 127, by norm_num, by norm_num⟩
/-- `double`. Part of the model, not of the code. -/
def binary64 : Format := ⟨53, 1023, by norm_num, by norm_num⟩

variable (F : Format)

/-- The least exponent of a normal number. Part of the model, not of the code. -/
def emin : ℤ := 1 - F.emax

/-- Exponent of the last place of `x`: that of the least exponent when `x` is small. Part of the model, not of
the code. -/
noncomputable def place (x : ℝ) : ℤ := max (Int.log 2 |x|) F.emin - (F.p - 1)

/-- Rounding to nearest, ties to even, the exponent bounded below. Part of the model, not of the code. -/
noncomputable def rnd (x : ℝ) : ℝ := rne (x / 2 ^ F.place x) * 2 ^ F.place x

/-- The largest finite number. Part of the model, not of the code. -/
noncomputable def largest : ℝ := (2 - 2 ^ (1 - (F.p : ℤ))) * 2 ^ F.emax

/-- The least normal number. Part of the model, not of the code. -/
noncomputable def tiny : ℝ := 2 ^ F.emin

/-- The unit roundoff: half the distance from 1 to the next number. Part of the model, not of the code. -/
noncomputable def u : ℝ := 2 ^ (-(F.p : ℤ))

/-- Half the least subnormal number: the largest error of a result that is small. Part of the model, not of the
code. -/
noncomputable def eta : ℝ := F.u * F.tiny

/-- The same digits with an unbounded exponent. Part of the model, not of the code. -/
noncomputable def wide : Rounding := nearestEven F.p (by have := F.hp; omega)

/-- `x` is a finite number of the format other than zero. Part of the model, not of the code. -/
def Rep (x : ℝ) : Prop := x ≠ 0 ∧ F.rnd x = x ∧ |x| ≤ F.largest

/-! ### Facts about the rounding -/

theorem p_pos : 1 ≤ F.p := by have := F.hp; omega

theorem place_ge (x : ℝ) : F.emin - (F.p - 1) ≤ F.place x := by
  unfold place; have := le_max_right (Int.log 2 |x|) F.emin; omega

theorem rnd_neg (x : ℝ) : F.rnd (-x) = -F.rnd x := by
  unfold rnd place
  rw [abs_neg, neg_div, rne_neg]; push_cast; ring

theorem rnd_zero : F.rnd 0 = 0 := by
  have := F.rnd_neg 0
  rw [neg_zero] at this; linarith

/-- A number of normal size is rounded as if the exponent were unbounded. -/
theorem rnd_normal {x : ℝ} (h : F.tiny ≤ |x|) : F.rnd x = roundTo F.p x := by
  have hx : 0 < |x| := lt_of_lt_of_le (by unfold tiny; positivity) h
  have : F.emin ≤ Int.log 2 |x| := by
    have h2 := (binade hx).2
    unfold tiny at h
    have := (zpow_lt_zpow_iff_right₀ (by norm_num : (1 : ℝ) < 2)).mp (h.trans_lt h2)
    omega
  unfold rnd roundTo place lastPlace
  rw [max_eq_left this]

/-- The grid of the small numbers. -/
noncomputable def grid : ℤ := F.emin - (F.p - 1)

theorem place_small {x : ℝ} (h : |x| < F.tiny) (h0 : x ≠ 0) : F.place x = F.grid := by
  have : Int.log 2 |x| ≤ F.emin := by
    have h1 := (binade (abs_pos.mpr h0)).1
    unfold tiny at h
    exact ((zpow_lt_zpow_iff_right₀ (by norm_num : (1 : ℝ) < 2)).mp (h1.trans_lt h)).le
  unfold place grid
  rw [max_eq_right this]

theorem rnd_small {x : ℝ} (h : |x| < F.tiny) : F.rnd x = rne (x / 2 ^ F.grid) * 2 ^ F.grid := by
  by_cases h0 : x = 0
  · rw [h0, F.rnd_zero, zero_div, show (0 : ℝ) = ((0 : ℤ) : ℝ) by simp, rne_int]; simp
  · unfold rnd; rw [F.place_small h h0]

/-- Multiples of the grid of the small numbers that are small are representable. -/
theorem rnd_grid {x : ℝ} (n : ℤ) (h : |x| ≤ F.tiny) (hn : x = n * 2 ^ F.grid) : F.rnd x = x := by
  rcases h.lt_or_eq with h | h
  · rw [F.rnd_small h]
    have : x / 2 ^ F.grid = n := by rw [hn]; field_simp
    rw [this, rne_int, ← hn]
  · rw [F.rnd_normal h.ge]
    rcases abs_choice x with e | e
    · rw [← e, h]; exact roundTo_pow F.p_pos _
    · have : x = -F.tiny := by rw [← h, e, neg_neg]
      rw [this, roundTo_neg]; exact congrArg Neg.neg (roundTo_pow F.p_pos _)

theorem tiny_pos : 0 < F.tiny := by unfold tiny; positivity
theorem u_pos : 0 < F.u := by unfold u; positivity
theorem eta_pos : 0 < F.eta := mul_pos F.u_pos F.tiny_pos

theorem u_le : F.u ≤ 1 / 4 := by
  unfold u
  have := zpow_le_zpow_right₀ (by norm_num : (1 : ℝ) ≤ 2) (show -(F.p : ℤ) ≤ -2 by have := F.hp; omega)
  calc (2 : ℝ) ^ (-(F.p : ℤ)) ≤ 2 ^ (-2 : ℤ) := this
    _ = 1 / 4 := by norm_num

theorem eta_eq : F.eta = 2 ^ F.grid / 2 := by
  unfold eta u tiny grid
  rw [← zpow_add₀ (by norm_num), show F.emin - ((F.p : ℤ) - 1) = (-(F.p : ℤ) + F.emin) + 1 by ring,
    zpow_add₀ (by norm_num) _ 1]
  norm_num

theorem tiny_eq : F.tiny = ((2 ^ (F.p - 1) : ℤ) : ℝ) * 2 ^ F.grid := by
  unfold tiny grid
  push_cast
  rw [← zpow_natCast, ← zpow_add₀ (by norm_num)]
  congr 1
  have := F.p_pos; omega

theorem rnd_small_err {x : ℝ} (h : |x| < F.tiny) : |F.rnd x - x| ≤ F.eta := by
  have hpos : (0 : ℝ) < 2 ^ F.grid := by positivity
  have h1 : F.rnd x - x = ((rne (x / 2 ^ F.grid) : ℝ) - x / 2 ^ F.grid) * 2 ^ F.grid := by
    rw [F.rnd_small h]; field_simp
  rw [h1, abs_mul, abs_of_pos hpos, F.eta_eq]
  have := rne_err (x / 2 ^ F.grid)
  nlinarith

theorem rnd_small_le {x : ℝ} (h0 : 0 ≤ x) (h : x < F.tiny) : 0 ≤ F.rnd x ∧ F.rnd x ≤ F.tiny := by
  have hpos : (0 : ℝ) < 2 ^ F.grid := by positivity
  rw [F.rnd_small (by rwa [abs_of_nonneg h0])]
  constructor
  · have : ((0 : ℤ) : ℝ) ≤ x / 2 ^ F.grid := by push_cast; positivity
    have := rne_mono this
    rw [rne_int] at this
    have : (0 : ℝ) ≤ (rne (x / 2 ^ F.grid) : ℝ) := by exact_mod_cast this
    positivity
  · have : x / 2 ^ F.grid ≤ ((2 ^ (F.p - 1) : ℤ) : ℝ) := by
      rw [div_le_iff₀ hpos, ← F.tiny_eq]; exact h.le
    have := rne_mono this
    rw [rne_int] at this
    rw [F.tiny_eq]
    have : (rne (x / 2 ^ F.grid) : ℝ) ≤ ((2 ^ (F.p - 1) : ℤ) : ℝ) := by exact_mod_cast this
    gcongr

theorem rnd_normal_ge {x : ℝ} (h : F.tiny ≤ x) : F.tiny ≤ F.rnd x := by
  have h0 := F.tiny_pos.trans_le h
  rw [F.rnd_normal (by rwa [abs_of_pos h0])]
  have := roundTo_mono F.p_pos h
  unfold tiny at this ⊢
  rwa [roundTo_pow F.p_pos] at this

theorem rnd_nonneg {x : ℝ} (h : 0 ≤ x) : 0 ≤ F.rnd x := by
  rcases lt_or_ge x F.tiny with h' | h'
  · exact (F.rnd_small_le h h').1
  · exact F.tiny_pos.le.trans (F.rnd_normal_ge h')

theorem rnd_mono_nonneg {x y : ℝ} (hx : 0 ≤ x) (hxy : x ≤ y) : F.rnd x ≤ F.rnd y := by
  rcases lt_or_ge y F.tiny with h | h
  · rw [F.rnd_small (by rw [abs_of_nonneg hx]; linarith), F.rnd_small (by rwa [abs_of_nonneg (hx.trans hxy)])]
    have := rne_mono (show x / 2 ^ F.grid ≤ y / 2 ^ F.grid by gcongr)
    gcongr
  · rcases lt_or_ge x F.tiny with h' | h'
    · exact (F.rnd_small_le hx h').2.trans (F.rnd_normal_ge h)
    · rw [F.rnd_normal (h'.trans (le_abs_self _)), F.rnd_normal (h.trans (le_abs_self _))]
      exact roundTo_mono F.p_pos hxy

theorem rnd_mono : Monotone F.rnd := by
  intro x y hxy
  rcases le_total 0 x with h | h
  · exact F.rnd_mono_nonneg h hxy
  · rcases le_total 0 y with h' | h'
    · have := F.rnd_nonneg (neg_nonneg.mpr h)
      rw [rnd_neg] at this
      linarith [F.rnd_nonneg h']
    · have := F.rnd_mono_nonneg (neg_nonneg.mpr h') (neg_le_neg hxy)
      rw [rnd_neg, rnd_neg] at this; linarith

theorem rnd_abs (x : ℝ) : |F.rnd x| = F.rnd |x| := by
  rcases le_total 0 x with h | h
  · rw [abs_of_nonneg h, abs_of_nonneg (F.rnd_nonneg h)]
  · have := F.rnd_nonneg (neg_nonneg.mpr h)
    rw [abs_of_nonpos h, ← abs_neg, ← rnd_neg, abs_of_nonneg this]

theorem rnd_idem (x : ℝ) : F.rnd (F.rnd x) = F.rnd x := by
  have hpos : ∀ x : ℝ, 0 ≤ x → F.rnd (F.rnd x) = F.rnd x := by
    intro x hx
    rcases lt_or_ge x F.tiny with h | h
    · obtain ⟨h1, h2⟩ := F.rnd_small_le hx h
      exact F.rnd_grid (rne (x / 2 ^ F.grid)) (by rwa [abs_of_nonneg h1]) (F.rnd_small (by rwa [abs_of_nonneg hx]))
    · have h1 := F.rnd_normal_ge h
      rw [F.rnd_normal (h1.trans (le_abs_self _)), F.rnd_normal (h.trans (le_abs_self _)), roundTo_idem F.p_pos]
  rcases le_total 0 x with h | h
  · exact hpos x h
  · have := hpos (-x) (neg_nonneg.mpr h)
    rw [rnd_neg, rnd_neg] at this; linarith

/-- The error: relative for normal results, absolute for small ones. -/
theorem rnd_err (x : ℝ) : |F.rnd x - x| ≤ F.u * |x| + F.eta := by
  rcases lt_or_ge |x| F.tiny with h | h
  · have := F.rnd_small_err h
    have := mul_nonneg F.u_pos.le (abs_nonneg x)
    linarith
  · rw [F.rnd_normal h]
    have h1 : |roundTo F.p x - x| ≤ F.u * |x| := roundTo_err (p := F.p) x
    linarith [F.eta_pos]

theorem rnd_err_normal {x : ℝ} (h : F.tiny ≤ |x|) : |F.rnd x - x| ≤ F.u * |x| := by
  rw [F.rnd_normal h]; exact roundTo_err (p := F.p) x

/-- What is representable is representable with an unbounded exponent too. -/
theorem rep_wide {x : ℝ} (h : F.rnd x = x) : roundTo F.p x = x := by
  by_cases h0 : x = 0
  · rw [h0, roundTo_zero]
  rcases lt_or_ge |x| F.tiny with hs | hs
  · have hle : lastPlace F.p x ≤ F.grid := by
      unfold lastPlace grid
      have h1 := (binade (abs_pos.mpr h0)).1
      unfold tiny at hs
      have := (zpow_lt_zpow_iff_right₀ (by norm_num : (1 : ℝ) < 2)).mp (h1.trans_lt hs)
      omega
    obtain ⟨k, hk⟩ := Int.le.dest hle
    refine roundTo_exact (rne (x / 2 ^ F.grid) * 2 ^ k) ?_
    conv_lhs => rw [← h, F.rnd_small hs]
    push_cast
    rw [← hk, zpow_add₀ (by norm_num), zpow_natCast]
    ring
  · rw [← F.rnd_normal hs, h]

/-- The exceptions overflow and underflow (a tiny inexact result) when `z` is the exact result. Part of the
model, not of the code. -/
def Exc (z : ℝ) : Prop := F.largest < |F.rnd z| ∨ (|roundTo F.p z| < F.tiny ∧ F.rnd z ≠ z)

theorem rnd_wide {z : ℝ} (h : ¬(|roundTo F.p z| < F.tiny ∧ F.rnd z ≠ z)) : F.rnd z = roundTo F.p z := by
  rcases lt_or_ge |z| F.tiny with hs | hs
  · by_cases he : F.rnd z = z
    · rw [he, F.rep_wide he]
    · have hge : F.tiny ≤ |roundTo F.p z| := by
        by_contra hlt
        exact h ⟨not_le.mp hlt, he⟩
      -- both round up to the least normal number
      have key : ∀ z : ℝ, 0 < z → z < F.tiny → F.tiny ≤ roundTo F.p z → F.rnd z = roundTo F.p z := by
        intro z h0 hz hge
        have heq : roundTo F.p z = F.tiny := by
          refine le_antisymm ?_ hge
          have := roundTo_mono F.p_pos hz.le
          unfold tiny at this ⊢
          rwa [roundTo_pow F.p_pos] at this
        have hl : Int.log 2 z < F.emin := by
          have h1 := (binade h0).1
          unfold tiny at hz
          exact (zpow_lt_zpow_iff_right₀ (by norm_num : (1 : ℝ) < 2)).mp (h1.trans_lt hz)
        have hg : (0 : ℝ) < 2 ^ F.grid := by positivity
        have herr : F.tiny - z ≤ 2 ^ F.grid / 4 := by
          have h1 : |roundTo F.p z - z| ≤ 1 / 2 * 2 ^ lastPlace F.p z := by
            have hpos : (0 : ℝ) < 2 ^ lastPlace F.p z := by positivity
            have e : roundTo F.p z - z =
                ((rne (z / 2 ^ lastPlace F.p z) : ℝ) - z / 2 ^ lastPlace F.p z) * 2 ^ lastPlace F.p z := by
              unfold roundTo; field_simp
            rw [e, abs_mul, abs_of_pos hpos]
            exact mul_le_mul_of_nonneg_right (rne_err _) hpos.le
          have h2 : (2 : ℝ) ^ lastPlace F.p z ≤ 2 ^ F.grid / 2 := by
            have : lastPlace F.p z ≤ F.grid - 1 := by
              unfold lastPlace grid; rw [abs_of_pos h0]; omega
            calc (2 : ℝ) ^ lastPlace F.p z ≤ 2 ^ (F.grid - 1) := zpow_le_zpow_right₀ (by norm_num) this
              _ = 2 ^ F.grid / 2 := by rw [zpow_sub_one₀ (by norm_num)]; ring
          rw [heq] at h1
          have := (abs_le.mp h1).2
          linarith
        obtain ⟨-, h2⟩ := F.rnd_small_le h0.le hz
        have h3 := F.rnd_small_err (by rwa [abs_of_pos h0])
        rw [F.eta_eq] at h3
        have h4 := (abs_le.mp h3).1
        have h5 : F.tiny - 2 ^ F.grid < F.rnd z := by linarith
        rw [heq]
        refine le_antisymm h2 ?_
        rw [F.rnd_small (by rwa [abs_of_pos h0])] at h5 ⊢
        rw [F.tiny_eq] at h5 ⊢
        have h6 : (((2 ^ (F.p - 1) - 1 : ℤ) : ℝ)) < (rne (z / 2 ^ F.grid) : ℝ) := by
          have : (((2 ^ (F.p - 1) - 1 : ℤ) : ℝ)) * 2 ^ F.grid < (rne (z / 2 ^ F.grid) : ℝ) * 2 ^ F.grid := by
            push_cast at h5 ⊢; linarith
          exact lt_of_mul_lt_mul_right this hg.le
        have h7 : (2 ^ (F.p - 1) : ℤ) ≤ rne (z / 2 ^ F.grid) := by
          have : (2 ^ (F.p - 1) - 1 : ℤ) < rne (z / 2 ^ F.grid) := by exact_mod_cast h6
          omega
        have h8 : (((2 ^ (F.p - 1) : ℤ)) : ℝ) ≤ (rne (z / 2 ^ F.grid) : ℝ) := by exact_mod_cast h7
        gcongr
      rcases lt_trichotomy z 0 with h0 | h0 | h0
      · have := key (-z) (neg_pos.mpr h0) (by rwa [abs_of_neg h0] at hs) (by
          have h1 := roundTo_nonneg F.p_pos (neg_pos.mpr h0).le
          rw [← abs_of_nonneg h1, roundTo_neg, abs_neg]; exact hge)
        rw [rnd_neg, roundTo_neg] at this; linarith
      · exact absurd (by rw [h0, F.rnd_zero]) he
      · exact key z h0 (by rwa [abs_of_pos h0] at hs) (by
          rwa [abs_of_nonneg (roundTo_nonneg F.p_pos h0.le)] at hge)
  · exact F.rnd_normal hs

theorem pow_rep {k : ℤ} (h1 : F.grid ≤ k) : F.rnd (2 ^ k) = 2 ^ k := by
  rcases lt_or_ge ((2 : ℝ) ^ k) F.tiny with h | h
  · obtain ⟨n, hn⟩ := Int.le.dest h1
    refine F.rnd_grid (2 ^ n) ?_ ?_
    · rw [abs_of_pos (by positivity)]; exact h.le
    · push_cast
      rw [← hn, zpow_add₀ (by norm_num), zpow_natCast]; ring
  · rw [F.rnd_normal (h.trans (le_abs_self _)), roundTo_pow F.p_pos]

theorem pow_le_largest {k : ℤ} (h : k ≤ F.emax) : (2 : ℝ) ^ k ≤ F.largest := by
  have h1 : (2 : ℝ) ^ k ≤ 2 ^ F.emax := zpow_le_zpow_right₀ (by norm_num) h
  have h2 : (2 : ℝ) ^ (1 - (F.p : ℤ)) ≤ 1 := by
    have := zpow_le_zpow_right₀ (by norm_num : (1 : ℝ) ≤ 2) (show 1 - (F.p : ℤ) ≤ 0 by have := F.p_pos; omega)
    simpa using this
  unfold largest
  have : (0 : ℝ) < 2 ^ F.emax := by positivity
  nlinarith

theorem pow_Rep {k : ℤ} (h1 : F.grid ≤ k) (h2 : k ≤ F.emax) : F.Rep (2 ^ k) :=
  ⟨by positivity, F.pow_rep h1, by rw [abs_of_pos (by positivity)]; exact F.pow_le_largest h2⟩

theorem grid_neg : F.grid ≤ -1 := by unfold grid emin; have := F.hemax; have := F.hp; omega
theorem emax_ge : 2 ≤ F.emax := by have := F.hemax; have := F.hp; omega

theorem one_Rep : F.Rep 1 := by
  have := F.pow_Rep (k := 0) (by have := F.grid_neg; omega) (by have := F.emax_ge; omega)
  simpa using this

theorem two_Rep : F.Rep 2 := by
  have := F.pow_Rep (k := 1) (by have := F.grid_neg; omega) (by have := F.emax_ge; omega)
  simpa using this

theorem neg_Rep {x : ℝ} (h : F.Rep x) : F.Rep (-x) :=
  ⟨neg_ne_zero.mpr h.1, by rw [rnd_neg, h.2.1], by rw [abs_neg]; exact h.2.2⟩

end Format

/-! ### The values and the operations -/

/-- A value of the type: NaN, an infinity or a zero with its sign (`true` is minus), or a number. Part of the
model, not of the code. -/
inductive IVal (F : Format)
  | nan
  | inf (minus : Bool)
  | zero (minus : Bool)
  | num (x : ℝ) (h : F.Rep x)

namespace IVal

variable {F : Format}

theorem num_congr {x y : ℝ} {hx : F.Rep x} {hy : F.Rep y} (h : x = y) : num x hx = num y hy := by
  subst h; rfl

/-- The result of an operation whose exact result is `z`; `s` is the sign if that is zero. Part of the model,
not of the code. -/
noncomputable def ofReal (F : Format) (s : Bool) (z : ℝ) : IVal F :=
  if h : F.rnd z = 0 then .zero (if z = 0 then s else decide (z < 0))
  else if h' : |F.rnd z| ≤ F.largest then .num (F.rnd z) ⟨h, F.rnd_idem z, h'⟩
  else .inf (decide (z < 0))

/-- The sign bit. Part of the model, not of the code. -/
noncomputable def minus : IVal F → Bool
  | .nan => false
  | .inf s => s
  | .zero s => s
  | .num x _ => decide (x < 0)

/-- The real number a finite value stands for. Part of the model, not of the code. -/
def toReal : IVal F → ℝ
  | .num x _ => x
  | _ => 0

/-- Neither NaN nor infinite: `std::isfinite`. Part of the model, not of the code. -/
def Finite : IVal F → Prop
  | .nan => False
  | .inf _ => False
  | _ => True

/-- Unary minus. Part of the model, not of the code. -/
def neg : IVal F → IVal F
  | .nan => .nan
  | .inf s => .inf !s
  | .zero s => .zero !s
  | .num x h => .num (-x) (F.neg_Rep h)

/-- The sum. Part of the model, not of the code. -/
noncomputable def add : IVal F → IVal F → IVal F
  | .nan, _ => .nan
  | _, .nan => .nan
  | .inf s, .inf t => if s = t then .inf s else .nan
  | .inf s, _ => .inf s
  | _, .inf t => .inf t
  | .zero s, .zero t => .zero (s && t)
  | .zero _, .num y h => .num y h
  | .num x h, .zero _ => .num x h
  | .num x _, .num y _ => ofReal F false (x + y)

/-- The product. Part of the model, not of the code. -/
noncomputable def mul : IVal F → IVal F → IVal F
  | .nan, _ => .nan
  | _, .nan => .nan
  | .inf _, .zero _ => .nan
  | .zero _, .inf _ => .nan
  | .inf s, b => .inf (s ^^ b.minus)
  | a, .inf t => .inf (a.minus ^^ t)
  | .zero s, b => .zero (s ^^ b.minus)
  | a, .zero t => .zero (a.minus ^^ t)
  | .num x _, .num y _ => ofReal F false (x * y)

/-- The quotient. Part of the model, not of the code. -/
noncomputable def div : IVal F → IVal F → IVal F
  | .nan, _ => .nan
  | _, .nan => .nan
  | .inf _, .inf _ => .nan
  | .zero _, .zero _ => .nan
  | .inf s, b => .inf (s ^^ b.minus)
  | a, .inf t => .zero (a.minus ^^ t)
  | .zero s, b => .zero (s ^^ b.minus)
  | a, .zero t => .inf (a.minus ^^ t)
  | .num x _, .num y _ => ofReal F false (x / y)

/-- The square root. Part of the model, not of the code. -/
noncomputable def sqrt : IVal F → IVal F
  | .nan => .nan
  | .inf true => .nan
  | .inf false => .inf false
  | .zero s => .zero s
  | .num x _ => if x < 0 then .nan else ofReal F false (Real.sqrt x)

/-- The comparison `<`: false when one side is NaN. Part of the model, not of the code. -/
def lt : IVal F → IVal F → Prop
  | .nan, _ => False
  | _, .nan => False
  | .inf s, .inf t => s = true ∧ t = false
  | .inf s, _ => s = true
  | _, .inf t => t = false
  | a, b => a.toReal < b.toReal

/-- The literal `0`. Part of the model, not of the code. -/
instance : Zero (IVal F) := ⟨.zero false⟩
/-- The literal `1`. Part of the model, not of the code. -/
instance : One (IVal F) := ⟨.num 1 F.one_Rep⟩
/-- The literal `2`. Part of the model, not of the code. -/
instance : OfNat (IVal F) 2 := ⟨.num 2 F.two_Rep⟩
/-- Unary minus. Part of the model, not of the code. -/
instance : Neg (IVal F) := ⟨neg⟩
/-- The sum. Part of the model, not of the code. -/
noncomputable instance : Add (IVal F) := ⟨add⟩
/-- The difference: the sum with the other sign. Part of the model, not of the code. -/
noncomputable instance : Sub (IVal F) := ⟨fun a b => add a (neg b)⟩
/-- The product. Part of the model, not of the code. -/
noncomputable instance : Mul (IVal F) := ⟨mul⟩
/-- The quotient. Part of the model, not of the code. -/
noncomputable instance : Div (IVal F) := ⟨div⟩
/-- The comparison `<`. Part of the model, not of the code. -/
instance : LT (IVal F) := ⟨lt⟩
/-- The comparison, as a condition. Part of the model, not of the code. -/
noncomputable instance : DecidableLT (IVal F) := fun _ _ => Classical.propDecidable _

end IVal

/-- `sin` and `cos` of the C library, about which nothing is assumed. transformation.hpp 41-42. Part of the
model, not of the code. -/
class ILibm (F : Format) where
  sin : IVal F → IVal F
  cos : IVal F → IVal F

/-- The functions of `<cmath>`. vector.hpp 110, geometry.hpp 37. Part of the model, not of the code. -/
noncomputable instance {F : Format} [ILibm F] : MathFns (IVal F) := ⟨IVal.sqrt, ILibm.sin, ILibm.cos⟩

/-! ### Values with a record of the exceptions -/

/-- A value, and whether overflow, underflow, division by zero or an invalid operation occurred in computing
it (`std::fetestexcept`). Part of the model, not of the code. -/
structure Flagged (F : Format) where
  val : IVal F
  raised : Prop

namespace IVal

variable {F : Format}

/-- The exceptions a sum raises. Part of the model, not of the code. -/
def addExc : IVal F → IVal F → Prop
  | .inf s, .inf t => s ≠ t
  | .num x _, .num y _ => F.Exc (x + y)
  | _, _ => False

/-- The exceptions a product raises. Part of the model, not of the code. -/
def mulExc : IVal F → IVal F → Prop
  | .inf _, .zero _ => True
  | .zero _, .inf _ => True
  | .num x _, .num y _ => F.Exc (x * y)
  | _, _ => False

/-- The exceptions a quotient raises. Part of the model, not of the code. -/
def divExc : IVal F → IVal F → Prop
  | .inf _, .inf _ => True
  | .zero _, .zero _ => True
  | .num _ _, .zero _ => True
  | .num x _, .num y _ => F.Exc (x / y)
  | _, _ => False

/-- The exceptions a square root raises. Part of the model, not of the code. -/
def sqrtExc : IVal F → Prop
  | .inf s => s = true
  | .num x _ => x < 0 ∨ F.Exc (Real.sqrt x)
  | _ => False

end IVal

namespace Flagged

variable {F : Format}

/-- An input: nothing has been computed yet. Part of the model, not of the code. -/
def input (v : IVal F) : Flagged F := ⟨v, False⟩

/-- The literal `0`. Part of the model, not of the code. -/
instance : Zero (Flagged F) := ⟨input 0⟩
/-- The literal `1`. Part of the model, not of the code. -/
instance : One (Flagged F) := ⟨input 1⟩
/-- The literal `2`. Part of the model, not of the code. -/
instance : OfNat (Flagged F) 2 := ⟨input 2⟩
/-- Unary minus raises nothing. Part of the model, not of the code. -/
instance : Neg (Flagged F) := ⟨fun a => ⟨-a.val, a.raised⟩⟩
/-- The sum. Part of the model, not of the code. -/
noncomputable instance : Add (Flagged F) :=
  ⟨fun a b => ⟨a.val + b.val, a.raised ∨ b.raised ∨ a.val.addExc b.val⟩⟩
/-- The difference. Part of the model, not of the code. -/
noncomputable instance : Sub (Flagged F) :=
  ⟨fun a b => ⟨a.val - b.val, a.raised ∨ b.raised ∨ a.val.addExc (-b.val)⟩⟩
/-- The product. Part of the model, not of the code. -/
noncomputable instance : Mul (Flagged F) :=
  ⟨fun a b => ⟨a.val * b.val, a.raised ∨ b.raised ∨ a.val.mulExc b.val⟩⟩
/-- The quotient. Part of the model, not of the code. -/
noncomputable instance : Div (Flagged F) :=
  ⟨fun a b => ⟨a.val / b.val, a.raised ∨ b.raised ∨ a.val.divExc b.val⟩⟩
/-- The comparison `<`. Part of the model, not of the code. -/
instance : LT (Flagged F) := ⟨fun a b => a.val < b.val⟩
/-- The comparison, as a condition. Part of the model, not of the code. -/
noncomputable instance : DecidableLT (Flagged F) := fun _ _ => Classical.propDecidable _
/-- The functions of `<cmath>`. Part of the model, not of the code. -/
noncomputable instance [ILibm F] : MathFns (Flagged F) :=
  ⟨fun a => ⟨a.val.sqrt, a.raised ∨ a.val.sqrtExc⟩, fun a => ⟨ILibm.sin a.val, a.raised⟩,
    fun a => ⟨ILibm.cos a.val, a.raised⟩⟩

end Flagged

end Verif.Math
