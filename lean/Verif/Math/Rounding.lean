import Verif.Math.Matrix
import Mathlib.Data.Int.Log
import Mathlib.Algebra.Order.Round
import Mathlib.Tactic.Linarith
import Mathlib.Tactic.Positivity
import Mathlib.Tactic.Ring
import Mathlib.Tactic.FieldSimp

/-!
Floating-point component types.  `float` and `double` are modelled as the real numbers representable in
the type; `+ - * /` and `sqrt` give the exact result rounded to a representable number, as IEEE 754
prescribes.

Simplifications: the exponent is unbounded (no overflow, no underflow, so no infinities and no
subnormal numbers), there is no NaN (`x / 0` is 0 here, so no theorem divides by zero) and the two zeros
are one; no operation is contracted into a fused multiply-add or carried out in a wider type.
-/

set_option autoImplicit false

namespace Verif.Math

/-- A rounding to a floating-point format: what IEEE 754 says about rounding to nearest. -/
structure Rounding where
  /-- the representable number `x` is rounded to -/
  rnd : ℝ → ℝ
  /-- unit roundoff: 2^-24 for `float`, 2^-53 for `double` -/
  u : ℝ
  u_nonneg : 0 ≤ u
  u_lt : u < 1
  idem : ∀ x, rnd (rnd x) = rnd x
  odd : ∀ x, rnd (-x) = -rnd x
  mono : Monotone rnd
  one : rnd 1 = 1
  two_mul : ∀ x, rnd (2 * x) = 2 * rnd x
  err : ∀ x, |rnd x - x| ≤ u * |x|

/-- A number of the format. The `T` of vector.hpp, matrix.hpp and quaternion.hpp. Part of the model, not of the
code. -/
@[ext]
structure FP (R : Rounding) where
  val : ℝ
  rep : R.rnd val = val

/-- `sin` and `cos` of the C library: nothing is assumed but their values at zero. transformation.hpp 41-42.
Part of the model, not of the code. -/
class Libm (R : Rounding) where
  sin : FP R → FP R
  cos : FP R → FP R
  sin_zero : ∀ x, x.val = 0 → (sin x).val = 0
  cos_zero : ∀ x, x.val = 0 → (cos x).val = 1

namespace Rounding

variable (R : Rounding)

theorem zero : R.rnd 0 = 0 := by
  have := R.odd 0
  rw [neg_zero] at this
  linarith

theorem two : R.rnd 2 = 2 := by
  have := R.two_mul 1
  rw [R.one] at this
  simpa using this

end Rounding

variable {R : Rounding}

/-- The representable number nearest to `x`. Part of the model, not of the code. -/
def FP.round (R : Rounding) (x : ℝ) : FP R := ⟨R.rnd x, R.idem x⟩

/-- The literal `0`. Part of the model, not of the code. -/
instance : Zero (FP R) := ⟨⟨0, R.zero⟩⟩
/-- The literal `1`. Part of the model, not of the code. -/
instance : One (FP R) := ⟨⟨1, R.one⟩⟩
/-- The literal `2`. Part of the model, not of the code. -/
instance : OfNat (FP R) 2 := ⟨⟨2, R.two⟩⟩
/-- Changing the sign is exact. Part of the model, not of the code. -/
instance : Neg (FP R) := ⟨fun a => ⟨-a.val, by rw [R.odd, a.rep]⟩⟩
/-- The rounded sum. Part of the model, not of the code. -/
instance : Add (FP R) := ⟨fun a b => .round R (a.val + b.val)⟩
/-- The rounded difference. Part of the model, not of the code. -/
instance : Sub (FP R) := ⟨fun a b => .round R (a.val - b.val)⟩
/-- The rounded product. Part of the model, not of the code. -/
instance : Mul (FP R) := ⟨fun a b => .round R (a.val * b.val)⟩
/-- The rounded quotient; nothing is claimed about division by zero. Part of the model, not of the code. -/
noncomputable instance : Div (FP R) := ⟨fun a b => .round R (a.val / b.val)⟩
/-- Comparison is exact. Part of the model, not of the code. -/
instance : LT (FP R) := ⟨fun a b => a.val < b.val⟩
/-- Comparison, as a condition. Part of the model, not of the code. -/
noncomputable instance : DecidableLT (FP R) := fun a b => Real.decidableLT a.val b.val
/-- The rounded square root (IEEE 754 requires it), and `sin` and `cos` of the library. Part of the model, not
of the code. -/
noncomputable instance [Libm R] : MathFns (FP R) := ⟨fun x => .round R (Real.sqrt x.val), Libm.sin, Libm.cos⟩

/-- A constant of constants.hpp: the literal, which has type `long double` with rounding `L`, converted to
the type: constants.hpp 5-202. -/
def constantOf (L R : Rounding) (lit : ℚ) : FP R := .round R (L.rnd lit)

/-! ### Rounding to nearest, ties to even -/

/-- The integer nearest to `y`, the even one in the middle between two. Part of the model, not of the code. -/
noncomputable def rne (y : ℝ) : ℤ :=
  if Int.fract y < 1 / 2 then ⌊y⌋
  else if 1 / 2 < Int.fract y then ⌊y⌋ + 1
  else if Even ⌊y⌋ then ⌊y⌋ else ⌊y⌋ + 1

theorem rne_bounds (y : ℝ) : ⌊y⌋ ≤ rne y ∧ rne y ≤ ⌊y⌋ + 1 := by
  unfold rne; split_ifs <;> omega

theorem rne_int (n : ℤ) : rne n = n := by
  unfold rne; rw [Int.fract_intCast, Int.floor_intCast, if_pos (by norm_num)]

theorem rne_err (y : ℝ) : |(rne y : ℝ) - y| ≤ 1 / 2 := by
  have h := Int.floor_add_fract y
  have h0 := Int.fract_nonneg y
  have h1 := Int.fract_lt_one y
  rw [abs_le]
  unfold rne
  split_ifs <;> push_cast <;> constructor <;> linarith

theorem rne_mono : Monotone rne := by
  intro y z hyz
  rcases (Int.floor_mono hyz).lt_or_eq with h | h
  · have := (rne_bounds y).2; have := (rne_bounds z).1; omega
  · have hf : Int.fract y ≤ Int.fract z := by
      have h1 := Int.floor_add_fract y
      have h2 := Int.floor_add_fract z
      rw [h] at h1; linarith
    unfold rne
    rw [h]
    split_ifs <;> first | omega | linarith

theorem rne_neg (y : ℝ) : rne (-y) = -rne y := by
  by_cases hi : Int.fract y = 0
  · have h := Int.floor_add_fract y
    rw [hi, add_zero] at h
    rw [← h, ← Int.cast_neg, rne_int, rne_int]
  · have hfl : ⌊-y⌋ = -⌊y⌋ - 1 := by
      have h := Int.floor_add_fract y
      have h0 : 0 < Int.fract y := lt_of_le_of_ne (Int.fract_nonneg y) (Ne.symm hi)
      have h1 := Int.fract_lt_one y
      rw [Int.floor_eq_iff]; push_cast; constructor <;> linarith
    have hfr : Int.fract (-y) = 1 - Int.fract y := Int.fract_neg hi
    unfold rne
    rw [hfl, hfr]
    have hev : Even (-⌊y⌋ - 1) ↔ ¬Even ⌊y⌋ := by
      rw [Int.even_sub_one, even_neg]
    simp only [hev]
    split_ifs <;> first | omega | linarith

/-- Exponent of the last place of `x` with `p` digits. Part of the model, not of the code. -/
noncomputable def lastPlace (p : Nat) (x : ℝ) : ℤ := Int.log 2 |x| - (p - 1)

/-- Rounding to nearest, ties to even, with `p` binary digits. Part of the model, not of the code. -/
noncomputable def roundTo (p : Nat) (x : ℝ) : ℝ := rne (x / 2 ^ lastPlace p x) * 2 ^ lastPlace p x

section
variable {p : Nat}

theorem binade {x : ℝ} (hx : 0 < x) : (2 : ℝ) ^ Int.log 2 x ≤ x ∧ x < (2 : ℝ) ^ (Int.log 2 x + 1) := by
  have h1 := Int.zpow_log_le_self (R := ℝ) (b := 2) (by norm_num) hx
  have h2 := Int.lt_zpow_succ_log_self (R := ℝ) (b := 2) (by norm_num) x
  push_cast at h1 h2
  exact ⟨h1, h2⟩

theorem log_of_binade {x : ℝ} {k : ℤ} (h1 : (2 : ℝ) ^ k ≤ x) (h2 : x < (2 : ℝ) ^ (k + 1)) :
    Int.log 2 x = k := by
  have hx : 0 < x := lt_of_lt_of_le (by positivity) h1
  obtain ⟨g1, g2⟩ := binade hx
  have a1 : k < Int.log 2 x + 1 := (zpow_lt_zpow_iff_right₀ (by norm_num : (1 : ℝ) < 2)).mp (h1.trans_lt g2)
  have a2 : Int.log 2 x < k + 1 := (zpow_lt_zpow_iff_right₀ (by norm_num : (1 : ℝ) < 2)).mp (g1.trans_lt h2)
  omega

theorem roundTo_neg (x : ℝ) : roundTo p (-x) = -roundTo p x := by
  unfold roundTo lastPlace
  rw [abs_neg, neg_div, rne_neg]; push_cast; ring

theorem roundTo_zero : roundTo p 0 = 0 := by
  have := roundTo_neg (p := p) 0
  rw [neg_zero] at this; linarith

theorem roundTo_err (x : ℝ) : |roundTo p x - x| ≤ (2 : ℝ) ^ (-(p : ℤ)) * |x| := by
  by_cases hx : x = 0
  · subst hx; simp [roundTo_zero]
  have hpos : (0 : ℝ) < 2 ^ lastPlace p x := by positivity
  have h1 : roundTo p x - x = ((rne (x / 2 ^ lastPlace p x) : ℝ) - x / 2 ^ lastPlace p x) * 2 ^ lastPlace p x := by
    unfold roundTo; field_simp
  rw [h1, abs_mul, abs_of_pos hpos]
  have h2 := rne_err (x / 2 ^ lastPlace p x)
  have h3 := (binade (abs_pos.mpr hx)).1
  calc _ ≤ 1 / 2 * (2 : ℝ) ^ lastPlace p x := by gcongr
    _ = (2 : ℝ) ^ (-(p : ℤ)) * 2 ^ Int.log 2 |x| := by
      unfold lastPlace
      rw [← zpow_add₀ (by norm_num), show Int.log 2 |x| - ((p : ℤ) - 1) = (-(p : ℤ) + Int.log 2 |x|) + 1 by ring,
        zpow_add₀ (by norm_num) _ 1]
      norm_num; ring
    _ ≤ _ := by gcongr

/-- The rounded number lies in the same binade or is the next power of two. -/
theorem roundTo_binade (hp : 1 ≤ p) {x : ℝ} (hx : 0 < x) :
    (2 : ℝ) ^ Int.log 2 x ≤ roundTo p x ∧ roundTo p x ≤ (2 : ℝ) ^ (Int.log 2 x + 1) := by
  obtain ⟨h1, h2⟩ := binade hx
  have hpos : (0 : ℝ) < 2 ^ lastPlace p x := by positivity
  have e1 : (2 : ℝ) ^ Int.log 2 x = ((2 ^ (p - 1) : ℤ) : ℝ) * 2 ^ lastPlace p x := by
    unfold lastPlace
    rw [abs_of_pos hx]; push_cast
    rw [← zpow_natCast, ← zpow_add₀ (by norm_num)]
    congr 1; omega
  have e2 : (2 : ℝ) ^ (Int.log 2 x + 1) = ((2 ^ p : ℤ) : ℝ) * 2 ^ lastPlace p x := by
    unfold lastPlace
    rw [abs_of_pos hx]; push_cast
    rw [← zpow_natCast, ← zpow_add₀ (by norm_num)]
    congr 1; ring
  rw [e1] at h1 ⊢
  rw [e2] at h2 ⊢
  unfold roundTo
  refine ⟨mul_le_mul_of_nonneg_right ?_ hpos.le, mul_le_mul_of_nonneg_right ?_ hpos.le⟩
  · have : ((2 ^ (p - 1) : ℤ) : ℝ) ≤ x / 2 ^ lastPlace p x := by rw [le_div_iff₀ hpos]; exact h1
    exact_mod_cast (rne_int _ ▸ rne_mono this : (2 ^ (p - 1) : ℤ) ≤ _)
  · have : x / 2 ^ lastPlace p x ≤ ((2 ^ p : ℤ) : ℝ) := by rw [div_le_iff₀ hpos]; exact h2.le
    exact_mod_cast (rne_int (2 ^ p) ▸ rne_mono this : _ ≤ (2 ^ p : ℤ))

theorem roundTo_nonneg (hp : 1 ≤ p) {x : ℝ} (hx : 0 ≤ x) : 0 ≤ roundTo p x := by
  rcases hx.lt_or_eq with h | h
  · exact le_trans (by positivity) (roundTo_binade hp h).1
  · rw [← h, roundTo_zero]

theorem roundTo_mono_pos (hp : 1 ≤ p) {x y : ℝ} (hx : 0 < x) (hxy : x ≤ y) : roundTo p x ≤ roundTo p y := by
  have hy := hx.trans_le hxy
  rcases (Int.log_mono_right (b := 2) hx hxy).lt_or_eq with h | h
  · calc roundTo p x ≤ (2 : ℝ) ^ (Int.log 2 x + 1) := (roundTo_binade hp hx).2
      _ ≤ (2 : ℝ) ^ Int.log 2 y := zpow_le_zpow_right₀ (by norm_num) h
      _ ≤ _ := (roundTo_binade hp hy).1
  · have : lastPlace p x = lastPlace p y := by
      unfold lastPlace; rw [abs_of_pos hx, abs_of_pos hy, h]
    unfold roundTo
    rw [this]
    have := rne_mono (show x / 2 ^ lastPlace p y ≤ y / 2 ^ lastPlace p y by gcongr)
    gcongr

theorem roundTo_mono (hp : 1 ≤ p) : Monotone (roundTo p) := by
  intro x y hxy
  rcases lt_trichotomy x 0 with h | h | h
  · rcases lt_or_ge y 0 with h' | h'
    · have := roundTo_mono_pos hp (neg_pos.mpr h') (neg_le_neg hxy)
      rw [roundTo_neg, roundTo_neg] at this; linarith
    · have h1 := roundTo_nonneg hp h'
      have h2 := roundTo_nonneg hp (neg_pos.mpr h).le
      rw [roundTo_neg] at h2; linarith
  · subst h; rw [roundTo_zero]; exact roundTo_nonneg hp hxy
  · exact roundTo_mono_pos hp h hxy

/-- Multiples of the last place are representable. -/
theorem roundTo_exact {z : ℝ} (n : ℤ) (h : z = n * 2 ^ lastPlace p z) : roundTo p z = z := by
  have hpos : (0 : ℝ) < 2 ^ lastPlace p z := by positivity
  unfold roundTo
  have : z / 2 ^ lastPlace p z = n := by rw [div_eq_iff hpos.ne']; exact h
  rw [this, rne_int, ← h]

theorem roundTo_pow (hp : 1 ≤ p) (k : ℤ) : roundTo p ((2 : ℝ) ^ k) = 2 ^ k := by
  have hl : Int.log 2 ((2 : ℝ) ^ k) = k := log_of_binade le_rfl (zpow_lt_zpow_right₀ (by norm_num) (by omega))
  refine roundTo_exact (2 ^ (p - 1)) ?_
  unfold lastPlace
  rw [abs_of_pos (by positivity), hl]; push_cast
  rw [← zpow_natCast, ← zpow_add₀ (by norm_num)]
  congr 1; omega

theorem roundTo_idem (hp : 1 ≤ p) (x : ℝ) : roundTo p (roundTo p x) = roundTo p x := by
  have hpos : ∀ x : ℝ, 0 < x → roundTo p (roundTo p x) = roundTo p x := by
    intro x hx
    obtain ⟨h1, h2⟩ := roundTo_binade hp hx
    rcases h2.lt_or_eq with h | h
    · have hl := log_of_binade h1 h
      refine roundTo_exact (rne (x / 2 ^ lastPlace p x)) ?_
      have : lastPlace p (roundTo p x) = lastPlace p x := by
        unfold lastPlace
        rw [abs_of_pos (lt_of_lt_of_le (by positivity) h1), hl, abs_of_pos hx]
      rw [this]; rfl
    · rw [h, roundTo_pow hp]
  rcases lt_trichotomy x 0 with h | h | h
  · have := hpos (-x) (neg_pos.mpr h)
    rw [roundTo_neg, roundTo_neg] at this; linarith
  · subst h; rw [roundTo_zero, roundTo_zero]
  · exact hpos x h

theorem roundTo_two_mul (x : ℝ) : roundTo p (2 * x) = 2 * roundTo p x := by
  by_cases hx : x = 0
  · subst hx; rw [mul_zero, roundTo_zero, mul_zero]
  obtain ⟨h1, h2⟩ := binade (abs_pos.mpr hx)
  have hl : Int.log 2 |2 * x| = Int.log 2 |x| + 1 := by
    rw [abs_mul, abs_of_pos (by norm_num : (0 : ℝ) < 2)]
    refine log_of_binade ?_ ?_
    · rw [zpow_add₀ (by norm_num), zpow_one]; linarith
    · rw [zpow_add₀ (by norm_num) _ 1, zpow_one]; linarith
  have hlp : lastPlace p (2 * x) = lastPlace p x + 1 := by unfold lastPlace; rw [hl]; ring
  unfold roundTo
  rw [hlp, zpow_add₀ (by norm_num), zpow_one, mul_comm 2 x, mul_div_mul_right _ _ (by norm_num)]
  ring

end

/-- IEEE 754 rounding to nearest with `p` binary digits (24 for `float`, 53 for `double`). -/
noncomputable def nearestEven (p : Nat) (hp : 1 ≤ p) : Rounding where
  rnd := roundTo p
  u := (2 : ℝ) ^ (-(p : ℤ))
  u_nonneg := by positivity
  u_lt := by
    have := zpow_lt_zpow_right₀ (by norm_num : (1 : ℝ) < 2) (show -(p : ℤ) < 0 by omega)
    simpa using this
  idem := roundTo_idem hp
  odd := roundTo_neg
  mono := roundTo_mono hp
  one := by simpa using roundTo_pow hp 0
  two_mul := roundTo_two_mul
  err := roundTo_err

end Verif.Math
