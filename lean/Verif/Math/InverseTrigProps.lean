import Verif.Math.TrigonometryProps

/-! # Properties of the inverse trigonometric functions -/

set_option autoImplicit false

namespace Verif.Math.Trig

/-- C130. `arcsin(s)` is the one angle between -π/2 and π/2 whose sine is `s`, `arccos(s)` the one between 0 and π whose
cosine is `s`, and `arctan(s)` the one strictly between -π/2 and π/2 whose tangent is `s`. There is a result exactly if
there is such an angle: for `arcsin` and `arccos` if `s` lies in [-1, 1], for `arctan` always. -/
theorem inverse_trig (s y : ℝ) :
    (arcsin s = some y ↔ -(Real.pi / 2) ≤ y ∧ y ≤ Real.pi / 2 ∧ Real.sin y = s) ∧
    (arccos s = some y ↔ 0 ≤ y ∧ y ≤ Real.pi ∧ Real.cos y = s) ∧
    (arctan s = y ↔ -(Real.pi / 2) < y ∧ y < Real.pi / 2 ∧ Real.tan y = s) ∧
    (arcsin s = none ↔ 1 < |s|) ∧ (arccos s = none ↔ 1 < |s|) := by
  have habs : 1 < |s| ↔ ¬ (-1 ≤ s ∧ s ≤ 1) := by rw [← abs_le, not_le]
  refine ⟨⟨fun h => ?_, fun ⟨h1, h2, h3⟩ => ?_⟩, ⟨fun h => ?_, fun ⟨h1, h2, h3⟩ => ?_⟩,
    ⟨fun h => ?_, fun ⟨h1, h2, h3⟩ => ?_⟩, ?_, ?_⟩
  · unfold arcsin at h
    split at h
    · rename_i hs
      cases h
      exact ⟨Real.neg_pi_div_two_le_arcsin s, Real.arcsin_le_pi_div_two s, Real.sin_arcsin hs.1 hs.2⟩
    · cases h
  · unfold arcsin
    rw [if_pos (by rw [← h3]; exact ⟨Real.neg_one_le_sin y, Real.sin_le_one y⟩), ← h3, Real.arcsin_sin h1 h2]
  · unfold arccos at h
    split at h
    · rename_i hs
      cases h
      exact ⟨Real.arccos_nonneg s, Real.arccos_le_pi s, Real.cos_arccos hs.1 hs.2⟩
    · cases h
  · unfold arccos
    rw [if_pos (by rw [← h3]; exact ⟨Real.neg_one_le_cos y, Real.cos_le_one y⟩), ← h3, Real.arccos_cos h1 h2]
  · subst h
    exact ⟨Real.neg_pi_div_two_lt_arctan s, Real.arctan_lt_pi_div_two s, Real.tan_arctan s⟩
  · unfold arctan
    rw [← h3, Real.arctan_tan h1 h2]
  · rw [habs]; unfold arcsin; split <;> simp_all
  · rw [habs]; unfold arccos; split <;> simp_all

/-- C130. How the functions go together: `arcsin` and `arccos` of the same number add up to a right angle, they are
monotone, and `arctan(sin / cos)` of an angle in the right half plane is the angle. -/
theorem inverse_trig_laws :
    (∀ s x y : ℝ, arcsin s = some x → arccos s = some y → x + y = Real.pi / 2) ∧
    (∀ s t x y : ℝ, arcsin s = some x → arcsin t = some y → (s < t ↔ x < y)) ∧
    (∀ s t x y : ℝ, arccos s = some x → arccos t = some y → (s < t ↔ y < x)) ∧
    (∀ s t : ℝ, s < t ↔ arctan s < arctan t) ∧
    (∀ s x : ℝ, arcsin s = some x → arcsin (-s) = some (-x)) ∧
    (∀ s x : ℝ, arccos s = some x → arccos (-s) = some (Real.pi - x)) ∧
    (∀ s : ℝ, arctan (-s) = - arctan s) ∧
    (∀ x : ℝ, 0 < Real.cos x → -(Real.pi) < x → x < Real.pi → arctan (Real.sin x / Real.cos x) = x) := by
  have hs : ∀ {s x : ℝ}, arcsin s = some x → (-1 ≤ s ∧ s ≤ 1) ∧ x = Real.arcsin s := by
    intro s x h
    unfold arcsin at h
    split at h
    · cases h; exact ⟨by assumption, rfl⟩
    · cases h
  have hc : ∀ {s x : ℝ}, arccos s = some x → (-1 ≤ s ∧ s ≤ 1) ∧ x = Real.arccos s := by
    intro s x h
    unfold arccos at h
    split at h
    · cases h; exact ⟨by assumption, rfl⟩
    · cases h
  refine ⟨fun s x y h1 h2 => ?_, fun s t x y h1 h2 => ?_, fun s t x y h1 h2 => ?_, fun s t => ?_,
    fun s x h => ?_, fun s x h => ?_, fun s => Real.arctan_neg s, fun x h1 h2 h3 => ?_⟩
  · rw [(hs h1).2, (hc h2).2, Real.arccos_eq_pi_div_two_sub_arcsin]; ring
  · obtain ⟨a, rfl⟩ := hs h1
    obtain ⟨b, rfl⟩ := hs h2
    exact ((Real.strictMonoOn_arcsin).lt_iff_lt a b).symm
  · obtain ⟨a, rfl⟩ := hc h1
    obtain ⟨b, rfl⟩ := hc h2
    exact ((Real.strictAntiOn_arccos).lt_iff_gt b a).symm
  · exact (Real.arctan_strictMono.lt_iff_lt).symm
  · obtain ⟨a, rfl⟩ := hs h
    unfold arcsin
    rw [if_pos ⟨by linarith [a.2], by linarith [a.1]⟩, Real.arcsin_neg]
  · obtain ⟨a, rfl⟩ := hc h
    unfold arccos
    rw [if_pos ⟨by linarith [a.2], by linarith [a.1]⟩, Real.arccos_neg]
  · unfold arctan
    rw [← Real.tan_eq_sin_div_cos]
    have hp := Real.pi_pos
    apply Real.arctan_tan
    · by_contra hn
      push Not at hn
      have := Real.cos_nonpos_of_pi_div_two_le_of_le (x := -x) (by linarith) (by linarith)
      rw [Real.cos_neg] at this; linarith
    · by_contra hn
      push Not at hn
      have := Real.cos_nonpos_of_pi_div_two_le_of_le (x := x) hn (by linarith)
      linarith

/-! ### Cases -/

/-- arcsin(1/2) is π/6, and arcsin(2) is not a number. -/
example : arcsin (1 / 2) = some (Real.pi / 6) ∧ arcsin 2 = none ∧ arccos (1 / 2) = some (Real.pi / 3) ∧
    arctan 1 = Real.pi / 4 := by
  have hp := Real.pi_pos
  refine ⟨((inverse_trig _ _).1).2 ⟨by linarith, by linarith, by rw [Real.sin_pi_div_six]⟩,
    ((inverse_trig _ 0).2.2.2.1).2 (by norm_num),
    ((inverse_trig _ _).2.1).2 ⟨by linarith, by linarith, by rw [Real.cos_pi_div_three]⟩,
    ((inverse_trig _ _).2.2.1).2 ⟨by linarith, by linarith, by rw [Real.tan_pi_div_four]⟩⟩

end Verif.Math.Trig
