import Verif.Math.Rays
import Verif.Math.VectorProps

/-! C178: rays against planes, triangles and spheres, and the nearest point of a segment. -/

set_option autoImplicit false

namespace Verif.Math

variable {n : Nat}

/-- C178. A plane: the answer is the only point of the line on it; without an answer the line is parallel to the plane. -/
theorem hitPlane_result {T : Type} [Field T] [DecidableEq T] (o d p k : Vec T n) :
    (∀ t, hitPlane o d p k = some t ↔ d ⬝ᵥ k ≠ 0 ∧ (o + t • d - p) ⬝ᵥ k = 0) ∧ (hitPlane o d p k = none ↔ d ⬝ᵥ k = 0) := by
  have e : hitPlane o d p k = if d ⬝ᵥ k = 0 then none else some (((p - o) ⬝ᵥ k) / (d ⬝ᵥ k)) := by
    rw [hitPlane, sub_eq, dot_eq_dotProduct, dot_eq_dotProduct]
  rw [e]
  by_cases h : d ⬝ᵥ k = 0
  · simp [h]
  · rw [if_neg h]
    refine ⟨fun t => ?_, by simp [h]⟩
    rw [Option.some_inj, div_eq_iff h]
    have : (o + t • d - p) ⬝ᵥ k = t * (d ⬝ᵥ k) - (p - o) ⬝ᵥ k := by
      rw [sub_dotProduct, add_dotProduct, smul_dotProduct, sub_dotProduct, smul_eq_mul]; ring
    rw [this]
    constructor
    · intro h'; exact ⟨h, by rw [h', sub_self]⟩
    · rintro ⟨-, h'⟩; linear_combination -h'

/-- C178. A triangle: the answers are exactly the coordinates of the point where the ray meets it, for rays not parallel to it. -/
theorem hitTriangle_result {T : Type} [Field T] [LinearOrder T] [IsStrictOrderedRing T] (o d a b c : Vec T 3) :
    (∀ t u v, hitTriangle o d a b c = some (t, u, v) ↔ crossProduct (b - a) (c - a) ⬝ᵥ d ≠ 0 ∧ 0 ≤ t ∧ 0 ≤ u ∧ 0 ≤ v ∧ u + v ≤ 1 ∧
      o + t • d = (1 - u - v) • a + u • b + v • c) ∧
    (hitTriangle o d a b c = none ↔ crossProduct (b - a) (c - a) ⬝ᵥ d = 0 ∨
      ¬∃ t u v : T, 0 ≤ t ∧ 0 ≤ u ∧ 0 ≤ v ∧ u + v ≤ 1 ∧ o + t • d = (1 - u - v) • a + u • b + v • c) := by
  have first : ∀ t u v, hitTriangle o d a b c = some (t, u, v) ↔ crossProduct (b - a) (c - a) ⬝ᵥ d ≠ 0 ∧ 0 ≤ t ∧ 0 ≤ u ∧ 0 ≤ v ∧
      u + v ≤ 1 ∧ o + t • d = (1 - u - v) • a + u • b + v • c := by
    intro t u v
    have hdet : dot (sub b a) (cross d (sub c a)) = -(crossProduct (b - a) (c - a) ⬝ᵥ d) := by
      rw [dot_eq_dotProduct, sub_eq, sub_eq, ← (cross_laws _ _).1]
      simp only [dotProduct, Fin.sum_univ_three, cross]; simp; ring
    have hpt : (o + t • d = (1 - u - v) • a + u • b + v • c) ↔ ∀ i, o i - a i = u * (b i - a i) + v * (c i - a i) - t * d i := by
      rw [funext_iff]
      refine forall_congr' fun i => ?_
      simp only [Pi.add_apply, Pi.smul_apply, smul_eq_mul]
      constructor <;> intro h <;> linear_combination h
    rw [hpt]
    by_cases h0 : crossProduct (b - a) (c - a) ⬝ᵥ d = 0
    · simp only [hitTriangle, hdet, h0]; simp
    · have hd0 : dot (sub b a) (cross d (sub c a)) ≠ 0 := by rw [hdet]; exact neg_ne_zero.mpr h0
      -- Cramer's rule
      have cramer : (∀ i, o i - a i = u * (b i - a i) + v * (c i - a i) - t * d i) ↔
          u = 1 / dot (sub b a) (cross d (sub c a)) * dot (sub o a) (cross d (sub c a)) ∧
          v = 1 / dot (sub b a) (cross d (sub c a)) * dot d (cross (sub o a) (sub b a)) ∧
          t = 1 / dot (sub b a) (cross d (sub c a)) * dot (sub c a) (cross (sub o a) (sub b a)) := by
        simp only [one_div, ← div_eq_inv_mul]
        rw [eq_div_iff hd0, eq_div_iff hd0, eq_div_iff hd0]
        simp only [dot_eq_dotProduct, sub_eq] at hd0 ⊢
        simp only [dotProduct, Fin.sum_univ_three, cross, Pi.sub_apply] at hd0 ⊢
        simp only [Matrix.cons_val_zero, Matrix.cons_val_one, Matrix.cons_val] at hd0 ⊢
        constructor
        · intro h
          rw [h 0, h 1, h 2]
          refine ⟨by ring, by ring, by ring⟩
        · rintro ⟨h1, h2, h3⟩ i
          apply mul_left_cancel₀ hd0
          fin_cases i
          · simp only [Fin.zero_eta, Fin.isValue]
            linear_combination (-(b 0 - a 0)) * h1 - (c 0 - a 0) * h2 + d 0 * h3
          · simp only [Fin.mk_one, Fin.isValue]
            linear_combination (-(b 1 - a 1)) * h1 - (c 1 - a 1) * h2 + d 1 * h3
          · simp only [Fin.reduceFinMk, Fin.isValue]
            linear_combination (-(b 2 - a 2)) * h1 - (c 2 - a 2) * h2 + d 2 * h3
      rw [cramer]
      unfold hitTriangle
      simp only [hd0, if_false]
      generalize 1 / dot (sub b a) (cross d (sub c a)) * dot (sub o a) (cross d (sub c a)) = U
      generalize 1 / dot (sub b a) (cross d (sub c a)) * dot d (cross (sub o a) (sub b a)) = W
      generalize 1 / dot (sub b a) (cross d (sub c a)) * dot (sub c a) (cross (sub o a) (sub b a)) = S
      constructor
      · intro h
        split at h
        · cases h
        · next c1 =>
          split at h
          · cases h
          · next c2 =>
            split at h
            · cases h
            · next c3 =>
              simp only [Option.some.injEq, Prod.mk.injEq] at h
              obtain ⟨rfl, rfl, rfl⟩ := h
              simp only [not_or, not_lt] at c1 c2 c3
              exact ⟨h0, c3, c1.1, c2.1, c2.2, rfl, rfl, rfl⟩
      · rintro ⟨-, g1, g2, g3, g4, rfl, rfl, rfl⟩
        rw [if_neg, if_neg, if_neg]
        · exact not_lt.mpr g1
        · rw [not_or, not_lt, not_lt]; exact ⟨g3, g4⟩
        · rw [not_or, not_lt, not_lt]; exact ⟨g2, by linarith⟩
  refine ⟨first, ?_⟩
  constructor
  · intro h
    by_cases h0 : crossProduct (b - a) (c - a) ⬝ᵥ d = 0
    · exact Or.inl h0
    · right
      rintro ⟨t, u, v, hx⟩
      have := (first t u v).mpr ⟨h0, hx⟩
      rw [h] at this; cases this
  · intro h
    cases hr : hitTriangle o d a b c with
    | none => rfl
    | some r =>
      obtain ⟨t, u, v⟩ := r
      obtain ⟨h0, hx⟩ := (first t u v).mp hr
      rcases h with h | h
      · exact absurd h h0
      · exact absurd ⟨t, u, v, hx⟩ h

/-- C178. A sphere: the answer is the first point of the ray on it. -/
theorem hitSphere_result (o d c : Vec ℝ n) (r : ℝ) (hd : d ⬝ᵥ d = 1) (hr : 0 ≤ r) :
    (∀ t, hitSphere o d c r = some t ↔ IsLeast {t : ℝ | 0 ≤ t ∧ ‖WithLp.toLp 2 (o + t • d - c)‖ = r} t) ∧
    (hitSphere o d c r = none ↔ ∀ t : ℝ, 0 ≤ t → ‖WithLp.toLp 2 (o + t • d - c)‖ ≠ r) := by
  obtain ⟨m, hm⟩ : ∃ m, m = o - c := ⟨_, rfl⟩
  obtain ⟨β, hβ⟩ : ∃ β, β = m ⬝ᵥ d := ⟨_, rfl⟩
  obtain ⟨D, hD⟩ : ∃ D, D = β * β - (m ⬝ᵥ m - r * r) := ⟨_, rfl⟩
  have hon : ∀ t, ‖WithLp.toLp 2 (o + t • d - c)‖ = r ↔ (t + β) * (t + β) = D := by
    intro t
    have e1 : ‖WithLp.toLp 2 (o + t • d - c)‖ ^ 2 = m ⬝ᵥ m + 2 * t * β + t * t := by
      rw [← length_norm, (length_sq _).2.2.1, dot_eq_dotProduct]
      have : o + t • d - c = m + t • d := by rw [hm]; abel
      rw [this, add_dotProduct, dotProduct_add, dotProduct_add, smul_dotProduct, dotProduct_smul, smul_dotProduct, dotProduct_smul, hd,
        dotProduct_comm d m, ← hβ]
      simp only [smul_eq_mul]; ring
    constructor
    · intro h; rw [h] at e1; rw [hD]; linear_combination -e1
    · intro h
      have : ‖WithLp.toLp 2 (o + t • d - c)‖ ^ 2 = r ^ 2 := by rw [e1]; rw [hD] at h; linear_combination h
      exact (pow_left_inj₀ (norm_nonneg _) hr two_ne_zero).mp this
  have e : hitSphere o d c r = if D < 0 then none else
      if (if -β - Real.sqrt D < 0 then -β + Real.sqrt D else -β - Real.sqrt D) < 0 then none else
        some (if -β - Real.sqrt D < 0 then -β + Real.sqrt D else -β - Real.sqrt D) := by
    simp only [hitSphere, sub_eq, dot_eq_dotProduct, sqrt_real, hD, hβ, hm]
  have key : (∃ t, hitSphere o d c r = some t ∧ IsLeast {t : ℝ | 0 ≤ t ∧ ‖WithLp.toLp 2 (o + t • d - c)‖ = r} t) ∨
      (hitSphere o d c r = none ∧ ∀ t : ℝ, 0 ≤ t → ‖WithLp.toLp 2 (o + t • d - c)‖ ≠ r) := by
    rw [e]
    by_cases hD0 : D < 0
    · right
      rw [if_pos hD0]
      refine ⟨rfl, fun t _ h => ?_⟩
      have h' := (hon t).mp h
      have h'' := mul_self_nonneg (t + β)
      rw [h'] at h''
      exact absurd h'' (not_le.mpr hD0)
    · rw [if_neg hD0]
      have hD1 := not_lt.mp hD0
      have hw : Real.sqrt D * Real.sqrt D = D := Real.mul_self_sqrt hD1
      have hw0 := Real.sqrt_nonneg D
      have hroots : ∀ t, ‖WithLp.toLp 2 (o + t • d - c)‖ = r ↔ t = -β - Real.sqrt D ∨ t = -β + Real.sqrt D := by
        intro t
        refine (hon t).trans ?_
        constructor
        · intro h
          rw [← hw] at h
          rcases mul_self_eq_mul_self_iff.mp h with h | h
          · right; linarith
          · left; linarith
        · rintro (rfl | rfl)
          · linear_combination hw
          · linear_combination hw
      by_cases h1 : -β - Real.sqrt D < 0
      · rw [if_pos h1]
        by_cases h2 : -β + Real.sqrt D < 0
        · right
          rw [if_pos h2]
          refine ⟨rfl, fun t ht h => ?_⟩
          rcases (hroots t).mp h with rfl | rfl <;> linarith
        · left
          rw [if_neg h2]
          refine ⟨_, rfl, ⟨not_lt.mp h2, (hroots _).mpr (Or.inr rfl)⟩, ?_⟩
          rintro t ⟨ht, h⟩
          rcases (hroots t).mp h with rfl | rfl <;> linarith
      · left
        rw [if_neg h1, if_neg h1]
        refine ⟨_, rfl, ⟨not_lt.mp h1, (hroots _).mpr (Or.inl rfl)⟩, ?_⟩
        rintro t ⟨ht, h⟩
        rcases (hroots t).mp h with rfl | rfl <;> linarith
  rcases key with ⟨t, h1, h2⟩ | ⟨h1, h2⟩
  · refine ⟨fun t' => ⟨fun h => ?_, fun h => ?_⟩, ⟨fun h => ?_, fun h => ?_⟩⟩
    · rw [h1] at h; cases h; exact h2
    · rw [h1, h2.unique h]
    · rw [h1] at h; cases h
    · exact absurd h2.1.2 (h t h2.1.1)
  · refine ⟨fun t' => ⟨fun h => ?_, fun h => ?_⟩, ⟨fun _ => h2, fun _ => h1⟩⟩
    · rw [h1] at h; cases h
    · exact absurd h.1.2 (h2 t' h.1.1)

/-- C178. The nearest point: it is on the segment, and no point of the segment is nearer. -/
theorem nearest_result (p a b : Vec ℝ n) :
    (∃ t : ℝ, 0 ≤ t ∧ t ≤ 1 ∧ nearest p a b = (1 - t) • a + t • b) ∧
    ∀ t : ℝ, 0 ≤ t → t ≤ 1 → ‖WithLp.toLp 2 (p - nearest p a b)‖ ≤ ‖WithLp.toLp 2 (p - ((1 - t) • a + t • b))‖ := by
  have hl : ∀ t, lerp a b t = (1 - t) • a + t • b := by
    intro t
    rw [lerp, add_eq, mulS_eq, mulS_eq, add_comm]
  obtain ⟨e, he⟩ : ∃ e, e = b - a := ⟨_, rfl⟩
  obtain ⟨w, hw⟩ : ∃ w, w = p - a := ⟨_, rfl⟩
  obtain ⟨q, hq⟩ : ∃ q, q = e ⬝ᵥ e := ⟨_, rfl⟩
  obtain ⟨τ, hτ⟩ : ∃ τ, τ = if q = 0 then 0 else w ⬝ᵥ e / q := ⟨_, rfl⟩
  obtain ⟨t0, ht0⟩ : ∃ t0, t0 = if τ < 0 then 0 else if 1 < τ then 1 else τ := ⟨_, rfl⟩
  have en : nearest p a b = (1 - t0) • a + t0 • b := by
    rw [← hl]
    simp only [nearest, sub_eq, dot_eq_dotProduct, ht0, hτ, hq, hw, he]
  have h01 : 0 ≤ t0 ∧ t0 ≤ 1 := by
    rw [ht0]
    split
    · simp
    · split
      · simp
      · constructor <;> linarith
  refine ⟨⟨t0, h01.1, h01.2, en⟩, fun t h1 h2 => ?_⟩
  have hq0 : 0 ≤ q := hq ▸ Finset.sum_nonneg fun i _ => mul_self_nonneg _
  have hsq : ∀ t : ℝ, ‖WithLp.toLp 2 (p - ((1 - t) • a + t • b))‖ ^ 2 = w ⬝ᵥ w - 2 * t * (w ⬝ᵥ e) + t * t * q := by
    intro t
    rw [← length_norm, (length_sq _).2.2.1, dot_eq_dotProduct]
    have : p - ((1 - t) • a + t • b) = w - t • e := by
      rw [hw, he]; funext i; simp; ring
    rw [this, sub_dotProduct, dotProduct_sub, dotProduct_sub, smul_dotProduct, dotProduct_smul, smul_dotProduct, dotProduct_smul,
      dotProduct_comm e w]
    simp only [smul_eq_mul, ← hq]; ring
  rw [en]
  refine (pow_le_pow_iff_left₀ (norm_nonneg _) (norm_nonneg _) two_ne_zero).mp ?_
  rw [hsq, hsq]
  have hwe : w ⬝ᵥ e = τ * q := by
    rw [hτ]
    split
    · next h =>
      have : e = 0 := by
        funext i
        exact mul_self_eq_zero.mp ((Finset.sum_eq_zero_iff_of_nonneg fun i _ => mul_self_nonneg (e i)).mp (hq.symm.trans h) i (Finset.mem_univ i))
      rw [this]; simp
    · next h => field_simp
  rw [hwe]
  -- the difference is `q ((t - τ)² - (t0 - τ)²)`
  have : (t0 - τ) * (t0 - τ) ≤ (t - τ) * (t - τ) := by
    rw [ht0]
    split
    · nlinarith
    · split
      · nlinarith
      · nlinarith [mul_self_nonneg (t - τ)]
  nlinarith [mul_le_mul_of_nonneg_left this hq0]

/-! ### Cases -/

example : hitPlane (![0, 0, 5] : Vec ℚ 3) ![1, 0, -2] ![7, 7, 1] ![0, 0, 1] = some 2 := by decide +kernel

example : hitTriangle (![1, 1, 5] : Vec ℚ 3) ![0, 0, -1] ![0, 0, 1] ![4, 0, 1] ![0, 4, 1] = some (4, 1 / 4, 1 / 4) := by decide +kernel

example : hitTriangle (![3, 3, 5] : Vec ℚ 3) ![0, 0, -1] ![0, 0, 1] ![4, 0, 1] ![0, 4, 1] = none := by decide +kernel

example : nearest (![3, 4] : Vec ℚ 2) ![0, 0] ![10, 0] = ![3, 0] := by decide +kernel

/-- The hypotheses about the sphere are met by a ray along an axis. -/
example : (![0, 0, 1] : Vec ℝ 3) ⬝ᵥ ![0, 0, 1] = 1 := by simp

end Verif.Math
