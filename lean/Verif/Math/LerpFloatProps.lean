import Verif.Math.IeeeAxisProps

/-!
C152. Interpolation with `float` and `double`: between its end points, monotone in the percentage, constant when
both ends are equal? Only when the two ends have opposite signs.
-/

set_option autoImplicit false

namespace Verif.Math

open IVal

variable {F : Format} {n : Nat}

/-! ### Helpers -/

theorem lerpV_apply [Indet (IVal F)] (a b p : Vec (IVal F) n) (i : Fin n) :
    lerpV a b p i = b i * p i + a i * (1 - p i) := by
  unfold lerpV; rw [forLoop_store]

theorem Is.le_largest {v : IVal F} {y : ℝ} (h : v.Is y) : |y| ≤ F.largest := by
  obtain ⟨h1, h2⟩ := h
  cases v with
  | nan => exact h1.elim
  | inf s => exact h1.elim
  | zero s =>
    rw [← h2]
    change |(0 : ℝ)| ≤ _
    rw [abs_zero]
    have := F.pow_le_largest (k := 0) (by have := F.emax_ge; omega)
    rw [zpow_zero] at this
    linarith
  | num x hx => rw [← h2]; exact hx.2.2

/-- Rounding a fraction of a number of the format stays within the number. -/
theorem rnd_fraction {y s : ℝ} (hy : F.rnd y = y) (h0 : 0 ≤ s) (h1 : s ≤ 1) : |F.rnd (y * s)| ≤ |y| := by
  rw [F.rnd_abs, ← hy, F.rnd_abs, hy]
  refine F.rnd_mono ?_
  rw [abs_mul, abs_of_nonneg h0]
  exact mul_le_of_le_one_right (abs_nonneg _) h1

theorem rnd_rest {s : ℝ} (h0 : 0 ≤ s) (h1 : s ≤ 1) : 0 ≤ F.rnd (1 - s) ∧ F.rnd (1 - s) ≤ 1 := by
  refine ⟨F.rnd_nonneg (by linarith), ?_⟩
  have := F.rnd_mono (show 1 - s ≤ 1 by linarith)
  rwa [F.one_Rep.2.1] at this

/-- What the code computes for a finite component and a percentage in [0, 1]. -/
theorem lerp_is {a b t : IVal F} {x y s : ℝ} (ha : a.Is x) (hb : b.Is y) (ht : t.Is s) (h0 : 0 ≤ s) (h1 : s ≤ 1)
    (h : |F.rnd (F.rnd (y * s) + F.rnd (x * F.rnd (1 - s)))| ≤ F.largest) :
    (b * t + a * (1 - t)).Is (F.rnd (F.rnd (y * s) + F.rnd (x * F.rnd (1 - s)))) := by
  obtain ⟨q0, q1⟩ := rnd_rest (F := F) h0 h1
  have hone : (1 : ℝ) ≤ F.largest := by
    have := F.pow_le_largest (k := 0) (by have := F.emax_ge; omega)
    rwa [zpow_zero] at this
  have hq : ((1 : IVal F) - t).Is (F.rnd (1 - s)) := by
    have := add_is' (a := (1 : IVal F)) (x := 1) ⟨trivial, rfl⟩ (neg_is ht)
      (by rw [← sub_eq_add_neg, abs_of_nonneg q0]; linarith)
    rw [← sub_eq_add_neg] at this
    exact this
  exact add_is' (mul_is' hb ht ((rnd_fraction (Is.rep' hb) h0 h1).trans (Is.le_largest hb)))
    (mul_is' ha hq ((rnd_fraction (Is.rep' ha) q0 q1).trans (Is.le_largest ha))) h

/-- The rounded terms of an interpolation between ends of opposite signs. -/
theorem lerp_opposite {x y s : ℝ} (hx : F.rnd x = x) (hy : F.rnd y = y) (hx0 : x ≤ 0) (hy0 : 0 ≤ y) (h0 : 0 ≤ s)
    (h1 : s ≤ 1) :
    x ≤ F.rnd (F.rnd (y * s) + F.rnd (x * F.rnd (1 - s))) ∧
    F.rnd (F.rnd (y * s) + F.rnd (x * F.rnd (1 - s))) ≤ y := by
  obtain ⟨q0, q1⟩ := rnd_rest (F := F) h0 h1
  have p1 : 0 ≤ F.rnd (y * s) := F.rnd_nonneg (mul_nonneg hy0 h0)
  have p2 := (le_abs_self _).trans (rnd_fraction hy h0 h1)
  rw [abs_of_nonneg hy0] at p2
  have p3 : F.rnd (x * F.rnd (1 - s)) ≤ 0 := by
    have := F.rnd_mono (mul_nonpos_of_nonpos_of_nonneg hx0 q0)
    rwa [F.rnd_zero] at this
  have p4 := (neg_le_abs _).trans (rnd_fraction hx q0 q1)
  rw [abs_of_nonpos hx0] at p4
  constructor
  · have := F.rnd_mono (show x ≤ F.rnd (y * s) + F.rnd (x * F.rnd (1 - s)) by linarith)
    rwa [hx] at this
  · have := F.rnd_mono (show F.rnd (y * s) + F.rnd (x * F.rnd (1 - s)) ≤ y by linarith)
    rwa [hy] at this

/-- The same with the ends the other way round. -/
theorem lerp_opposite' {x y s : ℝ} (hx : F.rnd x = x) (hy : F.rnd y = y) (hx0 : 0 ≤ x) (hy0 : y ≤ 0) (h0 : 0 ≤ s)
    (h1 : s ≤ 1) :
    y ≤ F.rnd (F.rnd (y * s) + F.rnd (x * F.rnd (1 - s))) ∧
    F.rnd (F.rnd (y * s) + F.rnd (x * F.rnd (1 - s))) ≤ x := by
  have := lerp_opposite (F := F) (x := -x) (y := -y) (s := s) (by rw [F.rnd_neg, hx]) (by rw [F.rnd_neg, hy])
    (by linarith) (by linarith) h0 h1
  rw [neg_mul, neg_mul, F.rnd_neg, F.rnd_neg, ← neg_add, F.rnd_neg] at this
  constructor <;> linarith [this.1, this.2]

theorem lerp_rising {x y s s' : ℝ} (hx0 : x ≤ 0) (hy0 : 0 ≤ y) (h : s ≤ s') :
    F.rnd (F.rnd (y * s) + F.rnd (x * F.rnd (1 - s))) ≤ F.rnd (F.rnd (y * s') + F.rnd (x * F.rnd (1 - s'))) := by
  refine F.rnd_mono (add_le_add (F.rnd_mono (mul_le_mul_of_nonneg_left h hy0)) (F.rnd_mono ?_))
  exact mul_le_mul_of_nonpos_left (F.rnd_mono (by linarith)) hx0

theorem lerp_falling {x y s s' : ℝ} (hx0 : 0 ≤ x) (hy0 : y ≤ 0) (h : s ≤ s') :
    F.rnd (F.rnd (y * s') + F.rnd (x * F.rnd (1 - s'))) ≤ F.rnd (F.rnd (y * s) + F.rnd (x * F.rnd (1 - s))) := by
  refine F.rnd_mono (add_le_add (F.rnd_mono (mul_le_mul_of_nonpos_left h hy0)) (F.rnd_mono ?_))
  exact mul_le_mul_of_nonneg_left (F.rnd_mono (by linarith)) hx0

/-- How far the rounded interpolation is from the exact one. -/
theorem lerp_err {x y s M : ℝ} (hs : F.rnd s = s) (h0 : 0 ≤ s) (h1 : s ≤ 1) (hx : |x| ≤ M) (hy : |y| ≤ M) :
    |F.rnd (F.rnd (y * s) + F.rnd (x * F.rnd (1 - s))) - (y * s + x * (1 - s))| ≤
      ((1 + F.u) ^ 3 - 1) * M + 2 * (1 + F.u) * F.eta := by
  have u0 := F.u_pos.le
  have e0 := F.eta_pos.le
  have M0 : 0 ≤ M := (abs_nonneg x).trans hx
  set q := F.rnd (1 - s) with hq
  obtain ⟨q0, q1⟩ := rnd_rest (F := F) h0 h1
  rw [← hq] at q0 q1
  have d1 : |q - (1 - s)| ≤ F.u * (1 - s) := by
    have := Format.rnd_add_err (F := F) (x := 1) (y := -s) F.one_Rep.2.1 (by rw [F.rnd_neg, hs])
    rw [← sub_eq_add_neg, ← hq, abs_of_nonneg (show (0 : ℝ) ≤ 1 - s by linarith)] at this
    exact this
  have d2 : |F.rnd (y * s) - y * s| ≤ F.u * (M * s) + F.eta := by
    refine (F.rnd_err (y * s)).trans ?_
    rw [abs_mul, abs_of_nonneg h0]
    have := mul_le_mul_of_nonneg_left (mul_le_mul_of_nonneg_right hy h0) u0
    linarith
  have d3 : |F.rnd (x * q) - x * q| ≤ F.u * (M * ((1 + F.u) * (1 - s))) + F.eta := by
    refine (F.rnd_err (x * q)).trans ?_
    rw [abs_mul, abs_of_nonneg q0]
    have hq' : q ≤ (1 + F.u) * (1 - s) := by linarith [(abs_le.mp d1).2]
    have := mul_le_mul_of_nonneg_left (mul_le_mul hx hq' q0 M0) u0
    linarith
  have d4 : |x * q - x * (1 - s)| ≤ M * (F.u * (1 - s)) := by
    rw [← mul_sub, abs_mul]
    exact mul_le_mul hx d1 (abs_nonneg _) M0
  have hsum : |F.rnd (y * s) + F.rnd (x * q) - (y * s + x * (1 - s))| ≤
      ((1 + F.u) ^ 2 - 1) * M + 2 * F.eta := by
    have e : F.rnd (y * s) + F.rnd (x * q) - (y * s + x * (1 - s)) =
        (F.rnd (y * s) - y * s) + ((F.rnd (x * q) - x * q) + (x * q - x * (1 - s))) := by ring
    rw [e]
    refine (abs_add_le _ _).trans ((add_le_add d2 ((abs_add_le _ _).trans (add_le_add d3 d4))).trans ?_)
    have : 0 ≤ (F.u + F.u ^ 2) * M * s := by positivity
    nlinarith
  have hexact : |y * s + x * (1 - s)| ≤ M := by
    refine (abs_add_le _ _).trans ?_
    rw [abs_mul, abs_mul, abs_of_nonneg h0, abs_of_nonneg (show (0 : ℝ) ≤ 1 - s by linarith)]
    nlinarith [mul_le_mul_of_nonneg_right hy h0, mul_le_mul_of_nonneg_right hx (show (0 : ℝ) ≤ 1 - s by linarith)]
  have hlast := Format.rnd_add_err (F := F) (F.rnd_idem (y * s)) (F.rnd_idem (x * q))
  set w := F.rnd (y * s) + F.rnd (x * q) with hw
  have hwabs : |w| ≤ (1 + F.u) ^ 2 * M + 2 * F.eta := by
    have : |w| ≤ |w - (y * s + x * (1 - s))| + |y * s + x * (1 - s)| := by
      have := abs_add_le (w - (y * s + x * (1 - s))) (y * s + x * (1 - s))
      rwa [sub_add_cancel] at this
    linarith
  have e : F.rnd w - (y * s + x * (1 - s)) = (F.rnd w - w) + (w - (y * s + x * (1 - s))) := by ring
  rw [e]
  refine (abs_add_le _ _).trans ((add_le_add hlast hsum).trans ?_)
  have := mul_le_mul_of_nonneg_left hwabs u0
  nlinarith

/-! ### C152 -/

/-- C152, the part that holds exactly: where the components of the two vectors are finite and do not lie on the
same side of zero, and the percentage is a number in [0, 1], the component of `lerp` is finite, lies between the
two, and moves towards the second one — never back — as the percentage grows. Both forms of `lerp`. -/
theorem ieee_lerp_opposite_partial [Indet (IVal F)] (a b p p' : Vec (IVal F) n) (t t' : IVal F) (i : Fin n)
    (ha : (a i).Finite) (hb : (b i).Finite) (ht : t.Finite) (ht' : t'.Finite) (hp : (p i).Finite)
    (hp' : (p' i).Finite) (h0 : 0 ≤ t.toReal) (hle : t.toReal ≤ t'.toReal) (h1 : t'.toReal ≤ 1)
    (g0 : 0 ≤ (p i).toReal) (gle : (p i).toReal ≤ (p' i).toReal) (g1 : (p' i).toReal ≤ 1) :
    ((a i).toReal ≤ 0 → 0 ≤ (b i).toReal →
      (lerp a b t i).Finite ∧ (lerpV a b p i).Finite ∧
      (a i).toReal ≤ (lerp a b t i).toReal ∧ (lerp a b t i).toReal ≤ (lerp a b t' i).toReal ∧
      (lerp a b t' i).toReal ≤ (b i).toReal ∧
      (a i).toReal ≤ (lerpV a b p i).toReal ∧ (lerpV a b p i).toReal ≤ (lerpV a b p' i).toReal ∧
      (lerpV a b p' i).toReal ≤ (b i).toReal) ∧
    (0 ≤ (a i).toReal → (b i).toReal ≤ 0 →
      (lerp a b t i).Finite ∧ (lerpV a b p i).Finite ∧
      (lerp a b t i).toReal ≤ (a i).toReal ∧ (lerp a b t' i).toReal ≤ (lerp a b t i).toReal ∧
      (b i).toReal ≤ (lerp a b t' i).toReal ∧
      (lerpV a b p i).toReal ≤ (a i).toReal ∧ (lerpV a b p' i).toReal ≤ (lerpV a b p i).toReal ∧
      (b i).toReal ≤ (lerpV a b p' i).toReal) := by
  have Ha := is_of_finite ha
  have Hb := is_of_finite hb
  have la := Is.le_largest Ha
  have lb := Is.le_largest Hb
  simp only [lerp_apply, lerpV_apply]
  have core : ∀ s : IVal F, s.Finite → 0 ≤ s.toReal → s.toReal ≤ 1 →
      ((a i).toReal ≤ 0 ∧ 0 ≤ (b i).toReal ∨ 0 ≤ (a i).toReal ∧ (b i).toReal ≤ 0) →
      (b i * s + a i * (1 - s)).Is (F.rnd (F.rnd ((b i).toReal * s.toReal) +
        F.rnd ((a i).toReal * F.rnd (1 - s.toReal)))) := by
    intro s hs z0 z1 hc
    refine lerp_is Ha Hb (is_of_finite hs) z0 z1 ?_
    rw [abs_le] at la lb ⊢
    rcases hc with ⟨c1, c2⟩ | ⟨c1, c2⟩
    · obtain ⟨r1, r2⟩ := lerp_opposite (Is.rep' Ha) (Is.rep' Hb) c1 c2 z0 z1
      exact ⟨la.1.trans r1, r2.trans lb.2⟩
    · obtain ⟨r1, r2⟩ := lerp_opposite' (Is.rep' Ha) (Is.rep' Hb) c1 c2 z0 z1
      exact ⟨lb.1.trans r1, r2.trans la.2⟩
  refine ⟨fun c1 c2 => ?_, fun c1 c2 => ?_⟩
  · have A := core t ht h0 (hle.trans h1) (Or.inl ⟨c1, c2⟩)
    have A' := core t' ht' (h0.trans hle) h1 (Or.inl ⟨c1, c2⟩)
    have B := core (p i) hp g0 (gle.trans g1) (Or.inl ⟨c1, c2⟩)
    have B' := core (p' i) hp' (g0.trans gle) g1 (Or.inl ⟨c1, c2⟩)
    refine ⟨A.1, B.1, ?_, ?_, ?_, ?_, ?_, ?_⟩
    · rw [A.2]; exact (lerp_opposite (Is.rep' Ha) (Is.rep' Hb) c1 c2 h0 (hle.trans h1)).1
    · rw [A.2, A'.2]; exact lerp_rising c1 c2 hle
    · rw [A'.2]; exact (lerp_opposite (Is.rep' Ha) (Is.rep' Hb) c1 c2 (h0.trans hle) h1).2
    · rw [B.2]; exact (lerp_opposite (Is.rep' Ha) (Is.rep' Hb) c1 c2 g0 (gle.trans g1)).1
    · rw [B.2, B'.2]; exact lerp_rising c1 c2 gle
    · rw [B'.2]; exact (lerp_opposite (Is.rep' Ha) (Is.rep' Hb) c1 c2 (g0.trans gle) g1).2
  · have A := core t ht h0 (hle.trans h1) (Or.inr ⟨c1, c2⟩)
    have A' := core t' ht' (h0.trans hle) h1 (Or.inr ⟨c1, c2⟩)
    have B := core (p i) hp g0 (gle.trans g1) (Or.inr ⟨c1, c2⟩)
    have B' := core (p' i) hp' (g0.trans gle) g1 (Or.inr ⟨c1, c2⟩)
    refine ⟨A.1, B.1, ?_, ?_, ?_, ?_, ?_, ?_⟩
    · rw [A.2]; exact (lerp_opposite' (Is.rep' Ha) (Is.rep' Hb) c1 c2 h0 (hle.trans h1)).2
    · rw [A.2, A'.2]; exact lerp_falling c1 c2 hle
    · rw [A'.2]; exact (lerp_opposite' (Is.rep' Ha) (Is.rep' Hb) c1 c2 (h0.trans hle) h1).1
    · rw [B.2]; exact (lerp_opposite' (Is.rep' Ha) (Is.rep' Hb) c1 c2 g0 (gle.trans g1)).2
    · rw [B.2, B'.2]; exact lerp_falling c1 c2 gle
    · rw [B'.2]; exact (lerp_opposite' (Is.rep' Ha) (Is.rep' Hb) c1 c2 (g0.trans gle) g1).1

/-- C152, for ends of any sign: if `M` bounds both components and there is a little room above it, the result is
finite, within `e = ((1+u)³ - 1) M + 2(1+u)η` of the exact interpolation — so it leaves the segment between the
ends by at most `e`, and a larger percentage sets it back by at most `2e` — and it is not on the other side of
zero from the ends. -/
theorem ieee_lerp_near_partial [Indet (IVal F)] (a b p : Vec (IVal F) n) (t t' : IVal F) (i : Fin n) (M e : ℝ)
    (ha : (a i).Finite) (hb : (b i).Finite) (ht : t.Finite) (ht' : t'.Finite) (hp : (p i).Finite)
    (h0 : 0 ≤ t.toReal) (hle : t.toReal ≤ t'.toReal) (h1 : t'.toReal ≤ 1) (hpt : (p i).toReal = t.toReal)
    (hMa : |(a i).toReal| ≤ M) (hMb : |(b i).toReal| ≤ M)
    (he : e = ((1 + F.u) ^ 3 - 1) * M + 2 * (1 + F.u) * F.eta) (hM : M + e ≤ F.largest) :
    (lerp a b t i).Finite ∧ (lerpV a b p i).toReal = (lerp a b t i).toReal ∧
    |(lerp a b t i).toReal - ((a i).toReal + t.toReal * ((b i).toReal - (a i).toReal))| ≤ e ∧
    min (a i).toReal (b i).toReal - e ≤ (lerp a b t i).toReal ∧
    (lerp a b t i).toReal ≤ max (a i).toReal (b i).toReal + e ∧
    ((a i).toReal ≤ (b i).toReal → (lerp a b t i).toReal ≤ (lerp a b t' i).toReal + 2 * e) ∧
    (0 ≤ (a i).toReal → 0 ≤ (b i).toReal → 0 ≤ (lerp a b t i).toReal) := by
  have Ha := is_of_finite ha
  have Hb := is_of_finite hb
  simp only [lerp_apply, lerpV_apply]
  generalize hx : (a i).toReal = x at *
  generalize hy : (b i).toReal = y at *
  have core : ∀ s : IVal F, s.Finite → 0 ≤ s.toReal → s.toReal ≤ 1 →
      (b i * s + a i * (1 - s)).Is (F.rnd (F.rnd (y * s.toReal) + F.rnd (x * F.rnd (1 - s.toReal)))) ∧
      |F.rnd (F.rnd (y * s.toReal) + F.rnd (x * F.rnd (1 - s.toReal))) - (x + s.toReal * (y - x))| ≤ e := by
    intro s hs z0 z1
    have herr := lerp_err (F := F) (x := x) (y := y) (M := M) (Is.rep' (is_of_finite hs)) z0 z1 hMa hMb
    rw [← he] at herr
    have e1 : y * s.toReal + x * (1 - s.toReal) = x + s.toReal * (y - x) := by ring
    have hexact : |y * s.toReal + x * (1 - s.toReal)| ≤ M := by
      refine (abs_add_le _ _).trans ?_
      rw [abs_mul, abs_mul, abs_of_nonneg z0, abs_of_nonneg (show (0 : ℝ) ≤ 1 - s.toReal by linarith)]
      nlinarith [mul_le_mul_of_nonneg_right hMb z0,
        mul_le_mul_of_nonneg_right hMa (show (0 : ℝ) ≤ 1 - s.toReal by linarith)]
    rw [← e1]
    refine ⟨lerp_is Ha Hb (is_of_finite hs) z0 z1 ?_, herr⟩
    rw [abs_le] at herr hexact ⊢
    constructor <;> linarith [herr.1, herr.2, hexact.1, hexact.2]
  obtain ⟨A, A2⟩ := core t ht h0 (hle.trans h1)
  obtain ⟨A', A2'⟩ := core t' ht' (h0.trans hle) h1
  obtain ⟨B, -⟩ := core (p i) hp (by rw [hpt]; exact h0) (by rw [hpt]; exact hle.trans h1)
  rw [hpt] at B
  have hs1 := hle.trans h1
  rw [A.2, B.2, A'.2]
  refine ⟨A.1, rfl, A2, ?_, ?_, fun hxy => ?_, fun c1 c2 => ?_⟩
  · have : min x y ≤ x + t.toReal * (y - x) := by
      rcases le_total x y with h | h
      · rw [min_eq_left h]; nlinarith
      · rw [min_eq_right h]; nlinarith
    linarith [(abs_le.mp A2).1]
  · have : x + t.toReal * (y - x) ≤ max x y := by
      rcases le_total x y with h | h
      · rw [max_eq_right h]; nlinarith
      · rw [max_eq_left h]; nlinarith
    linarith [(abs_le.mp A2).2]
  · have : t.toReal * (y - x) ≤ t'.toReal * (y - x) := mul_le_mul_of_nonneg_right hle (by linarith)
    linarith [(abs_le.mp A2).2, (abs_le.mp A2').1]
  · exact F.rnd_nonneg (add_nonneg (F.rnd_nonneg (mul_nonneg c2 h0))
      (F.rnd_nonneg (mul_nonneg c1 (rnd_rest h0 hs1).1)))

/-- One component, step by step. -/
theorem lerp_value {x y s P q Q R : ℝ} (hx : F.Rep x) (hy : F.Rep y) (hs : F.Rep s) (h0 : 0 ≤ s) (h1 : s ≤ 1)
    (e1 : F.rnd (y * s) = P) (e2 : F.rnd (1 - s) = q) (e3 : F.rnd (x * q) = Q) (e4 : F.rnd (P + Q) = R)
    (hR : |R| ≤ F.largest) :
    (lerp (![.num x hx] : Vec (IVal F) 1) ![.num y hy] (.num s hs) 0).toReal = R := by
  rw [lerp_apply]
  have := lerp_is (a := .num x hx) (b := .num y hy) (t := .num s hs) (is_num hx) (is_num hy) (is_num hs) h0 h1
    (by rw [e1, e2, e3, e4]; exact hR)
  rw [e1, e2, e3, e4] at this
  exact this.2

noncomputable abbrev t004 : ℝ := 10737418 * 2 ^ (-28 : ℤ)
noncomputable abbrev t081 : ℝ := 13589545 * 2 ^ (-24 : ℤ)
noncomputable abbrev t081' : ℝ := 13589546 * 2 ^ (-24 : ℤ)

/-- Rounding to `float`, with the binade and the integer significand given. -/
theorem rnd32 {x : ℝ} (e m : ℤ) (he : -126 ≤ e) (h1 : 2 ^ e ≤ x) (h2 : x < 2 ^ (e + 1))
    (hm : |x - m * 2 ^ (e - 23)| < 2 ^ (e - 23) / 2) : Format.binary32.rnd x = m * 2 ^ (e - 23) := by
  have hp : ((Format.binary32.p : ℕ) : ℤ) - 1 = 23 := rfl
  have := rnd_eq_of_near (F := .binary32) (x := x) (e := e) (m := m) he h1 h2 (by rw [hp]; exact hm)
  rwa [hp] at this

/-- C152, what is wrong: with `float`, interpolating between 3 and 3 at 0.04f (the `float` nearest to 0.04) gives
3 − 2⁻²², outside the segment that consists of 3 alone. -/
theorem ieee_lerp_constant_wrong : ∃ (h3 : Format.binary32.Rep 3) (ht : Format.binary32.Rep t004),
    |t004 - 0.04| < 2 ^ (-29 : ℤ) ∧
    (lerp (![.num 3 h3] : Vec (IVal .binary32) 1) ![.num 3 h3] (.num t004 ht) 0).toReal = 3 - 2 ^ (-22 : ℤ) := by
  have hl : (2 : ℝ) ^ (20 : ℤ) ≤ Format.binary32.largest := Format.binary32.pow_le_largest (by decide)
  have hl' : (1048576 : ℝ) ≤ Format.binary32.largest := by norm_num at hl; exact hl
  have r3 : Format.binary32.rnd 3 = 3 := by
    rw [rnd32 1 (3 * 2 ^ 22) (by norm_num) (by norm_num) (by norm_num) (by norm_num)]; norm_num
  have rt : Format.binary32.rnd t004 = t004 := by
    rw [rnd32 (-5) 10737418 (by norm_num) (by norm_num [t004]) (by norm_num [t004]) (by norm_num [t004])]; norm_num [t004]
  have e1 : Format.binary32.rnd (3 * t004) = 16106127 * 2 ^ (-27 : ℤ) := by
    rw [rnd32 (-4) 16106127 (by norm_num) (by norm_num [t004]) (by norm_num [t004]) (by norm_num [t004])]; norm_num
  have e2 : Format.binary32.rnd (1 - t004) = 16106127 * 2 ^ (-24 : ℤ) := by
    rw [rnd32 (-1) 16106127 (by norm_num) (by norm_num [t004]) (by norm_num [t004])
      (by norm_num [t004, abs_lt])]; norm_num
  have e3 : Format.binary32.rnd (3 * (16106127 * 2 ^ (-24 : ℤ))) = 12079595 * 2 ^ (-22 : ℤ) := by
    rw [rnd32 1 12079595 (by norm_num) (by norm_num) (by norm_num) (by norm_num [abs_lt])]; norm_num
  have e4 : Format.binary32.rnd (16106127 * 2 ^ (-27 : ℤ) + 12079595 * 2 ^ (-22 : ℤ)) = 3 - 2 ^ (-22 : ℤ) := by
    rw [rnd32 1 12582911 (by norm_num) (by norm_num) (by norm_num) (by norm_num [abs_lt])]; norm_num
  refine ⟨⟨by norm_num, r3, by rw [abs_of_pos (by norm_num)]; linarith⟩,
    ⟨by norm_num [t004], rt, by norm_num [t004, abs_le] at hl' ⊢; linarith⟩, ?_, ?_⟩
  · norm_num [t004, abs_lt]
  · exact lerp_value _ _ _ (by norm_num [t004]) (by norm_num [t004]) e1 e2 e3 e4
      (by norm_num [abs_le] at hl' ⊢; linarith)

/-- C152, what is wrong: with `float`, interpolating from 3 to 5, the result at 0.81f is greater than the result at
the next larger `float`: the interpolation runs backwards. -/
theorem ieee_lerp_monotone_wrong : ∃ (h3 : Format.binary32.Rep 3) (h5 : Format.binary32.Rep 5)
    (ht : Format.binary32.Rep t081) (ht' : Format.binary32.Rep t081'),
    |t081 - 0.81| < 2 ^ (-25 : ℤ) ∧ t081 < t081' ∧
    (lerp (![.num 3 h3] : Vec (IVal .binary32) 1) ![.num 5 h5] (.num t081 ht) 0).toReal = 9688843 * 2 ^ (-21 : ℤ) ∧
    (lerp (![.num 3 h3] : Vec (IVal .binary32) 1) ![.num 5 h5] (.num t081' ht') 0).toReal = 9688842 * 2 ^ (-21 : ℤ) ∧
    (9688842 * 2 ^ (-21 : ℤ) : ℝ) < 9688843 * 2 ^ (-21 : ℤ) := by
  have hl : (2 : ℝ) ^ (20 : ℤ) ≤ Format.binary32.largest := Format.binary32.pow_le_largest (by decide)
  have hl' : (1048576 : ℝ) ≤ Format.binary32.largest := by norm_num at hl; exact hl
  have r3 : Format.binary32.rnd 3 = 3 := by
    rw [rnd32 1 (3 * 2 ^ 22) (by norm_num) (by norm_num) (by norm_num) (by norm_num)]; norm_num
  have r5 : Format.binary32.rnd 5 = 5 := by
    rw [rnd32 2 (5 * 2 ^ 21) (by norm_num) (by norm_num) (by norm_num) (by norm_num)]; norm_num
  have rt : Format.binary32.rnd t081 = t081 := by
    rw [rnd32 (-1) 13589545 (by norm_num) (by norm_num [t081]) (by norm_num [t081]) (by norm_num [t081])]; norm_num [t081]
  have rt' : Format.binary32.rnd t081' = t081' := by
    rw [rnd32 (-1) 13589546 (by norm_num) (by norm_num [t081']) (by norm_num [t081']) (by norm_num [t081'])]; norm_num [t081']
  have e1 : Format.binary32.rnd (5 * t081) = 8493466 * 2 ^ (-21 : ℤ) := by
    rw [rnd32 2 8493466 (by norm_num) (by norm_num [t081]) (by norm_num [t081]) (by norm_num [t081, abs_lt])]; norm_num
  have e2 : Format.binary32.rnd (1 - t081) = 12750684 * 2 ^ (-26 : ℤ) := by
    rw [rnd32 (-3) 12750684 (by norm_num) (by norm_num [t081]) (by norm_num [t081])
      (by norm_num [t081, abs_lt])]; norm_num
  have e3 : Format.binary32.rnd (3 * (12750684 * 2 ^ (-26 : ℤ))) = 9563013 * 2 ^ (-24 : ℤ) := by
    rw [rnd32 (-1) 9563013 (by norm_num) (by norm_num) (by norm_num) (by norm_num [abs_lt])]; norm_num
  have e4 : Format.binary32.rnd (8493466 * 2 ^ (-21 : ℤ) + 9563013 * 2 ^ (-24 : ℤ)) = 9688843 * 2 ^ (-21 : ℤ) := by
    rw [rnd32 2 9688843 (by norm_num) (by norm_num) (by norm_num) (by norm_num [abs_lt])]; norm_num
  have f1 : Format.binary32.rnd (5 * t081') = 8493466 * 2 ^ (-21 : ℤ) := by
    rw [rnd32 2 8493466 (by norm_num) (by norm_num [t081']) (by norm_num [t081']) (by norm_num [t081', abs_lt])]; norm_num
  have f2 : Format.binary32.rnd (1 - t081') = 12750680 * 2 ^ (-26 : ℤ) := by
    rw [rnd32 (-3) 12750680 (by norm_num) (by norm_num [t081']) (by norm_num [t081'])
      (by norm_num [t081', abs_lt])]; norm_num
  have f3 : Format.binary32.rnd (3 * (12750680 * 2 ^ (-26 : ℤ))) = 9563010 * 2 ^ (-24 : ℤ) := by
    rw [rnd32 (-1) 9563010 (by norm_num) (by norm_num) (by norm_num) (by norm_num [abs_lt])]; norm_num
  have f4 : Format.binary32.rnd (8493466 * 2 ^ (-21 : ℤ) + 9563010 * 2 ^ (-24 : ℤ)) = 9688842 * 2 ^ (-21 : ℤ) := by
    rw [rnd32 2 9688842 (by norm_num) (by norm_num) (by norm_num) (by norm_num [abs_lt])]; norm_num
  refine ⟨⟨by norm_num, r3, by rw [abs_of_pos (by norm_num)]; linarith⟩,
    ⟨by norm_num, r5, by rw [abs_of_pos (by norm_num)]; linarith⟩,
    ⟨by norm_num [t081], rt, by norm_num [t081, abs_le] at hl' ⊢; linarith⟩,
    ⟨by norm_num [t081'], rt', by norm_num [t081', abs_le] at hl' ⊢; linarith⟩, ?_, ?_, ?_, ?_, ?_⟩
  · norm_num [t081, abs_lt]
  · norm_num [t081, t081']
  · exact lerp_value _ _ _ (by norm_num [t081]) (by norm_num [t081]) e1 e2 e3 e4
      (by norm_num [abs_le] at hl' ⊢; linarith)
  · exact lerp_value _ _ _ (by norm_num [t081']) (by norm_num [t081']) f1 f2 f3 f4
      (by norm_num [abs_le] at hl' ⊢; linarith)
  · norm_num

/-- The hypotheses can be met: from −1 to 2 at 1/2 and then 1. -/
example [Indet (IVal .binary64)] : ∃ (h : Format.binary64.Rep (2 ^ (-1 : ℤ))) (m : Format.binary64.Rep (-1)),
    (-1 : ℝ) ≤ (lerp (![.num _ m] : Vec (IVal .binary64) 1) ![2] (.num _ h) 0).toReal ∧
    (lerp (![.num _ m] : Vec (IVal .binary64) 1) ![2] (.num _ h) 0).toReal ≤ 2 := by
  have h : Format.binary64.Rep (2 ^ (-1 : ℤ)) := Format.binary64.pow_Rep (by decide) (by decide)
  have m : Format.binary64.Rep (-1) := Format.neg_Rep _ Format.binary64.one_Rep
  have := (ieee_lerp_opposite_partial (F := .binary64) ![.num _ m] ![2] ![.num _ h] ![1] (.num _ h) 1 0 trivial trivial
    trivial trivial trivial trivial (by change (0 : ℝ) ≤ 2 ^ (-1 : ℤ); norm_num)
    (by change (2 : ℝ) ^ (-1 : ℤ) ≤ 1; norm_num) (by change (1 : ℝ) ≤ 1; norm_num)
    (by change (0 : ℝ) ≤ 2 ^ (-1 : ℤ); norm_num)
    (by change (2 : ℝ) ^ (-1 : ℤ) ≤ 1; norm_num) (by change (1 : ℝ) ≤ 1; norm_num)).1
    (by change (-1 : ℝ) ≤ 0; norm_num) (by change (0 : ℝ) ≤ 2; norm_num)
  exact ⟨h, m, this.2.2.1, this.2.2.2.1.trans this.2.2.2.2.1⟩

/-- The hypotheses of the bound can be met: from 1 to 2 at 1/2 and then 1. -/
example [Indet (IVal .binary64)] : ∃ h : Format.binary64.Rep (2 ^ (-1 : ℤ)),
    0 ≤ (lerp (![1] : Vec (IVal .binary64) 1) ![2] (.num _ h) 0).toReal := by
  have h : Format.binary64.Rep (2 ^ (-1 : ℤ)) := Format.binary64.pow_Rep (by decide) (by decide)
  have hl : (2 : ℝ) ^ (20 : ℤ) ≤ Format.binary64.largest := Format.binary64.pow_le_largest (by decide)
  have hl' : (1048576 : ℝ) ≤ Format.binary64.largest := by norm_num at hl; exact hl
  have u0 := Format.binary64.u_pos
  have u1 := Format.binary64.u_le
  have e1 : Format.binary64.eta ≤ 1 := by
    unfold Format.eta Format.tiny
    have : (2 : ℝ) ^ Format.binary64.emin ≤ 1 := by
      rw [show Format.binary64.emin = -1022 from rfl]
      exact zpow_le_one_of_nonpos₀ (by norm_num) (by norm_num)
    have h2 : (0 : ℝ) ≤ 2 ^ Format.binary64.emin := by positivity
    nlinarith
  have e0 := Format.binary64.eta_pos
  exact ⟨h, (ieee_lerp_near_partial (F := .binary64) ![1] ![2] ![.num _ h] (.num _ h) 1 0 2 _ trivial trivial trivial
    trivial trivial (by change (0 : ℝ) ≤ 2 ^ (-1 : ℤ); norm_num) (by change (2 : ℝ) ^ (-1 : ℤ) ≤ 1; norm_num)
    (by change (1 : ℝ) ≤ 1; norm_num) rfl (by change |(1 : ℝ)| ≤ 2; norm_num) (by change |(2 : ℝ)| ≤ 2; norm_num) rfl
    (by
      have : (1 + Format.binary64.u) ^ 3 ≤ (1 + 1 / 4) ^ 3 := by gcongr
      nlinarith)).2.2.2.2.2.2 (by change (0 : ℝ) ≤ 1; norm_num) (by change (0 : ℝ) ≤ 2; norm_num)⟩

end Verif.Math
