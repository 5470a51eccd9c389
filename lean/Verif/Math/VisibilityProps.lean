import Verif.Math.ProjectionProps

/-!
Properties: what the projections keep of what is seen. Which of two points hides the other, which points are seen at the same place,
and that straight lines stay straight. A point is given by `x`, `y` and its distance `t` in front of the camera: `z = -t`
right-handed, `z = t` left-handed.
-/

set_option autoImplicit false

namespace Verif.Math

/-! ### Specification -/

/-- The points lie on one ray from the camera. -/
def OnRay (x y t x' y' t' : ℝ) : Prop := ∃ k, 0 < k ∧ x' = k * x ∧ y' = k * y ∧ t' = k * t

/-- The two points are seen at the same place of the screen. -/
def SamePlace (q q' : Vec ℝ 3) : Prop := q 0 = q' 0 ∧ q 1 = q' 1

/-- What is wanted of a projection, for points in front of a camera (`sgn` is the sign of `z` there): the nearer of two points
has the smaller depth, two points are seen at the same place exactly if they lie on one ray, and no two points have the same
coordinates. -/
def KeepsView (m : Mat ℝ 4 4) (sgn : ℝ) : Prop :=
  ∀ x y t x' y' t' : ℝ, 0 < t → 0 < t' →
    (ndc m ![x, y, sgn * t] 2 < ndc m ![x', y', sgn * t'] 2 ↔ t < t') ∧
    (SamePlace (ndc m ![x, y, sgn * t]) (ndc m ![x', y', sgn * t']) ↔ OnRay x y t x' y' t') ∧
    (ndc m ![x, y, sgn * t] = ndc m ![x', y', sgn * t'] → x = x' ∧ y = y' ∧ t = t')

/-- The point at the fraction `s` of the way from `p` to `q`. -/
def along (p q : Vec ℝ 3) (s : ℝ) : Vec ℝ 3 := fun i => (1 - s) * p i + s * q i

/-- The segment between two points goes to the segment between their images, onto, and in the same order. -/
def KeepsSegment (m : Mat ℝ 4 4) (p q : Vec ℝ 3) : Prop :=
  ∃ g : ℝ → ℝ, g 0 = 0 ∧ g 1 = 1 ∧ (∀ s s', 0 ≤ s → s < s' → s' ≤ 1 → g s < g s') ∧
    (∀ s, 0 ≤ s → s ≤ 1 → ndc m (along p q s) = along (ndc m p) (ndc m q) (g s)) ∧
    (∀ r, 0 ≤ r → r ≤ 1 → ∃ s, 0 ≤ s ∧ s ≤ 1 ∧ g s = r)

/-! ### Lemmas -/

theorem onRay_iff {x y t x' y' t' : ℝ} (ht : 0 < t) (ht' : 0 < t') :
    OnRay x y t x' y' t' ↔ x / t = x' / t' ∧ y / t = y' / t' := by
  constructor
  · rintro ⟨k, hk, rfl, rfl, rfl⟩
    constructor <;> field_simp
  · rintro ⟨h1, h2⟩
    refine ⟨t' / t, by positivity, ?_, ?_, ?_⟩
    · field_simp at h1 ⊢; linarith
    · field_simp at h2 ⊢; linarith
    · field_simp

/-- The shape of all four perspective projections. -/
theorem keepsView_of (m : Mat ℝ 4 4) (sgn a A b B C D : ℝ) (ha : a ≠ 0) (hb : b ≠ 0) (hD : 0 < D)
    (h : ∀ x y t, ndc m ![x, y, sgn * t] = ![(a * x + A * t) / t, (b * y + B * t) / t, (C * t - D) / t]) :
    KeepsView m sgn := by
  intro x y t x' y' t' ht ht'
  have e0 : ∀ u v : ℝ, 0 < v → (a * u + A * v) / v = a * (u / v) + A := fun u v hv => by field_simp
  have e1 : ∀ u v : ℝ, 0 < v → (b * u + B * v) / v = b * (u / v) + B := fun u v hv => by field_simp
  have e2 : ∀ v : ℝ, 0 < v → (C * v - D) / v = C - D / v := fun v hv => by field_simp
  have h0 : ndc m ![x, y, sgn * t] 0 = ndc m ![x', y', sgn * t'] 0 ↔ x / t = x' / t' := by
    rw [h, h]; simp [e0 _ _ ht, e0 _ _ ht', ha]
  have h1 : ndc m ![x, y, sgn * t] 1 = ndc m ![x', y', sgn * t'] 1 ↔ y / t = y' / t' := by
    rw [h, h]; simp [e1 _ _ ht, e1 _ _ ht', hb]
  have h2 : ∀ t t' : ℝ, 0 < t → 0 < t' → ∀ x y x' y' : ℝ,
      (ndc m ![x, y, sgn * t] 2 < ndc m ![x', y', sgn * t'] 2 ↔ t < t') := by
    intro t t' ht ht' x y x' y'
    rw [h, h]; simp [e2 _ ht, e2 _ ht']
    rw [div_lt_div_iff_of_pos_left hD ht' ht]
  refine ⟨h2 _ _ ht ht' _ _ _ _, ?_, fun he => ?_⟩
  · rw [onRay_iff ht ht', SamePlace, h0, h1]
  · have hx := h0.1 (congrFun he 0)
    have hy := h1.1 (congrFun he 1)
    have htt : t = t' := by
      have hz := congrFun he 2
      refine le_antisymm (not_lt.1 fun hc => ?_) (not_lt.1 fun hc => ?_)
      · exact absurd hz.symm ((h2 _ _ ht' ht _ _ _ _).2 hc).ne
      · exact absurd hz ((h2 _ _ ht ht' _ _ _ _).2 hc).ne
    subst htt
    have := ht.ne'
    exact ⟨by field_simp at hx; exact hx, by field_simp at hy; exact hy, rfl⟩

theorem coefficient_pos {near far : ℝ} (hn : 0 < near) (hf : near < far) : 0 < 2 * far * near / (far - near) := by
  have : 0 < far - near := by linarith
  have : 0 < far := by linarith
  positivity

/-! ### The properties -/

/-- The perspective projections with a field of view keep what hides what, where points are seen and that they are told
apart, for any parameters that make sense. -/
theorem perspective_keeps_view (fov aspect near far : ℝ) (hfov : 0 < Real.tan (fov / 2)) (ha : 0 < aspect) (hn : 0 < near)
    (hf : near < far) :
    KeepsView (perspectiveRh fov aspect near far) (-1) ∧ KeepsView (perspectiveLh fov aspect near far) 1 ∧
    KeepsView (perspective false fov aspect near far) (-1) := by
  have hk : aspect * Real.tan (fov / 2) ≠ 0 := by positivity
  have rh : KeepsView (perspectiveRh fov aspect near far) (-1) := by
    refine keepsView_of _ _ (1 / (aspect * Real.tan (fov / 2))) 0 (1 / Real.tan (fov / 2)) 0
      ((far + near) / (far - near)) _ (by positivity) (by positivity)
      (coefficient_pos hn hf) fun x y t => ?_
    rw [neg_one_mul, perspectiveRh_ndc]
    simp [div_eq_inv_mul]
  refine ⟨rh, ?_, rh⟩
  refine keepsView_of _ _ (1 / (aspect * Real.tan (fov / 2))) 0 (1 / Real.tan (fov / 2)) 0
      ((far + near) / (far - near)) _ (by positivity) (by positivity)
    (coefficient_pos hn hf) fun x y t => ?_
  rw [one_mul, perspectiveLh_ndc]
  simp [div_eq_inv_mul]

/-- The projections given by a frustum keep what hides what, where points are seen and that they are told apart, in spite of
their wrong horizontal offset, unless the right edge is at the near distance, where they divide by zero. -/
theorem frustum_keeps_view (l r b t near far : ℝ) (hlr : l < r) (hbt : b < t) (hn : 0 < near) (hf : near < far)
    (_hr : r ≠ near) : KeepsView (frustumRh l r b t near far) (-1) ∧ KeepsView (frustumLh l r b t near far) 1 := by
  have h1 : 0 < r - l := by linarith
  have h2 : 0 < t - b := by linarith
  constructor
  · refine keepsView_of _ _ (2 * near / (r - l)) (-((r + l) / (r - near))) (2 * near / (t - b)) (-((t + b) / (t - b)))
      ((far + near) / (far - near)) _
      (by positivity) (by positivity) (coefficient_pos hn hf) fun x y d => ?_
    rw [neg_one_mul, frustumRh_ndc]
    simp only [neg_mul, sub_eq_add_neg]
  · refine keepsView_of _ _ (2 * near / (r - l)) (-((r + l) / (r - near))) (2 * near / (t - b)) (-((t + b) / (t - b)))
      ((far + near) / (far - near)) _
      (by positivity) (by positivity) (coefficient_pos hn hf) fun x y d => ?_
    rw [one_mul, frustumLh_ndc]
    simp only [neg_mul, sub_eq_add_neg]

/-- With `XME_MATH_CLIP_LH`, `perspective(fov, ...)` makes the farther of two points the one with the smaller depth. -/
theorem perspective_depth_wrong (fov aspect near far : ℝ) (hn : 0 < near) (hf : near < far) (x y t x' y' t' : ℝ) (ht : 0 < t)
    (ht' : 0 < t') :
    ndc (perspective true fov aspect near far) ![x, y, -t] 2 < ndc (perspective true fov aspect near far) ![x', y', -t'] 2 ↔
      t' < t := by
  have hD := coefficient_pos hn hf
  have e : ∀ v : ℝ, 0 < v → ((near + far) / (near - far) * v - 2 * near * far / (near - far)) / v =
      (near + far) / (near - far) + 2 * far * near / (far - near) / v := by
    intro v hv
    have h1 : far - near ≠ 0 := by linarith
    have h2 : near - far ≠ 0 := by linarith
    have h3 : near - far = -(far - near) := by ring
    rw [h3]; field_simp; ring
  simp only [perspective, if_true, perspectiveRh_ndc]
  simp only [Matrix.cons_val]
  rw [e _ ht, e _ ht', add_lt_add_iff_left, div_lt_div_iff_of_pos_left hD ht ht']

/-- The orthographic projections do not keep what hides what: the left-handed one reverses it, for every box in front of the camera;
the right-handed one keeps it for these boxes, and it alone. A box that reaches as far behind the camera as before it gets one
depth for all points. -/
theorem ortho_depth_wrong (l r b t near far : ℝ) (hf : near < far) (x y d x' y' d' : ℝ) :
    (0 < near + far →
      (ndc (orthoLh l r b t near far) ![x, y, d] 2 < ndc (orthoLh l r b t near far) ![x', y', d'] 2 ↔ d' < d) ∧
      (ndc (orthoRh l r b t near far) ![x, y, -d] 2 < ndc (orthoRh l r b t near far) ![x', y', -d'] 2 ↔ d < d')) ∧
    (near + far < 0 →
      (ndc (orthoLh l r b t near far) ![x, y, d] 2 < ndc (orthoLh l r b t near far) ![x', y', d'] 2 ↔ d < d') ∧
      (ndc (orthoRh l r b t near far) ![x, y, -d] 2 < ndc (orthoRh l r b t near far) ![x', y', -d'] 2 ↔ d' < d)) ∧
    (near + far = 0 →
      ndc (orthoLh l r b t near far) ![x, y, d] 2 = ndc (orthoLh l r b t near far) ![x', y', d'] 2 ∧
      ndc (orthoRh l r b t near far) ![x, y, -d] 2 = ndc (orthoRh l r b t near far) ![x', y', -d'] 2) := by
  have hd : 0 < far - near := by linarith
  simp only [orthoLh_ndc, orthoRh_ndc, Matrix.cons_val]
  refine ⟨fun h => ?_, fun h => ?_, fun h => ?_⟩
  · have hc : 0 < (far + near) / (far - near) := div_pos (by linarith) hd
    constructor <;> constructor <;> intro h' <;> nlinarith
  · have hc : (far + near) / (far - near) < 0 := div_neg_of_neg_of_pos (by linarith) hd
    constructor <;> constructor <;> intro h' <;> nlinarith
  · rw [show far + near = 0 by linarith]; simp

/-- Any matrix keeps segments between points whose clip coordinate `w` is positive. -/
theorem keepsSegment (m : Mat ℝ 4 4) (p q : Vec ℝ 3) (hp : 0 < mulVec m (hom p 1) 3) (hq : 0 < mulVec m (hom q 1) 3) :
    KeepsSegment m p q := by
  have lin : ∀ s j, mulVec m (hom (along p q s) 1) j = (1 - s) * mulVec m (hom p 1) j + s * mulVec m (hom q 1) j := by
    intro s j
    simp only [mulVec_hom, along]; ring
  set wp := mulVec m (hom p 1) 3 with hwp
  set wq := mulVec m (hom q 1) 3 with hwq
  have den : ∀ s, 0 ≤ s → s ≤ 1 → 0 < (1 - s) * wp + s * wq := by
    intro s h0 h1
    rcases h0.eq_or_lt with rfl | h0
    · simpa using hp
    · have := mul_pos h0 hq
      have := mul_nonneg (sub_nonneg.2 h1) hp.le
      linarith
  refine ⟨fun s => s * wq / ((1 - s) * wp + s * wq), by simp, by simp [hq.ne'], ?_, ?_, ?_⟩
  · intro s s' h0 h h1
    have d1 := den s h0 (by linarith)
    have d2 := den s' (by linarith) h1
    show s * wq / _ < s' * wq / _
    rw [div_lt_div_iff₀ d1 d2]
    have : 0 < (s' - s) * (wp * wq) := mul_pos (by linarith) (mul_pos hp hq)
    nlinarith
  · intro s h0 h1
    have d := (den s h0 h1).ne'
    have hp' := hp.ne'
    have hq' := hq.ne'
    funext i
    have key : ∀ u v : ℝ, ((1 - s) * u + s * v) / ((1 - s) * wp + s * wq) =
        (1 - s * wq / ((1 - s) * wp + s * wq)) * (u / wp) + s * wq / ((1 - s) * wp + s * wq) * (v / wq) := by
      intro u v
      generalize hD : (1 - s) * wp + s * wq = D at d ⊢
      have : 1 - s * wq / D = (1 - s) * wp / D := by field_simp; linarith
      rw [this]; field_simp
    show ndc m (along p q s) i = (1 - _) * ndc m p i + _ * ndc m q i
    simp only [ndc, lin, ← hwp, ← hwq]
    fin_cases i <;> exact key _ _
  · intro r h0 h1
    have d : 0 < (1 - r) * wq + r * wp := by
      rcases h0.eq_or_lt with rfl | h0
      · simpa using hq
      · have := mul_pos h0 hp
        have := mul_nonneg (sub_nonneg.2 h1) hq.le
        linarith
    refine ⟨r * wp / ((1 - r) * wq + r * wp), by positivity, ?_, ?_⟩
    · rw [div_le_one d]
      have := mul_nonneg (sub_nonneg.2 h1) hq.le
      linarith
    · have hp' := hp.ne'
      have hq' := hq.ne'
      have d' := d.ne'
      show _ * wq / _ = r
      generalize hD : (1 - r) * wq + r * wp = D at d'
      have e : (1 - r * wp / D) * wp + r * wp / D * wq = wp * wq / D := by
        have : 1 - r * wp / D = (1 - r) * wq / D := by field_simp; linarith
        rw [this]; field_simp; ring
      rw [e]; field_simp

theorem frontRh_w (fov aspect near far x y t : ℝ) : mulVec (perspectiveRh fov aspect near far) (hom ![x, y, -t] 1) 3 = t := by
  rw [mulVec_hom]; simp only [perspectiveRh, store2_apply, diagonal_apply]; simp

theorem frontLh_w (fov aspect near far x y t : ℝ) : mulVec (perspectiveLh fov aspect near far) (hom ![x, y, t] 1) 3 = t := by
  rw [mulVec_hom]; simp only [perspectiveLh, store2_apply, diagonal_apply]; simp

theorem frustumRh_w (l r b u near far x y t : ℝ) : mulVec (frustumRh l r b u near far) (hom ![x, y, -t] 1) 3 = t := by
  rw [mulVec_hom]; simp only [frustumRh, store2_apply, diagonal_apply]; simp

theorem frustumLh_w (l r b u near far x y t : ℝ) : mulVec (frustumLh l r b u near far) (hom ![x, y, t] 1) 3 = t := by
  rw [mulVec_hom]; simp only [frustumLh, store2_apply, diagonal_apply]; simp

theorem orthoLh_w (l r b u near far : ℝ) (p : Vec ℝ 3) : mulVec (orthoLh l r b u near far) (hom p 1) 3 = 1 := by
  rw [mulVec_hom]; simp only [orthoLh, store2_apply, diagonal_apply]; simp

theorem orthoRh_w (l r b u near far : ℝ) (p : Vec ℝ 3) : mulVec (orthoRh l r b u near far) (hom p 1) 3 = 1 := by
  rw [mulVec_hom]; simp only [orthoRh, store2_apply, diagonal_apply]; simp

/-- The straight segment between two points in front of the camera is seen as the straight segment between their images, point for
point and in the same order, through every projection; through the orthographic ones that of any two points. The parameters are such that nothing is divided
by zero. -/
theorem projection_segments (fov aspect l r b u near far x y t x' y' t' : ℝ)
    (_hp : Real.tan (fov / 2) ≠ 0 ∧ aspect ≠ 0 ∧ r ≠ l ∧ u ≠ b ∧ r ≠ near ∧ far ≠ near) (ht : 0 < t) (ht' : 0 < t') (p q : Vec ℝ 3) :
    KeepsSegment (perspectiveRh fov aspect near far) ![x, y, -t] ![x', y', -t'] ∧
    KeepsSegment (perspectiveLh fov aspect near far) ![x, y, t] ![x', y', t'] ∧
    (∀ clip, KeepsSegment (perspective clip fov aspect near far) ![x, y, -t] ![x', y', -t']) ∧
    KeepsSegment (frustumRh l r b u near far) ![x, y, -t] ![x', y', -t'] ∧
    KeepsSegment (frustumLh l r b u near far) ![x, y, t] ![x', y', t'] ∧
    KeepsSegment (orthoRh l r b u near far) p q ∧ KeepsSegment (orthoLh l r b u near far) p q := by
  refine ⟨keepsSegment _ _ _ ?_ ?_, keepsSegment _ _ _ ?_ ?_, fun clip => ?_, keepsSegment _ _ _ ?_ ?_, keepsSegment _ _ _ ?_ ?_,
    keepsSegment _ _ _ ?_ ?_, keepsSegment _ _ _ ?_ ?_⟩
  case refine_5 => cases clip <;> refine keepsSegment _ _ _ ?_ ?_ <;> simp only [perspective, if_true, if_false, Bool.false_eq_true] <;> rw [frontRh_w] <;> assumption
  all_goals first | (rw [frontRh_w]; assumption) | (rw [frontLh_w]; assumption) | (rw [frustumRh_w]; assumption) |
    (rw [frustumLh_w]; assumption) | (rw [orthoLh_w]; norm_num) | (rw [orthoRh_w]; norm_num)

/-! ### Examples -/

/-- The hypotheses are met by an ordinary camera. -/
example : 0 < Real.tan (Real.pi / 2 / 2) ∧ (0 : ℝ) < 16 / 9 ∧ (0 : ℝ) < 1 / 10 ∧ (1 / 10 : ℝ) < 100 := by
  refine ⟨?_, by norm_num, by norm_num, by norm_num⟩
  rw [show Real.pi / 2 / 2 = Real.pi / 4 by ring, Real.tan_pi_div_four]; norm_num

/-- A wall at distance 2 hides a lamp at distance 5 behind it. -/
example (near far : ℝ) (hn : 0 < near) (hf : near < far) :
    SamePlace (ndc (perspectiveRh (Real.pi / 2) 1 near far) ![2, 0, -2]) (ndc (perspectiveRh (Real.pi / 2) 1 near far) ![5, 0, -5]) ∧
    ndc (perspectiveRh (Real.pi / 2) 1 near far) ![2, 0, -2] 2 < ndc (perspectiveRh (Real.pi / 2) 1 near far) ![5, 0, -5] 2 := by
  have h : 0 < Real.tan (Real.pi / 2 / 2) := by
    rw [show Real.pi / 2 / 2 = Real.pi / 4 by ring, Real.tan_pi_div_four]; norm_num
  have k := (perspective_keeps_view (Real.pi / 2) 1 near far h one_pos hn hf).1 2 0 2 5 0 5 (by norm_num) (by norm_num)
  simp only [neg_one_mul] at k
  exact ⟨k.2.1.2 ⟨5 / 2, by norm_num, by norm_num, by norm_num, by norm_num⟩, k.1.2 (by norm_num)⟩

end Verif.Math
