import Verif.Math.TransformProps

/-!
Properties of the projections (C71 - C74).  `ndc m p` is the normalised device coordinate of the point
`p`: the clip coordinates `m * (p, 1)` divided by their `w`.
-/

set_option autoImplicit false

namespace Verif.Math

/-- Perspective division. -/
noncomputable def ndc (m : Mat ℝ 4 4) (p : Vec ℝ 3) : Vec ℝ 3 :=
  ![mulVec m (hom p 1) 0 / mulVec m (hom p 1) 3, mulVec m (hom p 1) 1 / mulVec m (hom p 1) 3,
    mulVec m (hom p 1) 2 / mulVec m (hom p 1) 3]

/-- The normalised device cube. -/
def InCube (q : Vec ℝ 3) : Prop := ∀ i, -1 ≤ q i ∧ q i ≤ 1

theorem inCube_iff (q : Vec ℝ 3) : InCube q ↔ (-1 ≤ q 0 ∧ q 0 ≤ 1) ∧ (-1 ≤ q 1 ∧ q 1 ≤ 1) ∧
    (-1 ≤ q 2 ∧ q 2 ≤ 1) := by
  constructor
  · intro h; exact ⟨h 0, h 1, h 2⟩
  · rintro ⟨h0, h1, h2⟩ i; fin_cases i <;> assumption

/-! ### C71: perspective -/

theorem perspectiveRh_ndc (fov aspect near far x y t : ℝ) :
    ndc (perspectiveRh fov aspect near far) ![x, y, -t] =
      ![x / (aspect * Real.tan (fov / 2)) / t, y / Real.tan (fov / 2) / t,
        ((far + near) / (far - near) * t - 2 * far * near / (far - near)) / t] := by
  funext i
  have : ∀ j, mulVec (perspectiveRh fov aspect near far) (hom ![x, y, -t] 1) j =
      (![x / (aspect * Real.tan (fov / 2)), y / Real.tan (fov / 2),
        (far + near) / (far - near) * t - 2 * far * near / (far - near), t] : Vec ℝ 4) j := by
    intro j
    rw [mulVec_hom]
    simp only [perspectiveRh, store2_apply, diagonal_apply, tan_real]
    generalize Real.tan (fov / 2) = k
    fin_cases j <;> simp <;> ring
  simp only [ndc, this]
  fin_cases i <;> simp

theorem perspectiveLh_ndc (fov aspect near far x y t : ℝ) :
    ndc (perspectiveLh fov aspect near far) ![x, y, t] =
      ![x / (aspect * Real.tan (fov / 2)) / t, y / Real.tan (fov / 2) / t,
        ((far + near) / (far - near) * t - 2 * far * near / (far - near)) / t] := by
  funext i
  have : ∀ j, mulVec (perspectiveLh fov aspect near far) (hom ![x, y, t] 1) j =
      (![x / (aspect * Real.tan (fov / 2)), y / Real.tan (fov / 2),
        (far + near) / (far - near) * t - 2 * far * near / (far - near), t] : Vec ℝ 4) j := by
    intro j
    rw [mulVec_hom]
    simp only [perspectiveLh, store2_apply, diagonal_apply, tan_real]
    generalize Real.tan (fov / 2) = k
    fin_cases j <;> simp <;> ring
  simp only [ndc, this]
  fin_cases i <;> simp

/-- The view frustum, for a camera looking along `t` (the depth in front of it). -/
def InView (fov aspect near far x y t : ℝ) : Prop :=
  near ≤ t ∧ t ≤ far ∧ |x| ≤ aspect * Real.tan (fov / 2) * t ∧ |y| ≤ Real.tan (fov / 2) * t

theorem div_le_iff_abs {x k t : ℝ} (hk : 0 < k) (ht : 0 < t) :
    (-1 ≤ x / k / t ∧ x / k / t ≤ 1) ↔ |x| ≤ k * t := by
  rw [div_div, abs_le, le_div_iff₀ (by positivity), div_le_iff₀ (by positivity)]
  constructor <;> rintro ⟨h1, h2⟩ <;> constructor <;> linarith

theorem depth_iff {near far t : ℝ} (hn : 0 < near) (hf : near < far) (ht : 0 < t) :
    (-1 ≤ ((far + near) / (far - near) * t - 2 * far * near / (far - near)) / t ∧
      ((far + near) / (far - near) * t - 2 * far * near / (far - near)) / t ≤ 1) ↔
    near ≤ t ∧ t ≤ far := by
  have hd : 0 < far - near := by linarith
  have e : ((far + near) / (far - near) * t - 2 * far * near / (far - near)) / t =
      ((far + near) * t - 2 * far * near) / ((far - near) * t) := by field_simp
  rw [e, le_div_iff₀ (by positivity), div_le_iff₀ (by positivity)]
  constructor
  · rintro ⟨h1, h2⟩
    constructor
    · have : 2 * far * near ≤ 2 * far * t := by linarith
      have hfar : 0 < far := by linarith
      nlinarith
    · nlinarith
  · rintro ⟨h1, h2⟩
    constructor
    · nlinarith [mul_le_mul_of_nonneg_left h1 (by linarith : (0:ℝ) ≤ 2 * far)]
    · nlinarith [mul_le_mul_of_nonneg_left h2 (by linarith : (0:ℝ) ≤ 2 * near)]

/-- C71.  A point in front of the camera (at depth `t > 0`: `z = -t` right-handed, `z = t` left-handed) is
mapped into the device cube exactly if it lies in the view frustum; the near plane goes to depth -1, the
far plane to +1, and the edges of the field of view to ±1. -/
theorem perspective_maps_frustum (fov aspect near far : ℝ) (hfov : 0 < Real.tan (fov / 2))
    (ha : 0 < aspect) (hn : 0 < near) (hf : near < far) (x y t : ℝ) (ht : 0 < t) :
    (InCube (ndc (perspectiveRh fov aspect near far) ![x, y, -t]) ↔ InView fov aspect near far x y t) ∧
    (InCube (ndc (perspectiveLh fov aspect near far) ![x, y, t]) ↔ InView fov aspect near far x y t) ∧
    ndc (perspectiveRh fov aspect near far) ![x, y, -near] 2 = -1 ∧
    ndc (perspectiveRh fov aspect near far) ![x, y, -far] 2 = 1 ∧
    ndc (perspectiveLh fov aspect near far) ![x, y, near] 2 = -1 ∧
    ndc (perspectiveLh fov aspect near far) ![x, y, far] 2 = 1 ∧
    ndc (perspectiveRh fov aspect near far) ![aspect * Real.tan (fov / 2) * t, y, -t] 0 = 1 ∧
    ndc (perspectiveRh fov aspect near far) ![x, Real.tan (fov / 2) * t, -t] 1 = 1 ∧
    ndc (perspectiveLh fov aspect near far) ![aspect * Real.tan (fov / 2) * t, y, t] 0 = 1 ∧
    ndc (perspectiveLh fov aspect near far) ![x, Real.tan (fov / 2) * t, t] 1 = 1 := by
  have hd : far - near ≠ 0 := by linarith
  have hn' := hn.ne'
  have hf' : far ≠ 0 := by linarith
  have hin : InCube ![x / (aspect * Real.tan (fov / 2)) / t, y / Real.tan (fov / 2) / t,
        ((far + near) / (far - near) * t - 2 * far * near / (far - near)) / t] ↔
      InView fov aspect near far x y t := by
    rw [inCube_iff]
    simp only [Matrix.cons_val_zero, Matrix.cons_val_one, Matrix.cons_val]
    rw [div_le_iff_abs (by positivity) ht, div_le_iff_abs hfov ht, depth_iff hn hf ht, InView]
    tauto
  simp only [perspectiveRh_ndc, perspectiveLh_ndc, hin, true_and]
  refine ⟨?_, ?_, ?_, ?_, ?_, ?_, ?_, ?_⟩ <;> simp <;> field_simp <;> ring

example : 0 < Real.tan (Real.pi / 2 / 2) ∧ InView (Real.pi / 2) 2 1 10 3 1 2 := by
  have : Real.tan (Real.pi / 2 / 2) = 1 := by
    rw [show Real.pi / 2 / 2 = Real.pi / 4 by ring, Real.tan_pi_div_four]
  rw [InView, this]
  refine ⟨by norm_num, by norm_num, by norm_num, ?_, ?_⟩
  · rw [abs_of_pos] <;> norm_num
  · rw [abs_of_pos] <;> norm_num

/-! ### C72: frustum -/

theorem frustumRh_ndc (l r b t n f x y d : ℝ) :
    ndc (frustumRh l r b t n f) ![x, y, -d] =
      ![(2 * n / (r - l) * x - (r + l) / (r - n) * d) / d,
        (2 * n / (t - b) * y - (t + b) / (t - b) * d) / d,
        ((f + n) / (f - n) * d - 2 * f * n / (f - n)) / d] := by
  funext i
  have : ∀ j, mulVec (frustumRh l r b t n f) (hom ![x, y, -d] 1) j =
      (![2 * n / (r - l) * x - (r + l) / (r - n) * d, 2 * n / (t - b) * y - (t + b) / (t - b) * d,
        (f + n) / (f - n) * d - 2 * f * n / (f - n), d] : Vec ℝ 4) j := by
    intro j
    rw [mulVec_hom]
    simp only [frustumRh, store2_apply, diagonal_apply]
    fin_cases j <;> simp <;> ring
  simp only [ndc, this]
  fin_cases i <;> simp

theorem frustumLh_ndc (l r b t n f x y d : ℝ) :
    ndc (frustumLh l r b t n f) ![x, y, d] =
      ![(2 * n / (r - l) * x - (r + l) / (r - n) * d) / d,
        (2 * n / (t - b) * y - (t + b) / (t - b) * d) / d,
        ((f + n) / (f - n) * d - 2 * f * n / (f - n)) / d] := by
  funext i
  have : ∀ j, mulVec (frustumLh l r b t n f) (hom ![x, y, d] 1) j =
      (![2 * n / (r - l) * x - (r + l) / (r - n) * d, 2 * n / (t - b) * y - (t + b) / (t - b) * d,
        (f + n) / (f - n) * d - 2 * f * n / (f - n), d] : Vec ℝ 4) j := by
    intro j
    rw [mulVec_hom]
    simp only [frustumLh, store2_apply, diagonal_apply]
    fin_cases j <;> simp <;> ring
  simp only [ndc, this]
  fin_cases i <;> simp

/-- The corners of the near rectangle go to the corners of the near face of the device cube (the property
C72, for a projection that takes depth along `sgn * z`). -/
def CornersRight (m : Mat ℝ 4 4) (sgn l r b t n : ℝ) : Prop :=
  ndc m ![r, t, sgn * n] = ![1, 1, -1] ∧ ndc m ![l, t, sgn * n] = ![-1, 1, -1] ∧
  ndc m ![r, b, sgn * n] = ![1, -1, -1] ∧ ndc m ![l, b, sgn * n] = ![-1, -1, -1]

/-- C72, the part that holds: the corners are right if the frustum is symmetric (`l + r = 0`), or if the
left edge happens to equal the near distance; unless the right edge equals the near distance, when the code
divides by zero (see `ieee_frustum_near_wrong`).  In every case the vertical coordinate and the depth are
right.  Missing: all other frusta (see `frustum_wrong`). -/
theorem frustum_partial (l r b t n f : ℝ) (hn : 0 < n) (hf : n < f) (hlr : l < r) (hbt : b < t) :
    ((l + r = 0 ∨ l = n) → r ≠ n → CornersRight (frustumRh l r b t n f) (-1) l r b t n ∧
      CornersRight (frustumLh l r b t n f) 1 l r b t n) ∧
    (∀ x, ndc (frustumRh l r b t n f) ![x, t, -n] 1 = 1 ∧ ndc (frustumRh l r b t n f) ![x, b, -n] 1 = -1 ∧
      ndc (frustumLh l r b t n f) ![x, t, n] 1 = 1 ∧ ndc (frustumLh l r b t n f) ![x, b, n] 1 = -1) ∧
    (∀ x y, ndc (frustumRh l r b t n f) ![x, y, -n] 2 = -1 ∧ ndc (frustumRh l r b t n f) ![x, y, -f] 2 = 1 ∧
      ndc (frustumLh l r b t n f) ![x, y, n] 2 = -1 ∧ ndc (frustumLh l r b t n f) ![x, y, f] 2 = 1) := by
  have h1 : f - n ≠ 0 := by linarith
  have h2 : r - l ≠ 0 := by linarith
  have h3 : t - b ≠ 0 := by linarith
  have h4 := hn.ne'
  have h5 : f ≠ 0 := by linarith
  refine ⟨fun h _ => ?_, fun x => ?_, fun x y => ?_⟩
  · have hx : ∀ x, (2 * n / (r - l) * x - (r + l) / (r - n) * n) / n = (2 * x - (r + l)) / (r - l) := by
      intro x
      rcases h with h | rfl
      · have : r + l = 0 := by linarith
        rw [this]; field_simp; ring
      · field_simp
    have hy : ∀ y, (2 * n / (t - b) * y - (t + b) / (t - b) * n) / n = (2 * y - (t + b)) / (t - b) := by
      intro y; field_simp
    have hz : ((f + n) / (f - n) * n - 2 * f * n / (f - n)) / n = -1 := by field_simp; ring
    have e1 : (2 * r - (r + l)) / (r - l) = 1 := by field_simp; ring
    have e2 : (2 * l - (r + l)) / (r - l) = -1 := by field_simp; ring
    have e3 : (2 * t - (t + b)) / (t - b) = 1 := by field_simp; ring
    have e4 : (2 * b - (t + b)) / (t - b) = -1 := by field_simp; ring
    simp only [CornersRight, one_mul, neg_one_mul, frustumRh_ndc, frustumLh_ndc, hx, hy, hz, e1, e2, e3,
      e4, and_self]
  · rw [frustumRh_ndc, frustumRh_ndc, frustumLh_ndc, frustumLh_ndc]
    refine ⟨?_, ?_, ?_, ?_⟩ <;> simp <;> field_simp <;> ring
  · rw [frustumRh_ndc, frustumRh_ndc, frustumLh_ndc, frustumLh_ndc]
    refine ⟨?_, ?_, ?_, ?_⟩ <;> simp <;> field_simp <;> ring

/-- C72 is false: the code divides by `right - near`.  For every asymmetric frustum whose left edge is not
the near distance (and `right ≠ near`) no corner of the near rectangle is mapped to its place. -/
theorem frustum_wrong (l r b t n f : ℝ) (hn : 0 < n) (hlr : l < r) (hsym : l + r ≠ 0)
    (hl : l ≠ n) (hr : r ≠ n) (y : ℝ) :
    ndc (frustumRh l r b t n f) ![r, y, -n] 0 ≠ 1 ∧ ndc (frustumRh l r b t n f) ![l, y, -n] 0 ≠ -1 ∧
    ndc (frustumLh l r b t n f) ![r, y, n] 0 ≠ 1 ∧ ndc (frustumLh l r b t n f) ![l, y, n] 0 ≠ -1 := by
  have h2 : r - l ≠ 0 := by linarith
  have h3 : r - n ≠ 0 := sub_ne_zero.mpr hr
  have h4 := hn.ne'
  have key : (r + l) / (r - n) ≠ (r + l) / (r - l) := by
    intro h
    rw [div_eq_div_iff h3 h2] at h
    have : (r + l) * (n - l) = 0 := by linarith
    rcases mul_eq_zero.mp this with h | h
    · exact hsym (by linarith)
    · exact hl (by linarith)
  have e : ∀ x, (2 * n / (r - l) * x - (r + l) / (r - n) * n) / n = 2 * x / (r - l) - (r + l) / (r - n) := by
    intro x; field_simp
  have e1 : 2 * r / (r - l) - (r + l) / (r - l) = 1 := by field_simp; ring
  have e2 : 2 * l / (r - l) - (r + l) / (r - l) = -1 := by field_simp; ring
  rw [frustumRh_ndc, frustumRh_ndc, frustumLh_ndc, frustumLh_ndc]
  simp only [Matrix.cons_val_zero, e]
  refine ⟨?_, ?_, ?_, ?_⟩ <;> intro h <;> apply key <;> linarith

/-- C72, exactly: the corners are right for the symmetric frusta and for those whose left edge equals the near distance,
and for no others. -/
theorem frustum_exact (l r b t n f : ℝ) (hn : 0 < n) (hf : n < f) (hlr : l < r) (hbt : b < t) (hr : r ≠ n) :
    (CornersRight (frustumRh l r b t n f) (-1) l r b t n ↔ (l + r = 0 ∨ l = n)) ∧
    (CornersRight (frustumLh l r b t n f) 1 l r b t n ↔ (l + r = 0 ∨ l = n)) := by
  refine ⟨⟨fun h => ?_, fun h => ((frustum_partial l r b t n f hn hf hlr hbt).1 h hr).1⟩,
    ⟨fun h => ?_, fun h => ((frustum_partial l r b t n f hn hf hlr hbt).1 h hr).2⟩⟩ <;> by_contra hc <;>
    rw [not_or] at hc
  · have := (frustum_wrong l r b t n f hn hlr hc.1 hc.2 hr t).1
    rw [CornersRight, neg_one_mul] at h
    exact this (by rw [h.1]; rfl)
  · have := (frustum_wrong l r b t n f hn hlr hc.1 hc.2 hr t).2.2.1
    rw [CornersRight, one_mul] at h
    exact this (by rw [h.1]; rfl)

/-- A frustum of the kind the theorem is about, and one of the partial theorem. -/
example : (1 : ℝ) + 2 ≠ 0 ∧ (1 : ℝ) ≠ 1 / 2 ∧ (2 : ℝ) ≠ 1 / 2 ∧ (-2 : ℝ) + 2 = 0 ∧
    (2 : ℝ) ≠ 1 := by norm_num

/-! ### C73: orthographic projection -/

theorem orthoLh_ndc (l r b t n f : ℝ) (p : Vec ℝ 3) :
    ndc (orthoLh l r b t n f) p =
      ![2 / (r - l) * p 0 - (r + l) / (r - l) * p 2, 2 / (f - n) * p 1 - (t + b) / (t - b) * p 2,
        -((f + n) / (f - n)) * p 2] := by
  funext i
  have : ∀ j, mulVec (orthoLh l r b t n f) (hom p 1) j =
      (![2 / (r - l) * p 0 - (r + l) / (r - l) * p 2, 2 / (f - n) * p 1 - (t + b) / (t - b) * p 2,
        -((f + n) / (f - n)) * p 2, 1] : Vec ℝ 4) j := by
    intro j
    rw [mulVec_hom]
    simp only [orthoLh, store2_apply, diagonal_apply]
    fin_cases j <;> simp <;> ring
  simp only [ndc, this]
  fin_cases i <;> simp

theorem orthoRh_ndc (l r b t n f : ℝ) (p : Vec ℝ 3) :
    ndc (orthoRh l r b t n f) p =
      ![2 / (r - l) * p 0 - (r + l) / (r - l) * p 2, -2 / (f - n) * p 1 - (t + b) / (t - b) * p 2,
        -((f + n) / (f - n)) * p 2] := by
  funext i
  have : ∀ j, mulVec (orthoRh l r b t n f) (hom p 1) j =
      (![2 / (r - l) * p 0 - (r + l) / (r - l) * p 2, -2 / (f - n) * p 1 - (t + b) / (t - b) * p 2,
        -((f + n) / (f - n)) * p 2, 1] : Vec ℝ 4) j := by
    intro j
    rw [mulVec_hom]
    simp only [orthoRh, store2_apply, diagonal_apply]
    fin_cases j <;> simp <;> ring
  simp only [ndc, this]
  fin_cases i <;> simp

/-- The box is mapped affinely onto the device cube: each face goes to its face (`sgn` is the sign of `z`
in front of the camera). -/
def BoxRight (m : Mat ℝ 4 4) (sgn l r b t n f : ℝ) : Prop :=
  (∀ y z, ndc m ![l, y, z] 0 = -1 ∧ ndc m ![r, y, z] 0 = 1) ∧
  (∀ x z, ndc m ![x, b, z] 1 = -1 ∧ ndc m ![x, t, z] 1 = 1) ∧
  (∀ x y, ndc m ![x, y, sgn * n] 2 = -1 ∧ ndc m ![x, y, sgn * f] 2 = 1)

/-- C73 is false, for every box: the depth of the near and far planes is never right, and the horizontal
coordinate depends on the depth unless the box is symmetric. -/
theorem ortho_wrong (l r b t n f : ℝ) (hnf : n ≠ f) (hlr : l ≠ r) :
    ¬ BoxRight (orthoLh l r b t n f) 1 l r b t n f ∧ ¬ BoxRight (orthoRh l r b t n f) (-1) l r b t n f ∧
    (l + r ≠ 0 → ∀ x y z z', z ≠ z' →
      ndc (orthoLh l r b t n f) ![x, y, z] 0 ≠ ndc (orthoLh l r b t n f) ![x, y, z'] 0 ∧
      ndc (orthoRh l r b t n f) ![x, y, z] 0 ≠ ndc (orthoRh l r b t n f) ![x, y, z'] 0) := by
  have hd : f - n ≠ 0 := sub_ne_zero.mpr hnf.symm
  have hlr' : r - l ≠ 0 := sub_ne_zero.mpr hlr.symm
  have key : ∀ s : ℝ, (s = 1 ∨ s = -1) → ¬ (-((f + n) / (f - n)) * (s * n) = -1 ∧
      -((f + n) / (f - n)) * (s * f) = 1) := by
    rintro s hs ⟨h1, h2⟩
    have h3 : -((f + n) / (f - n)) * s * (n + f) = 0 := by linarith
    have h4 : (f + n) * (f + n) * s = 0 := by
      field_simp at h3
      nlinarith
    have h5 : f + n = 0 := by
      rcases hs with rfl | rfl <;> nlinarith
    rw [h5] at h1
    norm_num at h1
  refine ⟨?_, ?_, ?_⟩
  · rintro ⟨_, _, h⟩
    obtain ⟨h1, h2⟩ := h 0 0
    rw [orthoLh_ndc] at h1 h2
    exact key 1 (.inl rfl) ⟨by simpa using h1, by simpa using h2⟩
  · rintro ⟨_, _, h⟩
    obtain ⟨h1, h2⟩ := h 0 0
    rw [orthoRh_ndc] at h1 h2
    exact key (-1) (.inr rfl) ⟨by simpa using h1, by simpa using h2⟩
  · intro hs x y z z' hz
    have h : (r + l) / (r - l) ≠ 0 := div_ne_zero (by rwa [add_comm]) hlr'
    have : (r + l) / (r - l) * z ≠ (r + l) / (r - l) * z' := fun e => hz (mul_left_cancel₀ h e)
    rw [orthoLh_ndc, orthoLh_ndc, orthoRh_ndc, orthoRh_ndc]
    constructor <;> simpa using this

/-- C73, the part that holds: for a box with `left = -right` the horizontal coordinate is right; if
moreover `bottom = -top` and the box is as deep as it is high, the left-handed vertical coordinate is too.
Missing: everything else. -/
theorem ortho_partial (r b t n f : ℝ) (hr : r ≠ 0) (hnf : n ≠ f) (y z : ℝ) :
    ndc (orthoLh (-r) r b t n f) ![r, y, z] 0 = 1 ∧ ndc (orthoLh (-r) r b t n f) ![-r, y, z] 0 = -1 ∧
    ndc (orthoRh (-r) r b t n f) ![r, y, z] 0 = 1 ∧ ndc (orthoRh (-r) r b t n f) ![-r, y, z] 0 = -1 ∧
    (b = -t → f - n = 2 * t → ∀ x, ndc (orthoLh (-r) r b t n f) ![x, t, z] 1 = 1 ∧
      ndc (orthoLh (-r) r b t n f) ![x, b, z] 1 = -1) := by
  have hd : f - n ≠ 0 := sub_ne_zero.mpr hnf.symm
  have e : 2 / (r - -r) * r = 1 := by field_simp; ring
  simp only [orthoLh_ndc, orthoRh_ndc]
  refine ⟨?_, ?_, ?_, ?_, ?_⟩
  · simpa using e
  · simpa using e
  · simpa using e
  · simpa using e
  · rintro rfl h x
    have : t ≠ 0 := by rintro rfl; exact hd (by linarith)
    have e2 : 2 / (2 * t) * t = 1 := by field_simp
    rw [h]
    constructor <;> simpa using e2

/-- C73, exactly. The faces that are right: those at the sides for the boxes with `left = -right`; those at the top
and bottom for boxes with `bottom = -top` that are as deep as they are high (in the right-handed functions: whose
far plane is that far before the near one); those in front and behind for no box. -/
theorem ortho_exact (l r b t n f : ℝ) (hlr : l ≠ r) (hbt : b ≠ t) (hnf : n ≠ f) :
    ((∀ y z, ndc (orthoLh l r b t n f) ![l, y, z] 0 = -1 ∧ ndc (orthoLh l r b t n f) ![r, y, z] 0 = 1) ↔
      l = -r) ∧
    ((∀ y z, ndc (orthoRh l r b t n f) ![l, y, z] 0 = -1 ∧ ndc (orthoRh l r b t n f) ![r, y, z] 0 = 1) ↔
      l = -r) ∧
    ((∀ x z, ndc (orthoLh l r b t n f) ![x, b, z] 1 = -1 ∧ ndc (orthoLh l r b t n f) ![x, t, z] 1 = 1) ↔
      b = -t ∧ f - n = t - b) ∧
    ((∀ x z, ndc (orthoRh l r b t n f) ![x, b, z] 1 = -1 ∧ ndc (orthoRh l r b t n f) ![x, t, z] 1 = 1) ↔
      b = -t ∧ n - f = t - b) ∧
    ¬ (∀ x y, ndc (orthoLh l r b t n f) ![x, y, n] 2 = -1 ∧ ndc (orthoLh l r b t n f) ![x, y, f] 2 = 1) ∧
    ¬ (∀ x y, ndc (orthoRh l r b t n f) ![x, y, -n] 2 = -1 ∧ ndc (orthoRh l r b t n f) ![x, y, -f] 2 = 1) := by
  have hd : f - n ≠ 0 := sub_ne_zero.mpr hnf.symm
  have hlr' : r - l ≠ 0 := sub_ne_zero.mpr hlr.symm
  have hbt' : t - b ≠ 0 := sub_ne_zero.mpr hbt.symm
  have depth : ∀ s : ℝ, (s = 1 ∨ s = -1) → ¬ (-((f + n) / (f - n)) * (s * n) = -1 ∧
      -((f + n) / (f - n)) * (s * f) = 1) := by
    rintro s hs ⟨h1, h2⟩
    have h3 : -((f + n) / (f - n)) * s * (n + f) = 0 := by linarith
    have h4 : (f + n) * (f + n) * s = 0 := by
      field_simp at h3
      nlinarith
    have h5 : f + n = 0 := by
      rcases hs with rfl | rfl <;> nlinarith
    rw [h5] at h1
    norm_num at h1
  -- one coordinate: `k p - c z` on the two faces `p = lo`, `p = hi`
  have side : ∀ (k c lo hi : ℝ), lo ≠ hi →
      ((∀ z : ℝ, k * lo - c * z = -1 ∧ k * hi - c * z = 1) ↔ c = 0 ∧ lo = -hi ∧ k * hi = 1) := by
    intro k c lo hi hne
    constructor
    · intro h
      have h0 := h 0
      have h1 := h 1
      have hc : c = 0 := by linarith [h0.1, h1.1]
      have hk : k ≠ 0 := by rintro rfl; have := h0.1; simp at this
      refine ⟨hc, ?_, by linarith [h0.2]⟩
      have : k * (lo + hi) = 0 := by linarith [h0.1, h0.2]
      rcases mul_eq_zero.1 this with h | h
      · exact absurd h hk
      · linarith
    · rintro ⟨rfl, rfl, h⟩ z
      constructor <;> linarith
  have hx : ((r + l) / (r - l) = 0 ∧ l = -r ∧ 2 / (r - l) * r = 1) ↔ l = -r := by
    constructor
    · exact fun h => h.2.1
    · rintro rfl
      have : r ≠ 0 := by rintro rfl; exact hlr' (by ring)
      exact ⟨by simp, rfl, by field_simp; ring⟩
  have hy : ∀ s : ℝ, s ≠ 0 → (((t + b) / (t - b) = 0 ∧ b = -t ∧ 2 * s / (f - n) * t = 1) ↔
      (b = -t ∧ f - n = s * (t - b))) := by
    intro s hs
    constructor
    · rintro ⟨-, rfl, h⟩
      refine ⟨rfl, ?_⟩
      field_simp at h
      linarith
    · rintro ⟨rfl, h⟩
      have : t ≠ 0 := by rintro rfl; exact hbt' (by ring)
      refine ⟨by simp, rfl, ?_⟩
      rw [h]
      have : t - -t ≠ 0 := by intro h; apply this; linarith
      field_simp
      ring
  simp only [orthoLh_ndc, orthoRh_ndc]
  refine ⟨?_, ?_, ?_, ?_, ?_, ?_⟩
  · rw [← hx, ← side _ _ _ _ hlr]
    exact ⟨fun h z => h 0 z, fun h _ z => h z⟩
  · rw [← hx, ← side _ _ _ _ hlr]
    exact ⟨fun h z => h 0 z, fun h _ z => h z⟩
  · have := hy 1 one_ne_zero
    rw [mul_one, one_mul] at this
    rw [← this, ← side _ _ _ _ hbt]
    exact ⟨fun h z => h 0 z, fun h _ z => h z⟩
  · have h1 : n - f = t - b ↔ f - n = -1 * (t - b) := ⟨fun h => by linarith, fun h => by linarith⟩
    have := hy (-1) (by norm_num)
    rw [mul_neg_one] at this
    rw [h1, ← this, ← side _ _ _ _ hbt]
    exact ⟨fun h z => h 0 z, fun h _ z => h z⟩
  · intro h
    refine depth 1 (.inl rfl) ?_
    have := h 0 0
    simpa using this
  · intro h
    refine depth (-1) (.inr rfl) ?_
    have := h 0 0
    simpa using this

/-- A box whose top and bottom are right. -/
example : (-1 : ℝ) = -1 ∧ (3 : ℝ) - 1 = 1 - -1 ∧ (-1 : ℝ) ≠ 1 := by norm_num

/-! ### C74: handedness of the default functions -/

/-- C74, the part that holds: without `XME_MATH_CLIP_LH` all three default functions are the right-handed
ones; with it, the frustum and orthographic ones are the left-handed ones.  Missing: `perspective(fov, ...)`
with `XME_MATH_CLIP_LH`. -/
theorem handedness_partial (l r b t n f fov aspect : ℝ) :
    perspective false fov aspect n f = perspectiveRh fov aspect n f ∧
    frustum false l r b t n f = frustumRh l r b t n f ∧ ortho false l r b t n f = orthoRh l r b t n f ∧
    frustum true l r b t n f = frustumLh l r b t n f ∧ ortho true l r b t n f = orthoLh l r b t n f :=
  ⟨rfl, rfl, rfl, rfl, rfl⟩

/-- C74, what it means for the view: without `XME_MATH_CLIP_LH`, `perspective(fov, ...)` shows what lies in the
frustum along `-z`, and the depth of `perspective(left, ...)` grows along `-z`; with it the latter grows
along `+z`. -/
theorem handedness_view_partial (fov aspect near far l r b t : ℝ) (hfov : 0 < Real.tan (fov / 2))
    (ha : 0 < aspect) (hn : 0 < near) (hf : near < far) (hlr : l < r) (hbt : b < t) (x y d : ℝ) (hd : 0 < d) :
    (InCube (ndc (perspective false fov aspect near far) ![x, y, -d]) ↔ InView fov aspect near far x y d) ∧
    ndc (frustum false l r b t near far) ![x, y, -near] 2 = -1 ∧
    ndc (frustum false l r b t near far) ![x, y, -far] 2 = 1 ∧
    ndc (frustum true l r b t near far) ![x, y, near] 2 = -1 ∧
    ndc (frustum true l r b t near far) ![x, y, far] 2 = 1 := by
  obtain ⟨h1, h2, _, h4, _⟩ := handedness_partial l r b t near far fov aspect
  have h := (frustum_partial l r b t near far hn hf hlr hbt).2.2 x y
  rw [h1, h2, h4]
  exact ⟨(perspective_maps_frustum fov aspect near far hfov ha hn hf x y d hd).1, h⟩

/-- C74 is false: with `XME_MATH_CLIP_LH`, `perspective` is never the left-handed projection: it maps the
near plane `z = -n` of the right-handed frustum to depth 1, where the left-handed one maps its near plane
`z = n` to depth -1. -/
theorem handedness_wrong (fov aspect n f : ℝ) (hn : 0 < n) (hf : n < f) (x y : ℝ) :
    perspective true fov aspect n f ≠ perspectiveLh fov aspect n f ∧
    ndc (perspective true fov aspect n f) ![x, y, -n] 2 = 1 ∧
    ndc (perspectiveLh fov aspect n f) ![x, y, n] 2 = -1 := by
  have h1 : f - n ≠ 0 := by linarith
  have h1' : n - f ≠ 0 := by linarith
  have h4 := hn.ne'
  refine ⟨?_, ?_, ?_⟩
  · intro h
    have := congrFun (congrFun h 2) 3
    simp only [perspective, if_true, perspectiveRh, perspectiveLh, store2_apply] at this
    simp at this
    linarith
  · simp only [perspective, if_true, perspectiveRh_ndc]
    simp; field_simp; ring
  · rw [perspectiveLh_ndc]; simp; field_simp; ring

/-- C74, what `perspective(fov, ...)` is with `XME_MATH_CLIP_LH`: it shows what the right-handed projection shows, with the
depth reversed, and nothing of what the left-handed one shows. -/
theorem handedness_exact (fov aspect near far : ℝ) (hfov : 0 < Real.tan (fov / 2)) (ha : 0 < aspect) (hn : 0 < near)
    (hf : near < far) (x y d : ℝ) (hd : 0 < d) :
    (InCube (ndc (perspective true fov aspect near far) ![x, y, -d]) ↔ InView fov aspect near far x y d) ∧
    ndc (perspective true fov aspect near far) ![x, y, -d] =
      ![ndc (perspectiveRh fov aspect near far) ![x, y, -d] 0, ndc (perspectiveRh fov aspect near far) ![x, y, -d] 1,
        -ndc (perspectiveRh fov aspect near far) ![x, y, -d] 2] ∧
    ¬InCube (ndc (perspective true fov aspect near far) ![x, y, d]) := by
  have h1 : far - near ≠ 0 := by linarith
  have h1' : near - far ≠ 0 := by linarith
  have e : ndc (perspective true fov aspect near far) ![x, y, -d] =
      ![ndc (perspectiveRh fov aspect near far) ![x, y, -d] 0, ndc (perspectiveRh fov aspect near far) ![x, y, -d] 1,
        -ndc (perspectiveRh fov aspect near far) ![x, y, -d] 2] := by
    simp only [perspective, if_true, perspectiveRh_ndc]
    funext i
    fin_cases i
    · rfl
    · rfl
    · simp; field_simp; ring
  refine ⟨?_, e, fun h => ?_⟩
  · rw [e, ← (perspective_maps_frustum fov aspect near far hfov ha hn hf x y d hd).1, inCube_iff, inCube_iff]
    simp only [Matrix.cons_val]
    constructor <;> rintro ⟨⟨a, b⟩, ⟨c, d⟩, e, f⟩ <;> exact ⟨⟨a, b⟩, ⟨c, d⟩, by linarith, by linarith⟩
  · have h2 := (h 2).1
    have e2 : ndc (perspective true fov aspect near far) ![x, y, d] 2 =
        -(((far + near) * d + 2 * far * near) / ((far - near) * d)) := by
      have := congrFun (perspectiveRh_ndc fov aspect far near x y (-d)) 2
      rw [neg_neg] at this
      simp only [perspective, if_true]
      rw [this]
      simp; field_simp; ring
    rw [e2, neg_le_neg_iff, div_le_one (mul_pos (by linarith) hd)] at h2
    nlinarith [mul_pos hn hd, mul_pos (hn.trans hf) hn]

/-- A field of view whose half has a positive tangent. -/
example : 0 < Real.tan (Real.pi / 2 / 2) := by
  rw [show Real.pi / 2 / 2 = Real.pi / 4 by ring, Real.tan_pi_div_four]; norm_num

end Verif.Math
