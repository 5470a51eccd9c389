import Verif.Math.IeeeSpecialProps
import Verif.Math.IeeeProps
import Verif.Math.MatrixLemmas

/-!
C132. The projection matrices with `float` and `double` entries: how close the entries are to the exact ones, and
what happens when the right edge of a frustum is at the near distance.

The vocabulary is that of `IeeeProps.lean`.  Nothing is assumed about `std::tan`: the entries of `perspective(fov,
…)` are compared with the exact function of the value it returned.
-/

set_option autoImplicit false

namespace Verif.Math

open IVal

variable {F : Format}

/-- `std::tan` on inputs whose exceptions are recorded; its own are not. Part of the model, not of the code.
perspective.hpp 15, 30. -/
instance [TanFn (IVal F)] : TanFn (Flagged F) := ⟨fun a => ⟨TanFn.tan a.val, a.raised⟩⟩

/-! ### Relative errors that multiply -/

/-- `x` is `e` up to `k` roundings above and `m` below the fraction line. -/
def NearBy (u : ℝ) (k m : Nat) (x e : ℝ) : Prop :=
  ∃ d, x = e * d ∧ (1 - u) ^ k / (1 + u) ^ m ≤ d ∧ d ≤ (1 + u) ^ k / (1 - u) ^ m

variable {R : Rounding}

theorem near_refl (x : ℝ) : NearBy R.u 0 0 x x := ⟨1, by ring, by simp, by simp⟩

theorem near_neg {k m : Nat} {x e : ℝ} (h : NearBy R.u k m x e) : NearBy R.u k m (-x) (-e) := by
  obtain ⟨d, h1, h2, h3⟩ := h
  exact ⟨d, by rw [h1]; ring, h2, h3⟩

theorem near_rnd {k m : Nat} {x e : ℝ} (h : NearBy R.u k m x e) : NearBy R.u (k + 1) m (R.rnd x) e := by
  obtain ⟨d, h1, h2, h3⟩ := h
  have hu := R.u_nonneg
  have hu1 : 0 < 1 - R.u := by linarith [R.u_lt]
  obtain ⟨c, hc, c1, c2⟩ : ∃ c, R.rnd x = x * c ∧ 1 - R.u ≤ c ∧ c ≤ 1 + R.u := by
    by_cases hx : x = 0
    · exact ⟨1, by rw [hx, R.zero]; ring, by linarith, by linarith⟩
    · refine ⟨R.rnd x / x, by field_simp, ?_⟩
      have := R.err x
      have hax : 0 < |x| := abs_pos.mpr hx
      have h' : |R.rnd x / x - 1| ≤ R.u := by
        have : R.rnd x / x - 1 = (R.rnd x - x) / x := by field_simp
        rw [this, abs_div, div_le_iff₀ hax]; exact R.err x
      rw [abs_le] at h'
      exact ⟨by linarith [h'.1], by linarith [h'.2]⟩
  have hd : 0 ≤ d := le_trans (by positivity) h2
  have hc0 : 0 ≤ c := by linarith
  refine ⟨d * c, by rw [hc, h1]; ring, ?_, ?_⟩
  · calc (1 - R.u) ^ (k + 1) / (1 + R.u) ^ m = (1 - R.u) ^ k / (1 + R.u) ^ m * (1 - R.u) := by ring
      _ ≤ d * c := by gcongr
  · calc d * c ≤ (1 + R.u) ^ k / (1 - R.u) ^ m * (1 + R.u) := by gcongr
      _ = (1 + R.u) ^ (k + 1) / (1 - R.u) ^ m := by ring

theorem near_div {k m k' m' : Nat} {x e y g : ℝ} (h : NearBy R.u k m x e) (h' : NearBy R.u k' m' y g) :
    NearBy R.u (k + m') (m + k') (x / y) (e / g) := by
  obtain ⟨d, h1, h2, h3⟩ := h
  obtain ⟨d', h1', h2', h3'⟩ := h'
  have hu := R.u_nonneg
  have hu1 : 0 < 1 - R.u := by linarith [R.u_lt]
  have hd : 0 < d := lt_of_lt_of_le (by positivity) h2
  have hd' : 0 < d' := lt_of_lt_of_le (by positivity) h2'
  refine ⟨d / d', by rw [h1, h1', mul_div_mul_comm], ?_, ?_⟩
  · calc (1 - R.u) ^ (k + m') / (1 + R.u) ^ (m + k')
        = ((1 - R.u) ^ k / (1 + R.u) ^ m) / ((1 + R.u) ^ k' / (1 - R.u) ^ m') := by field_simp; ring
      _ ≤ d / d' := by gcongr
  · calc d / d' ≤ ((1 + R.u) ^ k / (1 - R.u) ^ m) / ((1 - R.u) ^ k' / (1 + R.u) ^ m') := by gcongr
      _ = (1 + R.u) ^ (k + m') / (1 - R.u) ^ (m + k') := by field_simp; ring

/-- At most two roundings above the line and one below. -/
theorem near_abs {k m : Nat} {x e : ℝ} (h : NearBy R.u k m x e) (hk : k ≤ 2) (hm : m ≤ 1) :
    |x - e| ≤ ((1 + R.u) ^ 2 / (1 - R.u) - 1) * |e| := by
  obtain ⟨d, h1, h2, h3⟩ := h
  have hu := R.u_nonneg
  have hu1 : 0 < 1 - R.u := by linarith [R.u_lt]
  have e1 : d ≤ (1 + R.u) ^ 2 / (1 - R.u) := by
    refine h3.trans ?_
    have a1 : (1 + R.u) ^ k ≤ (1 + R.u) ^ 2 := pow_le_pow_right₀ (by linarith) hk
    have a2 : (1 - R.u) ^ 1 ≤ (1 - R.u) ^ m := pow_le_pow_of_le_one hu1.le (by linarith) hm
    rw [pow_one] at a2
    gcongr
  have e2 : (1 - R.u) ^ 2 / (1 + R.u) ≤ d := by
    refine le_trans ?_ h2
    have a1 : (1 - R.u) ^ 2 ≤ (1 - R.u) ^ k := pow_le_pow_of_le_one hu1.le (by linarith) hk
    have a2 : (1 + R.u) ^ m ≤ (1 + R.u) ^ 1 := pow_le_pow_right₀ (by linarith) hm
    rw [pow_one] at a2
    gcongr
  have b1 : 1 + 3 * R.u ≤ (1 + R.u) ^ 2 / (1 - R.u) := by rw [le_div_iff₀ hu1]; nlinarith
  have b2 : 1 - 3 * R.u ≤ (1 - R.u) ^ 2 / (1 + R.u) := by rw [le_div_iff₀ (by linarith)]; nlinarith
  have : x - e = (d - 1) * e := by rw [h1]; ring
  rw [this, abs_mul]
  gcongr
  rw [abs_le]
  constructor <;> linarith

/-! ### The shapes of the entries -/

/-- The computation recorded in `f` gives `g`; without an exception that is finite and `e` up to the bound. -/
def CloseTo (f : Flagged F) (g : IVal F) (e : ℝ) : Prop :=
  ¬f.raised → g.Finite ∧ |g.toReal - e| ≤ ((1 + F.u) ^ 2 / (1 - F.u) - 1) * |e|

theorem wide_u : F.wide.u = F.u := rfl

theorem close_of {f : Flagged F} {g : IVal F} {x : FP F.wide} {e : ℝ} {k m : Nat} (h1 : Records f g) (h2 : Agrees f x)
    (h3 : NearBy F.wide.u k m x.val e) (hk : k ≤ 2) (hm : m ≤ 1) : CloseTo f g e := by
  intro hr
  obtain ⟨h, h'⟩ := transfer h1 h2 hr
  refine ⟨h, ?_⟩
  rw [h', ← wide_u]
  exact near_abs h3 hk hm

section Shapes

variable {x y z w : IVal F} (hx : x.Finite) (hy : y.Finite) (hz : z.Finite) (hw : w.Finite)

theorem near_val (v : IVal F) : NearBy F.wide.u 0 0 v.widen.val v.toReal := near_refl _

theorem near_sub (a b : IVal F) : NearBy F.wide.u 1 0 (a.widen - b.widen).val (a.toReal - b.toReal) :=
  near_rnd (near_refl _)

include hx hy hz hw

/-- `(x + y) / (z - w)` -/
theorem close_sum [ILibm F] [Libm F.wide] : CloseTo ((Flagged.input x + .input y) / (.input z - .input w)) ((x + y) / (z - w))
    ((x.toReal + y.toReal) / (z.toReal - w.toReal)) :=
  close_of rfl (agrees_ops.div (agrees_ops.add (agrees_input hx) (agrees_input hy))
    (agrees_ops.sub (agrees_input hz) (agrees_input hw)))
    (near_rnd (near_div (near_rnd (near_refl (x.toReal + y.toReal))) (near_sub z w))) (by norm_num) (by norm_num)

/-- `-(x + y) / (z - w)` -/
theorem close_neg_sum [ILibm F] [Libm F.wide] :
    CloseTo (-(Flagged.input x + .input y) / (.input z - .input w)) (-(x + y) / (z - w))
    (-(x.toReal + y.toReal) / (z.toReal - w.toReal)) :=
  close_of rfl (agrees_ops.div (agrees_ops.neg (agrees_ops.add (agrees_input hx) (agrees_input hy)))
    (agrees_ops.sub (agrees_input hz) (agrees_input hw)))
    (near_rnd (near_div (near_neg (near_rnd (near_refl (x.toReal + y.toReal)))) (near_sub z w))) (by norm_num)
    (by norm_num)

/-- `-(2 * x * y) / (z - w)` -/
theorem close_prod [ILibm F] [Libm F.wide] :
    CloseTo (-(2 * Flagged.input x * .input y) / (.input z - .input w)) (-(2 * x * y) / (z - w))
    (-(2 * x.toReal * y.toReal) / (z.toReal - w.toReal)) := by
  refine close_of rfl (agrees_ops.div (agrees_ops.neg (agrees_ops.mul (agrees_ops.mul agrees_ops.two (agrees_input hx))
    (agrees_input hy))) (agrees_ops.sub (agrees_input hz) (agrees_input hw)))
    (near_rnd (near_div (near_neg (k := 1) (m := 0) ?_) (near_sub z w))) (by norm_num) (by norm_num)
  have e : (2 * x.widen).val = 2 * x.toReal := by rw [FP.mulComm, FP.twoVal]; rfl
  show NearBy _ 1 0 (F.wide.rnd ((2 * x.widen).val * y.toReal)) _
  rw [e]
  exact near_rnd (near_refl _)

omit hy in
/-- `(2 * x) / (z - w)` -/
theorem close_two_mul [ILibm F] [Libm F.wide] :
    CloseTo ((2 * Flagged.input x) / (.input z - .input w)) ((2 * x) / (z - w))
    (2 * x.toReal / (z.toReal - w.toReal)) := by
  refine close_of rfl (agrees_ops.div (agrees_ops.mul agrees_ops.two (agrees_input hx))
    (agrees_ops.sub (agrees_input hz) (agrees_input hw)))
    (near_rnd (near_div (k := 0) (m := 0) ?_ (near_sub z w))) (by norm_num) (by norm_num)
  have e : (2 * x.widen).val = 2 * x.toReal := by rw [FP.mulComm, FP.twoVal]; rfl
  rw [e]
  exact near_refl _

omit hx hy in
/-- `2 / (z - w)` -/
theorem close_two [ILibm F] [Libm F.wide] :
    CloseTo (2 / (Flagged.input z - .input w)) (2 / (z - w)) (2 / (z.toReal - w.toReal)) :=
  close_of rfl (agrees_ops.div agrees_ops.two (agrees_ops.sub (agrees_input hz) (agrees_input hw)))
    (near_rnd (near_div (near_refl 2) (near_sub z w))) (by norm_num) (by norm_num)

omit hx hy in
/-- `-2 / (z - w)` -/
theorem close_neg_two [ILibm F] [Libm F.wide] :
    CloseTo (-2 / (Flagged.input z - .input w)) (-2 / (z - w)) (-2 / (z.toReal - w.toReal)) :=
  close_of rfl (agrees_ops.div (agrees_ops.neg agrees_ops.two) (agrees_ops.sub (agrees_input hz) (agrees_input hw)))
    (near_rnd (near_div (near_refl (-2)) (near_sub z w))) (by norm_num) (by norm_num)

end Shapes

theorem close_const {f : Flagged F} {g : IVal F} {e : ℝ} (h : g.Is e) : CloseTo f g e := by
  intro _
  refine ⟨h.1, ?_⟩
  rw [h.2, sub_self, abs_zero]
  have := F.u_pos
  have := F.u_le
  refine mul_nonneg ?_ (abs_nonneg _)
  rw [sub_nonneg, le_div_iff₀ (by linarith)]
  nlinarith

/-! ### C132 -/

/-- C132. Every entry of a projection matrix is computed with a relative error of at most `(1+u)²/(1-u) - 1`, about
three units of roundoff, if no exception is raised: the entries that are to be 0, 1 or -1 are that exactly, and the
differences of the parameters cannot spoil the others.  The matrices are written out, column by column; `h` is the
value `std::tan(fov / 2)` returned. -/
theorem ieee_projection_error [TanFn (IVal F)] (fov a l r b t n f : IVal F) (ha : a.Finite) (hl : l.Finite)
    (hr : r.Finite) (hb : b.Finite) (ht : t.Finite) (hn : n.Finite) (hf : f.Finite)
    (hh : (TanFn.tan (fov / 2)).Finite) (h : ℝ) (eh : h = (TanFn.tan (fov / 2)).toReal) (i j : Fin 4) :
    let L := l.toReal; let R := r.toReal; let B := b.toReal; let T := t.toReal; let N := n.toReal; let Fa := f.toReal
    CloseTo (perspectiveRh (.input fov) (.input a) (.input n) (.input f) i j) (perspectiveRh fov a n f i j)
      ((![![1 / (a.toReal * h), 0, 0, 0], ![0, 1 / h, 0, 0], ![0, 0, -(Fa + N) / (Fa - N), -1],
        ![0, 0, -(2 * Fa * N) / (Fa - N), 0]] : Mat ℝ 4 4) i j) ∧
    CloseTo (perspectiveLh (.input fov) (.input a) (.input n) (.input f) i j) (perspectiveLh fov a n f i j)
      ((![![1 / (a.toReal * h), 0, 0, 0], ![0, 1 / h, 0, 0], ![0, 0, (Fa + N) / (Fa - N), 1],
        ![0, 0, -(2 * Fa * N) / (Fa - N), 0]] : Mat ℝ 4 4) i j) ∧
    CloseTo (frustumRh (.input l) (.input r) (.input b) (.input t) (.input n) (.input f) i j)
      (frustumRh l r b t n f i j)
      ((![![2 * N / (R - L), 0, 0, 0], ![0, 2 * N / (T - B), 0, 0],
        ![(R + L) / (R - N), (T + B) / (T - B), -(Fa + N) / (Fa - N), -1],
        ![0, 0, -(2 * Fa * N) / (Fa - N), 0]] : Mat ℝ 4 4) i j) ∧
    CloseTo (frustumLh (.input l) (.input r) (.input b) (.input t) (.input n) (.input f) i j)
      (frustumLh l r b t n f i j)
      ((![![2 * N / (R - L), 0, 0, 0], ![0, 2 * N / (T - B), 0, 0],
        ![-(R + L) / (R - N), -(T + B) / (T - B), (Fa + N) / (Fa - N), 1],
        ![0, 0, -(2 * Fa * N) / (Fa - N), 0]] : Mat ℝ 4 4) i j) ∧
    CloseTo (orthoRh (.input l) (.input r) (.input b) (.input t) (.input n) (.input f) i j) (orthoRh l r b t n f i j)
      ((![![2 / (R - L), 0, 0, 0], ![0, -2 / (Fa - N), 0, 0],
        ![-(R + L) / (R - L), -(T + B) / (T - B), -(Fa + N) / (Fa - N), 0], ![0, 0, 0, 1]] : Mat ℝ 4 4) i j) ∧
    CloseTo (orthoLh (.input l) (.input r) (.input b) (.input t) (.input n) (.input f) i j) (orthoLh l r b t n f i j)
      ((![![2 / (R - L), 0, 0, 0], ![0, 2 / (Fa - N), 0, 0],
        ![-(R + L) / (R - L), -(T + B) / (T - B), -(Fa + N) / (Fa - N), 0], ![0, 0, 0, 1]] : Mat ℝ 4 4) i j) := by
  let _ : ILibm F := ⟨id, id⟩
  let _ : Libm F.wide := ⟨fun _ => 0, fun _ => 1, fun _ _ => rfl, fun _ _ => rfl⟩
  have hz : ∀ g : Flagged F, CloseTo g 0 0 := fun _ => close_const ⟨trivial, rfl⟩
  have h1 : ∀ g : Flagged F, CloseTo g 1 1 := fun _ => close_const ⟨trivial, rfl⟩
  have hm : ∀ g : Flagged F, CloseTo g (-1) (-1) := fun _ => close_const ⟨trivial, rfl⟩
  have at1 : Agrees (TanFn.tan (Flagged.input fov / 2)) (TanFn.tan (fov / 2)).widen := fun _ => ⟨hh, rfl⟩
  have p1 : CloseTo (1 / TanFn.tan (Flagged.input fov / 2)) (1 / TanFn.tan (fov / 2)) (1 / h) := by
    refine close_of rfl (agrees_ops.div agrees_ops.one at1) (near_rnd (k := 0) (m := 0) ?_) (by norm_num) (by norm_num)
    rw [eh]; exact near_refl _
  have p0 : CloseTo (1 / (Flagged.input a * TanFn.tan (Flagged.input fov / 2))) (1 / (a * TanFn.tan (fov / 2)))
      (1 / (a.toReal * h)) := by
    refine close_of rfl (agrees_ops.div agrees_ops.one (agrees_ops.mul (agrees_input ha) at1))
      (near_rnd (near_div (near_refl 1) (k' := 1) (m' := 0) ?_)) (by norm_num) (by norm_num)
    rw [eh]; exact near_rnd (near_refl _)
  intro L R B T N Fa
  refine ⟨?_, ?_, ?_, ?_, ?_, ?_⟩
  · simp only [perspectiveRh, store2_apply, diagonal_apply]
    fin_cases i <;> fin_cases j <;> first
      | exact hz _ | exact hm _ | exact p0 | exact p1
      | exact close_neg_sum hf hn hf hn | exact close_prod hf hn hf hn
  · simp only [perspectiveLh, store2_apply, diagonal_apply]
    fin_cases i <;> fin_cases j <;> first
      | exact hz _ | exact h1 _ | exact p0 | exact p1
      | exact close_sum hf hn hf hn | exact close_prod hf hn hf hn
  · simp only [frustumRh, store2_apply, diagonal_apply]
    fin_cases i <;> fin_cases j <;> first
      | exact hz _ | exact hm _ | exact close_two_mul hn hr hl | exact close_two_mul hn ht hb
      | exact close_sum hr hl hr hn | exact close_sum ht hb ht hb
      | exact close_neg_sum hf hn hf hn | exact close_prod hf hn hf hn
  · simp only [frustumLh, store2_apply, diagonal_apply]
    fin_cases i <;> fin_cases j <;> first
      | exact hz _ | exact h1 _ | exact close_two_mul hn hr hl | exact close_two_mul hn ht hb
      | exact close_neg_sum hr hl hr hn | exact close_neg_sum ht hb ht hb
      | exact close_sum hf hn hf hn | exact close_prod hf hn hf hn
  · simp only [orthoRh, store2_apply, diagonal_apply]
    fin_cases i <;> fin_cases j <;> first
      | exact hz _ | exact h1 _ | exact close_two hr hl | exact close_neg_two hf hn
      | exact close_neg_sum hr hl hr hl | exact close_neg_sum ht hb ht hb | exact close_neg_sum hf hn hf hn
  · simp only [orthoLh, store2_apply, diagonal_apply]
    fin_cases i <;> fin_cases j <;> first
      | exact hz _ | exact h1 _ | exact close_two hr hl | exact close_two hf hn
      | exact close_neg_sum hr hl hr hl | exact close_neg_sum ht hb ht hb | exact close_neg_sum hf hn hf hn

/-! ### C72: the right edge at the near distance -/

theorem not_finite_cases {a : IVal F} (h : ¬a.Finite) : a = .nan ∨ ∃ s, a = .inf s := by
  cases a with
  | nan => exact .inl rfl
  | inf s => exact .inr ⟨s, rfl⟩
  | zero s => exact absurd trivial h
  | num x hx => exact absurd trivial h

theorem not_finite_add {a : IVal F} (h : ¬a.Finite) (b : IVal F) : ¬(a + b).Finite := by
  rcases not_finite_cases h with rfl | ⟨s, rfl⟩
  · exact id
  · cases b with
    | inf t =>
      change ¬(if s = t then IVal.inf s else .nan : IVal F).Finite
      split <;> exact id
    | _ => exact id

theorem not_finite_mul {a : IVal F} (h : ¬a.Finite) (b : IVal F) : ¬(a * b).Finite := by
  rcases not_finite_cases h with rfl | ⟨s, rfl⟩
  · exact id
  · cases b <;> exact id

theorem not_finite_div {a : IVal F} (h : ¬a.Finite) (b : IVal F) : ¬(a / b).Finite := by
  rcases not_finite_cases h with rfl | ⟨s, rfl⟩
  · exact id
  · cases b <;> exact id

theorem div_zero_not_finite (a : IVal F) (s : Bool) : ¬(a / .zero s).Finite := by
  cases a <;> exact id

theorem div_zero_nan (a : IVal F) (s : Bool) : a / .zero s = .nan ↔ a = .nan ∨ ∃ t, a = .zero t := by
  cases a with
  | nan => exact ⟨fun _ => .inl rfl, fun _ => rfl⟩
  | inf t => exact ⟨fun h => (by cases h), fun h => (by rcases h with h | ⟨_, h⟩ <;> cases h)⟩
  | zero t => exact ⟨fun _ => .inr ⟨t, rfl⟩, fun _ => rfl⟩
  | num x hx => exact ⟨fun h => (by cases h), fun h => (by rcases h with h | ⟨_, h⟩ <;> cases h)⟩

/-- C72 and C132. A frustum whose right edge is at the near distance: the code divides by `right - near`, which is
zero.  Not one point has a horizontal position: its first coordinate is infinite or NaN after the multiplication
with the matrix, and still is after the division by the fourth.  If the frustum is symmetric it is NaN. -/
theorem ieee_frustum_near_wrong [Indet (IVal F)] (l r b t n f : IVal F) (hl : l.Finite) (hr : r.Finite)
    (hn : n.Finite) (e : r.toReal = n.toReal) (p : Vec (IVal F) 4) :
    (¬(mulVec (frustumRh l r b t n f) p 0).Finite ∧
      ¬(mulVec (frustumRh l r b t n f) p 0 / mulVec (frustumRh l r b t n f) p 3).Finite) ∧
    (¬(mulVec (frustumLh l r b t n f) p 0).Finite ∧
      ¬(mulVec (frustumLh l r b t n f) p 0 / mulVec (frustumLh l r b t n f) p 3).Finite) ∧
    (l.toReal = -r.toReal → mulVec (frustumRh l r b t n f) p 0 = .nan ∧ mulVec (frustumLh l r b t n f) p 0 = .nan) := by
  obtain ⟨s, hs⟩ : ∃ s, r - n = .zero s :=
    (show (∃ s, r - n = .zero s) ↔ r.toReal = n.toReal by
      have := (ieee_sub_zero (n := 1) (fun _ => r) (fun _ => n) 0).1 hr hn
      simpa only [sub_apply] using this).2 e
  have eR : frustumRh l r b t n f 2 0 = (r + l) / .zero s := by rw [← hs]; rfl
  have eL : frustumLh l r b t n f 2 0 = -(r + l) / .zero s := by rw [← hs]; rfl
  have key : ∀ m : Mat (IVal F) 4 4, ¬(m 2 0).Finite → ¬(mulVec m p 0).Finite := by
    intro m hm
    rw [mulVec_dot]
    have : ∀ (k : List (Fin 4)) (s : IVal F), (2 ∈ k ∨ ¬s.Finite) →
        ¬(k.foldl (fun r i => r + m i 0 * p i) s).Finite := by
      intro k
      induction k with
      | nil => intro s h; exact h.resolve_left (by simp)
      | cons i k ih =>
        intro s h
        rw [List.foldl_cons]
        refine ih _ ?_
        rcases h with h | h
        · rcases List.mem_cons.1 h with h | h
          · right
            rw [← h, IVal.addComm]
            exact not_finite_add (not_finite_mul hm _) _
          · exact .inl h
        · exact .inr (not_finite_add h _)
    exact this _ _ (.inl (List.mem_finRange 2))
  have fR : ¬(frustumRh l r b t n f 2 0).Finite := by rw [eR]; exact div_zero_not_finite _ _
  have fL : ¬(frustumLh l r b t n f 2 0).Finite := by rw [eL]; exact div_zero_not_finite _ _
  refine ⟨⟨key _ fR, not_finite_div (key _ fR) _⟩, ⟨key _ fL, not_finite_div (key _ fL) _⟩, fun hs0 => ?_⟩
  obtain ⟨s', hs'⟩ : ∃ s, r + l = .zero s := by
    have hx : r + l = r - -l := by
      change _ = r + -(-l)
      rw [IVal.negNeg]
    rw [hx]
    have hnl : (-l).Finite ∧ (-l).toReal = -l.toReal := neg_is ⟨hl, rfl⟩
    refine (show (∃ s, r - -l = .zero s) ↔ r.toReal = (-l).toReal by
      have := (ieee_sub_zero (n := 1) (fun _ => r) (fun _ => -l) 0).1 hr hnl.1
      simpa only [sub_apply] using this).2 ?_
    rw [hnl.2, hs0, neg_neg]
  constructor
  · rw [mulVec_dot]
    refine dot_nan _ _ 2 (.inl ?_)
    show frustumRh l r b t n f 2 0 = .nan
    rw [eR, hs']; rfl
  · rw [mulVec_dot]
    refine dot_nan _ _ 2 (.inl ?_)
    show frustumLh l r b t n f 2 0 = .nan
    rw [eL, hs']; rfl

/-- `perspective_rh(-1.f, 1.f, -1.f, 1.f, 1.f, 2.f)`, a camera with a right angle of view, is such a frustum. -/
example : (1 : IVal Format.binary32).Finite ∧ (-1 : IVal Format.binary32).toReal = -(1 : IVal Format.binary32).toReal :=
  ⟨trivial, rfl⟩

/-- Computations that raise nothing: the first entry of `ortho_rh(0, 2, …)`. -/
example (b t n f : Flagged F) : ¬(orthoRh (.input 0) (.input 2) b t n f 0 0).raised := by
  have e : F.tiny ≤ |(2 : ℝ) / 2| := by
    rw [div_self (by norm_num), abs_one, ← zpow_zero (2 : ℝ)]
    exact zpow_le_zpow_right₀ (by norm_num) (by have := F.emax_ge; unfold Format.emin; omega)
  have e' : |(2 : ℝ) / 2| ≤ 2 ^ F.emax := by
    rw [div_self (by norm_num), abs_one, ← zpow_zero (2 : ℝ)]
    exact zpow_le_zpow_right₀ (by norm_num) (by have := F.emax_ge; omega)
  change ¬(False ∨ (False ∨ False ∨ False) ∨ F.Exc (2 / 2))
  have := Format.not_exc e e'
  tauto

end Verif.Math
