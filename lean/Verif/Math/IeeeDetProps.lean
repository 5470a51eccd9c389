import Verif.Math.IeeeAxisProps

/-!
C140. Determinants of singular matrices with `float` or `double` entries: no rounding error spoils the zero of
a matrix with two equal columns or with a column or row of zeros — with two exceptions in the 4x4 case.
-/

set_option autoImplicit false

namespace Verif.Math

open IVal

variable {F : Format}

/-! ### The vocabulary of the statements -/

/-- One of the two zeros. -/
def IsZero (x : IVal F) : Prop := ∃ s, x = .zero s

/-- The entries are finite and at most 2^k in magnitude. -/
def UpTo {c r : Nat} (k : ℤ) (m : Mat (IVal F) c r) : Prop := ∀ i j, (m i j).Finite ∧ |(m i j).toReal| ≤ 2 ^ k

/-! ### Helpers: results that are zero or NaN -/

/-- Zero or NaN. -/
def ZN (x : IVal F) : Prop := IsZero x ∨ x = .nan

/-- Opposite values, up to the sign of zeros. -/
def Opp (x y : IVal F) : Prop := Same x (-y)

theorem IsZero.zn {x : IVal F} (h : IsZero x) : ZN x := Or.inl h

theorem zn_add {a b : IVal F} (ha : ZN a) (hb : ZN b) : ZN (a + b) := by
  rcases ha with ⟨s, rfl⟩ | rfl
  · rcases hb with ⟨t, rfl⟩ | rfl
    · exact Or.inl ⟨_, rfl⟩
    · exact Or.inr rfl
  · exact Or.inr rfl

theorem zn_neg {a : IVal F} (ha : ZN a) : ZN (-a) := by
  rcases ha with ⟨s, rfl⟩ | rfl
  · exact Or.inl ⟨_, rfl⟩
  · exact Or.inr rfl

theorem zn_sub {a b : IVal F} (ha : ZN a) (hb : ZN b) : ZN (a - b) := zn_add ha (zn_neg hb)

theorem zn_mulL {a : IVal F} (b : IVal F) (ha : ZN a) : ZN (a * b) := by
  rcases ha with ⟨s, rfl⟩ | rfl
  · cases b with
    | nan => exact Or.inr rfl
    | inf t => exact Or.inr rfl
    | zero t => exact Or.inl ⟨_, rfl⟩
    | num y hy => exact Or.inl ⟨_, rfl⟩
  · exact Or.inr rfl

theorem zn_mulR (a : IVal F) {b : IVal F} (hb : ZN b) : ZN (a * b) := by
  rw [mulComm]; exact zn_mulL a hb

/-- A value plus its opposite. -/
theorem zn_opp {x y : IVal F} (h : Opp x y) : ZN (x + y) := by
  rcases h with rfl | ⟨s, t, rfl, h⟩
  · cases y with
    | nan => exact Or.inr rfl
    | inf t => right; cases t <;> rfl
    | zero t => exact Or.inl ⟨_, rfl⟩
    | num y hy =>
      left
      change IsZero (ofReal F false (-y + y))
      rw [neg_add_cancel, ofReal_zero]; exact ⟨_, rfl⟩
  · have : ∃ t, y = .zero t := by
      refine ⟨!t, ?_⟩
      rw [← negNeg y, h]; rfl
    obtain ⟨t', rfl⟩ := this
    exact Or.inl ⟨_, rfl⟩

theorem opp_neg (x : IVal F) : Opp (-x) x := Or.inl rfl

theorem zn_self (x : IVal F) : ZN (x - x) := by
  rw [sub_def, addComm]; exact zn_opp (opp_neg x)

/-- Adding something that is zero or NaN changes nothing, or leaves NaN. -/
theorem add_zn {z : IVal F} (x : IVal F) (h : ZN z) : Same (x + z) x ∨ x + z = .nan := by
  rcases h with ⟨s, rfl⟩ | rfl
  · left
    cases x with
    | nan => exact Or.inl rfl
    | inf t => exact Or.inl rfl
    | zero t => exact Or.inr ⟨_, _, rfl, rfl⟩
    | num y hy => exact Or.inl rfl
  · right; exact add_nan x

theorem IVal.Same.symm {a b : IVal F} (h : Same a b) : Same b a := by
  rcases h with rfl | ⟨s, t, rfl, rfl⟩
  · exact Or.inl rfl
  · exact Or.inr ⟨_, _, rfl, rfl⟩

theorem IVal.Same.trans {a b c : IVal F} (h : Same a b) (h' : Same b c) : Same a c := by
  rcases h with rfl | ⟨s, t, rfl, rfl⟩
  · exact h'
  · rcases h' with rfl | ⟨s', t', h1, rfl⟩
    · exact Or.inr ⟨_, _, rfl, rfl⟩
    · exact Or.inr ⟨_, _, rfl, rfl⟩

theorem IVal.Same.neg {a b : IVal F} (h : Same a b) : Same (-a) (-b) := by
  rcases h with rfl | ⟨s, t, rfl, rfl⟩
  · exact Or.inl rfl
  · exact Or.inr ⟨_, _, rfl, rfl⟩

theorem IVal.Same.addR {a b : IVal F} (c : IVal F) (h : Same a b) : Same (a + c) (b + c) := by
  rcases h with rfl | ⟨s, t, rfl, rfl⟩
  · exact Or.inl rfl
  · cases c with
    | nan => exact Or.inl rfl
    | inf u => exact Or.inl rfl
    | zero u => exact Or.inr ⟨_, _, rfl, rfl⟩
    | num y hy => exact Or.inl rfl

theorem IVal.Same.add {a b c d : IVal F} (h : Same a b) (h' : Same c d) : Same (a + c) (b + d) := by
  refine Same.trans (Same.addR c h) ?_
  rw [addComm b c, addComm b d]; exact Same.addR b h'

theorem IVal.Same.mulL {a b : IVal F} (c : IVal F) (h : Same a b) : Same (c * a) (c * b) := by
  rw [mulComm c a, mulComm c b]
  rcases h with rfl | ⟨s, t, rfl, rfl⟩
  · exact Or.inl rfl
  · cases c with
    | nan => exact Or.inl rfl
    | inf u => exact Or.inl rfl
    | zero u => exact Or.inr ⟨_, _, rfl, rfl⟩
    | num y hy => exact Or.inr ⟨_, _, rfl, rfl⟩

theorem mulNeg (a b : IVal F) : a * -b = -(a * b) := by
  have hd : ∀ x : ℝ, x ≠ 0 → decide (-x < 0) = !decide (x < 0) := by
    intro x hx
    rcases lt_or_gt_of_ne hx with h | h
    · simp [h, h.le]
    · simp [h, not_lt.mpr h.le]
  cases a with
  | nan => rfl
  | inf s =>
    cases b with
    | nan => rfl
    | zero t => rfl
    | inf t => change IVal.inf (s ^^ (!t)) = .inf (!(s ^^ t)); simp
    | num y hy => change IVal.inf (s ^^ decide (-y < 0)) = .inf (!(s ^^ decide (y < 0))); rw [hd y hy.1]; simp
  | zero s =>
    cases b with
    | nan => rfl
    | inf t => rfl
    | zero t => change IVal.zero (s ^^ (!t)) = .zero (!(s ^^ t)); simp
    | num y hy => change IVal.zero (s ^^ decide (-y < 0)) = .zero (!(s ^^ decide (y < 0))); rw [hd y hy.1]; simp
  | num x hx =>
    cases b with
    | nan => rfl
    | inf t => change IVal.inf (decide (x < 0) ^^ (!t)) = .inf (!(decide (x < 0) ^^ t)); simp
    | zero t => change IVal.zero (decide (x < 0) ^^ (!t)) = .zero (!(decide (x < 0) ^^ t)); simp
    | num y hy =>
      change ofReal F false (x * -y) = -ofReal F false (x * y)
      rw [mul_neg, ofReal_neg (mul_ne_zero hx.1 hy.1)]

theorem negAdd (a b : IVal F) : Same (-(a + b)) (-a + -b) := by
  have h := negSub a (-b)
  rw [sub_def, negNeg, sub_def, addComm (-b)] at h
  exact h

theorem Opp.mulL {x y : IVal F} (c : IVal F) (h : Opp x y) : Opp (c * x) (c * y) := by
  unfold Opp; rw [← mulNeg]; exact Same.mulL c h

theorem Opp.add {a b c d : IVal F} (h : Opp a b) (h' : Opp c d) : Opp (a + c) (b + d) :=
  Same.trans (Same.add h h') (Same.symm (negAdd b d))

theorem opp_sub (a b : IVal F) : Opp (a - b) (b - a) := IVal.Same.symm (negSub b a)

/-- A value, something that is zero or NaN, and the opposite value. -/
theorem zn_mid {x y z : IVal F} (hz : ZN z) (h : Opp x y) : ZN (x - z + y) := by
  rcases add_zn x (zn_neg hz) with h1 | h1
  · rw [sub_def]; exact zn_opp (Same.trans h1 h)
  · rw [sub_def, h1]; exact Or.inr rfl

theorem zn_sub_add {z : IVal F} (x : IVal F) (hz : ZN z) : ZN (z - x + x) := by
  rw [sub_def, addComm z, ← negNeg z, ← sub_def]
  exact zn_mid (zn_neg hz) (opp_neg x)

theorem zn_add_sub {z : IVal F} (x : IVal F) (hz : ZN z) : ZN (z + x - x) := by
  rw [addComm z, sub_def, ← negNeg z, ← sub_def x]
  refine zn_mid (zn_neg hz) ?_
  unfold Opp; rw [negNeg]; exact Or.inl rfl

/-! ### Helpers: no overflow -/

/-- Finite and at most 2^k in magnitude. -/
def Bd (k : ℤ) (x : IVal F) : Prop := x.Finite ∧ |x.toReal| ≤ 2 ^ k

theorem bd_ofReal {k : ℤ} {s : Bool} {z : ℝ} (h0 : 0 ≤ k) (h1 : k ≤ F.emax) (hz : |z| ≤ 2 ^ k) :
    Bd k (ofReal F s z) := by
  have hr : |F.rnd z| ≤ 2 ^ k := by
    rw [F.rnd_abs, ← F.pow_rep (k := k) (by have := F.grid_neg; omega)]; exact F.rnd_mono hz
  by_cases h : F.rnd z = 0
  · have : ofReal F s z = .zero (if z = 0 then s else decide (z < 0)) := dif_pos h
    rw [this]; exact ⟨trivial, by change |(0 : ℝ)| ≤ _; rw [abs_zero]; positivity⟩
  · have h2 := hr.trans (F.pow_le_largest h1)
    have : ofReal F s z = .num (F.rnd z) ⟨h, F.rnd_idem z, h2⟩ := (dif_neg h).trans (dif_pos h2)
    rw [this]; exact ⟨trivial, hr⟩

theorem Bd.mono {k l : ℤ} {x : IVal F} (h : Bd k x) (hl : k ≤ l) : Bd l x :=
  ⟨h.1, h.2.trans (zpow_le_zpow_right₀ (by norm_num) hl)⟩

theorem Bd.neg {k : ℤ} {x : IVal F} (h : Bd k x) : Bd k (-x) := by
  cases x with
  | nan => exact h.1.elim
  | inf s => exact h.1.elim
  | zero s => exact h
  | num y hy => exact ⟨trivial, by change |-y| ≤ _; rw [abs_neg]; exact h.2⟩

theorem Bd.add {k : ℤ} {x y : IVal F} (hx : Bd k x) (hy : Bd k y) (h0 : 0 ≤ k) (h1 : k + 1 ≤ F.emax) :
    Bd (k + 1) (x + y) := by
  cases x with
  | nan => exact hx.1.elim
  | inf s => exact hx.1.elim
  | zero s =>
    cases y with
    | nan => exact hy.1.elim
    | inf t => exact hy.1.elim
    | zero t => exact hy.mono (by omega)
    | num b hb => exact hy.mono (by omega)
  | num a ha =>
    cases y with
    | nan => exact hy.1.elim
    | inf t => exact hy.1.elim
    | zero t => exact hx.mono (by omega)
    | num b hb =>
      refine bd_ofReal (by omega) h1 ?_
      have h2 : |a| ≤ 2 ^ k := hx.2
      have h3 : |b| ≤ 2 ^ k := hy.2
      rw [zpow_add_one₀ (by norm_num)]
      linarith [abs_add_le a b]

theorem Bd.sub {k : ℤ} {x y : IVal F} (hx : Bd k x) (hy : Bd k y) (h0 : 0 ≤ k) (h1 : k + 1 ≤ F.emax) :
    Bd (k + 1) (x - y) := hx.add hy.neg h0 h1

theorem Bd.mul {k l : ℤ} {x y : IVal F} (hx : Bd k x) (hy : Bd l y) (h0 : 0 ≤ k + l) (h1 : k + l ≤ F.emax) :
    Bd (k + l) (x * y) := by
  have hz : ∀ s, Bd (k + l) (IVal.zero s : IVal F) :=
    fun s => ⟨trivial, by change |(0 : ℝ)| ≤ _; rw [abs_zero]; positivity⟩
  cases x with
  | nan => exact hx.1.elim
  | inf s => exact hx.1.elim
  | zero s =>
    cases y with
    | nan => exact hy.1.elim
    | inf t => exact hy.1.elim
    | zero t => exact hz _
    | num b hb => exact hz _
  | num a ha =>
    cases y with
    | nan => exact hy.1.elim
    | inf t => exact hy.1.elim
    | zero t => exact hz _
    | num b hb =>
      refine bd_ofReal h0 h1 ?_
      have h2 : |a| ≤ 2 ^ k := hx.2
      have h3 : |b| ≤ 2 ^ l := hy.2
      rw [abs_mul, zpow_add₀ (by norm_num)]
      exact mul_le_mul h2 h3 (abs_nonneg _) (by positivity)

/-- C140. A determinant of entries of magnitude at most 2^k does not overflow if 2k+1, 3k+3, 4k+6 does not
exceed the largest exponent: entries up to 2^30 in every 4x4 matrix of `float`s. -/
theorem ieee_det_finite (k : ℤ) (h0 : 0 ≤ k) :
    (∀ m : Mat (IVal F) 2 2, UpTo k m → 2 * k + 1 ≤ F.emax → (det2 m).Finite) ∧
    (∀ m : Mat (IVal F) 3 3, UpTo k m → 3 * k + 3 ≤ F.emax → (det3 m).Finite) ∧
    (∀ m : Mat (IVal F) 4 4, UpTo k m → 4 * k + 6 ≤ F.emax → (det4 m).Finite) := by
  have two : ∀ a b c d : IVal F, Bd k a → Bd k b → Bd k c → Bd k d → 2 * k + 1 ≤ F.emax →
      Bd (2 * k + 1) (a * b - c * d) := by
    intro a b c d ha hb hc hd hk
    have := (ha.mul hb (by omega) (by omega)).sub (hc.mul hd (by omega) (by omega)) (by omega) (by omega)
    exact this.mono (by omega)
  have three : ∀ a b c x y z : IVal F, Bd k a → Bd k b → Bd k c → Bd (2 * k + 1) x → Bd (2 * k + 1) y →
      Bd (2 * k + 1) z → 3 * k + 3 ≤ F.emax → Bd (3 * k + 3) (a * x - b * y + c * z) := by
    intro a b c x y z ha hb hc hx hy hz hk
    have e1 : Bd (3 * k + 2) (a * x - b * y) :=
      ((ha.mul hx (by omega) (by omega)).sub (hb.mul hy (by omega) (by omega)) (by omega) (by omega)).mono (by omega)
    have e2 : Bd (3 * k + 2) (c * z) := (hc.mul hz (by omega) (by omega)).mono (by omega)
    exact (e1.add e2 (by omega) (by omega)).mono (by omega)
  refine ⟨fun m hm hk => ?_, fun m hm hk => ?_, fun m hm hk => ?_⟩
  · exact (two _ _ _ _ (hm _ _) (hm _ _) (hm _ _) (hm _ _) hk).1
  · exact (three _ _ _ _ _ _ (hm _ _) (hm _ _) (hm _ _)
      (two _ _ _ _ (hm _ _) (hm _ _) (hm _ _) (hm _ _) (by omega))
      (two _ _ _ _ (hm _ _) (hm _ _) (hm _ _) (hm _ _) (by omega))
      (two _ _ _ _ (hm _ _) (hm _ _) (hm _ _) (hm _ _) (by omega)) hk).1
  · have t : ∀ i j i' j' k' l' l'' l''', Bd (2 * k + 1) (m i j * m k' l' - m i' j' * m l'' l''') :=
      fun i j i' j' k' l' l'' l''' => two _ _ _ _ (hm _ _) (hm _ _) (hm _ _) (hm _ _) (by omega)
    have f : ∀ a x y z b c d : IVal F, Bd k a → Bd k b → Bd k c → Bd k d → Bd (2 * k + 1) x →
        Bd (2 * k + 1) y → Bd (2 * k + 1) z → Bd (4 * k + 3) (a * (b * x - c * y + d * z)) := by
      intro a x y z b c d ha hb hc hd hx hy hz
      exact (ha.mul (three _ _ _ _ _ _ hb hc hd hx hy hz (by omega)) (by omega) (by omega)).mono (by omega)
    have f0 := f _ _ _ _ _ _ _ (hm 0 0) (hm 1 1) (hm 2 1) (hm 3 1) (t 2 2 3 2 3 3 2 3) (t 1 2 3 2 3 3 1 3) (t 1 2 2 2 2 3 1 3)
    have f1 := f _ _ _ _ _ _ _ (hm 1 0) (hm 0 1) (hm 2 1) (hm 3 1) (t 2 2 3 2 3 3 2 3) (t 0 2 3 2 3 3 0 3) (t 0 2 2 2 2 3 0 3)
    have f2 := f _ _ _ _ _ _ _ (hm 2 0) (hm 0 1) (hm 1 1) (hm 3 1) (t 1 2 3 2 3 3 1 3) (t 0 2 3 2 3 3 0 3) (t 0 2 1 2 1 3 0 3)
    have f3 := f _ _ _ _ _ _ _ (hm 3 0) (hm 0 1) (hm 1 1) (hm 2 1) (t 1 2 2 2 2 3 1 3) (t 0 2 2 2 2 3 0 3) (t 0 2 1 2 1 3 0 3)
    have g1 := f0.sub f1 (by omega) (by omega)
    have g2 := g1.add (f2.mono (l := 4 * k + 3 + 1) (by omega)) (by omega) (by omega)
    have g3 := g2.sub (f3.mono (l := 4 * k + 3 + 1 + 1) (by omega)) (by omega) (by omega)
    exact g3.1

/-! ### C140: matrices with two equal columns -/

/-- The determinant is a zero or, after an overflow, NaN. -/
theorem det_equal_zn :
    (∀ m : Mat (IVal F) 2 2, m 0 = m 1 → ZN (det2 m)) ∧
    (∀ m : Mat (IVal F) 3 3, (∃ i i', i ≠ i' ∧ m i = m i') → ZN (det3 m)) ∧
    (∀ m : Mat (IVal F) 4 4, (m 0 = m 1 ∨ m 1 = m 2 ∨ m 2 = m 3 ∨ m 0 = m 2) → ZN (det4 m)) := by
  refine ⟨fun m h => ?_, fun m h => ?_, fun m h => ?_⟩
  · unfold det2; rw [h]; exact zn_self _
  · have key : m 0 = m 1 ∨ m 0 = m 2 ∨ m 1 = m 2 := by
      obtain ⟨i, i', hne, h⟩ := h
      fin_cases i <;> fin_cases i' <;> first
        | exact absurd rfl hne
        | exact Or.inl h
        | exact Or.inl h.symm
        | exact Or.inr (Or.inl h)
        | exact Or.inr (Or.inl h.symm)
        | exact Or.inr (Or.inr h)
        | exact Or.inr (Or.inr h.symm)
    unfold det3
    rcases key with h | h | h
    · rw [h]; exact zn_add (zn_self _) (zn_mulR _ (zn_self _))
    · rw [h]
      refine zn_mid (zn_mulR _ ?_) (Opp.mulL _ ?_)
      · exact zn_self _
      · rw [mulComm (m 1 1), mulComm (m 2 1)]; exact opp_sub _ _
    · rw [h]; exact zn_sub_add _ (zn_mulR _ (zn_self _))
  · unfold det4
    rcases h with h | h | h | h
    · rw [h]
      refine zn_sub (zn_add (zn_self _) (zn_mulR _ (zn_add (zn_self _) (zn_mulR _ (zn_self _)))))
        (zn_mulR _ (zn_add (zn_self _) (zn_mulR _ (zn_self _))))
    · rw [h]
      refine zn_sub (zn_sub_add _ (zn_mulR _ (zn_add (zn_self _) (zn_mulR _ (zn_self _)))))
        (zn_mulR _ (zn_sub_add _ (zn_mulR _ (zn_self _))))
    · rw [h]
      exact zn_add_sub _ (zn_sub (zn_mulR _ (zn_sub_add _ (zn_mulR _ (zn_self _))))
        (zn_mulR _ (zn_sub_add _ (zn_mulR _ (zn_self _)))))
    · rw [h]
      have hc : Opp (m 1 2 * m 2 3 - m 2 2 * m 1 3) (m 2 2 * m 1 3 - m 1 2 * m 2 3) := opp_sub _ _
      refine zn_sub (zn_mid (zn_mulR _ (zn_add (zn_self _) (zn_mulR _ (zn_self _)))) (Opp.mulL _ ?_))
        (zn_mulR _ (zn_mid (zn_mulR _ (zn_self _)) (Opp.mulL _ hc)))
      exact Opp.add (opp_sub _ _) (Opp.mulL _ hc)

theorem IsZero.of_zn {x : IVal F} (h : ZN x) (hf : x.Finite) : IsZero x :=
  h.resolve_right fun h => by rw [h] at hf; exact hf

/-- C140. Two equal columns. For all entries whatsoever the determinant of a 2x2 or 3x3 matrix with two equal
columns is a zero or, if something overflowed, NaN; with entries up to 2^k it is a zero. The rounding errors
cancel exactly, term by term. The same holds for a 4x4 matrix, unless the equal columns are 0 and 3 or 1 and 3. -/
theorem ieee_det_equal_columns_partial (k : ℤ) (h0 : 0 ≤ k) :
    (∀ m : Mat (IVal F) 2 2, m 0 = m 1 →
      (IsZero (det2 m) ∨ det2 m = .nan) ∧ (UpTo k m → 2 * k + 1 ≤ F.emax → IsZero (det2 m))) ∧
    (∀ m : Mat (IVal F) 3 3, (∃ i i', i ≠ i' ∧ m i = m i') →
      (IsZero (det3 m) ∨ det3 m = .nan) ∧ (UpTo k m → 3 * k + 3 ≤ F.emax → IsZero (det3 m))) ∧
    (∀ m : Mat (IVal F) 4 4, (m 0 = m 1 ∨ m 1 = m 2 ∨ m 2 = m 3 ∨ m 0 = m 2) →
      (IsZero (det4 m) ∨ det4 m = .nan) ∧ (UpTo k m → 4 * k + 6 ≤ F.emax → IsZero (det4 m))) := by
  obtain ⟨e2, e3, e4⟩ := det_equal_zn (F := F)
  obtain ⟨f2, f3, f4⟩ := ieee_det_finite (F := F) k h0
  exact ⟨fun m h => ⟨e2 m h, fun u hk => IsZero.of_zn (e2 m h) (f2 m u hk)⟩,
    fun m h => ⟨e3 m h, fun u hk => IsZero.of_zn (e3 m h) (f3 m u hk)⟩,
    fun m h => ⟨e4 m h, fun u hk => IsZero.of_zn (e4 m h) (f4 m u hk)⟩⟩

/-- Search for the zero factor of every term. -/
macro "find_zero" h:term : tactic => `(tactic| repeat' first
  | exact ($h _).zn
  | with_reducible apply zn_add
  | with_reducible apply zn_sub
  | exact zn_mulL _ ($h _).zn
  | exact zn_mulR _ ($h _).zn
  | with_reducible apply zn_mulR)

/-- C140. A column or a row of zeros (of either sign) makes the determinant a zero — or NaN, if another entry is
infinite or NaN or something overflows. -/
theorem ieee_det_zero_column_row (k : ℤ) (h0 : 0 ≤ k) :
    (∀ m : Mat (IVal F) 2 2, ((∃ i, ∀ j, IsZero (m i j)) ∨ ∃ j, ∀ i, IsZero (m i j)) →
      (IsZero (det2 m) ∨ det2 m = .nan) ∧ (UpTo k m → 2 * k + 1 ≤ F.emax → IsZero (det2 m))) ∧
    (∀ m : Mat (IVal F) 3 3, ((∃ i, ∀ j, IsZero (m i j)) ∨ ∃ j, ∀ i, IsZero (m i j)) →
      (IsZero (det3 m) ∨ det3 m = .nan) ∧ (UpTo k m → 3 * k + 3 ≤ F.emax → IsZero (det3 m))) ∧
    (∀ m : Mat (IVal F) 4 4, ((∃ i, ∀ j, IsZero (m i j)) ∨ ∃ j, ∀ i, IsZero (m i j)) →
      (IsZero (det4 m) ∨ det4 m = .nan) ∧ (UpTo k m → 4 * k + 6 ≤ F.emax → IsZero (det4 m))) := by
  obtain ⟨f2, f3, f4⟩ := ieee_det_finite (F := F) k h0
  have e2 : ∀ m : Mat (IVal F) 2 2, ((∃ i, ∀ j, IsZero (m i j)) ∨ ∃ j, ∀ i, IsZero (m i j)) → ZN (det2 m) := by
    rintro m (⟨i, h⟩ | ⟨j, h⟩)
    · unfold det2; fin_cases i <;> find_zero h
    · unfold det2; fin_cases j <;> find_zero h
  have e3 : ∀ m : Mat (IVal F) 3 3, ((∃ i, ∀ j, IsZero (m i j)) ∨ ∃ j, ∀ i, IsZero (m i j)) → ZN (det3 m) := by
    rintro m (⟨i, h⟩ | ⟨j, h⟩)
    · unfold det3; fin_cases i <;> find_zero h
    · unfold det3; fin_cases j <;> find_zero h
  have e4 : ∀ m : Mat (IVal F) 4 4, ((∃ i, ∀ j, IsZero (m i j)) ∨ ∃ j, ∀ i, IsZero (m i j)) → ZN (det4 m) := by
    rintro m (⟨i, h⟩ | ⟨j, h⟩)
    · unfold det4; fin_cases i <;> find_zero h
    · unfold det4; fin_cases j <;> find_zero h
  exact ⟨fun m h => ⟨e2 m h, fun u hk => IsZero.of_zn (e2 m h) (f2 m u hk)⟩,
    fun m h => ⟨e3 m h, fun u hk => IsZero.of_zn (e3 m h) (f3 m u hk)⟩,
    fun m h => ⟨e4 m h, fun u hk => IsZero.of_zn (e4 m h) (f4 m u hk)⟩⟩

/-- C140. Two equal rows: exactly zero only if they are the two rows of a 2x2 matrix or the last two rows of a
larger one. -/
theorem ieee_det_equal_rows_partial (k : ℤ) (h0 : 0 ≤ k) :
    (∀ m : Mat (IVal F) 2 2, (∀ i, m i 0 = m i 1) →
      (IsZero (det2 m) ∨ det2 m = .nan) ∧ (UpTo k m → 2 * k + 1 ≤ F.emax → IsZero (det2 m))) ∧
    (∀ m : Mat (IVal F) 3 3, (∀ i, m i 1 = m i 2) →
      (IsZero (det3 m) ∨ det3 m = .nan) ∧ (UpTo k m → 3 * k + 3 ≤ F.emax → IsZero (det3 m))) ∧
    (∀ m : Mat (IVal F) 4 4, (∀ i, m i 2 = m i 3) →
      (IsZero (det4 m) ∨ det4 m = .nan) ∧ (UpTo k m → 4 * k + 6 ≤ F.emax → IsZero (det4 m))) := by
  obtain ⟨f2, f3, f4⟩ := ieee_det_finite (F := F) k h0
  have zc : ∀ a b : IVal F, ZN (a * b - b * a) := fun a b => by rw [mulComm b a]; exact zn_self _
  have e2 : ∀ m : Mat (IVal F) 2 2, (∀ i, m i 0 = m i 1) → ZN (det2 m) := by
    intro m h; unfold det2; rw [h 0, h 1]; exact zc _ _
  have e3 : ∀ m : Mat (IVal F) 3 3, (∀ i, m i 1 = m i 2) → ZN (det3 m) := by
    intro m h; unfold det3; rw [h 0, h 1, h 2]
    exact zn_add (zn_sub (zn_mulR _ (zc _ _)) (zn_mulR _ (zc _ _))) (zn_mulR _ (zc _ _))
  have e4 : ∀ m : Mat (IVal F) 4 4, (∀ i, m i 2 = m i 3) → ZN (det4 m) := by
    intro m h; unfold det4; rw [h 0, h 1, h 2, h 3]
    have t : ∀ a b c d x y x' y' x'' y'' : IVal F,
        ZN (a * (b * (x * y - y * x) - c * (x' * y' - y' * x') + d * (x'' * y'' - y'' * x''))) :=
      fun a b c d x y x' y' x'' y'' =>
        zn_mulR _ (zn_add (zn_sub (zn_mulR _ (zc _ _)) (zn_mulR _ (zc _ _))) (zn_mulR _ (zc _ _)))
    exact zn_sub (zn_add (zn_sub (t ..) (t ..)) (t ..)) (t ..)
  exact ⟨fun m h => ⟨e2 m h, fun u hk => IsZero.of_zn (e2 m h) (f2 m u hk)⟩,
    fun m h => ⟨e3 m h, fun u hk => IsZero.of_zn (e3 m h) (f3 m u hk)⟩,
    fun m h => ⟨e4 m h, fun u hk => IsZero.of_zn (e4 m h) (f4 m u hk)⟩⟩

/-! ### The exceptions -/

/-- The values met in the counterexamples: 0, ±1, ±ε with 1 + ε rounded to 1; `bad` is any other. -/
inductive Tok
  | z | p1 | m1 | pe | me | bad
  deriving DecidableEq

namespace Tok

/-- The opposite. -/
def neg : Tok → Tok
  | z => z | p1 => m1 | m1 => p1 | pe => me | me => pe | bad => bad

/-- The sum. -/
def add : Tok → Tok → Tok
  | z, x => x
  | x, z => x
  | p1, m1 => z | m1, p1 => z | pe, me => z | me, pe => z
  | p1, pe => p1 | pe, p1 => p1 | m1, me => m1 | me, m1 => m1
  | _, _ => bad

/-- The product. -/
def mul : Tok → Tok → Tok
  | bad, _ => bad
  | _, bad => bad
  | z, _ => z
  | _, z => z
  | p1, x => x
  | m1, x => x.neg
  | x, p1 => x
  | x, m1 => x.neg
  | _, _ => bad

instance : Add Tok := ⟨add⟩
instance : Sub Tok := ⟨fun a b => add a b.neg⟩
instance : Mul Tok := ⟨mul⟩

end Tok

/-- A quarter of the distance from 1 to the next number. -/
noncomputable def eps (F : Format) : ℝ := 2 ^ (-(F.p : ℤ) - 1)

theorem eps_pos : 0 < eps F := by unfold eps; positivity

theorem eps_rep : F.Rep (eps F) :=
  F.pow_Rep (by unfold Format.grid Format.emin; have := F.hemax; have := F.hp; omega)
    (by have := F.emax_ge; omega)

theorem eps_le : eps F ≤ 1 := by
  have := zpow_le_zpow_right₀ (by norm_num : (1 : ℝ) ≤ 2) (show -(F.p : ℤ) - 1 ≤ 0 by omega)
  rw [zpow_zero] at this; exact this

theorem rnd_one_eps : F.rnd (1 + eps F) = 1 := by
  have e0 := eps_pos (F := F)
  have e1 : (2 : ℝ) ^ ((0 : ℤ) - (F.p - 1)) = 4 * eps F := by
    unfold eps
    rw [show (0 : ℤ) - (F.p - 1) = (-(F.p : ℤ) - 1) + 2 by ring, zpow_add₀ (by norm_num)]; norm_num; ring
  have e2 : ((2 ^ (F.p - 1) : ℤ) : ℝ) * 2 ^ ((0 : ℤ) - (F.p - 1)) = 1 := by
    push_cast
    rw [← zpow_natCast, ← zpow_add₀ (by norm_num),
      show ((F.p - 1 : ℕ) : ℤ) + (0 - (F.p - 1)) = 0 by have := F.p_pos; omega, zpow_zero]
  have e3 : eps F < 1 := by
    have := zpow_lt_zpow_right₀ (by norm_num : (1 : ℝ) < 2) (show -(F.p : ℤ) - 1 < 0 by omega)
    simpa [eps] using this
  have := rnd_eq_of_near (F := F) (x := 1 + eps F) (e := 0) (m := 2 ^ (F.p - 1))
    (by unfold Format.emin; have := F.emax_ge; omega) (by rw [zpow_zero]; linarith) (by norm_num; linarith)
    (by rw [e2, e1, show 1 + eps F - 1 = eps F by ring, abs_of_pos e0]; linarith)
  rw [this, e2]

theorem one_add_eps : IVal.num 1 F.one_Rep + .num (eps F) eps_rep = .num 1 F.one_Rep := by
  change ofReal F false (1 + eps F) = _
  have h := rnd_one_eps (F := F)
  have h0 : F.rnd (1 + eps F) ≠ 0 := by rw [h]; norm_num
  have h1 : |F.rnd (1 + eps F)| ≤ F.largest := by rw [h]; exact F.one_Rep.2.2
  exact ((dif_neg h0).trans (dif_pos h1)).trans (num_congr h)

/-- What a token stands for. -/
noncomputable def Tok.val : Tok → IVal F
  | .z => 0 | .p1 => 1 | .m1 => -1 | .pe => .num (eps F) eps_rep | .me => -.num (eps F) eps_rep | .bad => .nan

/-- The value is that of the token, the sign of zeros aside. -/
def Tok.Is (t : Tok) (x : IVal F) : Prop := t = .bad ∨ Same x t.val

theorem Tok.is_neg {t : Tok} {x : IVal F} (h : t.Is x) : t.neg.Is (-x) := by
  rcases h with rfl | h
  · exact Or.inl rfl
  · right
    refine Same.trans (Same.neg h) ?_
    cases t
    · exact Or.inr ⟨_, _, rfl, rfl⟩
    · exact Or.inl rfl
    · exact Or.inl (negNeg _)
    · exact Or.inl rfl
    · exact Or.inl (negNeg _)
    · exact Or.inl rfl

theorem Tok.val_add (t u : Tok) (h : t.add u ≠ .bad) : Same (t.val + u.val) ((t.add u).val (F := F)) := by
  have c1 : ∀ (x : ℝ) (hx : F.Rep x), Same (IVal.num x hx + -.num x hx) 0 := by
    intro x hx
    right; refine ⟨false, false, ?_, rfl⟩
    change ofReal F false (x + -x) = _
    rw [_root_.add_neg_cancel, ofReal_zero]
  have c2 : ∀ (x : ℝ) (hx : F.Rep x), Same (-IVal.num x hx + .num x hx) 0 := by
    intro x hx; rw [addComm]; exact c1 x hx
  have o1 := one_add_eps (F := F)
  have o2 : -IVal.num 1 F.one_Rep + -.num (eps F) eps_rep = -IVal.num 1 F.one_Rep := by
    have h1 : IVal.num 1 F.one_Rep + .num (eps F) eps_rep = ofReal F false (1 + eps F) := rfl
    rw [o1] at h1
    change ofReal F false (-1 + -eps F) = _
    rw [← neg_add, ofReal_neg (by have := eps_pos (F := F); linarith), ← h1]
  match t, u, h with
  | .z, .z, _ => exact Or.inr ⟨_, _, rfl, rfl⟩
  | .z, .p1, _ => exact Or.inl rfl
  | .z, .m1, _ => exact Or.inl rfl
  | .z, .pe, _ => exact Or.inl rfl
  | .z, .me, _ => exact Or.inl rfl
  | .z, .bad, h => exact absurd rfl h
  | .p1, .z, _ => exact Or.inl rfl
  | .p1, .p1, h => exact absurd rfl h
  | .p1, .m1, _ => exact c1 _ _
  | .p1, .pe, _ => exact Or.inl o1
  | .p1, .me, h => exact absurd rfl h
  | .p1, .bad, h => exact absurd rfl h
  | .m1, .z, _ => exact Or.inl rfl
  | .m1, .p1, _ => exact c2 _ _
  | .m1, .m1, h => exact absurd rfl h
  | .m1, .pe, h => exact absurd rfl h
  | .m1, .me, _ => exact Or.inl o2
  | .m1, .bad, h => exact absurd rfl h
  | .pe, .z, _ => exact Or.inl rfl
  | .pe, .p1, _ => exact Or.inl ((addComm _ _).trans o1)
  | .pe, .m1, h => exact absurd rfl h
  | .pe, .pe, h => exact absurd rfl h
  | .pe, .me, _ => exact c1 _ _
  | .pe, .bad, h => exact absurd rfl h
  | .me, .z, _ => exact Or.inl rfl
  | .me, .p1, h => exact absurd rfl h
  | .me, .m1, _ => exact Or.inl ((addComm _ _).trans o2)
  | .me, .pe, _ => exact c2 _ _
  | .me, .me, h => exact absurd rfl h
  | .me, .bad, h => exact absurd rfl h
  | .bad, .z, h => exact absurd rfl h
  | .bad, .p1, h => exact absurd rfl h
  | .bad, .m1, h => exact absurd rfl h
  | .bad, .pe, h => exact absurd rfl h
  | .bad, .me, h => exact absurd rfl h
  | .bad, .bad, h => exact absurd rfl h

theorem Tok.is_add {t u : Tok} {x y : IVal F} (h : t.Is x) (h' : u.Is y) : (t + u).Is (x + y) := by
  by_cases hb : t.add u = .bad
  · exact Or.inl hb
  have ht : t ≠ .bad := by rintro rfl; cases u <;> exact hb rfl
  have hu : u ≠ .bad := by rintro rfl; cases t <;> exact hb rfl
  right
  exact Same.trans (Same.add (h.resolve_left ht) (h'.resolve_left hu)) (Tok.val_add t u hb)

theorem Tok.is_sub {t u : Tok} {x y : IVal F} (h : t.Is x) (h' : u.Is y) : (t - u).Is (x - y) :=
  Tok.is_add h (Tok.is_neg h')

theorem Tok.val_mul (t u : Tok) (h : t.mul u ≠ .bad) : Same (t.val * u.val) ((t.mul u).val (F := F)) := by
  have one1 : ∀ x : IVal F, Same (1 * x) x := fun x => by rw [mulComm, mulOne]; exact Or.inl rfl
  have one2 : ∀ x : IVal F, Same (x * 1) x := fun x => by rw [mulOne]; exact Or.inl rfl
  have neg1 : ∀ x : IVal F, Same (x * -1) (-x) := fun x => by rw [mulNeg, mulOne]; exact Or.inl rfl
  have neg2 : ∀ x : IVal F, Same (-1 * x) (-x) := fun x => by rw [mulComm]; exact neg1 x
  have nn : ∀ x : IVal F, Same (-x * -1) x := fun x => by rw [mulNeg, mulOne, negNeg]; exact Or.inl rfl
  have nn2 : ∀ x : IVal F, Same (-1 * -x) x := fun x => by rw [mulComm]; exact nn x
  cases t <;> cases u <;> first
    | exact absurd rfl h
    | exact Or.inr ⟨_, _, rfl, rfl⟩
    | exact one1 _
    | exact one2 _
    | exact nn _
    | exact nn2 _
    | exact neg1 _
    | exact neg2 _

theorem Tok.is_mul {t u : Tok} {x y : IVal F} (h : t.Is x) (h' : u.Is y) : (t * u).Is (x * y) := by
  by_cases hb : t.mul u = .bad
  · exact Or.inl hb
  have ht : t ≠ .bad := by rintro rfl; cases u <;> exact hb rfl
  have hu : u ≠ .bad := by rintro rfl; cases t <;> exact hb rfl
  right
  refine Same.trans ?_ (Tok.val_mul t u hb)
  refine Same.trans (Same.mulL x (h'.resolve_left hu)) ?_
  rw [mulComm x, mulComm t.val]; exact Same.mulL _ (h.resolve_left ht)

/-- The matrix the tokens stand for. -/
noncomputable def tokMat {c r : Nat} (m : Mat Tok c r) : Mat (IVal F) c r := fun i j => (m i j).val

theorem is_val (t : Tok) : t.Is (t.val (F := F)) := Or.inr (Or.inl rfl)

theorem tok_det3 (m : Mat Tok 3 3) : (det3 m).Is (det3 (tokMat (F := F) m)) := by
  unfold det3
  repeat' first
    | with_reducible apply Tok.is_add
    | with_reducible apply Tok.is_sub
    | with_reducible apply Tok.is_mul
    | exact is_val _

theorem tok_det4 (m : Mat Tok 4 4) : (det4 m).Is (det4 (tokMat (F := F) m)) := by
  unfold det4
  repeat' first
    | with_reducible apply Tok.is_add
    | with_reducible apply Tok.is_sub
    | with_reducible apply Tok.is_mul
    | exact is_val _

theorem tok_upTo {c r : Nat} (m : Mat Tok c r) (h : ∀ i j, m i j ≠ .bad) : UpTo 0 (tokMat (F := F) m) := by
  intro i j
  have e0 := eps_pos (F := F)
  have e1 := eps_le (F := F)
  have hb := h i j
  unfold tokMat
  rw [zpow_zero]
  cases hm : m i j
  · exact ⟨trivial, by change |(0 : ℝ)| ≤ 1; simp⟩
  · exact ⟨trivial, by change |(1 : ℝ)| ≤ 1; simp⟩
  · exact ⟨trivial, by change |(-1 : ℝ)| ≤ 1; simp⟩
  · exact ⟨trivial, by change |eps F| ≤ 1; rw [abs_of_pos e0]; exact e1⟩
  · exact ⟨trivial, by change |-eps F| ≤ 1; rw [abs_neg, abs_of_pos e0]; exact e1⟩
  · exact absurd hm hb

theorem tok_nonzero {t : Tok} {x : IVal F} (h : t.Is x) (ht : t = .pe ∨ t = .me) : x.Finite ∧ x.toReal ≠ 0 := by
  have e0 := eps_pos (F := F)
  rcases ht with rfl | rfl
  · rcases h with h | h | ⟨s, u, _, h⟩
    · cases h
    · rw [h]; exact ⟨trivial, e0.ne'⟩
    · cases h
  · rcases h with h | h | ⟨s, u, _, h⟩
    · cases h
    · rw [h]; exact ⟨trivial, neg_ne_zero.mpr e0.ne'⟩
    · cases h

open Tok in
/-- C140, the exceptions for columns: in every format there are 4x4 matrices with entries up to 1 whose columns
0 and 3 — or 1 and 3 — are equal and whose determinant is not zero. -/
theorem ieee_det_equal_columns_wrong :
    (∃ m : Mat (IVal F) 4 4, m 0 = m 3 ∧ UpTo 0 m ∧ (det4 m).Finite ∧ (det4 m).toReal ≠ 0) ∧
    ∃ m : Mat (IVal F) 4 4, m 1 = m 3 ∧ UpTo 0 m ∧ (det4 m).Finite ∧ (det4 m).toReal ≠ 0 := by
  refine ⟨⟨tokMat ![![p1, p1, z, p1], ![z, p1, p1, z], ![z, p1, p1, pe], ![p1, p1, z, p1]], rfl,
      tok_upTo _ (by decide), tok_nonzero (tok_det4 _) (by decide)⟩,
    ⟨tokMat ![![z, p1, p1, z], ![p1, p1, z, p1], ![z, p1, p1, pe], ![p1, p1, z, p1]], rfl,
      tok_upTo _ (by decide), tok_nonzero (tok_det4 _) (by decide)⟩⟩

open Tok in
/-- C140, the exceptions for rows: for every other pair of rows of a 3x3 or 4x4 matrix there is one with entries
up to 1 in which they are equal and whose determinant is not zero. -/
theorem ieee_det_equal_rows_wrong :
    (∀ j j' : Fin 3, j < j' → ¬(j = 1 ∧ j' = 2) →
      ∃ m : Mat (IVal F) 3 3, (∀ i, m i j = m i j') ∧ UpTo 0 m ∧ (det3 m).Finite ∧ (det3 m).toReal ≠ 0) ∧
    ∀ j j' : Fin 4, j < j' → ¬(j = 2 ∧ j' = 3) →
      ∃ m : Mat (IVal F) 4 4, (∀ i, m i j = m i j') ∧ UpTo 0 m ∧ (det4 m).Finite ∧ (det4 m).toReal ≠ 0 := by
  have w3 : ∀ (m : Mat Tok 3 3) (j j' : Fin 3), (∀ i, m i j = m i j') → (∀ i j, m i j ≠ .bad) →
      (det3 m = .pe ∨ det3 m = .me) →
      ∃ m : Mat (IVal F) 3 3, (∀ i, m i j = m i j') ∧ UpTo 0 m ∧ (det3 m).Finite ∧ (det3 m).toReal ≠ 0 :=
    fun m j j' h1 h2 h3 => ⟨tokMat m, fun i => congrArg Tok.val (h1 i), tok_upTo m h2, tok_nonzero (tok_det3 m) h3⟩
  have w4 : ∀ (m : Mat Tok 4 4) (j j' : Fin 4), (∀ i, m i j = m i j') → (∀ i j, m i j ≠ .bad) →
      (det4 m = .pe ∨ det4 m = .me) →
      ∃ m : Mat (IVal F) 4 4, (∀ i, m i j = m i j') ∧ UpTo 0 m ∧ (det4 m).Finite ∧ (det4 m).toReal ≠ 0 :=
    fun m j j' h1 h2 h3 => ⟨tokMat m, fun i => congrArg Tok.val (h1 i), tok_upTo m h2, tok_nonzero (tok_det4 m) h3⟩
  constructor
  · intro j j' h1 h2
    have : (j = 0 ∧ j' = 1) ∨ (j = 0 ∧ j' = 2) := by revert j j'; decide
    rcases this with ⟨rfl, rfl⟩ | ⟨rfl, rfl⟩
    · exact w3 ![![p1, p1, z], ![p1, p1, pe], ![p1, p1, m1]] _ _ (by decide) (by decide) (by decide)
    · exact w3 ![![p1, z, p1], ![p1, pe, p1], ![p1, m1, p1]] _ _ (by decide) (by decide) (by decide)
  · intro j j' h1 h2
    have : (j = 0 ∧ j' = 1) ∨ (j = 0 ∧ j' = 2) ∨ (j = 0 ∧ j' = 3) ∨ (j = 1 ∧ j' = 2) ∨ (j = 1 ∧ j' = 3) := by
      revert j j'; decide
    rcases this with ⟨rfl, rfl⟩ | ⟨rfl, rfl⟩ | ⟨rfl, rfl⟩ | ⟨rfl, rfl⟩ | ⟨rfl, rfl⟩
    · exact w4 ![![p1, p1, z, z], ![p1, p1, pe, z], ![p1, p1, m1, z], ![z, z, z, p1]] _ _ (by decide) (by decide) (by decide)
    · exact w4 ![![p1, z, p1, z], ![p1, pe, p1, z], ![p1, m1, p1, z], ![z, z, z, p1]] _ _ (by decide) (by decide) (by decide)
    · exact w4 ![![p1, z, z, p1], ![z, p1, z, z], ![p1, z, pe, p1], ![p1, z, m1, p1]] _ _ (by decide) (by decide) (by decide)
    · exact w4 ![![p1, z, z, z], ![z, p1, p1, z], ![z, p1, p1, pe], ![z, p1, p1, m1]] _ _ (by decide) (by decide) (by decide)
    · exact w4 ![![p1, z, z, z], ![z, p1, z, p1], ![z, p1, pe, p1], ![z, p1, m1, p1]] _ _ (by decide) (by decide) (by decide)

/-- C140. The bound on the entries is needed: with two equal columns of large finite numbers the determinant of a
2x2 matrix is ∞ − ∞, NaN. -/
theorem ieee_det_overflow_wrong :
    ∃ m : Mat (IVal F) 2 2, m 0 = m 1 ∧ (∀ i j, (m i j).Finite) ∧ det2 m = .nan := by
  have hr : F.Rep (2 ^ F.emax) := F.pow_Rep (by have := F.grid_neg; have := F.emax_ge; omega) le_rfl
  refine ⟨fun _ _ => .num _ hr, rfl, fun _ _ => trivial, ?_⟩
  have big : F.largest < 2 ^ (2 * F.emax) := by
    unfold Format.largest
    have h1 : (0 : ℝ) < 2 ^ (1 - (F.p : ℤ)) := by positivity
    have h2 : (0 : ℝ) < 2 ^ F.emax := by positivity
    have h3 : (2 : ℝ) ≤ 2 ^ F.emax := by
      have := zpow_le_zpow_right₀ (by norm_num : (1 : ℝ) ≤ 2) (show (1 : ℤ) ≤ F.emax by have := F.emax_ge; omega)
      simpa using this
    rw [two_mul, zpow_add₀ (by norm_num)]
    nlinarith
  have hm : IVal.num _ hr * IVal.num _ hr = .inf false := by
    change ofReal F false (2 ^ F.emax * 2 ^ F.emax) = _
    rw [← zpow_add₀ (by norm_num), ← two_mul]
    have he : F.rnd (2 ^ (2 * F.emax)) = 2 ^ (2 * F.emax) :=
      F.pow_rep (by have := F.grid_neg; have := F.emax_ge; omega)
    have hp : (0 : ℝ) < 2 ^ (2 * F.emax) := by positivity
    have h0 : F.rnd (2 ^ (2 * F.emax)) ≠ 0 := by rw [he]; exact hp.ne'
    have h1 : ¬|F.rnd (2 ^ (2 * F.emax))| ≤ F.largest := by
      rw [he, abs_of_pos hp]; exact not_le.mpr big
    have e : ofReal F false (2 ^ (2 * F.emax)) = .inf (decide ((2 : ℝ) ^ (2 * F.emax) < 0)) :=
      (dif_neg h0).trans (dif_neg h1)
    rw [e, decide_eq_false (not_lt.mpr hp.le)]
  unfold det2
  change IVal.num _ hr * IVal.num _ hr - IVal.num _ hr * IVal.num _ hr = _
  rw [hm]; rfl

open Tok in
/-- The hypotheses can be met: `float` matrices with equal columns and entries 0, 1 and 2^-25, some of whose
products round. -/
example : ∃ m : Mat (IVal .binary32) 4 4, m 0 = m 2 ∧ UpTo 30 m ∧ (4 * 30 + 6 : ℤ) ≤ Format.binary32.emax ∧
    (∃ i j, (m i j).toReal ≠ 0) ∧ IsZero (det4 m) := by
  have h : (tokMat ![![p1, pe, m1, p1], ![z, p1, p1, z], ![p1, pe, m1, p1], ![p1, p1, z, p1]] : Mat (IVal .binary32) 4 4) 0 =
      (tokMat ![![p1, pe, m1, p1], ![z, p1, p1, z], ![p1, pe, m1, p1], ![p1, p1, z, p1]] : Mat (IVal .binary32) 4 4) 2 := rfl
  have u := tok_upTo (F := .binary32)
    (![![p1, pe, m1, p1], ![z, p1, p1, z], ![p1, pe, m1, p1], ![p1, p1, z, p1]] : Mat Tok 4 4) (by decide)
  have u' : UpTo 30 (tokMat (F := .binary32)
      (![![p1, pe, m1, p1], ![z, p1, p1, z], ![p1, pe, m1, p1], ![p1, p1, z, p1]] : Mat Tok 4 4)) :=
    fun i j => ⟨(u i j).1, (u i j).2.trans (zpow_le_zpow_right₀ (by norm_num) (by norm_num))⟩
  refine ⟨_, h, u', by decide, ⟨0, 0, one_ne_zero⟩, ?_⟩
  exact ((ieee_det_equal_columns_partial (F := .binary32) 30 (by norm_num)).2.2 _ (Or.inr (Or.inr (Or.inr h)))).2 u'
    (by decide)

end Verif.Math
