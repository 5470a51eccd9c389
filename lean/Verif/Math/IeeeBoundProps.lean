import Verif.Math.IeeeAxisProps
import Verif.Math.IeeeSpecialProps

/-!
C133. Lengths and unit vectors in floating point: although every step rounds, a longer vector never has a
shorter computed length, and — while the sum of the squares does not underflow — no component is longer than
the computed length and no component of a normalized vector is outside [-1, 1].
-/

set_option autoImplicit false

namespace Verif.Math

open IVal

variable {F : Format} {n : Nat}

/-! ### What the statements say -/

/-- `x` is no larger in magnitude than `y`, as `std::abs(x) <= std::abs(y)` says it: false when one is NaN. -/
def MagLe (x y : IVal F) : Prop :=
  (x ≠ .nan ∧ ∃ s, y = .inf s) ∨ (x.Finite ∧ y.Finite ∧ |x.toReal| ≤ |y.toReal|)

/-! ### Values that are not negative, in order -/

/-- No larger, for values that are not negative. -/
def Up (a b : IVal F) : Prop := b = .inf false ∨ (a.Finite ∧ b.Finite ∧ a.toReal ≤ b.toReal)

theorem ofReal_cases {z : ℝ} (h : 0 ≤ z) :
    ((ofReal F false z).Is (F.rnd z) ∧ F.rnd z ≤ F.largest) ∨
    (ofReal F false z = .inf false ∧ F.largest < F.rnd z) := by
  have hd : decide (z < 0) = false := by simp [h]
  have hr := F.rnd_nonneg h
  have hl : (0 : ℝ) ≤ F.largest := le_trans (by positivity) (F.pow_le_largest (le_refl F.emax))
  by_cases h0 : F.rnd z = 0
  · have e1 : ofReal F false z = .zero (if z = 0 then false else decide (z < 0)) := dif_pos h0
    rw [e1, h0]
    exact Or.inl ⟨⟨trivial, rfl⟩, hl⟩
  · by_cases h2 : |F.rnd z| ≤ F.largest
    · have e1 : ofReal F false z = .num (F.rnd z) ⟨h0, F.rnd_idem z, h2⟩ := (dif_neg h0).trans (dif_pos h2)
      rw [e1]
      exact Or.inl ⟨⟨trivial, rfl⟩, by rwa [abs_of_nonneg hr] at h2⟩
    · have e1 : ofReal F false z = .inf (decide (z < 0)) := (dif_neg h0).trans (dif_neg h2)
      rw [e1, hd]
      exact Or.inr ⟨rfl, by rw [abs_of_nonneg hr] at h2; exact not_le.mp h2⟩

theorem up_ofReal {x y : ℝ} (h0 : 0 ≤ x) (h : x ≤ y) : Up (ofReal F false x) (ofReal F false y) := by
  have hm := F.rnd_mono h
  rcases ofReal_cases (F := F) (h0.trans h) with ⟨⟨f1, v1⟩, l1⟩ | ⟨e, -⟩
  · rcases ofReal_cases (F := F) h0 with ⟨⟨f2, v2⟩, -⟩ | ⟨-, l2⟩
    · exact Or.inr ⟨f2, f1, by rw [v1, v2]; exact hm⟩
    · linarith
  · exact Or.inl e

theorem Up.refl {a : IVal F} (h : NonNeg a) : Up a a := by
  rcases h with h | ⟨f, -, -⟩
  · exact Or.inl h
  · exact Or.inr ⟨f, f, le_rfl⟩

theorem Up.trans {a b c : IVal F} (h1 : Up a b) (h2 : Up b c) : Up a c := by
  rcases h2 with h2 | ⟨f2, f3, l2⟩
  · exact Or.inl h2
  · rcases h1 with rfl | ⟨f1, -, l1⟩
    · exact f2.elim
    · exact Or.inr ⟨f1, f3, l1.trans l2⟩

theorem add_ofReal {a b : IVal F} (ha : NonNeg a) (hb : NonNeg b) (fa : a.Finite) (fb : b.Finite) :
    a + b = ofReal F false (a.toReal + b.toReal) := by
  cases a with
  | nan => exact fa.elim
  | inf s => exact fa.elim
  | zero s =>
    rcases ha with h | ⟨-, -, hs⟩
    · cases h
    cases s with
    | true => exact absurd rfl hs
    | false =>
      change 0 + b = ofReal F false (0 + b.toReal)
      rw [IVal.zero_add hb, _root_.zero_add]
      cases b with
      | nan => exact fb.elim
      | inf t => exact fb.elim
      | zero t =>
        rcases hb with h | ⟨-, -, ht⟩
        · cases h
        cases t with
        | true => exact absurd rfl ht
        | false => exact (ofReal_zero false).symm
      | num y hy => exact (ofReal_of_rep hy).symm
  | num x hx =>
    cases b with
    | nan => exact fb.elim
    | inf t => exact fb.elim
    | zero t =>
      change IVal.num x hx = ofReal F false (x + 0)
      rw [add_zero]; exact (ofReal_of_rep hx).symm
    | num y hy => rfl

theorem sq_ofReal {a : IVal F} (fa : a.Finite) : a * a = ofReal F false (a.toReal * a.toReal) := by
  cases a with
  | nan => exact fa.elim
  | inf s => exact fa.elim
  | zero s =>
    change IVal.zero (s ^^ s) = ofReal F false (0 * 0)
    rw [mul_zero, ofReal_zero, Bool.xor_self]
  | num x hx => rfl

theorem sqrt_ofReal {a : IVal F} (ha : NonNeg a) (fa : a.Finite) : a.sqrt = ofReal F false (√a.toReal) := by
  rcases ha with rfl | ⟨-, p, hs⟩
  · exact fa.elim
  cases a with
  | nan => exact fa.elim
  | inf s => exact fa.elim
  | zero s =>
    cases s with
    | true => exact absurd rfl hs
    | false =>
      change IVal.zero false = ofReal F false (√0)
      rw [Real.sqrt_zero, ofReal_zero]
  | num x hx => exact if_neg (not_lt.mpr p)

theorem nonneg_real {a : IVal F} (h : NonNeg a) : 0 ≤ a.toReal := by
  rcases h with rfl | ⟨-, h, -⟩
  · exact le_rfl
  · exact h

theorem Up.add {a b c d : IVal F} (ha : NonNeg a) (hb : NonNeg b) (hc : NonNeg c) (hd : NonNeg d)
    (h1 : Up a b) (h2 : Up c d) : Up (a + c) (b + d) := by
  rcases h1 with rfl | ⟨f1, f2, l1⟩
  · exact Or.inl (inf_add hd)
  · rcases h2 with rfl | ⟨f3, f4, l2⟩
    · exact Or.inl (by rw [addComm]; exact inf_add hb)
    · rw [add_ofReal ha hc f1 f3, add_ofReal hb hd f2 f4]
      exact up_ofReal (add_nonneg (nonneg_real ha) (nonneg_real hc)) (add_le_add l1 l2)

theorem Up.sqrt {a b : IVal F} (ha : NonNeg a) (hb : NonNeg b) (h : Up a b) : Up a.sqrt b.sqrt := by
  rcases h with rfl | ⟨f1, f2, l⟩
  · exact Or.inl rfl
  · rw [sqrt_ofReal ha f1, sqrt_ofReal hb f2]
    exact up_ofReal (Real.sqrt_nonneg _) (Real.sqrt_le_sqrt l)

theorem magLe_sq {x y : IVal F} (h : MagLe x y) : Up (x * x) (y * y) := by
  rcases h with ⟨-, s, rfl⟩ | ⟨f1, f2, l⟩
  · left; change IVal.inf (s ^^ s) = _; rw [Bool.xor_self]
  · rw [sq_ofReal f1, sq_ofReal f2]
    exact up_ofReal (mul_self_nonneg _) (abs_le_iff_mul_self_le.mp l)

theorem magLe_left {x y : IVal F} (h : MagLe x y) : x ≠ .nan := by
  rcases h with ⟨h, -⟩ | ⟨f, -, -⟩
  · exact h
  · rintro rfl; exact f

theorem magLe_right {x y : IVal F} (h : MagLe x y) : y ≠ .nan := by
  rcases h with ⟨-, s, rfl⟩ | ⟨-, f, -⟩
  · simp
  · rintro rfl; exact f

theorem Up.magLe {a b : IVal F} (ha : NonNeg a) (hb : NonNeg b) (h : Up a b) : MagLe a b := by
  rcases h with rfl | ⟨f1, f2, l⟩
  · exact Or.inl ⟨ha.ne_nan, false, rfl⟩
  · exact Or.inr ⟨f1, f2, by rwa [abs_of_nonneg (nonneg_real ha), abs_of_nonneg (nonneg_real hb)]⟩

theorem foldl_up (f g : Fin n → IVal F) (hf : ∀ i, NonNeg (f i)) (hg : ∀ i, NonNeg (g i)) (h : ∀ i, Up (f i) (g i)) :
    ∀ (l : List (Fin n)) (s t : IVal F), NonNeg s → NonNeg t → Up s t →
      Up (l.foldl (fun r i => r + f i) s) (l.foldl (fun r i => r + g i) t)
  | [], _, _, _, _, hst => hst
  | i :: l, _, _, hs, ht, hst =>
    foldl_up f g hf hg h l _ _ (hs.add (hf i)) (ht.add (hg i)) (Up.add hs ht (hf i) (hg i) hst (h i))

theorem up_zero {a : IVal F} (h : NonNeg a) : Up 0 a := by
  rcases h with rfl | ⟨f, p, -⟩
  · exact Or.inl rfl
  · exact Or.inr ⟨trivial, f, p⟩

theorem add_zero' {a : IVal F} (h : NonNeg a) : a + 0 = a := by rw [addComm]; exact IVal.zero_add h

theorem up_add_left {a b : IVal F} (ha : NonNeg a) (hb : NonNeg b) : Up a (a + b) := by
  have := Up.add ha ha nonneg_zero hb (Up.refl ha) (up_zero hb)
  rwa [add_zero' ha] at this

theorem up_add_right {a b : IVal F} (ha : NonNeg a) (hb : NonNeg b) : Up b (a + b) := by
  rw [addComm]; exact up_add_left hb ha

theorem foldl_up_ge (f : Fin n → IVal F) (hf : ∀ i, NonNeg (f i)) :
    ∀ (l : List (Fin n)) (s : IVal F), NonNeg s → Up s (l.foldl (fun r i => r + f i) s)
  | [], _, hs => Up.refl hs
  | i :: l, _, hs => (up_add_left hs (hf i)).trans (foldl_up_ge f hf l _ (hs.add (hf i)))

/-- No term is larger than the sum. -/
theorem term_le (f : Fin n → IVal F) (hf : ∀ i, NonNeg (f i)) (j : Fin n) :
    ∀ (l : List (Fin n)) (s : IVal F), NonNeg s → j ∈ l → Up (f j) (l.foldl (fun r i => r + f i) s)
  | i :: l, s, hs, h => by
    rw [List.foldl_cons]
    by_cases hij : i = j
    · rw [hij]; exact (up_add_right hs (hf j)).trans (foldl_up_ge f hf l _ (hs.add (hf j)))
    · exact term_le f hf j l _ (hs.add (hf i)) ((List.mem_cons.mp h).resolve_left (Ne.symm hij))

theorem sq_nonneg_of {a : IVal F} (h : a ≠ .nan) : NonNeg (a * a) := (IVal.sq_nonneg a).resolve_left h

theorem dot_self_nonneg (v : Vec (IVal F) n) (hv : ∀ i, v i ≠ .nan) : NonNeg (dot v v) :=
  foldl_nonneg (fun i => v i * v i) (fun i => sq_nonneg_of (hv i)) (List.finRange n) 0 nonneg_zero

/-- The number halfway between one and the next one up is rounded to one. -/
theorem rnd_one_add_u : F.rnd (1 + F.u) = 1 := by
  have hp := F.hp
  have hu : F.u = 2 ^ (-(F.p : ℤ)) := rfl
  have u0 := F.u_pos
  have u1 := F.u_le
  have hl : Int.log 2 |1 + F.u| = 0 := by
    rw [abs_of_pos (by linarith)]
    exact log_of_binade (by norm_num; exact u0.le) (by norm_num; linarith)
  have hpl : F.place (1 + F.u) = -((F.p : ℤ) - 1) := by
    unfold Format.place
    rw [hl, max_eq_left (by unfold Format.emin; have := F.emax_ge; omega)]
    ring
  have hq : (1 + F.u) / 2 ^ (-((F.p : ℤ) - 1)) = ((2 ^ (F.p - 1) : ℤ) : ℝ) + 1 / 2 := by
    rw [zpow_neg _ ((F.p : ℤ) - 1), div_inv_eq_mul, add_mul, one_mul, hu, ← zpow_add₀ (by norm_num)]
    congr 1
    · push_cast
      rw [← zpow_natCast]
      congr 1
      omega
    · rw [show -(F.p : ℤ) + (F.p - 1) = -1 by ring]; norm_num
  have hfl : ⌊((2 ^ (F.p - 1) : ℤ) : ℝ) + 1 / 2⌋ = 2 ^ (F.p - 1) := by
    rw [Int.floor_eq_iff]; constructor <;> linarith
  have hfr : Int.fract (((2 ^ (F.p - 1) : ℤ) : ℝ) + 1 / 2) = 1 / 2 := by
    unfold Int.fract; rw [hfl]; ring
  have hev : Even (2 ^ (F.p - 1) : ℤ) := (Int.even_pow.mpr ⟨even_two, by omega⟩)
  have hr : rne (((2 ^ (F.p - 1) : ℤ) : ℝ) + 1 / 2) = 2 ^ (F.p - 1) := by
    unfold rne
    rw [hfr, if_neg (lt_irrefl _), if_neg (lt_irrefl _), hfl, if_pos hev]
  unfold Format.rnd
  rw [hpl, hq, hr]
  push_cast
  rw [← zpow_natCast, ← zpow_add₀ (by norm_num), show ((F.p - 1 : ℕ) : ℤ) + -((F.p : ℤ) - 1) = 0 by omega, zpow_zero]

/-! ### C133 -/

/-- C133. A vector whose components are no larger in magnitude than those of another has a computed `dot` with
itself and a computed `length` that are no larger: rounding cannot turn the order around. No assumption on
overflow or underflow. -/
theorem ieee_length_monotone [ILibm F] (v w : Vec (IVal F) n) (h : ∀ i, MagLe (v i) (w i)) :
    MagLe (dot v v) (dot w w) ∧ MagLe (length v) (length w) ∧ MagLe (lengthM v) (lengthM w) := by
  have hv := dot_self_nonneg v fun i => magLe_left (h i)
  have hw := dot_self_nonneg w fun i => magLe_right (h i)
  have hd : Up (dot v v) (dot w w) :=
    foldl_up (fun i => v i * v i) (fun i => w i * w i) (fun i => sq_nonneg_of (magLe_left (h i)))
      (fun i => sq_nonneg_of (magLe_right (h i))) (fun i => magLe_sq (h i)) (List.finRange n) 0 0 nonneg_zero nonneg_zero
      (Up.refl nonneg_zero)
  have hl : MagLe (length v) (length w) := (hd.sqrt hv hw).magLe (sqrt_nonneg' hv) (sqrt_nonneg' hw)
  exact ⟨hd.magLe hv hw, hl, by rw [lengthM_ieee, lengthM_ieee]; exact hl⟩

/-- The computed length is not less than a finite component, unless the sum of the squares underflows. -/
theorem up_length [ILibm F] (v : Vec (IVal F) n) (hv : ∀ i, v i ≠ .nan)
    (h : dot v v = .inf false ∨ F.tiny ≤ (dot v v).toReal) (i : Fin n) :
    length v = .inf false ∨
    ((v i).Finite ∧ (length v).Finite ∧ F.tiny ≤ (length v).toReal ∧ (length v).toReal ≤ 2 ^ (F.emax - 1) ∧
      |(v i).toReal| ≤ (length v).toReal) := by
  have ht := F.tiny_pos
  have hnn := dot_self_nonneg v hv
  have hup : Up (v i * v i) (dot v v) :=
    term_le (fun i => v i * v i) (fun i => sq_nonneg_of (hv i)) i (List.finRange n) 0 nonneg_zero (List.mem_finRange i)
  rw [length_sqrt]
  rcases hup with e | ⟨f1, f2, l⟩
  · rw [e]; exact Or.inl rfl
  right
  have fi : (v i).Finite := by
    cases hvi : v i with
    | nan => exact absurd hvi (hv i)
    | inf s => rw [hvi] at f1; exact f1
    | zero s => trivial
    | num x hx => trivial
  have hD : F.tiny ≤ (dot v v).toReal := by
    rcases h with h | h
    · rw [h] at f2; exact f2.elim
    · exact h
  have hDi := is_of_finite f2
  have hDl : (dot v v).toReal ≤ F.largest := (le_abs_self _).trans (is_le_largest hDi)
  have hs1 := sqrt_le_pow hDl
  have hs0 : F.tiny ≤ √(dot v v).toReal := sqrt_normal (Is.rep' hDi) (ht.trans_le hD)
  have hg := F.grid_neg
  have he := F.emax_ge
  have hr1 : F.rnd (√(dot v v).toReal) ≤ 2 ^ (F.emax - 1) := rnd_pow_le (by omega) hs1
  have hr0 : F.tiny ≤ F.rnd (√(dot v v).toReal) := F.rnd_normal_ge hs0
  have hL := sqrt_is' hDi (ht.le.trans hD) (by
    rw [abs_of_nonneg (ht.le.trans hr0)]
    exact hr1.trans (F.pow_le_largest (by omega)))
  refine ⟨fi, hL.1, by rw [hL.2]; exact hr0, by rw [hL.2]; exact hr1, ?_⟩
  rw [hL.2]
  have hxi := Is.rep' (is_of_finite fi)
  have hax : F.rnd |(v i).toReal| = |(v i).toReal| := by rw [← F.rnd_abs, hxi]
  by_cases hx0 : (v i).toReal = 0
  · rw [hx0, abs_zero]; exact ht.le.trans hr0
  by_cases hx : F.tiny ≤ (v i).toReal ^ 2
  · have he := sqrt_sq_exact hax (abs_pos.mpr hx0) (by rwa [sq_abs])
    rw [abs_mul_abs_self] at he
    rw [← he]
    apply F.rnd_mono
    apply Real.sqrt_le_sqrt
    have e := sq_ofReal fi
    rcases ofReal_cases (F := F) (mul_self_nonneg (v i).toReal) with ⟨⟨-, v1⟩, -⟩ | ⟨e2, -⟩
    · rw [← v1, ← e]; exact l
    · rw [e, e2] at f1; exact f1.elim
  · rw [← hax]
    apply F.rnd_mono
    apply Real.le_sqrt_of_sq_le
    rw [sq_abs]
    exact (not_le.mp hx).le.trans hD

/-- C133, the part that holds. No component is larger in magnitude than the computed length, and no component of
b − a than the computed distance of a and b, unless the sum of the squares — `dot(v, v)` as computed — is below the
smallest normal number. Overflow is no exception. -/
theorem ieee_component_le_length_partial [ILibm F] (v : Vec (IVal F) n) (hv : ∀ i, v i ≠ .nan)
    (h : dot v v = .inf false ∨ F.tiny ≤ (dot v v).toReal) (i : Fin n) :
    MagLe (v i) (length v) ∧ MagLe (v i) (lengthM v) ∧
    ∀ a b : Vec (IVal F) n, (∀ k, b k - a k = v k) → MagLe (b i - a i) (distance a b) := by
  have key : MagLe (v i) (length v) := by
    rcases up_length v hv h i with e | ⟨f1, f2, h0, -, hle⟩
    · exact Or.inl ⟨hv i, false, e⟩
    · exact Or.inr ⟨f1, f2, hle.trans (le_abs_self _)⟩
  refine ⟨key, by rw [lengthM_ieee]; exact key, fun a b hab => ?_⟩
  have : sub b a = v := funext fun k => by rw [sub_apply]; exact hab k
  unfold distance
  rw [this, lengthM_ieee, hab]
  exact key

/-- C133, the part that holds. Every component of `normalize(v)` for finite v is finite and in [-1, 1] — not above 1 by a rounding
error, so that `arccos` and `arcsin` of it are defined — unless the sum of the squares is below the smallest normal
number. -/
theorem ieee_normalize_bounded_partial [ILibm F] (v : Vec (IVal F) n) (hv : ∀ i, (v i).Finite)
    (h : dot v v = .inf false ∨ F.tiny ≤ (dot v v).toReal) (i : Fin n) :
    (normalize v i).Finite ∧ |(normalize v i).toReal| ≤ 1 ∧ (normalizeM v i).Finite ∧ |(normalizeM v i).toReal| ≤ 1 := by
  have key : (normalize v i).Finite ∧ |(normalize v i).toReal| ≤ 1 := by
    have ht := F.tiny_pos
    have hv' : ∀ i, v i ≠ .nan := fun i e => by have := hv i; rw [e] at this; exact this
    rw [normalize_ieee]
    rcases up_length v hv' h i with e | ⟨f1, f2, h0, h1, hle⟩
    · have hk : (1 : IVal F) / .inf false = .zero false := by
        change IVal.zero (decide ((1 : ℝ) < 0) ^^ false) = _
        rw [decide_eq_false (by norm_num)]; rfl
      rw [e, hk]
      have : (v i * IVal.zero false).Is (F.rnd ((v i).toReal * 0)) :=
        mul_is' (is_of_finite (hv i)) ⟨trivial, rfl⟩ (by
          rw [mul_zero, F.rnd_zero, abs_zero]
          exact le_trans (by positivity) (F.pow_le_largest (le_refl F.emax)))
      exact ⟨this.1, by rw [this.2, mul_zero, F.rnd_zero, abs_zero]; norm_num⟩
    · set L := (length v).toReal with hL
      set x := (v i).toReal with hx
      have hg := F.grid_neg
      have he := F.emax_ge
      have hL0 : 0 < L := ht.trans_le h0
      have hinv : 1 / L ≤ 2 ^ (F.emax - 1) := by
        rw [div_le_iff₀ hL0]
        calc (1 : ℝ) = 2 ^ (F.emax - 1) * F.tiny := by
              unfold Format.tiny Format.emin
              rw [← zpow_add₀ (by norm_num), show F.emax - 1 + (1 - F.emax) = 0 by ring, zpow_zero]
          _ ≤ 2 ^ (F.emax - 1) * L := by gcongr
      have hr0 : 0 ≤ F.rnd (1 / L) := F.rnd_nonneg (by positivity)
      have hr1 : F.rnd (1 / L) ≤ 2 ^ (F.emax - 1) := rnd_pow_le (by omega) hinv
      have hd : ((1 : IVal F) / length v).Is (F.rnd (1 / L)) :=
        div_is' (a := 1) (x := 1) ⟨trivial, rfl⟩ ⟨f2, rfl⟩ hL0.ne' (by
          rw [abs_of_nonneg hr0]; exact hr1.trans (F.pow_le_largest (by omega)))
      have hle1 : |F.rnd (x * F.rnd (1 / L))| ≤ 1 := by
        rw [F.rnd_abs, abs_mul, abs_of_nonneg hr0]
        by_cases hx0 : x = 0
        · rw [hx0, abs_zero, zero_mul, F.rnd_zero]; norm_num
        have hxp : 0 < |x| := abs_pos.mpr hx0
        have h2 : F.rnd (1 / L) ≤ F.rnd (1 / |x|) := F.rnd_mono (one_div_le_one_div_of_le hxp hle)
        have h3 : F.tiny ≤ abs (1 / |x|) := by
          rw [abs_of_pos (by positivity), le_div_iff₀ hxp]
          calc F.tiny * |x| ≤ F.tiny * 2 ^ (F.emax - 1) := by gcongr; exact hle.trans h1
            _ = 1 := by
              unfold Format.tiny Format.emin
              rw [← zpow_add₀ (by norm_num), show 1 - F.emax + (F.emax - 1) = 0 by ring, zpow_zero]
        have h4 := F.rnd_err_normal h3
        rw [abs_of_pos (show 0 < 1 / |x| by positivity)] at h4
        have h5 := (abs_le.mp h4).2
        refine le_trans (F.rnd_mono ?_) (rnd_one_add_u (F := F)).le
        calc |x| * F.rnd (1 / L) ≤ |x| * (1 / |x| + F.u * (1 / |x|)) := by gcongr; linarith
          _ = 1 + F.u := by field_simp
      have hm := mul_is' (is_of_finite f1) hd (by
        refine hle1.trans ?_
        have := F.pow_le_largest (k := 0) (by omega)
        rwa [zpow_zero] at this)
      exact ⟨hm.1, by rw [hm.2]; exact hle1⟩
  have e : normalizeM v i = normalize v i := by
    unfold normalizeM normalize; rw [lengthM_ieee]
  rw [e]
  exact ⟨key.1, key.2, key.1, key.2⟩

/-- C133, what is wrong: in every format with at least five digits (`float` has 24, `double` 53) and every
dimension there is a finite vector, not zero, whose length is computed as a finite number that is not zero, and
yet the first component is larger than that length and `normalize` returns 17/16 for it. -/
theorem ieee_normalize_bounded_wrong [ILibm F] (hp : 5 ≤ F.p) (m : Nat) :
    ∃ v : Vec (IVal F) (m + 1), (∀ i, (v i).Finite) ∧ (length v).Finite ∧ 0 < (length v).toReal ∧
      ¬MagLe (v 0) (length v) ∧ (normalize v 0).Finite ∧ (normalize v 0).toReal = 17 / 16 := by
  have hgd : F.grid = F.emin - (F.p - 1) := rfl
  have hed : F.emin = 1 - F.emax := rfl
  have hem := F.hemax
  obtain ⟨k, hk⟩ : ∃ k : ℤ, k + k = F.grid ∨ k + k = F.grid + 1 := by
    rcases Int.even_or_odd' F.grid with ⟨k, h | h⟩
    · exact ⟨k, Or.inl (by omega)⟩
    · exact ⟨k + 1, Or.inr (by omega)⟩
  have hpk : (0 : ℝ) < 2 ^ k := by positivity
  have hdig : ((17 * 2 ^ (F.p - 5) : ℤ) : ℝ) = 17 * 2 ^ ((F.p : ℤ) - 5) := by
    push_cast
    rw [← zpow_natCast]
    congr 2
    omega
  -- 17/16 times a power of two is representable
  have hrep : ∀ e : ℤ, F.emin ≤ e → F.rnd (17 / 16 * 2 ^ e) = 17 / 16 * 2 ^ e := by
    intro e he
    have hpe : (0 : ℝ) < 2 ^ e := by positivity
    have hx : ((17 * 2 ^ (F.p - 5) : ℤ) : ℝ) * 2 ^ (e - ((F.p : ℤ) - 1)) = 17 / 16 * 2 ^ e := by
      rw [hdig, mul_assoc, ← zpow_add₀ (by norm_num), show (F.p : ℤ) - 5 + (e - ((F.p : ℤ) - 1)) = e - 4 by ring,
        zpow_sub₀ (by norm_num)]
      norm_num
      ring
    rw [rnd_eq_of_near (m := 17 * 2 ^ (F.p - 5)) he (by linarith) (by rw [zpow_add_one₀ (by norm_num)]; linarith)
      (by rw [hx, sub_self, abs_zero]; positivity), hx]
  have hmax : ∀ e : ℤ, e ≤ F.emax - 1 → 17 / 16 * (2 : ℝ) ^ e ≤ F.largest := by
    intro e he
    refine le_trans ?_ (F.pow_le_largest (k := e + 1) (by omega))
    rw [zpow_add_one₀ (by norm_num)]
    have : (0 : ℝ) < 2 ^ e := by positivity
    linarith
  have hx0 : (0 : ℝ) < 17 / 16 * 2 ^ k := by positivity
  have hxR : F.Rep (17 / 16 * 2 ^ k) :=
    ⟨hx0.ne', hrep k (by omega), by rw [abs_of_pos hx0]; exact hmax k (by omega)⟩
  -- the square is rounded down to a power of two
  have hsq : F.rnd (17 / 16 * 2 ^ k * (17 / 16 * 2 ^ k)) = 2 ^ (k + k) := by
    have e1 : 17 / 16 * (2 : ℝ) ^ k * (17 / 16 * 2 ^ k) = 289 / 256 * 2 ^ (k + k) := by
      rw [zpow_add₀ (by norm_num)]; ring
    have hg0 : (0 : ℝ) < 2 ^ F.grid := by positivity
    have hlt : |289 / 256 * (2 : ℝ) ^ (k + k)| < F.tiny := by
      rw [abs_of_pos (by positivity)]
      have h1 : (2 : ℝ) ^ (k + k) ≤ 2 ^ (F.emin - 2) := zpow_le_zpow_right₀ (by norm_num) (by omega)
      have h2 : F.tiny = 2 ^ (F.emin - 2) * 4 := by
        unfold Format.tiny
        rw [show (4 : ℝ) = 2 ^ (2 : ℤ) by norm_num, ← zpow_add₀ (by norm_num), sub_add_cancel]
      have h3 : (0 : ℝ) < 2 ^ (F.emin - 2) := by positivity
      rw [h2]; linarith
    rw [e1, F.rnd_small hlt]
    rcases hk with h | h
    · have hr : rne (289 / 256 : ℝ) = 1 := by
        unfold rne
        have hf : ⌊(289 / 256 : ℝ)⌋ = 1 := by rw [Int.floor_eq_iff]; norm_num
        have hfr : Int.fract (289 / 256 : ℝ) = 33 / 256 := by unfold Int.fract; rw [hf]; norm_num
        rw [hfr, if_pos (by norm_num), hf]
      rw [h, mul_div_assoc, div_self hg0.ne', mul_one, hr]; norm_num
    · have hr : rne (289 / 128 : ℝ) = 2 := by
        unfold rne
        have hf : ⌊(289 / 128 : ℝ)⌋ = 2 := by rw [Int.floor_eq_iff]; norm_num
        have hfr : Int.fract (289 / 128 : ℝ) = 33 / 128 := by unfold Int.fract; rw [hf]; norm_num
        rw [hfr, if_pos (by norm_num), hf]
      rw [h, zpow_add_one₀ (by norm_num), show 289 / 256 * ((2 : ℝ) ^ F.grid * 2) / 2 ^ F.grid = 289 / 128 by
        field_simp; norm_num, hr]
      push_cast; ring
  set v : Vec (IVal F) (m + 1) := fun i => if i = 0 then .num (17 / 16 * 2 ^ k) hxR else 0 with hv
  have hv0 : v 0 = .num (17 / 16 * 2 ^ k) hxR := rfl
  have hvi : ∀ i, (v i).Finite := by
    intro i
    by_cases h : i = 0
    · rw [h, hv0]; trivial
    · rw [hv]; simp only [if_neg h]; trivial
  have hd : (dot v v).Is (2 ^ (k + k)) := by
    rw [axis_dot v 0 (fun i hi => ⟨false, by rw [hv]; simp only [if_neg hi]; rfl⟩) (by rw [hv0]; simp), hv0]
    have := mul_is' (F := F) (a := .num (17 / 16 * 2 ^ k) hxR) (b := .num (17 / 16 * 2 ^ k) hxR) ⟨trivial, rfl⟩
      ⟨trivial, rfl⟩ (by
        change |F.rnd (17 / 16 * 2 ^ k * (17 / 16 * 2 ^ k))| ≤ _
        rw [hsq, abs_of_pos (by positivity)]; exact F.pow_le_largest (by omega))
    change IVal.Is _ (F.rnd (17 / 16 * 2 ^ k * (17 / 16 * 2 ^ k))) at this
    rwa [hsq] at this
  have hroot : √((2 : ℝ) ^ (k + k)) = 2 ^ k := by
    rw [zpow_add₀ (by norm_num)]; exact Real.sqrt_mul_self hpk.le
  have hrk : F.rnd (2 ^ k) = 2 ^ k := F.pow_rep (by omega)
  have hL : (length v).Is (2 ^ k) := by
    have := sqrt_is' hd (by positivity) (by
      rw [hroot, hrk, abs_of_pos hpk]; exact F.pow_le_largest (by omega))
    rwa [hroot, hrk] at this
  have hinv : (1 : ℝ) / 2 ^ k = 2 ^ (-k) := by rw [zpow_neg, one_div]
  have hrk' : F.rnd (2 ^ (-k)) = 2 ^ (-k) := F.pow_rep (by omega)
  have hq : ((1 : IVal F) / length v).Is (2 ^ (-k)) := by
    have := div_is' (a := (1 : IVal F)) (x := 1) ⟨trivial, rfl⟩ hL hpk.ne' (by
      rw [hinv, hrk', abs_of_pos (by positivity)]
      exact F.pow_le_largest (by omega))
    rwa [hinv, hrk'] at this
  have hres : 17 / 16 * (2 : ℝ) ^ k * 2 ^ (-k) = 17 / 16 * 2 ^ (0 : ℤ) := by
    rw [mul_assoc, ← zpow_add₀ (by norm_num), add_neg_cancel]
  have hN : (normalize v 0).Is (17 / 16) := by
    rw [normalize_ieee, hv0]
    have h0 := hrep 0 (by omega)
    have := mul_is' (F := F) (a := .num (17 / 16 * 2 ^ k) hxR) (x := 17 / 16 * 2 ^ k) ⟨trivial, rfl⟩ hq (by
      rw [hres, h0, abs_of_pos (by norm_num)]; exact hmax 0 (by omega))
    rw [hres, h0, zpow_zero, mul_one] at this
    exact this
  refine ⟨v, hvi, hL.1, by rw [hL.2]; exact hpk, ?_, hN.1, hN.2⟩
  rintro (⟨-, s, h⟩ | ⟨-, -, h⟩)
  · have := hL.1; rw [h] at this; exact this
  · rw [hL.2, hv0] at h
    change |17 / 16 * (2 : ℝ) ^ k| ≤ |(2 : ℝ) ^ k| at h
    rw [abs_of_pos hx0, abs_of_pos hpk] at h
    linarith

/-! ### The hypotheses can be met -/

/-- A vector with a component 1 and one that is 2 in another: their lengths are compared. -/
example : ∃ v w : Vec (IVal .binary32) 2, (∀ i, MagLe (v i) (w i)) ∧ v ≠ w :=
  ⟨fun _ => 1, fun i => if i = 0 then -2 else 1, fun i => by
    by_cases h : i = 0
    · simp only [if_pos h]
      exact Or.inr ⟨trivial, trivial, by change |(1 : ℝ)| ≤ |-(2 : ℝ)|; norm_num⟩
    · simp only [if_neg h]
      exact Or.inr ⟨trivial, trivial, le_rfl⟩, fun h => by
    have := congrArg IVal.toReal (congrFun h 0)
    change (1 : ℝ) = -2 at this
    norm_num at this⟩

/-- For every dimension and format the vector (1, …) of ones: its squares do not underflow. -/
example (F : Format) (m : Nat) :
    (dot (fun _ => 1 : Vec (IVal F) (m + 1)) (fun _ => 1) = .inf false ∨
      F.tiny ≤ (dot (fun _ => 1 : Vec (IVal F) (m + 1)) (fun _ => 1)).toReal) := by
  have ht1 : F.tiny ≤ 1 := by
    unfold Format.tiny
    calc (2 : ℝ) ^ F.emin ≤ 2 ^ (0 : ℤ) := zpow_le_zpow_right₀ (by norm_num)
          (by unfold Format.emin; have := F.emax_ge; omega)
      _ = 1 := by norm_num
  have h1 : (1 : IVal F) ≠ .nan := by simp [one_def]
  have hu := term_le (fun _ : Fin (m + 1) => (1 : IVal F) * 1) (fun _ => sq_nonneg_of h1) 0 (List.finRange (m + 1)) 0
    nonneg_zero (List.mem_finRange _)
  rcases hu with e | ⟨-, -, l⟩
  · exact Or.inl e
  · right
    have e1 : ((1 : IVal F) * 1).toReal = 1 := by rw [IVal.mulOne]; rfl
    exact (ht1.trans e1.ge).trans l

end Verif.Math
