import Verif.Math.IeeeRangeProps
import Verif.Math.MatrixLemmas

/-!
C101 and C102. What NaN, the infinities and the two zeros do to vectors, and the laws that hold exactly for
`float` and `double` components although their arithmetic rounds.
-/

set_option autoImplicit false

namespace Verif.Math

open IVal

variable {F : Format} {n : Nat}

/-! ### Helpers -/

theorem dot_nan (a b : Vec (IVal F) n) (j : Fin n) (h : a j = .nan ∨ b j = .nan) : dot a b = .nan :=
  foldl_has_nan (fun i => a i * b i) j
    (by rcases h with h | h
        · rw [h, nan_mul]
        · rw [h, mul_nan]) _ _ (List.mem_finRange j)

theorem sub_apply (a b : Vec (IVal F) n) (i : Fin n) : sub a b i = a i - b i := by
  unfold sub; rw [vecOp_apply]

theorem lerp_apply (a b : Vec (IVal F) n) (t : IVal F) (i : Fin n) : lerp a b t i = b i * t + a i * (1 - t) := by
  unfold lerp add mulS; simp only [vecOp_apply, vecOpS_apply]

/-! ### C101: NaN, infinities, zeros -/

/-- C101. A single NaN component makes `dot`, `length` and `distance` NaN, turns every component of `normalize`
and of a matrix times the vector into NaN, and stays where it is in a sum, a `lerp` or a scaling. -/
theorem ieee_nan_spreads [ILibm F] [Indet (IVal F)] {r : Nat} (v w : Vec (IVal F) n) (m : Mat (IVal F) n r) (t : IVal F)
    (j : Fin n) (h : v j = .nan) :
    dot v w = .nan ∧ dot w v = .nan ∧ length v = .nan ∧ lengthM v = .nan ∧ distance v w = .nan ∧
    distance w v = .nan ∧ (∀ i, normalize v i = .nan ∧ normalizeM v i = .nan) ∧ (∀ i, mulVec m v i = .nan) ∧
    add v w j = .nan ∧ add w v j = .nan ∧ mulS v t j = .nan ∧ lerp v w t j = .nan ∧ lerp w v t j = .nan := by
  have hl : ∀ x : Vec (IVal F) n, x j = .nan → length x = .nan := fun x hx => by
    rw [length_sqrt, dot_nan x x j (Or.inl hx)]; rfl
  have hn : ∀ i, normalize v i = .nan := fun i => by
    rw [normalize_ieee, hl v h]; exact mul_nan _
  refine ⟨dot_nan _ _ j (Or.inl h), dot_nan _ _ j (Or.inr h), hl v h, by rw [lengthM_ieee]; exact hl v h, ?_, ?_,
    fun i => ⟨hn i, ?_⟩, fun i => ?_, ?_, ?_, ?_, ?_, ?_⟩
  · unfold distance; rw [lengthM_ieee]; exact hl _ (by rw [sub_apply, h, sub_nan])
  · unfold distance; rw [lengthM_ieee]; exact hl _ (by rw [sub_apply, h, nan_sub])
  · have := hn i; unfold normalizeM; rw [lengthM_ieee]; exact this
  · rw [mulVec_dot]; exact dot_nan _ _ j (Or.inr h)
  · unfold add; rw [vecOp_apply]; change v j + w j = _; rw [h, nan_add]
  · unfold add; rw [vecOp_apply]; change w j + v j = _; rw [h, add_nan]
  · unfold mulS; rw [vecOpS_apply]; change v j * t = _; rw [h, nan_mul]
  · rw [lerp_apply, h, nan_mul, add_nan]
  · rw [lerp_apply, h, nan_mul, nan_add]

/-- C101. A vector with an infinite component and no NaN has infinite length; `normalize` makes NaN of the
infinite components and zeros of the others. -/
theorem ieee_infinite_vector [ILibm F] (v : Vec (IVal F) n) (j : Fin n) (s : Bool) (h : v j = .inf s)
    (hn : ∀ i, v i ≠ .nan) :
    length v = .inf false ∧ lengthM v = .inf false ∧
    ∀ i, ((∃ t, v i = .inf t) → normalize v i = .nan) ∧
      ((v i).Finite → normalize v i = .zero (v i).minus) := by
  have hnn : ∀ i, NonNeg (v i * v i) := fun i => (sq_nonneg (v i)).resolve_left (hn i)
  have hj : v j * v j = .inf false := by
    rw [h]; change IVal.inf (s ^^ s) = _; rw [Bool.xor_self]
  have hd : dot v v = .inf false :=
    foldl_has_inf _ hnn j hj (List.finRange n) 0 nonneg_zero (List.mem_finRange j)
  have hl : length v = .inf false := by rw [length_sqrt, hd]; rfl
  have hk : (1 : IVal F) / .inf false = .zero false := by
    change IVal.zero (decide ((1 : ℝ) < 0) ^^ false) = _
    rw [decide_eq_false (by norm_num)]; rfl
  refine ⟨hl, by rw [lengthM_ieee, hl], fun i => ?_⟩
  rw [normalize_ieee, hl, hk]
  refine ⟨?_, fun hf => ?_⟩
  · rintro ⟨t, ht⟩; rw [ht]; rfl
  · cases hvi : v i with
    | nan => rw [hvi] at hf; exact hf.elim
    | inf s => rw [hvi] at hf; exact hf.elim
    | zero s => change IVal.zero (s ^^ false) = .zero s; rw [Bool.xor_false]
    | num x hx =>
      change IVal.zero (decide (x < 0) ^^ false) = .zero (decide (x < 0))
      rw [Bool.xor_false]

/-- C101. The zero vector (its zeros of either sign) has length +0, and every component of its `normalize` is
NaN. -/
theorem ieee_zero_vector [ILibm F] (v : Vec (IVal F) n) (h : ∀ i, ∃ s, v i = .zero s) :
    length v = .zero false ∧ lengthM v = .zero false ∧ ∀ i, normalize v i = .nan := by
  have hf : ∀ i, (v i).Finite := fun i => by obtain ⟨s, hs⟩ := h i; rw [hs]; trivial
  have h0 : ∀ i, (v i).toReal = 0 := fun i => by obtain ⟨s, hs⟩ := h i; rw [hs]; rfl
  obtain ⟨h1, h2⟩ := ieee_length_underflow v hf (fun i => by
    rw [h0 i, zero_pow (by norm_num)]; exact F.eta_pos.le)
  exact ⟨h1, by rw [lengthM_ieee, h1], fun i => (h2 i).2 (h0 i)⟩

/-- C101. `faceforward` never answers NaN out of nowhere: when the dot product is NaN — or +0, or −0 — it takes
the branch of a dot product that is not negative and returns −v. -/
theorem ieee_faceforward_unordered [Indet (IVal F)] (v i k : Vec (IVal F) n)
    (h : dot k i = .nan ∨ ∃ s, dot k i = .zero s) : faceforward v i k = neg v := by
  unfold faceforward
  rw [if_neg]
  rcases h with h | ⟨s, h⟩
  · rw [h]; exact id
  · rw [h]; exact lt_irrefl (0 : ℝ)

/-- C101. `sign`: 1 for everything above zero, including +∞; −1 for everything below, including −∞; +0 for the
two zeros and, although it is not zero, for NaN. -/
theorem ieee_sign (x : IVal F) :
    (0 < x → sign x = 1) ∧ (x < 0 → sign x = -1) ∧ ((∃ s, x = .zero s) → sign x = .zero false) ∧
    (x = .nan → sign x = .zero false) ∧ (∀ s, x = .inf s → sign x = if s then -1 else 1) := by
  have hzz : (0 : IVal F) - 0 = .zero false := rfl
  have h10 : (1 : IVal F) - 0 = 1 := rfl
  have h01 : (0 : IVal F) - 1 = -1 := rfl
  have key : ∀ (p q : Prop) [Decidable p] [Decidable q],
      (p → ¬q → ofBool (T := IVal F) (decide p) - ofBool (decide q) = 1) ∧
      (¬p → q → ofBool (T := IVal F) (decide p) - ofBool (decide q) = -1) ∧
      (¬p → ¬q → ofBool (T := IVal F) (decide p) - ofBool (decide q) = .zero false) := by
    intro p q _ _
    unfold ofBool
    refine ⟨fun hp hq => ?_, fun hp hq => ?_, fun hp hq => ?_⟩ <;> simp only [hp, hq, decide_true, decide_false,
      if_true, Bool.false_eq_true, if_false]
    · exact h10
    · exact h01
    · exact hzz
  have asym : ¬(0 < x ∧ x < 0) := by
    rintro ⟨h1, h2⟩
    cases x with
    | nan => exact h2
    | inf s => 
      change s = false at h1; change s = true at h2
      rw [h1] at h2; exact absurd h2 (by simp)
    | zero s => exact lt_irrefl (0 : ℝ) h1
    | num y hy => exact lt_asymm (show (0 : ℝ) < y from h1) (show y < (0 : ℝ) from h2)
  unfold sign
  refine ⟨fun h => (key _ _).1 h fun h' => asym ⟨h, h'⟩, fun h => (key _ _).2.1 (fun h' => asym ⟨h', h⟩) h, ?_, ?_, ?_⟩
  · rintro ⟨s, rfl⟩
    exact (key _ _).2.2 (lt_irrefl (0 : ℝ)) (lt_irrefl (0 : ℝ))
  · rintro rfl; exact (key _ _).2.2 id id
  · rintro s rfl
    cases s
    · exact (key _ _).1 rfl (by change ¬(false = true); simp)
    · exact (key _ _).2.1 (by change ¬(true = false); simp) rfl

/-! ### C102: laws that hold exactly -/

/-- C102. For all values whatsoever, NaN, infinities and signed zeros included, with no rounding error at all:
`dot` is symmetric; sums and component-wise products commute; the two ways to compute a length and to normalise agree; a vector
and its opposite have the same length, the distance is symmetric; −(−v) is v; v·1 and v/1 are v; v·2 is v + v;
a − b is a + (−b), and −(a − b) is b − a up to the sign of zeros. -/
theorem ieee_exact_laws [ILibm F] [Indet (IVal F)] (a b : Vec (IVal F) n) :
    dot a b = dot b a ∧ add a b = add b a ∧ mul a b = mul b a ∧ lengthM a = length a ∧ normalizeM a = normalize a ∧
    length (neg a) = length a ∧ distance a b = distance b a ∧ neg (neg a) = a ∧
    mulS a 1 = a ∧ divS a 1 = a ∧ mulS a 2 = add a a ∧ sub a b = add a (neg b) ∧
    ∀ i, Same (neg (sub a b) i) (sub b a i) := by
  refine ⟨?_, ?_, ?_, lengthM_ieee a, by unfold normalizeM normalize; rw [lengthM_ieee], ?_, ?_, ?_, ?_, ?_, ?_, ?_,
    fun i => ?_⟩
  · have : (fun (i : Fin n) (r : IVal F) => r + a i * b i) = fun i r => r + b i * a i := by
      funext i r; rw [IVal.mulComm]
    unfold dot; rw [this]
  · unfold add; simp only [vecOp_apply]; funext i; exact IVal.addComm _ _
  · unfold mul; simp only [vecOp_apply]; funext i; exact IVal.mulComm _ _
  · unfold length dot; simp only [neg_apply, negMulNeg]
  · unfold distance; rw [lengthM_ieee, lengthM_ieee]
    unfold length dot; simp only [sub_apply]
    have : (fun (i : Fin n) (r : IVal F) => r + (b i - a i) * (b i - a i)) =
        fun i r => r + (a i - b i) * (a i - b i) := by
      funext i r; rw [IVal.subSq]
    rw [this]
  · rw [neg_apply, neg_apply]; funext i; exact IVal.negNeg _
  · unfold mulS; rw [vecOpS_apply]; funext i; exact IVal.mulOne _
  · unfold divS; rw [vecOpS_apply]; funext i; exact IVal.divOne _
  · unfold mulS add; rw [vecOpS_apply, vecOp_apply]; funext i; exact IVal.mulTwo _
  · unfold sub add; rw [vecOp_apply, vecOp_apply, neg_apply]; rfl
  · rw [neg_apply]; simp only [sub_apply]; exact IVal.negSub _ _

theorem sqrt_nonneg' {a : IVal F} (h : NonNeg a) : NonNeg a.sqrt := by
  rcases h with rfl | ⟨f, p, h⟩
  · exact Or.inl rfl
  · cases a with
    | nan => exact f.elim
    | inf s => exact f.elim
    | zero s => exact Or.inr ⟨trivial, le_rfl, h⟩
    | num x hx =>
      have e : (IVal.num x hx).sqrt = ofReal F false (Real.sqrt x) := if_neg (not_lt.mpr p)
      rw [e]; exact ofReal_nonneg (Real.sqrt_nonneg x)

/-- C102. A length is never negative and never −0, and it is NaN only when a component is: the square root is
never taken of a negative number. -/
theorem ieee_length_nonneg [ILibm F] (v : Vec (IVal F) n) :
    (length v = .nan ↔ ∃ i, v i = .nan) ∧
    (length v ≠ .nan → length v = .inf false ∨ ((length v).Finite ∧ 0 ≤ (length v).toReal ∧ length v ≠ .zero true)) := by
  by_cases h : ∃ i, v i = .nan
  · obtain ⟨j, hj⟩ := h
    have : length v = .nan := by rw [length_sqrt, dot_nan v v j (Or.inl hj)]; rfl
    exact ⟨⟨fun _ => ⟨j, hj⟩, fun _ => this⟩, fun h => absurd this h⟩
  · have hnn : NonNeg (dot v v) :=
      foldl_nonneg (fun i => v i * v i) (fun i => (sq_nonneg (v i)).resolve_left fun h' => h ⟨i, h'⟩)
        (List.finRange n) 0 nonneg_zero
    have hl : NonNeg (length v) := sqrt_nonneg' hnn
    exact ⟨⟨fun h' => absurd h' hl.ne_nan, fun h' => absurd h' h⟩, fun _ => hl⟩

/-- C102. Subtraction tells numbers apart: for finite components, a component of a − b is zero exactly where a
and b have the same value (gradual underflow sees to it). With infinities and NaN: a − a is the zero vector
exactly when all components are finite. -/
theorem ieee_sub_zero (a b : Vec (IVal F) n) (i : Fin n) :
    ((a i).Finite → (b i).Finite → ((∃ s, sub a b i = .zero s) ↔ (a i).toReal = (b i).toReal)) ∧
    ((∃ s, sub a a i = .zero s) ↔ (a i).Finite) := by
  have hz : ∀ s, ¬∃ t, (IVal.inf s : IVal F) = .zero t := by rintro s ⟨t, h⟩; cases h
  have hnz : ¬∃ t, (IVal.nan : IVal F) = .zero t := by rintro ⟨t, h⟩; cases h
  have key : ∀ x y : IVal F, x.Finite → y.Finite → ((∃ s, x - y = .zero s) ↔ x.toReal = y.toReal) := by
    intro x y hx hy
    cases x with
    | nan => exact hx.elim
    | inf s => exact hx.elim
    | zero s =>
      cases y with
      | nan => exact hy.elim
      | inf s => exact hy.elim
      | zero t => exact ⟨fun _ => rfl, fun _ => ⟨_, rfl⟩⟩
      | num y h =>
        refine ⟨?_, fun h' => absurd (show y = 0 from h'.symm) h.1⟩
        rintro ⟨t, h'⟩; cases h'
    | num x h =>
      cases y with
      | nan => exact hy.elim
      | inf s => exact hy.elim
      | zero t =>
        refine ⟨?_, fun h' => absurd (show x = 0 from h') h.1⟩
        rintro ⟨t, h'⟩; cases h'
      | num y g =>
        change (∃ s, ofReal F false (x + -y) = .zero s) ↔ x = y
        constructor
        · rintro ⟨s, hs⟩
          by_contra hne
          have hd : x + -y ≠ 0 := fun h' => hne (by linarith)
          obtain ⟨k, hk⟩ := Format.rep_grid h.2.1
          obtain ⟨l, hl⟩ := Format.rep_grid g.2.1
          have hpos : (0 : ℝ) < 2 ^ F.grid := by positivity
          have hge : (2 : ℝ) ^ F.grid ≤ |x + -y| := by
            have e : x + -y = ((k - l : ℤ) : ℝ) * 2 ^ F.grid := by rw [hk, hl]; push_cast; ring
            rw [e] at hd ⊢
            have hkl : k - l ≠ 0 := by
              intro h0; rw [h0] at hd; simp at hd
            rw [abs_mul, abs_of_pos hpos]
            have : (1 : ℝ) ≤ |((k - l : ℤ) : ℝ)| := by
              exact_mod_cast Int.one_le_abs hkl
            nlinarith
          have hr : F.rnd (x + -y) ≠ 0 := by
            intro h0
            have := F.rnd_mono hge
            rw [F.pow_rep le_rfl, ← F.rnd_abs, h0, abs_zero] at this
            linarith
          by_cases h2 : |F.rnd (x + -y)| ≤ F.largest
          · have e1 : ofReal F false (x + -y) = .num (F.rnd (x + -y)) ⟨hr, F.rnd_idem _, h2⟩ :=
              (dif_neg hr).trans (dif_pos h2)
            rw [e1] at hs; cases hs
          · have e1 : ofReal F false (x + -y) = .inf (decide (x + -y < 0)) := (dif_neg hr).trans (dif_neg h2)
            rw [e1] at hs; cases hs
        · rintro rfl
          rw [_root_.add_neg_cancel, ofReal_zero]
          exact ⟨_, rfl⟩
  refine ⟨fun ha hb => by rw [sub_apply]; exact key _ _ ha hb, ?_⟩
  rw [sub_apply]
  constructor
  · intro h
    cases hx : a i with
    | nan => rw [hx] at h; exact absurd h hnz
    | inf s =>
      rw [hx] at h
      have : (IVal.inf s : IVal F) - .inf s = .nan := by
        change (if s = !s then IVal.inf s else .nan) = _
        rw [if_neg (by cases s <;> simp)]
      rw [this] at h; exact absurd h hnz
    | zero s => trivial
    | num x h => trivial
  · intro h; exact (key _ _ h h).mpr rfl

/-! Sums of zeros and one other term. -/

theorem add_zero_same (a : IVal F) (s : Bool) : Same (a + .zero s) a := by
  cases a with
  | nan => exact Or.inl rfl
  | inf t => exact Or.inl rfl
  | zero t => exact Or.inr ⟨_, _, rfl, rfl⟩
  | num x h => exact Or.inl rfl

theorem same_trans {a b c : IVal F} (h1 : Same a b) (h2 : Same b c) : Same a c := by
  rcases h1 with rfl | ⟨s, t, rfl, rfl⟩
  · exact h2
  · rcases h2 with h2 | ⟨s', t', h, rfl⟩
    · exact Or.inr ⟨s, t, rfl, h2.symm⟩
    · exact Or.inr ⟨s, t', rfl, rfl⟩

theorem foldl_zeros (f : Fin n → IVal F) : ∀ (l : List (Fin n)) (s : IVal F), (∀ i ∈ l, ∃ t, f i = .zero t) →
    Same (l.foldl (fun r i => r + f i) s) s
  | [], s, _ => Same.refl s
  | i :: l, s, h => by
    obtain ⟨t, ht⟩ := h i (List.mem_cons_self ..)
    rw [List.foldl_cons, ht]
    exact same_trans (foldl_zeros f l _ fun j hj => h j (List.mem_cons_of_mem _ hj)) (add_zero_same s t)

theorem foldl_one_term (f : Fin n → IVal F) (j : Fin n) : ∀ (l : List (Fin n)) (s : Bool), l.Nodup → j ∈ l →
    (∀ i ∈ l, i ≠ j → ∃ t, f i = .zero t) → Same (l.foldl (fun r i => r + f i) (.zero s)) (f j)
  | i :: l, s, hnd, hj, h => by
    rw [List.foldl_cons]
    have hi := (List.nodup_cons.mp hnd)
    by_cases hij : i = j
    · subst hij
      refine same_trans (foldl_zeros f l _ fun k hk => h k (List.mem_cons_of_mem _ hk) ?_) ?_
      · rintro rfl; exact hi.1 hk
      · rw [IVal.addComm]; exact add_zero_same _ _
    · obtain ⟨t, ht⟩ := h i (List.mem_cons_self ..) hij
      rw [ht]
      exact foldl_one_term f j l (s && t) hi.2 ((List.mem_cons.mp hj).resolve_left (Ne.symm hij))
        fun k hk => h k (List.mem_cons_of_mem _ hk)

theorem zero_mul_finite {a : IVal F} (h : a.Finite) (s : Bool) : ∃ t, IVal.zero s * a = .zero t := by
  cases a with
  | nan => exact h.elim
  | inf s => exact h.elim
  | zero t => exact ⟨_, rfl⟩
  | num x h => exact ⟨_, rfl⟩

theorem mul_zero_finite {a : IVal F} (h : a.Finite) (s : Bool) : ∃ t, a * IVal.zero s = .zero t := by
  rw [IVal.mulComm]; exact zero_mul_finite h s

/-- C102. The identity matrix times a vector of finite components is that vector, exactly, up to the sign of
zeros; a component that is infinite or NaN turns all the others into NaN. -/
theorem ieee_identity_matrix [Indet (IVal F)] (v : Vec (IVal F) n) :
    ((∀ i, (v i).Finite) → ∀ j, Same (mulVec (diagonal 1 : Mat (IVal F) n n) v j) (v j)) ∧
    (∀ k, ¬(v k).Finite → ∀ j, j ≠ k → mulVec (diagonal 1 : Mat (IVal F) n n) v j = .nan) := by
  rw [mulVec_dot]
  constructor
  · intro hf j
    have hj : (diagonal 1 : Mat (IVal F) n n) j j * v j = v j := by
      rw [diagonal_apply, if_pos rfl, IVal.mulComm, IVal.mulOne]
    have := foldl_one_term (fun i => (diagonal 1 : Mat (IVal F) n n) i j * v i) j (List.finRange n) false
      (List.nodup_finRange n) (List.mem_finRange j) (fun i _ hij => by
        rw [diagonal_apply, if_neg (fun h => hij (Fin.ext h))]
        exact zero_mul_finite (hf i) false)
    rw [hj] at this
    exact this
  · intro k hk j hjk
    refine foldl_has_nan (fun i => (diagonal 1 : Mat (IVal F) n n) i j * v i) k ?_ _ _ (List.mem_finRange k)
    rw [diagonal_apply, if_neg (fun h => hjk (Fin.ext h.symm))]
    cases hv : v k with
    | nan => rfl
    | inf s => rfl
    | zero s => rw [hv] at hk; exact absurd trivial hk
    | num x h => rw [hv] at hk; exact absurd trivial hk

/-- C102. `lerp` is exact at its two ends — at 0 it returns the first vector and at 1 the second, up to the sign
of zeros — wherever the other vector's component is finite; where that is infinite or NaN the result is NaN. -/
theorem ieee_lerp_ends (a b : Vec (IVal F) n) (i : Fin n) :
    ((b i).Finite → Same (lerp a b 0 i) (a i)) ∧ ((a i).Finite → Same (lerp a b 1 i) (b i)) ∧
    (¬(b i).Finite → lerp a b 0 i = .nan) ∧ (¬(a i).Finite → lerp a b 1 i = .nan) := by
  have h1 : (1 : IVal F) - 0 = 1 := rfl
  have h2 : (1 : IVal F) - 1 = .zero false := by
    change ofReal F false (1 + -1) = _
    rw [_root_.add_neg_cancel, ofReal_zero]
  have hinf : ∀ x : IVal F, ¬x.Finite → x * .zero false = .nan := by
    intro x hx
    cases x with
    | nan => rfl
    | inf s => rfl
    | zero s => exact absurd trivial hx
    | num x h => exact absurd trivial hx
  simp only [lerp_apply]
  refine ⟨fun h => ?_, fun h => ?_, fun h => ?_, fun h => ?_⟩
  · obtain ⟨t, ht⟩ := mul_zero_finite h false
    rw [h1, IVal.mulOne, show b i * 0 = .zero t from ht, IVal.addComm]
    exact add_zero_same _ _
  · obtain ⟨t, ht⟩ := mul_zero_finite h false
    rw [h2, IVal.mulOne, ht]
    exact add_zero_same _ _
  · rw [show b i * 0 = .nan from hinf _ h]; rfl
  · rw [h2, hinf _ h]; exact add_nan _

/-- C102. `scale` by 1 in every direction returns the matrix itself, bit for bit, and `translate` by the zero
vector returns a matrix of finite components up to the sign of zeros in the last column. -/
theorem ieee_neutral_transform (m : Mat (IVal F) 4 4) :
    scale m (fun _ => 1) = m ∧
    ((∀ i j, (m i j).Finite) → ∀ i j, (i ≠ 3 → translate m (fun _ => 0) i j = m i j) ∧
      Same (translate m (fun _ => 0) i j) (m i j)) := by
  constructor
  · unfold scale mulS
    simp only [vecOpS_apply, IVal.mulOne]
    funext i; fin_cases i <;> rfl
  · intro hf i j
    have h3 : Same (translate m (fun _ => 0) 3 j) (m 3 j) := by
      unfold translate add mulS
      simp only [vecOpS_apply, vecOp_apply]
      obtain ⟨s0, h0⟩ := mul_zero_finite (hf 0 j) false
      obtain ⟨s1, h1⟩ := mul_zero_finite (hf 1 j) false
      obtain ⟨s2, h2⟩ := mul_zero_finite (hf 2 j) false
      change Same (m 0 j * .zero false + m 1 j * .zero false + m 2 j * .zero false + m 3 j) (m 3 j)
      rw [h0, h1, h2, IVal.addComm]
      exact add_zero_same _ _
    fin_cases i
    · exact ⟨fun _ => rfl, Same.refl _⟩
    · exact ⟨fun _ => rfl, Same.refl _⟩
    · exact ⟨fun _ => rfl, Same.refl _⟩
    · exact ⟨fun h => absurd rfl h, h3⟩

/-! ### Examples -/

example : ∃ v : Vec (IVal .binary32) 3, v 1 = .nan ∧ (v 0).Finite := ⟨![0, .nan, 1], rfl, trivial⟩

example : ∃ (v : Vec (IVal .binary64) 2) (s : Bool), v 0 = .inf s ∧ ∀ i, v i ≠ .nan :=
  ⟨![.inf true, 2], true, rfl, fun i => by
    fin_cases i
    · change IVal.inf true ≠ _; simp
    · change IVal.num 2 _ ≠ _; simp⟩

/-- Zeros of both signs: length +0. -/
example [ILibm .binary32] : length (![.zero true, .zero false] : Vec (IVal .binary32) 2) = .zero false :=
  (ieee_zero_vector _ fun i => by fin_cases i <;> exact ⟨_, rfl⟩).1

/-- The two zeros are different values although their difference is zero. -/
example : (IVal.zero true : IVal .binary32) ≠ .zero false ∧
    ∃ s, sub (![.zero true] : Vec (IVal .binary32) 1) ![.zero false] 0 = .zero s := ⟨by simp, true && true, rfl⟩

/-- The sign of a zero can really be lost: the identity matrix turns −0 into +0. -/
example [Indet (IVal .binary32)] :
    mulVec (diagonal 1 : Mat (IVal .binary32) 1 1) ![.zero true] 0 = .zero false := by
  rw [mulVec_dot]
  change (0 : IVal .binary32) + (diagonal 1 : Mat (IVal .binary32) 1 1) 0 0 * .zero true = _
  rw [diagonal_apply, if_pos rfl, IVal.mulComm, IVal.mulOne]; rfl

example [Indet (IVal .binary32)] :
    mulVec (diagonal 1 : Mat (IVal .binary32) 2 2) ![.inf false, 1] 1 = .nan :=
  (ieee_identity_matrix _).2 0 id 1 (by decide)

end Verif.Math
