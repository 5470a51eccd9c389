import Verif.Math.IeeeRange

/-! Helper lemmas: algebra of IEEE 754 values, and sums of squares of them. -/

set_option autoImplicit false

namespace Verif.Math

variable {F : Format} {n : Nat}

namespace IVal

theorem ofReal_of_rep {s : Bool} {x : ℝ} (h : F.Rep x) : ofReal F s x = .num x h := by
  have h0 : F.rnd x ≠ 0 := by rw [h.2.1]; exact h.1
  have h1 : |F.rnd x| ≤ F.largest := by rw [h.2.1]; exact h.2.2
  exact ((dif_neg h0).trans (dif_pos h1)).trans (num_congr h.2.1)

theorem ofReal_zero (s : Bool) : ofReal F s 0 = .zero s := by
  unfold ofReal
  rw [dif_pos F.rnd_zero, if_pos rfl]

theorem add_def (a b : IVal F) : a + b = add a b := rfl
theorem mul_def (a b : IVal F) : a * b = mul a b := rfl
theorem sub_def (a b : IVal F) : a - b = a + -b := rfl
theorem div_def (a b : IVal F) : a / b = div a b := rfl
theorem neg_def (a : IVal F) : -a = neg a := rfl
theorem zero_def : (0 : IVal F) = .zero false := rfl
theorem one_def : (1 : IVal F) = .num 1 F.one_Rep := rfl
theorem two_def : (2 : IVal F) = .num 2 F.two_Rep := rfl

theorem addComm (a b : IVal F) : a + b = b + a := by
  cases a <;> cases b <;> first
    | rfl
    | (simp only [add_def, add]; first | rw [Bool.and_comm] | rw [_root_.add_comm] | skip)
  next s t => rcases s <;> rcases t <;> rfl

theorem mulComm (a b : IVal F) : a * b = b * a := by
  cases a <;> cases b <;> first
    | rfl
    | (simp only [mul_def, mul, minus]; first | rw [Bool.xor_comm] | rw [_root_.mul_comm])

theorem negNeg (a : IVal F) : - -a = a := by
  cases a <;> simp [neg_def, neg]

theorem add_nan (a : IVal F) : a + .nan = .nan := by cases a <;> rfl
theorem nan_add (a : IVal F) : .nan + a = .nan := rfl
theorem mul_nan (a : IVal F) : a * .nan = .nan := by cases a <;> rfl
theorem nan_mul (a : IVal F) : .nan * a = .nan := rfl
theorem sub_nan (a : IVal F) : a - .nan = .nan := by cases a <;> rfl
theorem nan_sub (a : IVal F) : .nan - a = .nan := rfl

theorem not_neg_one (s : Bool) : (s ^^ decide ((1 : ℝ) < 0)) = s := by
  rw [decide_eq_false (by norm_num), Bool.xor_false]

theorem not_neg_two (s : Bool) : (s ^^ decide ((2 : ℝ) < 0)) = s := by
  rw [decide_eq_false (by norm_num), Bool.xor_false]

theorem mulOne (a : IVal F) : a * 1 = a := by
  cases a with
  | nan => rfl
  | inf s =>
    change IVal.inf (s ^^ decide ((1 : ℝ) < 0)) = _
    rw [not_neg_one]
  | zero s =>
    change IVal.zero (s ^^ decide ((1 : ℝ) < 0)) = _
    rw [not_neg_one]
  | num x h =>
    change ofReal F false (x * 1) = _
    rw [_root_.mul_one, ofReal_of_rep h]

theorem divOne (a : IVal F) : a / 1 = a := by
  cases a with
  | nan => rfl
  | inf s =>
    change IVal.inf (s ^^ decide ((1 : ℝ) < 0)) = _
    rw [not_neg_one]
  | zero s =>
    change IVal.zero (s ^^ decide ((1 : ℝ) < 0)) = _
    rw [not_neg_one]
  | num x h =>
    change ofReal F false (x / 1) = _
    rw [_root_.div_one, ofReal_of_rep h]

theorem mulTwo (a : IVal F) : a * 2 = a + a := by
  cases a with
  | nan => rfl
  | inf s =>
    change IVal.inf (s ^^ decide ((2 : ℝ) < 0)) = (if s = s then .inf s else .nan)
    rw [not_neg_two, if_pos rfl]
  | zero s =>
    change IVal.zero (s ^^ decide ((2 : ℝ) < 0)) = .zero (s && s)
    rw [not_neg_two, Bool.and_self]
  | num x h =>
    change ofReal F false (x * 2) = ofReal F false (x + x)
    rw [_root_.mul_two]

theorem negMulNeg (a b : IVal F) : -a * -b = a * b := by
  have hd : ∀ x : ℝ, x ≠ 0 → decide (-x < 0) = !decide (x < 0) := by
    intro x hx
    rcases lt_or_gt_of_ne hx with h | h
    · simp [h, h.le]
    · simp [h, not_lt.mpr h.le]
  cases a with
  | nan => rfl
  | inf s =>
    cases b with
    | nan => rfl
    | zero t => rfl
    | inf t => change IVal.inf ((!s) ^^ (!t)) = .inf (s ^^ t); simp
    | num y hy =>
      change IVal.inf ((!s) ^^ decide (-y < 0)) = .inf (s ^^ decide (y < 0))
      rw [hd y hy.1]; simp
  | zero s =>
    cases b with
    | nan => rfl
    | inf t => rfl
    | zero t => change IVal.zero ((!s) ^^ (!t)) = .zero (s ^^ t); simp
    | num y hy =>
      change IVal.zero ((!s) ^^ decide (-y < 0)) = .zero (s ^^ decide (y < 0))
      rw [hd y hy.1]; simp
  | num x hx =>
    cases b with
    | nan => rfl
    | inf t =>
      change IVal.inf (decide (-x < 0) ^^ (!t)) = .inf (decide (x < 0) ^^ t)
      rw [hd x hx.1]; simp
    | zero t =>
      change IVal.zero (decide (-x < 0) ^^ (!t)) = .zero (decide (x < 0) ^^ t)
      rw [hd x hx.1]; simp
    | num y hy =>
      change ofReal F false (-x * -y) = ofReal F false (x * y)
      rw [neg_mul_neg]

/-- Changing the sign of a result that is not zero. -/
theorem ofReal_neg {s : Bool} {z : ℝ} (hz : z ≠ 0) : ofReal F s (-z) = -ofReal F s z := by
  have hd : decide (-z < 0) = !decide (z < 0) := by
    rcases lt_or_gt_of_ne hz with h | h
    · simp [h, h.le]
    · simp [h, not_lt.mpr h.le]
  by_cases h0 : F.rnd z = 0
  · have h1 : F.rnd (-z) = 0 := by rw [F.rnd_neg, h0, neg_zero]
    have e1 : ofReal F s z = .zero (if z = 0 then s else decide (z < 0)) := dif_pos h0
    have e2 : ofReal F s (-z) = .zero (if -z = 0 then s else decide (-z < 0)) := dif_pos h1
    rw [e1, e2, if_neg hz, if_neg (neg_ne_zero.mpr hz), hd]; rfl
  · have h1 : F.rnd (-z) ≠ 0 := by rw [F.rnd_neg]; exact neg_ne_zero.mpr h0
    by_cases h2 : |F.rnd z| ≤ F.largest
    · have h3 : |F.rnd (-z)| ≤ F.largest := by rw [F.rnd_neg, abs_neg]; exact h2
      have e1 : ofReal F s z = .num (F.rnd z) ⟨h0, F.rnd_idem z, h2⟩ := (dif_neg h0).trans (dif_pos h2)
      have e2 : ofReal F s (-z) = .num (F.rnd (-z)) ⟨h1, F.rnd_idem _, h3⟩ := (dif_neg h1).trans (dif_pos h3)
      rw [e1, e2]
      exact num_congr (F.rnd_neg z)
    · have h3 : ¬|F.rnd (-z)| ≤ F.largest := by rw [F.rnd_neg, abs_neg]; exact h2
      have e1 : ofReal F s z = .inf (decide (z < 0)) := (dif_neg h0).trans (dif_neg h2)
      have e2 : ofReal F s (-z) = .inf (decide (-z < 0)) := (dif_neg h1).trans (dif_neg h3)
      rw [e1, e2, hd]; rfl

/-- The same value, except that the two zeros count as one: what `==` cannot tell apart, and NaN the same as
NaN. -/
def Same (a b : IVal F) : Prop := a = b ∨ ∃ s t, a = .zero s ∧ b = .zero t

theorem Same.refl (a : IVal F) : Same a a := Or.inl rfl

theorem negSub (a b : IVal F) : Same (-(a - b)) (b - a) := by
  rw [sub_def, sub_def]
  cases a with
  | nan => left; cases b <;> rfl
  | inf s =>
    left
    cases b with
    | nan => rfl
    | zero t => rfl
    | num y hy => rfl
    | inf t => rcases s <;> rcases t <;> rfl
  | zero s =>
    cases b with
    | nan => left; rfl
    | inf t => left; change IVal.inf (!(!t)) = .inf t; simp
    | zero t => right; exact ⟨_, _, rfl, rfl⟩
    | num y hy =>
      left; change IVal.num (- -y) _ = .num y _; exact num_congr (_root_.neg_neg y)
  | num x hx =>
    cases b with
    | nan => left; rfl
    | inf t => left; change IVal.inf (!(!t)) = .inf t; simp
    | zero t => left; rfl
    | num y hy =>
      change Same (-(ofReal F false (x + -y))) (ofReal F false (y + -x))
      by_cases h : x = y
      · subst h
        rw [_root_.add_neg_cancel, ofReal_zero]
        right; exact ⟨_, _, rfl, rfl⟩
      · left
        have : y + -x = -(x + -y) := by ring
        rw [this, ofReal_neg (by intro h'; exact h (by linarith))]

theorem same_mul_self {a b : IVal F} (h : Same a b) : a * a = b * b := by
  rcases h with rfl | ⟨s, t, rfl, rfl⟩
  · rfl
  · change IVal.zero (s ^^ s) = .zero (t ^^ t); simp

theorem subSq (a b : IVal F) : (a - b) * (a - b) = (b - a) * (b - a) := by
  rw [← same_mul_self (negSub a b), negMulNeg]

/-- Neither NaN nor negative. -/
def NonNeg (a : IVal F) : Prop := a = .inf false ∨ (a.Finite ∧ 0 ≤ a.toReal ∧ a ≠ .zero true)

theorem ofReal_nonneg {z : ℝ} (h : 0 ≤ z) : NonNeg (ofReal F false z) := by
  have hd : decide (z < 0) = false := by simp [h]
  by_cases h0 : F.rnd z = 0
  · have e1 : ofReal F false z = .zero (if z = 0 then false else decide (z < 0)) := dif_pos h0
    rw [e1, hd, ite_self]
    exact Or.inr ⟨trivial, le_rfl, by simp⟩
  · by_cases h2 : |F.rnd z| ≤ F.largest
    · have e1 : ofReal F false z = .num (F.rnd z) ⟨h0, F.rnd_idem z, h2⟩ := (dif_neg h0).trans (dif_pos h2)
      rw [e1]
      exact Or.inr ⟨trivial, F.rnd_nonneg h, by simp⟩
    · have e1 : ofReal F false z = .inf (decide (z < 0)) := (dif_neg h0).trans (dif_neg h2)
      rw [e1, hd]; exact Or.inl rfl

theorem NonNeg.add {a b : IVal F} (ha : NonNeg a) (hb : NonNeg b) : NonNeg (a + b) := by
  rcases ha with rfl | ⟨f1, p1, n1⟩
  · rcases hb with rfl | ⟨f2, p2, n2⟩
    · exact Or.inl rfl
    · cases b with
      | nan => exact f2.elim
      | inf t => exact f2.elim
      | zero t => exact Or.inl rfl
      | num y hy => exact Or.inl rfl
  · rcases hb with rfl | ⟨f2, p2, n2⟩
    · cases a with
      | nan => exact f1.elim
      | inf t => exact f1.elim
      | zero t => exact Or.inl rfl
      | num y hy => exact Or.inl rfl
    · cases a with
      | nan => exact f1.elim
      | inf t => exact f1.elim
      | zero s =>
        cases b with
        | nan => exact f2.elim
        | inf t => exact f2.elim
        | zero t =>
          refine Or.inr ⟨trivial, le_rfl, ?_⟩
          change IVal.zero (s && t) ≠ _
          cases s <;> simp_all
        | num y hy => exact Or.inr ⟨trivial, p2, by simp [add_def, IVal.add]⟩
      | num x hx =>
        cases b with
        | nan => exact f2.elim
        | inf t => exact f2.elim
        | zero t => exact Or.inr ⟨trivial, p1, by simp [add_def, IVal.add]⟩
        | num y hy => exact ofReal_nonneg (add_nonneg p1 p2)

theorem inf_add {b : IVal F} (hb : NonNeg b) : .inf false + b = .inf false := by
  rcases hb with rfl | ⟨f2, -, -⟩
  · rfl
  · cases b with
    | nan => exact f2.elim
    | inf t => exact f2.elim
    | zero t => rfl
    | num y hy => rfl

theorem zero_add {b : IVal F} (hb : NonNeg b) : 0 + b = b := by
  rcases hb with rfl | ⟨f2, -, h⟩
  · rfl
  · cases b with
    | nan => exact f2.elim
    | inf t => exact f2.elim
    | zero t => cases t <;> first | rfl | exact absurd rfl h
    | num y hy => rfl

/-- A square is NaN for NaN, and otherwise not negative. -/
theorem sq_nonneg (a : IVal F) : a = .nan ∨ NonNeg (a * a) := by
  cases a with
  | nan => exact Or.inl rfl
  | inf s => right; left; change IVal.inf (s ^^ s) = _; simp
  | zero s => right; right; refine ⟨trivial, le_rfl, ?_⟩; change IVal.zero (s ^^ s) ≠ _; simp
  | num x hx => right; exact ofReal_nonneg (mul_self_nonneg x)

theorem zero_add_sq (a : IVal F) : 0 + a * a = a * a := by
  rcases sq_nonneg a with rfl | h
  · rfl
  · exact zero_add h

theorem NonNeg.ne_nan {a : IVal F} (h : NonNeg a) : a ≠ .nan := by
  rcases h with rfl | ⟨f, -, -⟩
  · simp
  · rintro rfl; exact f

end IVal

open IVal

theorem foldl_nan (f : Fin n → IVal F) : ∀ l : List (Fin n), l.foldl (fun r i => r + f i) .nan = .nan
  | [] => rfl
  | _ :: l => foldl_nan f l

/-- One NaN among the terms makes the sum NaN. -/
theorem foldl_has_nan (f : Fin n → IVal F) (j : Fin n) (hj : f j = .nan) :
    ∀ (l : List (Fin n)) (s : IVal F), j ∈ l → l.foldl (fun r i => r + f i) s = .nan
  | i :: l, s, h => by
    rw [List.foldl_cons]
    by_cases hij : i = j
    · rw [hij, hj, add_nan]; exact foldl_nan f l
    · exact foldl_has_nan f j hj l _ ((List.mem_cons.mp h).resolve_left (Ne.symm hij))

theorem foldl_nonneg (f : Fin n → IVal F) (hf : ∀ i, NonNeg (f i)) :
    ∀ (l : List (Fin n)) (s : IVal F), NonNeg s → NonNeg (l.foldl (fun r i => r + f i) s)
  | [], _, h => h
  | i :: l, _, h => foldl_nonneg f hf l _ (h.add (hf i))

theorem foldl_inf (f : Fin n → IVal F) (hf : ∀ i, NonNeg (f i)) :
    ∀ l : List (Fin n), l.foldl (fun r i => r + f i) (.inf false) = .inf false
  | [] => rfl
  | i :: l => by rw [List.foldl_cons, inf_add (hf i)]; exact foldl_inf f hf l

theorem foldl_has_inf (f : Fin n → IVal F) (hf : ∀ i, NonNeg (f i)) (j : Fin n) (hj : f j = .inf false) :
    ∀ (l : List (Fin n)) (s : IVal F), NonNeg s → j ∈ l → l.foldl (fun r i => r + f i) s = .inf false
  | i :: l, s, hs, h => by
    rw [List.foldl_cons]
    by_cases hij : i = j
    · rw [hij, hj, addComm, inf_add hs]; exact foldl_inf f hf l
    · exact foldl_has_inf f hf j hj l _ (hs.add (hf i)) ((List.mem_cons.mp h).resolve_left (Ne.symm hij))

theorem foldl_zero (f : Fin n → IVal F) (hf : ∀ i, f i = .zero false) :
    ∀ l : List (Fin n), l.foldl (fun r i => r + f i) (.zero false) = .zero false
  | [] => rfl
  | i :: l => by rw [List.foldl_cons, hf i]; exact foldl_zero f hf l

theorem nonneg_zero : NonNeg (0 : IVal F) := Or.inr ⟨trivial, le_rfl, by simp [zero_def]⟩

theorem lengthM_ieee [ILibm F] (v : Vec (IVal F) n) : lengthM v = length v := by
  unfold lengthM length dot
  split
  · simp [forLoop, List.finRange_succ, zero_add_sq]
  · simp [forLoop, List.finRange_succ, zero_add_sq]
  · simp [forLoop, List.finRange_succ, zero_add_sq]
  · rfl

theorem length_sqrt [ILibm F] (v : Vec (IVal F) n) : length v = (dot v v).sqrt := rfl

theorem normalize_ieee [ILibm F] (v : Vec (IVal F) n) (i : Fin n) : normalize v i = v i * (1 / length v) := by
  unfold normalize mulS; rw [vecOpS_apply]

end Verif.Math
