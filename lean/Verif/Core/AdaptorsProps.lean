import Verif.Core.Adaptors
import Mathlib.Data.List.GetD

/-!
C154. Stacks of `ConstIterator` and `ReverseIterator` over any iterator.

The specification of an iterator: a relation `R` says which states stand for which positions of a sequence `xs`
(`xs.length` is the end), and every operation whose result is a position of the sequence has that result.
-/

set_option autoImplicit false

namespace Verif.Adapt

variable {σ α : Type}

/-- Specification of a bidirectional iterator over `xs`. -/
structure BidirLaws (B : Iter σ α) (xs : List α) (R : σ → Nat → Prop) : Prop where
  bound : ∀ s i, R s i → i ≤ xs.length
  star : ∀ s i, R s i → ∀ h : i < xs.length, B.star s = .ok xs[i]
  inc : ∀ s i, R s i → i < xs.length → ∃ s', B.inc s = .ok s' ∧ R s' (i + 1)
  postInc : ∀ s i, R s i → i < xs.length → ∃ t s', B.postInc s = .ok (t, s') ∧ R t i ∧ R s' (i + 1)
  dec : ∀ s i, R s i → 0 < i → ∃ s', B.dec s = .ok s' ∧ R s' (i - 1)
  postDec : ∀ s i, R s i → 0 < i → ∃ t s', B.postDec s = .ok (t, s') ∧ R t i ∧ R s' (i - 1)
  eq : ∀ s i t j, R s i → R t j → B.eq s t = .ok (decide (i = j))

/-- What a random-access iterator over `xs` has besides. -/
structure AccessLaws (B : Iter σ α) (xs : List α) (R : σ → Nat → Prop) : Prop where
  add : ∀ s i (k : Int) (j : Nat), R s i → (i : Int) + k = j → j ≤ xs.length → ∃ s', B.add s k = .ok s' ∧ R s' j
  radd : ∀ s i (k : Int) (j : Nat), R s i → (i : Int) + k = j → j ≤ xs.length → ∃ s', B.radd k s = .ok s' ∧ R s' j
  sub : ∀ s i (k : Int) (j : Nat), R s i → (i : Int) - k = j → j ≤ xs.length → ∃ s', B.sub s k = .ok s' ∧ R s' j
  addAssign : ∀ s i (k : Int) (j : Nat), R s i → (i : Int) + k = j → j ≤ xs.length →
    ∃ s', B.addAssign s k = .ok s' ∧ R s' j
  subAssign : ∀ s i (k : Int) (j : Nat), R s i → (i : Int) - k = j → j ≤ xs.length →
    ∃ s', B.subAssign s k = .ok s' ∧ R s' j
  diff : ∀ s i t j, R s i → R t j → B.diff s t = .ok ((i : Int) - j)
  index : ∀ s i (k : Int) (j : Nat), R s i → (i : Int) + k = j → ∀ h : j < xs.length, B.index s k = .ok xs[j]

/-- The order operators: those of the positions, or those of the positions the other way round. -/
structure OrderLaws (B : Iter σ α) (R : σ → Nat → Prop) (right : Bool) : Prop where
  lt : ∀ s i t j, R s i → R t j → B.lt s t = .ok (if right then decide (i < j) else decide (j < i))
  gt : ∀ s i t j, R s i → R t j → B.gt s t = .ok (if right then decide (j < i) else decide (i < j))
  le : ∀ s i t j, R s i → R t j → B.le s t = .ok (if right then decide (i ≤ j) else decide (j ≤ i))
  ge : ∀ s i t j, R s i → R t j → B.ge s t = .ok (if right then decide (j ≤ i) else decide (i ≤ j))
  cmp : ∀ s i t j, R s i → R t j → B.cmp s t = .ok (if right then compare i j else compare j i)

/-! ### One adaptor -/

theorem bind_ok {β γ : Type} (b : β) (f : β → Out γ) : ((Out.ok b : Out β) >>= f) = f b := rfl
theorem noexc_ok {β : Type} (b : β) : noexc (.ok b) = .ok b := rfl
theorem pure_ok {β : Type} (b : β) : (pure b : Out β) = .ok b := rfl

/-- The states of `ConstIterator`. -/
def constRel (R : σ → Nat → Prop) : Wrap σ → Nat → Prop := fun it i => R it.m_current i

/-- The states of `ReverseIterator`. -/
def revRel (n : Nat) (R : σ → Nat → Prop) : Wrap σ → Nat → Prop := fun it i => i ≤ n ∧ R it.m_current (n - i)

theorem const_bidir {B : Iter σ α} {xs : List α} {R : σ → Nat → Prop} (h : BidirLaws B xs R) :
    BidirLaws (constIt B) xs (constRel R) where
  bound s i hs := h.bound _ _ hs
  star s i hs hi := by
    change noexc (B.star _) = _
    rw [h.star _ _ hs hi]; rfl
  inc s i hs hi := by
    obtain ⟨s', e, h'⟩ := h.inc _ _ hs hi
    refine ⟨⟨s'⟩, ?_, h'⟩
    change noexc (B.inc _ >>= _) = _
    rw [e]; rfl
  postInc s i hs hi := by
    obtain ⟨s', e, h'⟩ := h.inc _ _ hs hi
    refine ⟨s, ⟨s'⟩, ?_, hs, h'⟩
    change noexc (noexc (B.inc _) >>= _) = _
    rw [e]; rfl
  dec s i hs hi := by
    obtain ⟨s', e, h'⟩ := h.dec _ _ hs hi
    refine ⟨⟨s'⟩, ?_, h'⟩
    change noexc (B.dec _ >>= _) = _
    rw [e]; rfl
  postDec s i hs hi := by
    obtain ⟨s', e, h'⟩ := h.dec _ _ hs hi
    refine ⟨s, ⟨s'⟩, ?_, hs, h'⟩
    change noexc (noexc (B.dec _) >>= _) = _
    rw [e]; rfl
  eq s i t j hs ht := by
    change noexc (noexc (B.eq _ _)) = _
    rw [h.eq _ _ _ _ ht hs]
    change Out.ok _ = Out.ok _
    congr 1
    exact decide_eq_decide.mpr eq_comm

theorem const_access {B : Iter σ α} {xs : List α} {R : σ → Nat → Prop} (h : AccessLaws B xs R) :
    AccessLaws (constIt B) xs (constRel R) where
  add s i k j hs e hj := by
    obtain ⟨s', e, h'⟩ := h.add _ _ k j hs e hj
    refine ⟨⟨s'⟩, ?_, h'⟩
    change noexc (B.add _ _ >>= _) = _
    rw [e]; rfl
  radd s i k j hs e hj := by
    obtain ⟨s', e, h'⟩ := h.radd _ _ k j hs e hj
    refine ⟨⟨s'⟩, ?_, h'⟩
    change noexc (B.radd _ _ >>= _) = _
    rw [e]; rfl
  sub s i k j hs e hj := by
    obtain ⟨s', e, h'⟩ := h.sub _ _ k j hs e hj
    refine ⟨⟨s'⟩, ?_, h'⟩
    change noexc (B.sub _ _ >>= _) = _
    rw [e]; rfl
  addAssign s i k j hs e hj := by
    obtain ⟨s', e, h'⟩ := h.addAssign _ _ k j hs e hj
    refine ⟨⟨s'⟩, ?_, h'⟩
    change noexc (B.addAssign _ _ >>= _) = _
    rw [e]; rfl
  subAssign s i k j hs e hj := by
    obtain ⟨s', e, h'⟩ := h.subAssign _ _ k j hs e hj
    refine ⟨⟨s'⟩, ?_, h'⟩
    change noexc (B.subAssign _ _ >>= _) = _
    rw [e]; rfl
  diff s i t j hs ht := by
    change noexc (noexc (B.diff _ _)) = _
    rw [h.diff _ _ _ _ hs ht]; rfl
  index s i k j hs e hj := by
    change noexc (B.index _ _) = _
    rw [h.index _ _ k j hs e hj]; rfl

theorem const_order {B : Iter σ α} {R : σ → Nat → Prop} {right : Bool} (h : OrderLaws B R right) :
    OrderLaws (constIt B) (constRel R) right where
  lt s i t j hs ht := by change noexc (B.lt _ _) = _; rw [h.lt _ _ _ _ hs ht]; rfl
  gt s i t j hs ht := by change noexc (B.gt _ _) = _; rw [h.gt _ _ _ _ hs ht]; rfl
  le s i t j hs ht := by change noexc (B.le _ _) = _; rw [h.le _ _ _ _ hs ht]; rfl
  ge s i t j hs ht := by change noexc (B.ge _ _) = _; rw [h.ge _ _ _ _ hs ht]; rfl
  cmp s i t j hs ht := by change noexc (B.cmp _ _) = _; rw [h.cmp _ _ _ _ hs ht]; rfl

theorem rev_star {B : Iter σ α} {xs : List α} {R : σ → Nat → Prop} (h : BidirLaws B xs R) {s : Wrap σ} {i : Nat}
    (hs : revRel xs.length R s i) (hi : i < xs.reverse.length) : revStar B s = .ok xs.reverse[i] := by
  rw [List.length_reverse] at hi
  obtain ⟨t, e, ht⟩ := h.dec _ _ hs.2 (by omega)
  unfold revStar
  rw [e]
  change noexc (B.star t) = _
  rw [h.star t _ ht (by omega), List.getElem_reverse]
  change Out.ok _ = _
  congr 2
  omega

theorem rev_bidir {B : Iter σ α} {xs : List α} {R : σ → Nat → Prop} (h : BidirLaws B xs R) :
    BidirLaws (revIt B) xs.reverse (revRel xs.length R) where
  bound s i hs := by rw [List.length_reverse]; exact hs.1
  star s i hs hi := rev_star h hs hi
  inc s i hs hi := by
    rw [List.length_reverse] at hi
    obtain ⟨s', e, h'⟩ := h.dec _ _ hs.2 (by omega)
    refine ⟨⟨s'⟩, ?_, by omega, by rw [show xs.length - (i + 1) = xs.length - i - 1 by omega]; exact h'⟩
    change noexc (B.dec _ >>= _) = _
    rw [e]; rfl
  postInc s i hs hi := by
    rw [List.length_reverse] at hi
    obtain ⟨s', e, h'⟩ := h.dec _ _ hs.2 (by omega)
    refine ⟨s, ⟨s'⟩, ?_, hs, by omega, by rw [show xs.length - (i + 1) = xs.length - i - 1 by omega]; exact h'⟩
    change noexc (B.dec _ >>= _) = _
    rw [e]; rfl
  dec s i hs hi := by
    have hb := hs.1
    obtain ⟨s', e, h'⟩ := h.inc _ _ hs.2 (by omega)
    refine ⟨⟨s'⟩, ?_, by omega, by rw [show xs.length - (i - 1) = xs.length - i + 1 by omega]; exact h'⟩
    change noexc (B.inc _ >>= _) = _
    rw [e]; rfl
  postDec s i hs hi := by
    have hb := hs.1
    obtain ⟨s', e, h'⟩ := h.inc _ _ hs.2 (by omega)
    refine ⟨s, ⟨s'⟩, ?_, hs, by omega, by rw [show xs.length - (i - 1) = xs.length - i + 1 by omega]; exact h'⟩
    change noexc (B.inc _ >>= _) = _
    rw [e]; rfl
  eq s i t j hs ht := by
    change noexc (B.eq _ _) = _
    rw [h.eq _ _ _ _ hs.2 ht.2]
    change Out.ok _ = Out.ok _
    congr 1
    have := hs.1
    have := ht.1
    exact decide_eq_decide.mpr (by omega)

theorem rev_access {B : Iter σ α} {xs : List α} {R : σ → Nat → Prop} (hb : BidirLaws B xs R) (h : AccessLaws B xs R) :
    AccessLaws (revIt B) xs.reverse (revRel xs.length R) := by
  have addLaw : ∀ (s : Wrap σ) (i : Nat) (k : Int) (j : Nat), revRel xs.length R s i → (i : Int) + k = j →
      j ≤ xs.length → ∃ s', revAdd B s k = .ok s' ∧ revRel xs.length R s' j := by
    intro s i k j hs e hj
    have h1 := hs.1
    obtain ⟨s', e, h'⟩ := h.sub _ _ k (xs.length - j) hs.2 (by omega) (by omega)
    refine ⟨⟨s'⟩, ?_, by omega, h'⟩
    unfold revAdd
    rw [e]; rfl
  constructor
  · intro s i k j hs e hj
    rw [List.length_reverse] at hj
    exact addLaw s i k j hs e hj
  · intro s i k j hs e hj
    rw [List.length_reverse] at hj
    exact addLaw s i k j hs e hj
  · intro s i k j hs e hj
    rw [List.length_reverse] at hj
    have h1 := hs.1
    obtain ⟨s', e, h'⟩ := h.add _ _ k (xs.length - j) hs.2 (by omega) (by omega)
    refine ⟨⟨s'⟩, ?_, by omega, h'⟩
    change noexc (B.add _ _ >>= _) = _
    rw [e]; rfl
  · intro s i k j hs e hj
    rw [List.length_reverse] at hj
    have h1 := hs.1
    obtain ⟨s', e, h'⟩ := h.subAssign _ _ k (xs.length - j) hs.2 (by omega) (by omega)
    refine ⟨⟨s'⟩, ?_, by omega, h'⟩
    change noexc (B.subAssign _ _ >>= _) = _
    rw [e]; rfl
  · intro s i k j hs e hj
    rw [List.length_reverse] at hj
    have h1 := hs.1
    obtain ⟨s', e, h'⟩ := h.addAssign _ _ k (xs.length - j) hs.2 (by omega) (by omega)
    refine ⟨⟨s'⟩, ?_, by omega, h'⟩
    change noexc (B.addAssign _ _ >>= _) = _
    rw [e]; rfl
  · intro s i t j hs ht
    have h1 := hs.1
    have h2 := ht.1
    change noexc (B.diff _ _) = _
    rw [h.diff _ _ _ _ ht.2 hs.2]
    change Out.ok _ = Out.ok _
    congr 1
    omega
  · intro s i k j hs e hj
    have hj' : j < xs.length := by rwa [List.length_reverse] at hj
    obtain ⟨s', e1, h'⟩ := addLaw s i k j hs e (Nat.le_of_lt hj')
    change noexc (revAdd B s k >>= fun i => revStar B i) = _
    rw [e1, bind_ok, rev_star hb h' hj]; rfl

theorem rev_order {B : Iter σ α} {n : Nat} {R : σ → Nat → Prop} {right : Bool} (h : OrderLaws B R right) :
    OrderLaws (revIt B) (revRel n R) (!right) := by
  have cmp : ∀ s i t j, revRel n R s i → revRel n R t j →
      revCmp B s t = .ok (if !right then compare i j else compare j i) := by
    intro s i t j hs ht
    have h1 := hs.1
    have h2 := ht.1
    unfold revCmp
    rw [h.cmp _ _ _ _ hs.2 ht.2, noexc_ok]
    congr 1
    have key : ∀ a b : Nat, a ≤ n → b ≤ n → compare (n - a) (n - b) = compare b a := by
      intro a b ha hb
      rw [Nat.compare_eq_ite_lt, Nat.compare_eq_ite_lt]
      by_cases c : a < b
      · rw [if_neg (by omega), if_pos (by omega), if_neg (by omega), if_pos c]
      · by_cases d : b < a
        · rw [if_pos (by omega), if_pos d]
        · rw [if_neg (by omega), if_neg (by omega), if_neg d, if_neg c]
    cases right
    · exact key _ _ h2 h1
    · exact key _ _ h1 h2
  have ord : ∀ (i j : Nat), (compare i j).isLT = decide (i < j) ∧ (compare i j).isGT = decide (j < i) ∧
      (compare i j).isLE = decide (i ≤ j) ∧ (compare i j).isGE = decide (j ≤ i) := by
    intro i j
    rw [Nat.compare_eq_ite_lt]
    by_cases c : i < j
    · rw [if_pos c, decide_eq_true c, decide_eq_false (by omega), decide_eq_true (by omega), decide_eq_false (by omega)]
      decide
    · by_cases d : j < i
      · rw [if_neg c, if_pos d, decide_eq_false c, decide_eq_true d, decide_eq_false (by omega),
          decide_eq_true (by omega)]
        decide
      · rw [if_neg c, if_neg d, decide_eq_false c, decide_eq_false d, decide_eq_true (by omega),
          decide_eq_true (by omega)]
        decide
  refine ⟨?_, ?_, ?_, ?_, cmp⟩
  · intro s i t j hs ht
    change (revCmp B s t >>= fun c => pure c.isLT) = _
    rw [cmp s i t j hs ht, bind_ok, pure_ok]
    cases right
    · exact congrArg Out.ok (ord i j).1
    · exact congrArg Out.ok (ord j i).1
  · intro s i t j hs ht
    change (revCmp B s t >>= fun c => pure c.isGT) = _
    rw [cmp s i t j hs ht, bind_ok, pure_ok]
    cases right
    · exact congrArg Out.ok (ord i j).2.1
    · exact congrArg Out.ok (ord j i).2.1
  · intro s i t j hs ht
    change (revCmp B s t >>= fun c => pure c.isLE) = _
    rw [cmp s i t j hs ht, bind_ok, pure_ok]
    cases right
    · exact congrArg Out.ok (ord i j).2.2.1
    · exact congrArg Out.ok (ord j i).2.2.1
  · intro s i t j hs ht
    change (revCmp B s t >>= fun c => pure c.isGE) = _
    rw [cmp s i t j hs ht, bind_ok, pure_ok]
    cases right
    · exact congrArg Out.ok (ord i j).2.2.2
    · exact congrArg Out.ok (ord j i).2.2.2

/-! ### Stacks -/

/-- An odd number of `ReverseIterator`s. -/
def odd : List Kind → Bool
  | [] => false
  | .const :: ks => odd ks
  | .reverse :: ks => !odd ks

/-- The states of a stack that stand for a position: that of the underlying iterator, or counted from the end. -/
def stackRel (n : Nat) (R : σ → Nat → Prop) : (ks : List Kind) → StackState σ ks → Nat → Prop
  | [] => R
  | .const :: ks => constRel (stackRel n R ks)
  | .reverse :: ks => revRel n (stackRel n R ks)

/-- The sequence in the order in which a stack of adaptors shows it. -/
def shown (ks : List Kind) (xs : List α) : List α := if odd ks then xs.reverse else xs

theorem shown_length (ks : List Kind) (xs : List α) : (shown ks xs).length = xs.length := by
  unfold shown; split <;> simp

theorem shown_reverse (ks : List Kind) (xs : List α) : shown (.reverse :: ks) xs = (shown ks xs).reverse := by
  have : odd (.reverse :: ks) = !odd ks := rfl
  unfold shown
  rw [this]
  cases odd ks <;> simp

theorem wrap_rel {n : Nat} {R : σ → Nat → Prop} {s : σ} {i : Nat} (h : R s i) (hi : i ≤ n) (ks : List Kind) :
    stackRel n R ks (wrap s ks) (if odd ks then n - i else i) := by
  induction ks with
  | nil => exact h
  | cons k ks ih =>
    cases k with
    | const => exact ih
    | reverse =>
      change _ ≤ n ∧ stackRel n R ks (wrap s ks) (n - if !odd ks then n - i else i)
      cases ho : odd ks with
      | false =>
        rw [ho] at ih
        simp only [Bool.not_false, if_true, Bool.false_eq_true, if_false] at ih ⊢
        refine ⟨?_, by rw [show n - (n - i) = i by omega]; exact ih⟩
        simp only [odd, ho, Bool.not_false, if_true]; omega
      | true =>
        rw [ho] at ih
        simp only [Bool.not_true, if_true, Bool.false_eq_true, if_false] at ih ⊢
        refine ⟨?_, ih⟩
        simp only [odd, ho, Bool.not_true, Bool.false_eq_true, if_false]; exact hi

/-- C154. Over every bidirectional iterator, every stack of `ConstIterator`s and `ReverseIterator`s is a bidirectional
iterator over the sequence — over the reversed sequence if the number of `ReverseIterator`s is odd. -/
theorem adaptors_bidirectional_partial {B : Iter σ α} {xs : List α} {R : σ → Nat → Prop} (h : BidirLaws B xs R)
    (ks : List Kind) : BidirLaws (stack B ks) (shown ks xs) (stackRel xs.length R ks) := by
  induction ks with
  | nil => exact h
  | cons k ks ih =>
    cases k with
    | const => exact const_bidir ih
    | reverse =>
      rw [shown_reverse]
      have := rev_bidir ih
      rw [shown_length] at this
      exact this

/-- C154. The same for random access: sums, differences and subscripts. -/
theorem adaptors_random_access_partial {B : Iter σ α} {xs : List α} {R : σ → Nat → Prop} (hb : BidirLaws B xs R)
    (h : AccessLaws B xs R) (ks : List Kind) : AccessLaws (stack B ks) (shown ks xs) (stackRel xs.length R ks) := by
  induction ks with
  | nil => exact h
  | cons k ks ih =>
    cases k with
    | const => exact const_access ih
    | reverse =>
      rw [shown_reverse]
      have := rev_access (adaptors_bidirectional_partial hb ks) ih
      rw [shown_length] at this
      exact this

/-- C154, exactly, for the order operators: they are right if the number of `ReverseIterator`s is even, and those of
the opposite order if it is odd. -/
theorem adaptors_order_exact {B : Iter σ α} {n : Nat} {R : σ → Nat → Prop} (h : OrderLaws B R true) (ks : List Kind) :
    OrderLaws (stack B ks) (stackRel n R ks) (!odd ks) := by
  induction ks with
  | nil => exact h
  | cons k ks ih =>
    cases k with
    | const => exact const_order ih
    | reverse =>
      have := rev_order (n := n) ih
      exact this

theorem visit_from {B : Iter σ α} {xs : List α} {R : σ → Nat → Prop} (h : BidirLaws B xs R) {last : σ}
    (hl : R last xs.length) : ∀ (fuel i : Nat) (s : σ), R s i → xs.length - i < fuel →
      visit B fuel s last = .ok (xs.drop i) := by
  intro fuel
  induction fuel with
  | zero => intro i s _ hf; omega
  | succ fuel ih =>
    intro i s hs hf
    have hb := h.bound _ _ hs
    unfold visit
    rw [h.eq _ _ _ _ hs hl, bind_ok]
    by_cases e : i = xs.length
    · rw [decide_eq_true e, if_pos rfl, e, List.drop_length]; rfl
    · rw [decide_eq_false e, if_neg (by decide), h.star _ _ hs (by omega), bind_ok]
      obtain ⟨s', e', h'⟩ := h.inc _ _ hs (by omega)
      rw [e', bind_ok, ih _ _ h' (by omega), bind_ok, List.drop_eq_getElem_cons (by omega : i < xs.length)]
      rfl

/-- C154. Going from the beginning to the end of a stack of adaptors, made from the ends of a sequence (exchanged if the
number of `ReverseIterator`s is odd), visits every element once, in order or in reverse order. -/
theorem adaptors_visit_partial {B : Iter σ α} {xs : List α} {R : σ → Nat → Prop} (h : BidirLaws B xs R) (ks : List Kind)
    {first last : σ} (hf : R first 0) (hl : R last xs.length) {fuel : Nat} (hn : xs.length < fuel) :
    visit (stack B ks) fuel (wrap (if odd ks then last else first) ks) (wrap (if odd ks then first else last) ks) =
      .ok (if odd ks then xs.reverse else xs) := by
  have L := adaptors_bidirectional_partial h ks
  cases ho : odd ks with
  | false =>
    have h1 := wrap_rel hf (Nat.zero_le xs.length) ks
    have h2 := wrap_rel hl (Nat.le_refl _) ks
    rw [ho] at h1 h2
    simp only [Bool.false_eq_true, if_false] at h1 h2 ⊢
    have := visit_from L (last := wrap last ks) (by rw [shown_length]; exact h2) fuel 0 _ h1 (by rw [shown_length]; omega)
    rw [this]; unfold shown; rw [ho]; rfl
  | true =>
    have h1 := wrap_rel hf (Nat.zero_le xs.length) ks
    have h2 := wrap_rel hl (Nat.le_refl _) ks
    rw [ho] at h1 h2
    simp only [if_true, Nat.sub_zero, Nat.sub_self] at h1 h2 ⊢
    have := visit_from L (last := wrap first ks) (by rw [shown_length]; exact h1) fuel 0 _ h2 (by rw [shown_length]; omega)
    rw [this]; unfold shown; rw [ho]; rfl

/-- C154, what is wrong: with an odd number of `ReverseIterator`s, a loop that runs while `first < last` visits nothing
of a sequence that is not empty. -/
theorem adaptors_less_wrong {B : Iter σ α} {xs : List α} {R : σ → Nat → Prop} (h : OrderLaws B R true)
    (hx : xs ≠ []) {ks : List Kind} (ho : odd ks = true) {first last : σ} (hf : R first 0) (hl : R last xs.length)
    (fuel : Nat) : visitLess (stack B ks) (fuel + 1) (wrap last ks) (wrap first ks) = .ok [] ∧
      shown ks xs = xs.reverse ∧ xs.reverse ≠ [] := by
  have L := adaptors_order_exact (n := xs.length) h ks
  have h1 := wrap_rel hf (Nat.zero_le xs.length) ks
  have h2 := wrap_rel hl (Nat.le_refl _) ks
  rw [ho] at h1 h2 L
  simp only [if_true, Nat.sub_zero, Nat.sub_self] at h1 h2
  have hpos := List.length_pos_iff.mpr hx
  refine ⟨?_, by unfold shown; rw [ho]; rfl, by simpa using hx⟩
  unfold visitLess
  rw [L.lt _ _ _ _ h2 h1, bind_ok]
  simp only [Bool.not_true, Bool.false_eq_true, if_false]
  rw [decide_eq_false (by omega), if_neg (by decide)]
  rfl

/-! ### Exceptions -/

/-- C154, what is wrong: no exception of the underlying iterator passes an adaptor. Whatever throws in `*it`, `++it`,
`--it`, `it += n`, `it == other` or `it[n]` — also an error the iterator reports that way, as the standard lets it —
ends the program. -/
theorem adaptors_terminate_wrong (B : Iter σ α) (s t : σ) (k : Int) :
    (B.star s = .threw → (constIt B).star ⟨s⟩ = .terminated) ∧
    (B.inc s = .threw → (constIt B).inc ⟨s⟩ = .terminated ∧ (constIt B).postInc ⟨s⟩ = .terminated ∧
      (revIt B).dec ⟨s⟩ = .terminated ∧ (revIt B).postDec ⟨s⟩ = .terminated) ∧
    (B.dec s = .threw → (constIt B).dec ⟨s⟩ = .terminated ∧ (constIt B).postDec ⟨s⟩ = .terminated ∧
      (revIt B).inc ⟨s⟩ = .terminated ∧ (revIt B).postInc ⟨s⟩ = .terminated ∧ (revIt B).star ⟨s⟩ = .terminated) ∧
    (B.dec s = .ok t → B.star t = .threw → (revIt B).star ⟨s⟩ = .terminated) ∧
    (B.eq s t = .threw → (constIt B).eq ⟨t⟩ ⟨s⟩ = .terminated ∧ (revIt B).eq ⟨s⟩ ⟨t⟩ = .terminated) ∧
    (B.index s k = .threw → (constIt B).index ⟨s⟩ k = .terminated) ∧
    (B.addAssign s k = .threw → (constIt B).addAssign ⟨s⟩ k = .terminated ∧
      (revIt B).subAssign ⟨s⟩ k = .terminated) := by
  refine ⟨fun h => ?_, fun h => ⟨?_, ?_, ?_, ?_⟩, fun h => ⟨?_, ?_, ?_, ?_, ?_⟩, fun h1 h2 => ?_, fun h => ⟨?_, ?_⟩,
    fun h => ?_, fun h => ⟨?_, ?_⟩⟩
  · change noexc (B.star s) = _; rw [h]; rfl
  · change noexc (B.inc s >>= _) = _; rw [h]; rfl
  · change noexc (noexc (B.inc s) >>= _) = _; rw [h]; rfl
  · change noexc (B.inc s >>= _) = _; rw [h]; rfl
  · change noexc (B.inc s >>= _) = _; rw [h]; rfl
  · change noexc (B.dec s >>= _) = _; rw [h]; rfl
  · change noexc (noexc (B.dec s) >>= _) = _; rw [h]; rfl
  · change noexc (B.dec s >>= _) = _; rw [h]; rfl
  · change noexc (B.dec s >>= _) = _; rw [h]; rfl
  · change noexc (B.dec s >>= _) = _; rw [h]; rfl
  · change noexc (B.dec s >>= _) = _; rw [h1]; change noexc (B.star t) = _; rw [h2]; rfl
  · change noexc (noexc (B.eq s t)) = _; rw [h]; rfl
  · change noexc (B.eq s t) = _; rw [h]; rfl
  · change noexc (B.index s k) = _; rw [h]; rfl
  · change noexc (B.addAssign s k >>= _) = _; rw [h]; rfl
  · change noexc (B.addAssign s k >>= _) = _; rw [h]; rfl

/-! ### The hypotheses can be met -/

/-- A pointer into an array. -/
def ptrIter (xs : List α) : Iter Nat α :=
  let mv : Int → Out Nat := fun q => if 0 ≤ q ∧ q ≤ xs.length then .ok q.toNat else .ub
  let get : Int → Out α := fun q => if 0 ≤ q then match xs[q.toNat]? with | some x => .ok x | none => .ub else .ub
  { star := fun p => get p
    inc := fun p => mv (p + 1)
    postInc := fun p => mv (p + 1) >>= fun q => .ok (p, q)
    dec := fun p => mv (p - 1)
    postDec := fun p => mv (p - 1) >>= fun q => .ok (p, q)
    add := fun p k => mv (p + k)
    radd := fun k p => mv (p + k)
    sub := fun p k => mv (p - k)
    addAssign := fun p k => mv (p + k)
    subAssign := fun p k => mv (p - k)
    diff := fun p q => .ok ((p : Int) - q)
    index := fun p k => get (p + k)
    eq := fun p q => .ok (decide (p = q))
    lt := fun p q => .ok (decide (p < q))
    gt := fun p q => .ok (decide (q < p))
    le := fun p q => .ok (decide (p ≤ q))
    ge := fun p q => .ok (decide (q ≤ p))
    cmp := fun p q => .ok (compare p q) }

theorem ptr_bidir (xs : List α) : BidirLaws (ptrIter xs) xs (fun p i => p = i ∧ i ≤ xs.length) where
  bound := fun s i h => h.2
  star := by
    rintro s i ⟨rfl, -⟩ h
    simp only [ptrIter, Int.natCast_nonneg, if_true, Int.toNat_natCast, List.getElem?_eq_getElem h]
  inc := by
    rintro s i ⟨rfl, -⟩ h
    exact ⟨s + 1, by simp only [ptrIter]; rw [if_pos (by omega)]; rfl, rfl, by omega⟩
  postInc := by
    rintro s i ⟨rfl, h0⟩ h
    exact ⟨s, s + 1, by simp only [ptrIter]; rw [if_pos (by omega)]; rfl, ⟨rfl, h0⟩, rfl, by omega⟩
  dec := by
    rintro s i ⟨rfl, h0⟩ h
    exact ⟨s - 1, by
      simp only [ptrIter]; rw [if_pos (by omega)]; congr 1; omega, rfl, by omega⟩
  postDec := by
    rintro s i ⟨rfl, h0⟩ h
    exact ⟨s, s - 1, by
      simp only [ptrIter]; rw [if_pos (by omega), bind_ok]; congr 2; omega, ⟨rfl, h0⟩, rfl, by omega⟩
  eq := by
    rintro s i t j ⟨rfl, -⟩ ⟨rfl, -⟩; rfl

theorem ptr_access (xs : List α) : AccessLaws (ptrIter xs) xs (fun p i => p = i ∧ i ≤ xs.length) where
  add := by
    rintro s i k j ⟨rfl, -⟩ e h
    exact ⟨j, by simp only [ptrIter]; rw [e, if_pos (by omega), Int.toNat_natCast], rfl, h⟩
  radd := by
    rintro s i k j ⟨rfl, -⟩ e h
    exact ⟨j, by simp only [ptrIter]; rw [e, if_pos (by omega), Int.toNat_natCast], rfl, h⟩
  sub := by
    rintro s i k j ⟨rfl, -⟩ e h
    exact ⟨j, by simp only [ptrIter]; rw [e, if_pos (by omega), Int.toNat_natCast], rfl, h⟩
  addAssign := by
    rintro s i k j ⟨rfl, -⟩ e h
    exact ⟨j, by simp only [ptrIter]; rw [e, if_pos (by omega), Int.toNat_natCast], rfl, h⟩
  subAssign := by
    rintro s i k j ⟨rfl, -⟩ e h
    exact ⟨j, by simp only [ptrIter]; rw [e, if_pos (by omega), Int.toNat_natCast], rfl, h⟩
  diff := by rintro s i t j ⟨rfl, -⟩ ⟨rfl, -⟩; rfl
  index := by
    rintro s i k j ⟨rfl, -⟩ e h
    simp only [ptrIter]
    rw [e, if_pos (by omega), Int.toNat_natCast, List.getElem?_eq_getElem h]

theorem ptr_order (xs : List α) : OrderLaws (ptrIter xs) (fun p i => p = i ∧ i ≤ xs.length) true where
  lt := by rintro s i t j ⟨rfl, -⟩ ⟨rfl, -⟩; rfl
  gt := by rintro s i t j ⟨rfl, -⟩ ⟨rfl, -⟩; rfl
  le := by rintro s i t j ⟨rfl, -⟩ ⟨rfl, -⟩; rfl
  ge := by rintro s i t j ⟨rfl, -⟩ ⟨rfl, -⟩; rfl
  cmp := by rintro s i t j ⟨rfl, -⟩ ⟨rfl, -⟩; rfl

/-- A constant view of a reversed reversed constant array: from the front. -/
example : visit (stack (ptrIter [7, 8, 9]) [.const, .reverse, .reverse, .const]) 4
    (wrap 0 [.const, .reverse, .reverse, .const]) (wrap 3 [.const, .reverse, .reverse, .const]) = .ok [7, 8, 9] :=
  adaptors_visit_partial (ptr_bidir [7, 8, 9]) [.const, .reverse, .reverse, .const] (first := 0) (last := 3)
    ⟨rfl, by decide⟩ ⟨rfl, by decide⟩ (by decide)

/-- A reversed constant array: from the back, and not at all with `<`. -/
example : visit (stack (ptrIter [7, 8, 9]) [.reverse, .const]) 4
      (wrap 3 [.reverse, .const]) (wrap 0 [.reverse, .const]) = .ok [9, 8, 7] ∧
    visitLess (stack (ptrIter [7, 8, 9]) [.reverse, .const]) 4
      (wrap 3 [.reverse, .const]) (wrap 0 [.reverse, .const]) = .ok [] :=
  ⟨adaptors_visit_partial (ptr_bidir [7, 8, 9]) [.reverse, .const] (first := 0) (last := 3)
      ⟨rfl, by decide⟩ ⟨rfl, by decide⟩ (by decide),
   (adaptors_less_wrong (xs := [7, 8, 9]) (ptr_order [7, 8, 9]) (by decide) (ks := [.reverse, .const]) rfl (first := 0) (last := 3)
      ⟨rfl, by decide⟩ ⟨rfl, by decide⟩ 3).1⟩

end Verif.Adapt
