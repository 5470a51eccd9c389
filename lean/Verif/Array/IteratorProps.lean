import Verif.Array.Iterator

/-! # Properties of `Array::Iterator` and of the accessors of arrays -/

set_option autoImplicit false

namespace Verif.Arr

variable {α : Type} (cfg : Elem α)

/-- `it` designates position `i` of array `a` in the client's view: it is what `a.begin() + i` gives. -/
def At (w : World α) (a i : Nat) (it : It) : Prop := ∃ b, beginIt w a = some b ∧ b.add w i = some it

/-- What is known about the pointers of an array. -/
theorem at_iff {w : World α} (hw : Reached cfg w) {a : Nat} {xs : List α} {c : Nat} (ha : observe w a = some (xs, c)) :
    ∃ b : Nat, beginIt w a = some ⟨b, 0⟩ ∧ endIt w a = some ⟨b, xs.length⟩ ∧
      (∀ i k : Int, 0 ≤ i → i ≤ xs.length → 0 ≤ i + k → i + k ≤ xs.length →
        It.move w ⟨b, i.toNat⟩ k = some ⟨b, (i + k).toNat⟩) ∧
      (∀ i (h : i < xs.length), deref w b i = some xs[i]) := by
  obtain ⟨b, h1, h2⟩ := Reached.deref cfg hw ha
  obtain ⟨d, hd, hh, rfl⟩ := (hw.inv cfg).1.get cfg ha
  have hb : d.blk = b := by simpa [dataPtr, hd] using h1
  subst hb
  refine ⟨d.blk, by simp [beginIt, hd], by simp [endIt, hd, hh.size], ?_, h2⟩
  intro i k hi hi' hk hk'
  have hle := hh.le
  rw [hh.size] at hle
  have hcast : ((i.toNat : Nat) : Int) = i := Int.toNat_of_nonneg hi
  unfold It.move
  rcases hh.blk with ⟨e1, e2⟩ | ⟨e1, e2⟩
  · have h0 : w.mem.size d.blk = none ∨ ∃ n, w.mem.size d.blk = some n := by
      cases w.mem.size d.blk <;> simp
    have hlen : xs.length = 0 := by omega
    have hi0 : i = 0 := by omega
    have hk0 : k = 0 := by omega
    subst hi0 hk0
    rcases h0 with h0 | ⟨n, h0⟩
    · rw [h0]; simp [It.null, e1]
    · rw [h0]; simp
  · rw [e2]
    simp only [hcast]
    rw [if_pos ⟨hk, by omega⟩]

variable {w : World α} {a : Nat} {xs : List α} {c : Nat}

theorem at_unfold (hw : Reached cfg w) (ha : observe w a = some (xs, c)) :
    ∃ b : Nat, beginIt w a = some ⟨b, 0⟩ ∧ endIt w a = some ⟨b, xs.length⟩ ∧
      (∀ i it, i ≤ xs.length → (At w a i it ↔ it = ⟨b, i⟩)) ∧
      (∀ (i : Nat) (k : Int), i ≤ xs.length → 0 ≤ i + k → i + k ≤ xs.length →
        It.move w ⟨b, i⟩ k = some ⟨b, (i + k).toNat⟩) ∧
      (∀ i (h : i < xs.length), deref w b i = some xs[i]) := by
  obtain ⟨b, h1, h2, h3, h4⟩ := at_iff cfg hw ha
  refine ⟨b, h1, h2, ?_, ?_, h4⟩
  · intro i it hi
    have e := h3 0 i (by omega) (by omega) (by omega) (by omega)
    simp only [Int.toNat_zero, Int.zero_add, Int.toNat_natCast] at e
    unfold At
    constructor
    · rintro ⟨b', e1, e2⟩
      rw [h1] at e1; cases e1
      rw [It.add, e] at e2
      exact (Option.some.inj e2).symm
    · rintro rfl
      exact ⟨_, h1, e⟩
  · intro i k hi hk hk'
    have := h3 i k (by omega) (by omega) hk hk'
    simpa using this

/-! ### C113 -/

/-- C113. In every state a client can bring about, every position from 0 to `size()` has an iterator, `begin()` is the one
for 0 and `end()` the one for `size()`; dereferencing the iterator for `i` gives the element `i`. -/
theorem array_iterator_positions (hw : Reached cfg w) (ha : observe w a = some (xs, c)) :
    (∀ i, i ≤ xs.length → ∃ it, At w a i it) ∧
    (∃ b, beginIt w a = some b ∧ At w a 0 b) ∧ (∃ e, endIt w a = some e ∧ At w a xs.length e) ∧
    (∀ i (h : i < xs.length) it, At w a i it → it.star w = some xs[i]) := by
  obtain ⟨b, h1, h2, h3, h4, h5⟩ := at_unfold cfg hw ha
  refine ⟨fun i hi => ⟨_, (h3 i _ hi).2 rfl⟩, ⟨_, h1, (h3 0 _ (by omega)).2 rfl⟩,
    ⟨_, h2, (h3 _ _ (Nat.le_refl _)).2 rfl⟩, fun i hi it hit => ?_⟩
  rw [h3 i it (by omega)] at hit
  subst hit
  exact h5 i hi

/-- C113. The operators of iterators are those of positions: for `it` at position `i` and `jt` at position `j`, every way
to add or subtract a number `k` that stays between 0 and `size()` gives the iterator at `i + k` (or `i - k`); `it[k]` is
the element there; the difference, equality and order are those of `i` and `j`; the post-increment and post-decrement
return the old position. -/
theorem array_iterator_arithmetic (hw : Reached cfg w) (ha : observe w a = some (xs, c)) {i j : Nat} {it jt : It}
    (hi : i ≤ xs.length) (hj : j ≤ xs.length) (hit : At w a i it) (hjt : At w a j jt) :
    (∀ k : Int, 0 ≤ i + k → i + k ≤ xs.length → ∃ kt, At w a (i + k).toNat kt ∧ it.add w k = some kt ∧
      It.addLeft w k it = some kt ∧ it.addAssign w k = some kt ∧ it.sub w (-k) = some kt ∧
      it.subAssign w (-k) = some kt ∧ (k = 1 → it.inc w = some kt ∧ it.postInc w = some (it, kt)) ∧
      (k = -1 → it.dec w = some kt ∧ it.postDec w = some (it, kt))) ∧
    (∀ k : Int, ∀ h : 0 ≤ i + k ∧ i + k < xs.length, it.index w k = some (xs[(i + k).toNat]'(by omega))) ∧
    it.diff jt = some ((i : Int) - j) ∧ it.eq jt = decide (i = j) ∧ it.cmp jt = some (compare i j) := by
  obtain ⟨b, h1, h2, h3, h4, h5⟩ := at_unfold cfg hw ha
  rw [h3 i it hi] at hit
  rw [h3 j jt hj] at hjt
  subst hit hjt
  refine ⟨fun k hk hk' => ?_, fun k hk => ?_, by simp [It.diff], by simp [It.eq], by simp [It.cmp]⟩
  · have e := h4 i k hi hk hk'
    refine ⟨⟨b, (i + k).toNat⟩, (h3 _ _ (by omega)).2 rfl, e, e, e, ?_, ?_, ?_, ?_⟩
    · simpa [It.sub] using e
    · simpa [It.subAssign] using e
    · rintro rfl
      exact ⟨e, by simp [It.postInc, e]⟩
    · rintro rfl
      exact ⟨e, by simp [It.postDec, e]⟩
  · have e := h4 i k hi hk.1 (by omega)
    simp only [It.index, e, Option.bind_some, It.star]
    exact h5 _ _

theorem traverse_from (b : Nat)
    (h4 : ∀ (i : Nat) (k : Int), i ≤ xs.length → 0 ≤ i + k → i + k ≤ xs.length →
      It.move w ⟨b, i⟩ k = some ⟨b, (i + k).toNat⟩)
    (h5 : ∀ i (h : i < xs.length), deref w b i = some xs[i]) (n fuel i : Nat) (hn : i + n = xs.length) (hf : n < fuel) :
    traverse w fuel ⟨b, i⟩ ⟨b, xs.length⟩ = some (xs.drop i) := by
  induction n generalizing fuel i with
  | zero =>
    obtain ⟨fuel, rfl⟩ : ∃ f, fuel = f + 1 := ⟨fuel - 1, by omega⟩
    have hi : i = xs.length := by omega
    subst hi
    simp [traverse, It.eq]
  | succ n ih =>
    obtain ⟨fuel, rfl⟩ : ∃ f, fuel = f + 1 := ⟨fuel - 1, by omega⟩
    have hi : i < xs.length := by omega
    have e := h4 i 1 (by omega) (by omega) (by omega)
    have e2 : ((i : Int) + 1).toNat = i + 1 := by omega
    rw [e2] at e
    have hne : ¬ (i = xs.length) := by omega
    rw [traverse]
    simp only [It.eq, It.mk.injEq, true_and, decide_eq_true_eq, hne, if_false, It.star, h5 i hi, It.inc, e,
      Option.bind_some]
    rw [ih fuel (i + 1) (by omega) (by omega)]
    simp

theorem traverseBack_from (b : Nat)
    (h4 : ∀ (i : Nat) (k : Int), i ≤ xs.length → 0 ≤ i + k → i + k ≤ xs.length →
      It.move w ⟨b, i⟩ k = some ⟨b, (i + k).toNat⟩)
    (h5 : ∀ i (h : i < xs.length), deref w b i = some xs[i]) (fuel i : Nat) (hi : i ≤ xs.length) (hf : i < fuel) :
    traverseBack w fuel ⟨b, 0⟩ ⟨b, i⟩ = some (xs.take i).reverse := by
  induction i generalizing fuel with
  | zero =>
    obtain ⟨fuel, rfl⟩ : ∃ f, fuel = f + 1 := ⟨fuel - 1, by omega⟩
    simp [traverseBack, It.eq]
  | succ i ih =>
    obtain ⟨fuel, rfl⟩ : ∃ f, fuel = f + 1 := ⟨fuel - 1, by omega⟩
    have e := h4 (i + 1) (-1) (by omega) (by omega) (by omega)
    have e2 : (((i + 1 : Nat) : Int) + -1).toNat = i := by omega
    rw [e2] at e
    rw [traverseBack]
    simp only [It.eq, It.mk.injEq, true_and, decide_eq_true_eq, Nat.succ_ne_zero, if_false, It.star, h5 i (by omega),
      It.dec, e, Option.bind_some]
    rw [ih fuel (by omega) (by omega)]
    have e3 : xs.take (i + 1) = xs.take i ++ [xs[i]] := List.take_succ_eq_append_getElem (by omega)
    rw [e3, List.reverse_append]
    rfl

/-- C113. A loop from `begin()` to `end()` visits the elements in order, one backwards from `end()` in reverse order. -/
theorem array_iterator_traversal (hw : Reached cfg w) (ha : observe w a = some (xs, c)) :
    ∃ b e, beginIt w a = some b ∧ endIt w a = some e ∧
      (∀ fuel, xs.length < fuel → traverse w fuel b e = some xs ∧ traverseBack w fuel b e = some xs.reverse) := by
  obtain ⟨b, h1, h2, h3, h4, h5⟩ := at_unfold cfg hw ha
  refine ⟨_, _, h1, h2, fun fuel hf => ⟨?_, ?_⟩⟩
  · simpa using traverse_from b h4 h5 xs.length fuel 0 (by omega) hf
  · simpa using traverseBack_from b h4 h5 fuel xs.length (Nat.le_refl _) hf

/-- C113. `size()`, `empty()`, `a[i]`, `front()`, `back()` and `data()` say what they promise; `a[i]` is undefined for
negative `i`. -/
theorem array_accessors (hw : Reached cfg w) (ha : observe w a = some (xs, c)) :
    sizeOf' w a = some (xs.length : Int) ∧ emptyOf w a = some xs.isEmpty ∧
    (∀ i (h : i < xs.length), indexOf w a i = some xs[i]) ∧
    (∀ i : Int, i < 0 → indexOf w a i = none) ∧
    (∀ h : xs ≠ [], frontOf w a = some (xs.head h) ∧ backOf w a = some (xs.getLast h)) ∧
    (∃ b, dataOf w a = some (b, 0) ∧ ∀ i (h : i < xs.length), deref w b i = some xs[i]) := by
  obtain ⟨b, h1, h2, h3, h4, h5⟩ := at_unfold cfg hw ha
  have hs : sizeOf' w a = some (xs.length : Int) := by simp [sizeOf', h1, h2, It.diff]
  refine ⟨hs, ?_, fun i hi => ?_, fun i hi => ?_, fun hne => ⟨?_, ?_⟩, b, by simp [dataOf, h1], h5⟩
  · rw [emptyOf, hs]
    cases xs with
    | nil => rfl
    | cons x xs => simp; omega
  · have e := h4 0 i (by omega) (by omega) (by omega)
    simp only [Int.natCast_zero, Int.zero_add, Int.toNat_natCast] at e
    simp only [indexOf, h1, Option.bind_some, It.index, e, It.star]
    exact h5 i hi
  · simp only [indexOf, h1, Option.bind_some, It.index, It.move]
    have hb : ¬ (0 ≤ ((0 : Nat) : Int) + i ∧ True) := by omega
    cases w.mem.size b with
    | none =>
      have : i ≠ 0 := by omega
      simp [this]
    | some n =>
      simp only
      rw [if_neg (by omega)]
      rfl
  · have hl : 0 < xs.length := List.length_pos_iff.2 hne
    simp only [frontOf, h1, Option.bind_some, It.star, h5 0 hl]
    rw [List.head_eq_getElem]
  · have hl : 0 < xs.length := List.length_pos_iff.2 hne
    have e := h4 xs.length (-1) (by omega) (by omega) (by omega)
    have e2 : ((xs.length : Int) + -1).toNat = xs.length - 1 := by omega
    rw [e2] at e
    simp only [backOf, h2, Option.bind_some, It.dec, e, It.star, h5 (xs.length - 1) (by omega)]
    rw [List.getLast_eq_getElem]

/-- C113. Iterators to elements of two different arrays are different. -/
theorem array_iterators_distinct (hw : Reached cfg w) {a' : Nat} {ys : List α} {c' : Nat} (hne : a ≠ a')
    (ha : observe w a = some (xs, c)) (hb : observe w a' = some (ys, c')) {i j : Nat} {it jt : It}
    (hi : i < xs.length) (hj : j < ys.length) (hit : At w a i it) (hjt : At w a' j jt) :
    it.eq jt = false ∧ jt.eq it = false := by
  obtain ⟨b, h1, -, h3, -, -⟩ := at_unfold cfg hw ha
  obtain ⟨b', g1, -, g3, -, -⟩ := at_unfold cfg hw hb
  rw [h3 i it (by omega)] at hit
  rw [g3 j jt (by omega)] at hjt
  have hinv := (hw.inv cfg).1
  obtain ⟨d, hd, hh, -⟩ := hinv.get cfg ha
  obtain ⟨d', hd', -, -⟩ := hinv.get cfg hb
  have e1 : d.blk = b := by simpa [beginIt, hd] using h1
  have e2 : d'.blk = b' := by simpa [beginIt, hd'] using g1
  have hbb : b ≠ b' := by
    intro e
    have h0 := hinv.dist a a' d d' hd hd' hne (by rw [e1, e2, e])
    rcases hh.blk with ⟨-, hc⟩ | ⟨hnz, -⟩
    · have := hh.le; have := hh.size; omega
    · exact hnz h0
  subst hit hjt
  exact ⟨by simp [It.eq, hbb], by simp [It.eq, Ne.symm hbb]⟩

/-- The states meant exist: an array of three elements, its iterators and its ends, and another array beside it. -/
example : ∃ w, Reached natElem w ∧ observe w 0 = some ([1, 2, 3], 3) ∧ observe w 1 = some ([7, 8], 5) := by
  obtain ⟨w, h1, h2, h3, -⟩ := demo_reached
  exact ⟨w, h1, h2, h3⟩

end Verif.Arr
