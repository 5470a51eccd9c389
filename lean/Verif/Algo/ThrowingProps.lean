import Verif.Algo.Throwing
import Verif.Algo.ReverseProps

/-! # Exceptions of comparisons and swaps in `find` and `reverse` -/

set_option autoImplicit false

namespace Verif.Algo.Throwing

open Verif.Algo

variable {α : Type}

/-- What a user expects of `find`: elements are compared in order; the first comparison that gives true decides the
result, the first that throws before it ends the search with its exception, and if there is neither the result is the
end. -/
def FindSpec (cmp : Nat → α → Option Bool) (xs : List α) (r : ResT Nat) : Prop :=
  (∃ k, ∃ h : k < xs.length, (∀ j (hj : j < k), cmp j xs[j] = some false) ∧
    ((cmp k xs[k] = some true ∧ r = .ok k) ∨ (cmp k xs[k] = none ∧ r = .threw))) ∨
  ((∀ j (hj : j < xs.length), cmp j xs[j] = some false) ∧ r = .ok xs.length)

theorem findLoop_spec (cmp : Nat → α → Option Bool) (xs : List α) (n : Nat) :
    (∃ k, ∃ h : k < xs.length, (∀ j (hj : j < k), cmp (n + j) xs[j] = some false) ∧
      ((cmp (n + k) xs[k] = some true ∧ findLoop cmp xs n = .ok (n + k)) ∨
        (cmp (n + k) xs[k] = none ∧ findLoop cmp xs n = .threw))) ∨
    ((∀ j (hj : j < xs.length), cmp (n + j) xs[j] = some false) ∧ findLoop cmp xs n = .ok (n + xs.length)) := by
  induction xs generalizing n with
  | nil => right; exact ⟨fun j hj => absurd hj (by simp), rfl⟩
  | cons x xs ih =>
    cases hc : cmp n x with
    | none =>
      left
      exact ⟨0, by simp, fun j hj => absurd hj (by omega), .inr ⟨by simpa using hc, by simp [findLoop, hc]⟩⟩
    | some b =>
      cases b with
      | true =>
        left
        exact ⟨0, by simp, fun j hj => absurd hj (by omega), .inl ⟨by simpa using hc, by simp [findLoop, hc]⟩⟩
      | false =>
        have e : findLoop cmp (x :: xs) n = findLoop cmp xs (n + 1) := by simp [findLoop, hc]
        have ea : ∀ j, n + 1 + j = n + (j + 1) := fun j => by omega
        have step : ∀ j, (∀ i (hi : i < xs.length), i < j → cmp (n + 1 + i) xs[i] = some false) →
            ∀ i (hi : i < (x :: xs).length), i < j + 1 → cmp (n + i) (x :: xs)[i] = some false := by
          intro j h i hi hij
          cases i with
          | zero => simpa using hc
          | succ i =>
            have := h i (by simpa using hi) (by omega)
            rw [ea] at this
            simpa using this
        rw [e]
        rcases ih (n + 1) with ⟨k, hk, h1, h2⟩ | ⟨h1, h2⟩
        · left
          refine ⟨k + 1, by simpa using hk, fun j hj => step k (fun i _ hi => h1 i hi) j _ hj, ?_⟩
          rw [ea] at h2
          simpa using h2
        · right
          refine ⟨fun j hj => step xs.length (fun i hi _ => h1 i hi) j hj (by simpa using hj), ?_⟩
          rw [ea] at h2
          simpa using h2

/-! ### C112 -/

/-- C112, what holds. The full claim is "an exception of a comparison in `find` or of a swap in `reverse` reaches the
caller"; it holds for `find` with two iterators, whatever the comparisons do. -/
theorem find_throw_partial (cmp : Nat → α → Option Bool) (xs : List α) : FindSpec cmp xs (findIter cmp xs) := by
  have := findLoop_spec cmp xs 0
  simpa [FindSpec, findIter] using this

/-- C112, what holds of `find` with a range: the same as long as no comparison made throws. -/
theorem find_range_throw_partial (cmp : Nat → α → Option Bool) (xs : List α)
    (h : ∀ k (hk : k < xs.length), (∀ j (hj : j < k), cmp j xs[j] = some false) → cmp k xs[k] ≠ none) :
    FindSpec cmp xs (findRange cmp xs) := by
  rcases find_throw_partial cmp xs with ⟨k, hk, h1, h2 | h2⟩ | ⟨h1, h2⟩
  · exact .inl ⟨k, hk, h1, .inl ⟨h2.1, by rw [findRange, h2.2]; rfl⟩⟩
  · exact absurd h2.1 (h k hk h1)
  · exact .inr ⟨h1, by rw [findRange, h2]; rfl⟩

/-- C112 is false for `find` with a range: if a comparison throws before one gives true, the program ends. -/
theorem find_range_throw_wrong (cmp : Nat → α → Option Bool) (xs : List α) (k : Nat) (hk : k < xs.length)
    (h1 : ∀ j (hj : j < k), cmp j xs[j] = some false) (h2 : cmp k xs[k] = none) :
    findIter cmp xs = .threw ∧ findRange cmp xs = .terminated := by
  have e : findIter cmp xs = .threw := by
    rcases find_throw_partial cmp xs with ⟨l, hl, h3, h4⟩ | ⟨h3, h4⟩
    · have hlk : l = k := by
        rcases Nat.lt_trichotomy l k with h | h | h
        · have := h1 l h
          rw [this] at h4; simp at h4
        · exact h
        · have := h3 k h
          rw [h2] at this; cases this
      subst hlk
      rcases h4 with h4 | h4
      · rw [h2] at h4; simp at h4
      · exact h4.2
    · have := h3 k hk
      rw [h2] at this; cases this
  exact ⟨e, by rw [findRange, e]; rfl⟩

/-- The loop, on the part of the range not yet reversed: `mid` between `a` and `b`. -/
theorem swapLoopT_spec (throws : Nat → Bool) (fuel n : Nat) (a mid b : List α) (hf : mid.length < fuel) :
    swapLoopT throws fuel n a.length (a.length + mid.length) (a ++ mid ++ b) =
      if (∃ k, k < mid.length / 2 ∧ throws (n + k) = true) then .threw else .ok (a ++ mid.reverse ++ b) := by
  induction fuel generalizing n a mid b with
  | zero => omega
  | succ fuel ih =>
    unfold swapLoopT
    match mid, List.eq_nil_or_concat mid with
    | [], _ => simp
    | [x], _ => simp
    | x :: y :: l, .inl h => cases h
    | x :: y :: l, .inr ⟨l', z, hl⟩ =>
      cases l' with
      | nil => simp at hl
      | cons x' l' =>
        rw [List.concat_eq_append, List.cons_append, List.cons.injEq] at hl
        obtain ⟨hx, hl⟩ := hl
        subst hx
        rw [hl]
        have e1 : (a.length < a.length + (x :: (l' ++ [z])).length) := by simp
        have e2 : (a.length + 1 < a.length + (x :: (l' ++ [z])).length) := by simp
        rw [if_pos e1, if_pos e2]
        have hlen : (x :: (l' ++ [z])).length = l'.length + 2 := by simp
        have hhalf : (l'.length + 2) / 2 = l'.length / 2 + 1 := by omega
        by_cases ht : throws n = true
        · rw [if_pos ht, if_pos]
          exact ⟨0, by rw [hlen]; omega, by simpa using ht⟩
        · rw [if_neg ht]
          have e3 : a.length + (x :: (l' ++ [z])).length - 1 = a.length + l'.length + 1 := by rw [hlen]; omega
          have e4 : a ++ (x :: (l' ++ [z])) ++ b = a ++ x :: (l' ++ z :: b) := by simp
          rw [e3, e4, Rev.iterSwap_mid]
          have hh : l'.length < fuel := by
            have := congrArg List.length hl
            simp at this hf
            omega
          have := ih (n + 1) (a ++ [z]) l' (x :: b) hh
          have e5 : (a ++ [z]).length = a.length + 1 := by simp
          have e6 : a ++ [z] ++ l' ++ x :: b = a ++ z :: (l' ++ x :: b) := by simp
          rw [e5, e6] at this
          have e7 : a.length + 1 + l'.length = a.length + l'.length + 1 := by omega
          rw [e7] at this
          simp only
          rw [this]
          have e8 : (∃ k, k < l'.length / 2 ∧ throws (n + 1 + k) = true) ↔
              ∃ k, k < (x :: (l' ++ [z])).length / 2 ∧ throws (n + k) = true := by
            rw [hlen, hhalf]
            constructor
            · rintro ⟨k, h1, h2⟩
              exact ⟨k + 1, by omega, by rw [← h2]; congr 1; omega⟩
            · rintro ⟨k, h1, h2⟩
              cases k with
              | zero => exact absurd h2 ht
              | succ k => exact ⟨k, by omega, by rw [← h2]; congr 1; omega⟩
          simp only [e8]
          have e9 : a ++ [z] ++ l'.reverse ++ x :: b = a ++ (x :: (l' ++ [z])).reverse ++ b := by simp
          rw [e9]

/-- C112 for `reverse`: as long as none of its swaps throws, both forms reverse the range. -/
theorem reverse_throw_partial (throws : Nat → Bool) (xs : List α) (h : ∀ k, k < xs.length / 2 → throws k = false)
    {fuel : Nat} (hf : xs.length < fuel) :
    reverseIter throws fuel xs = .ok xs.reverse ∧ reverseRange throws fuel xs = .ok xs.reverse := by
  have := swapLoopT_spec throws fuel 0 [] xs [] hf
  rw [if_neg] at this
  · simp only [List.length_nil, List.nil_append, List.append_nil, Nat.zero_add] at this
    simp [reverseIter, reverseRange, this, ResT.noexcept]
  · rintro ⟨k, h1, h2⟩
    rw [Nat.zero_add, h k h1] at h2; cases h2

/-- C112 is false for `reverse`: whenever one of its swaps throws, the program ends, in both forms. -/
theorem reverse_throw_wrong (throws : Nat → Bool) (xs : List α) (h : ∃ k, k < xs.length / 2 ∧ throws k = true)
    {fuel : Nat} (hf : xs.length < fuel) :
    reverseIter throws fuel xs = .terminated ∧ reverseRange throws fuel xs = .terminated := by
  have := swapLoopT_spec throws fuel 0 [] xs [] hf
  rw [if_pos (by simpa using h)] at this
  simp only [List.length_nil, List.nil_append, List.append_nil, Nat.zero_add] at this
  simp [reverseIter, reverseRange, this, ResT.noexcept]

/-- The second of five comparisons throws; the second of two swaps throws. -/
example :
    let cmp : Nat → Nat → Option Bool := fun n x => if n = 1 then none else some (x == 9)
    findIter cmp [5, 6, 9, 7, 8] = .threw ∧ findRange cmp [5, 6, 9, 7, 8] = .terminated ∧
      findIter cmp [9, 6, 9, 7, 8] = .ok 0 ∧ findRange cmp [9, 6, 9, 7, 8] = .ok 0 ∧
      reverseIter (fun n => n == 1) 10 [5, 6, 9, 7, 8] = .terminated ∧
      reverseIter (fun n => n == 2) 10 [5, 6, 9, 7, 8] = .ok [8, 7, 9, 6, 5] := by decide

end Verif.Algo.Throwing
