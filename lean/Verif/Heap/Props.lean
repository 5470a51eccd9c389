import Verif.Heap.Lemmas

/-!
# Properties of `Heap`

For every element type, every strict weak order and every history (`Reach`). `Runs F s r` says that the program
gives `r` from every amount of fuel on; in particular it stops.
-/

set_option autoImplicit false

namespace Verif.Heap

variable {α : Type} {lt : α → α → Bool}

/-- C32. In every reachable heap no element precedes one of its children, and every operation on it stops
without an out-of-range access. -/
theorem heap_invariant (hw : StrictWeakOrder lt) {s : St α} (h : Reach lt s) :
    (∀ i j (hi : i < s.arr.size) (hj : j < s.arr.size), (j = 2 * i + 1 ∨ j = 2 * i + 2) →
      lt s.arr[i] s.arr[j] = false) ∧
    (∀ v, ∃ s', Runs (fun f => push lt f v) s (.ok () s')) ∧
    (0 < s.arr.size → ∃ s', Runs (pop lt) s (.ok () s')) ∧
    (0 < s.arr.size → ∃ x, front s = .ok x s) := by
  have ho := reach_ordered hw h
  refine ⟨ho, fun v => ?_, fun hn => ?_, fun hn => ⟨s.arr[0], get_ok hn⟩⟩
  · obtain ⟨s', h, -⟩ := push_spec hw ho v; exact ⟨s', h⟩
  · obtain ⟨s', h, -⟩ := pop_spec hw ho hn; exact ⟨s', h⟩

/-- C32. Construction from a range stops without an out-of-range access, for every range. -/
theorem heap_range_defined (hw : StrictWeakOrder lt) (xs : List α) :
    ∃ s, Runs (fun f => pushAll lt f xs) empty (.ok () s) := by
  obtain ⟨s, h, -⟩ := pushAll_spec hw xs (ordered_empty lt)
  exact ⟨s, h⟩

/-- C32. `pop` of an empty heap is the only undefined operation. -/
theorem heap_pop_empty_ub {s : St α} (h : s.arr.size = 0) : Runs (pop lt) s .ub := pop_empty lt h

/-- C33. `push` adds exactly the element pushed. -/
theorem heap_push_elements (hw : StrictWeakOrder lt) {s s' : St α} {v : α} (h : Reach lt s)
    (hr : Runs (fun f => push lt f v) s (.ok () s')) : s'.arr.toList.Perm (v :: s.arr.toList) := by
  obtain ⟨s2, h1, h2⟩ := push_spec hw (reach_ordered hw h) v
  have := h1.unique hr; cases this; exact h2.perm

/-- C33. `pop` removes exactly the element that `front` shows. -/
theorem heap_pop_elements (hw : StrictWeakOrder lt) {s s' : St α} (h : Reach lt s)
    (hr : Runs (pop lt) s (.ok () s')) :
    ∃ x, front s = .ok x s ∧ s.arr.toList.Perm (x :: s'.arr.toList) := by
  by_cases hn : 0 < s.arr.size
  · obtain ⟨s2, h1, h2⟩ := pop_spec hw (reach_ordered hw h) hn
    have := h1.unique hr; cases this; exact h2.perm
  · have := (pop_empty lt (by omega)).unique hr; cases this

/-- C33. A heap constructed from a range holds exactly the elements of the range. -/
theorem heap_range_elements (hw : StrictWeakOrder lt) {s : St α} {xs : List α}
    (hr : Runs (fun f => pushAll lt f xs) empty (.ok () s)) : s.arr.toList.Perm xs := by
  obtain ⟨s2, h1, -, h2⟩ := pushAll_spec hw xs (ordered_empty lt)
  have := h1.unique hr; cases this
  simpa [empty] using h2

/-- C34. `front` is not less than any stored element. -/
theorem heap_front_greatest (hw : StrictWeakOrder lt) {s s' : St α} {x : α} (h : Reach lt s)
    (hf : front s = .ok x s') : x ∈ s.arr ∧ s' = s ∧ ∀ y ∈ s.arr, lt x y = false := by
  by_cases hn : 0 < s.arr.size
  · have := (get_ok (s := s) hn).symm.trans hf
    cases this
    refine ⟨Array.getElem_mem hn, rfl, fun y hy => ?_⟩
    obtain ⟨k, hk, rfl⟩ := Array.mem_iff_getElem.1 hy
    exact root_max hw (reach_ordered hw h) k hk
  · exfalso
    unfold front get at hf
    rw [dif_neg (by rintro ⟨-, h2⟩; omega)] at hf
    cases hf

/-- C35. Reading `front` and popping until the heap is empty yields all the stored elements, none of them
less than a later one. -/
theorem heap_drain_sorts (hw : StrictWeakOrder lt) {s : St α} (h : Reach lt s) (n : Nat) (hn : s.arr.size < n) :
    ∃ xs s', Runs (fun f => drain lt f n) s (.ok xs s') ∧ xs.Perm s.arr.toList ∧
      xs.Pairwise (fun x y => lt x y = false) ∧ s'.arr = #[] :=
  drain_spec hw n (reach_ordered hw h) hn

/-- C36. `push` on `n` elements makes at most `⌊log₂ (n+1)⌋` comparisons and as many swaps. -/
theorem heap_push_cost (hw : StrictWeakOrder lt) {s s' : St α} {v : α} (h : Reach lt s)
    (hr : Runs (fun f => push lt f v) s (.ok () s')) :
    s'.cmps ≤ s.cmps + Nat.log 2 (s.arr.size + 1) ∧ s'.swaps ≤ s.swaps + Nat.log 2 (s.arr.size + 1) := by
  obtain ⟨s2, h1, h2⟩ := push_spec hw (reach_ordered hw h) v
  have := h1.unique hr; cases this; exact ⟨h2.cmps, h2.swaps⟩

/-- C36. `pop` on `n` elements makes at most `2⌊log₂ n⌋` comparisons and `1 + ⌊log₂ n⌋` swaps. -/
theorem heap_pop_cost (hw : StrictWeakOrder lt) {s s' : St α} (h : Reach lt s)
    (hr : Runs (pop lt) s (.ok () s')) :
    s'.cmps ≤ s.cmps + 2 * Nat.log 2 s.arr.size ∧ s'.swaps ≤ s.swaps + 1 + Nat.log 2 s.arr.size := by
  by_cases hn : 0 < s.arr.size
  · obtain ⟨s2, h1, h2⟩ := pop_spec hw (reach_ordered hw h) hn
    have := h1.unique hr; cases this; exact ⟨h2.cmps, h2.swaps⟩
  · have := (pop_empty lt (by omega)).unique hr; cases this

/-! ### The hypotheses can be met -/

section Examples

def natLess (a b : Nat) : Bool := decide (a < b)

/-- Ordering by the last decimal digit: a strict weak order with distinct equivalent elements. -/
def digitGreater (a b : Nat) : Bool := decide (b % 10 < a % 10)

theorem natLess_swo : StrictWeakOrder natLess := by
  constructor <;> simp [natLess] <;> omega

theorem digitGreater_swo : StrictWeakOrder digitGreater := by
  constructor <;> simp [digitGreater] <;> omega

def arrOf {β : Type} (r : Res (St Nat) β) : Option (List Nat) :=
  match r with
  | .ok _ s => some s.arr.toList
  | _ => none

example : arrOf (pushAll natLess 20 [3, 1, 4, 1, 5, 9, 2, 6] empty) = some [9, 6, 5, 4, 1, 3, 2, 1] := by decide +kernel
example : arrOf ((pushAll natLess 20 [3, 1, 4, 1, 5, 9, 2, 6] >>= fun _ => pop natLess 20) empty) =
    some [6, 4, 5, 1, 1, 3, 2] := by decide +kernel
example : (match (pushAll digitGreater 20 [23, 11, 14, 41, 5] >>= fun _ => drain digitGreater 20 9) empty with
    | .ok xs s => some (xs, s.arr.toList) | _ => none) = some ([11, 41, 23, 14, 5], []) := by decide +kernel

/-- A reachable heap of three elements. -/
example : ∃ s, Reach natLess s ∧ 2 < s.arr.size := by
  obtain ⟨s, h⟩ := heap_range_defined natLess_swo [1, 2, 3]
  exact ⟨s, .range h, by have := (heap_range_elements natLess_swo h).length_eq; simp at this; omega⟩

end Examples

end Verif.Heap
