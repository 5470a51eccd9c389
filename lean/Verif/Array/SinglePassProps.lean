import Verif.Array.SinglePass
import Verif.Array.OpsE
import Verif.Array.Reach
import Verif.Heap.StoredProps

/-! # Ranges that can be read once: what is true of them and what is not -/

set_option autoImplicit false

namespace Verif.Arr

variable {α : Type} (cfg : Elem α)

/-- What is left to read after the distance was taken. -/
def Iter.left (it : Iter α) : List α := it.distance.2.ahead

theorem Iter.left_eq_iff (it : Iter α) :
    it.left = it.ahead ↔ it.pass = .forward ∨ it.ahead = [] ∨ (it.pass = .cached ∧ it.ahead.length = 1) := by
  obtain ⟨p, l⟩ := it
  cases p
  · simp [left, distance]
  · simp only [left, distance]
    constructor
    · intro h; exact .inr (.inl h.symm)
    · rintro (h | h | h)
      · cases h
      · exact h.symm
      · cases h.1
  · simp only [left, distance]
    match l with
    | [] => simp
    | [a] => simp
    | a :: b :: l => simp

theorem srcsOk_val (m : Mem α) : ∀ vs : List α, SrcsOk m (vs.map .val) vs
  | [] => trivial
  | _ :: vs => ⟨rfl, srcsOk_val m vs⟩

theorem foreign_val {b : Nat} {vs : List α} : ∀ x ∈ vs.map (Src.val : α → Src α), Foreign b x := by
  intro x hx
  obtain ⟨v, -, rfl⟩ := List.mem_map.1 hx
  trivial

theorem Iter.left_length (it : Iter α) : it.left.length ≤ it.ahead.length := by
  obtain ⟨p, l⟩ := it
  cases p <;> simp [left, distance]
  omega

/-- `push_back(first, last)` appends what is left. -/
theorem wp_pushIter {s : St α} {xs : List α} {it : Iter α} (hw : WF s.mem) (hh : Holds cfg s.mem s.d xs)
    (ht : cfg.triv = true) {Q : Unit → St α → Prop} {E : St α → Prop}
    (hQ : ∀ s', Post cfg s s' (xs ++ it.left) (max s.d.cap (xs.length + it.ahead.length)) → Q () s')
    (hE : ∀ s' k c, Post cfg s s' (xs ++ it.left.take k) c → s.mem.ticks ≠ none → E s') :
    wp (pushIter cfg it) s Q E := by
  have hsz := hh.size
  have hle := hh.le
  have hl := it.left_length
  have hd : it.distance.1 = it.ahead.length := rfl
  unfold pushIter
  rw [wp_bind, wp_getD]
  simp only [hd]
  rw [wp_bind, wp_onlyIf]
  have hlen : (it.left.map (Src.val : α → Src α)).length = it.left.length := List.length_map _
  split
  · rename_i hg
    refine wp_growStorage cfg hw hh (.inl ht) (by omega) (fun s1 p1 _ _ _ => ?_)
      (fun s1 p1 h => hE s1 0 _ (by simpa using p1) h)
    have hc1 := p1.cap
    refine wp_mono (wp_pushLoop cfg (it.left.map .val) s1 xs it.left p1.wf p1.holds (by rw [hlen, hc1]; omega) (srcsOk_val _ _)
      (fun b i h => by obtain ⟨v, -, h⟩ := List.mem_map.1 h; cases h)) ?_ ?_
    · intro _ s2 p2
      refine hQ s2 ?_
      have := p1.trans cfg p2
      rw [hc1] at this
      rwa [show max s.d.cap (xs.length + it.ahead.length) = s.d.size + it.ahead.length by omega]
    · rintro s2 ⟨h, k, p2⟩
      exact hE s2 k _ (p1.trans cfg p2) fun h0 => h (p1.ticks h0)
  · rename_i hg
    refine wp_mono (wp_pushLoop cfg (it.left.map .val) s xs it.left hw hh (by omega) (srcsOk_val _ _)
      (fun b i h => by obtain ⟨v, -, h⟩ := List.mem_map.1 h; cases h)) ?_ ?_
    · intro _ s2 p2
      refine hQ s2 ?_
      rwa [show max s.d.cap (xs.length + it.ahead.length) = s.d.cap by omega]
    · rintro s2 ⟨h, k, p2⟩
      exact hE s2 k _ p2 h

/-- The elements `a[0]`, `a[1]`, … as the client reads them. -/
def seen (s : St α) : Option (List α) :=
  match readAll s.d.size 0 s with
  | .ok xs _ => some xs
  | _ => none

/-- C123. `push_back(first, last)` on an array of trivially copyable elements: it ends with the elements of the range appended
exactly if the iterator is a forward iterator, the range is empty, or it keeps its element and has only that one. -/
theorem single_pass_push_partial (ht : cfg.triv = true) {s : St α} {xs : List α} (hw : WF s.mem) (hh : Holds cfg s.mem s.d xs)
    (hn : s.mem.ticks = none) (it : Iter α) :
    ∃ s' ys, pushIter cfg it s = .ok () s' ∧ seen s' = some ys ∧
      (ys = xs ++ it.ahead ↔ it.pass = .forward ∨ it.ahead = [] ∨ (it.pass = .cached ∧ it.ahead.length = 1)) := by
  obtain ⟨_, s', h1, p⟩ := wp_ok (wp_pushIter cfg (it := it) hw hh ht
    (Q := fun _ s' => Post cfg s s' (xs ++ it.left) (max s.d.cap (xs.length + it.ahead.length))) (E := fun _ => False)
    (fun _ p => p) (fun _ _ _ _ h => h hn))
  refine ⟨s', _, h1, HeapS.elems_of p.holds, ?_⟩
  rw [← it.left_eq_iff]
  exact ⟨fun h => List.append_cancel_left h, fun h => by rw [h]⟩

/-- C123. `insert(pos, first, last)` with forward iterators is the function of `Array/Model.lean`, whose properties are C05. -/
theorem insertIter_forward (pos : Nat) (vs : List α) : insertIter cfg pos ⟨.forward, vs⟩ = insertRange cfg pos (vs.map .val) := by
  funext s
  unfold insertIter insertRange
  simp only [Iter.distance, Iter.loop, List.length_map]
  rfl

/-- C123. With forward iterators the elements of the range are inserted at the position. -/
theorem single_pass_insert_partial (ht : cfg.triv = true) {s : St α} {xs : List α} (hw : WF s.mem)
    (hh : Holds cfg s.mem s.d xs) (hn : s.mem.ticks = none) {pos : Nat} (hpos : pos ≤ xs.length) (vs : List α) :
    ∃ s', insertIter cfg pos ⟨.forward, vs⟩ s = .ok pos s' ∧ seen s' = some (xs.take pos ++ vs ++ xs.drop pos) := by
  rw [insertIter_forward]
  have key := wp_insertRange cfg (pos := pos) (srcs := vs.map .val) (vs := vs) hw hh hpos (srcsOk_val _ _) (.inl ht) (.inl hn)
    (fun _ => foreign_val)
    (Q := fun p s' => p = pos ∧ ∃ c, Post cfg s s' (insAt xs pos vs) c) (E := fun _ => False)
    (fun s' p => ⟨rfl, _, p⟩) (fun _ _ h => h hn)
  obtain ⟨p, s', h1, rfl, c, p⟩ := wp_ok key
  exact ⟨s', h1, HeapS.elems_of p.holds⟩

/-- C123. Disagreement: with any other iterator an array without elements says after `insert(begin(), first, last)` that it
has as many elements as the range, but those that the iterator no longer yields were never constructed: reading them is
undefined. -/
theorem single_pass_insert_wrong {m : Mem α} (hw : WF m) (hn : m.ticks = none) (it : Iter α)
    (hit : ¬(it.pass = .forward ∨ it.ahead = [] ∨ (it.pass = .cached ∧ it.ahead.length = 1))) :
    ∃ s', insertIter cfg 0 it ⟨m, .null⟩ = .ok 0 s' ∧ s'.d.size = it.ahead.length ∧ it.left.length < s'.d.size ∧
      ∀ i, it.left.length ≤ i → index i s' = .ub := by
  have hlt : it.left.length < it.ahead.length := by
    refine lt_of_le_of_ne it.left_length fun h => hit (it.left_eq_iff.1 ?_)
    obtain ⟨p, l⟩ := it
    cases p
    · rfl
    · have : l = [] := List.length_eq_zero_iff.1 h.symm
      subst this; rfl
    · have h : (l.take 1).length = l.length := h
      have : l.take 1 = l := (List.take_sublist 1 l).eq_of_length h
      exact this
  have hd : it.distance.1 = it.ahead.length := rfl
  have hl : it.distance.2.loop = it.left.map .val := rfl
  have key : wp (insertIter cfg 0 it) ⟨m, .null⟩ (fun p s' => p = 0 ∧ s'.d.size = it.ahead.length ∧
      s'.mem.size s'.d.blk ≠ none ∧ ∀ i, it.left.length ≤ i → s'.mem.cell s'.d.blk i = .raw) fun _ => False := by
    unfold insertIter
    rw [wp_bind, wp_getD]
    simp only [hd, hl]
    rw [wp_ite, if_pos (by simp [Data.null]; omega), wp_bind]
    refine wp_allocate (fun s1 e1 => ?_) (fun _ _ h => h hn)
    have hf := e1.fresh hw
    have hsz1 : s1.mem.size m.next = some it.ahead.length := by
      rw [e1.size]; simp [upd, Data.null]
    have hc1 : ∀ i, s1.mem.cell m.next i = .raw := fun i => by rw [e1.cell]; simp [upd]
    rw [wp_bind, wp_tryRethrow, wp_bind]
    refine wp_mono (wp_constructLoop cfg (nb := it.ahead.length) (it.left.map .val) 0 s1 it.left (srcsOk_val _ _) foreign_val
      (.inr ⟨hsz1, by simp; omega⟩) (.inr fun i _ => hc1 _)) ?_ ?_
    · rintro _ s2 ⟨g1, g2, -⟩
      have hraw : ∀ i, it.left.length ≤ i → s2.mem.cell m.next i = .raw := fun i hi => by
        rw [g2 m.next i (.inr (.inr (by simpa using hi)))]; exact hc1 i
      have hs2 : s2.mem.size m.next ≠ none := by rw [g1.size, hsz1]; simp
      have hb : (Data.null).blk = 0 := rfl
      have hz : (Data.null).size = 0 := rfl
      simp only [hz, Nat.sub_zero]
      unfold fwdLoop
      rw [wp_bind, wp_pure, wp_pure, wp_bind, wp_setD, wp_bind]
      unfold destructor
      rw [hz]
      unfold destroyLoop
      rw [wp_bind, wp_pure, wp_onlyIf, if_neg (by simp [hb]), wp_pure]
      exact ⟨rfl, by simp, hs2, hraw⟩
    · rintro s2 ⟨-, ⟨h, -⟩, -⟩
      exact absurd (e1.ticks hn) h
  obtain ⟨p, s', h1, rfl, h2, h3, h4⟩ := wp_ok key
  refine ⟨s', h1, h2, by rw [h2]; exact hlt, fun i hi => ?_⟩
  unfold index
  rw [bind_of_ok (show getD s' = .ok s'.d s' from rfl)]
  unfold read
  have := h4 i hi
  simp [this]

/-- C123. Disagreement: in place the elements of the array stay where the range should be. -/
theorem single_pass_insert_in_place_wrong (ht : cfg.triv = true) {s : St α} {xs : List α} (hw : WF s.mem)
    (hh : Holds cfg s.mem s.d xs) (vs : List α) (hroom : xs.length + vs.length ≤ s.d.cap)
    (hlen : vs.length ≤ xs.length) (hv : vs ≠ []) :
    ∃ s', insertIter cfg 0 ⟨.stream, vs⟩ s = .ok 0 s' ∧ seen s' = some (xs.take vs.length ++ xs) := by
  have hsz := hh.size
  have hle := hh.le
  have key : wp (insertIter cfg 0 ⟨.stream, vs⟩) s
      (fun p s' => p = 0 ∧ Holds cfg s'.mem s'.d (xs.take vs.length ++ xs)) fun _ => False := by
    unfold insertIter
    rw [wp_bind, wp_getD]
    simp only [Iter.distance, Iter.loop, List.map_nil]
    rw [wp_ite, if_neg (by omega), wp_bind]
    have hpos : 0 < xs.length := lt_of_lt_of_le (List.length_pos_iff.mpr hv) hlen
    have hx : xs ≠ [] := List.length_pos_iff.1 hpos
    have hal := hh.alive cfg (by omega)
    have hdef : ∀ i, i < s.d.size - 0 → s.mem.cell s.d.blk (0 + i) = .live (xs.getD i (xs.head hx)) := fun i hi => by
      rw [Nat.zero_add, hh.cells i (by omega)]
      simp [List.getD_eq_getElem?_getD, show i < xs.length by omega]
    refine wp_mono (wp_backLoop_triv cfg ht false (nb := s.d.cap) (s.d.size - 0) 0 (0 + vs.length) s
      (fun i => xs.getD i (xs.head hx)) (by omega) (.inr ⟨hal, by omega⟩) hdef (fun _ => False)) ?_ (fun _ h => h)
    rintro _ s1 ⟨g1, g2⟩
    rw [wp_bind, wp_setD, wp_bind]
    unfold constructLoop
    rw [wp_pure, wp_pure]
    refine ⟨rfl, ?_, ?_, ?_, ?_, ?_⟩
    · simp; omega
    · simp; omega
    · refine .inr ⟨?_, ?_⟩
      · intro h0
        rw [show s.d.blk = 0 from h0, hw.null] at hal
        cases hal
      · show s1.mem.size s.d.blk = some s.d.cap
        rw [g1.size]; exact hal
    · intro i hi
      show s1.mem.cell s.d.blk i = _
      rw [g2]
      simp only [List.length_append, List.length_take] at hi
      by_cases hi1 : i < vs.length
      · rw [if_neg (by omega), hh.cells i (by omega), List.getElem_append_left (by simp; omega)]
        simp
      · rw [if_pos ⟨rfl, by omega, by omega⟩, List.getElem_append_right (by simp; omega)]
        simp only [List.length_take]
        rw [List.getD_eq_getElem?_getD, List.getElem?_eq_getElem (by omega), Option.getD_some]
        congr 2
        omega
    · intro h; rw [ht] at h; cases h
  obtain ⟨p, s', h1, rfl, h2⟩ := wp_ok key
  exact ⟨s', h1, HeapS.elems_of h2⟩

/-- C123. `Heap(first, last)` pushes the elements of the range, whatever the iterator, if contiguous iterators are forward
iterators. -/
theorem single_pass_heap (ht : cfg.triv = true) {lt : α → α → Bool} (hlt : Heap.StrictWeakOrder lt) {m : Mem α} (hw : WF m)
    (it : Iter α) (contiguous : Bool) (hc : contiguous = true → it.pass = .forward)
    (hlen : 2 * it.ahead.length + 2 < 2 ^ 63) (hn : m.ticks = none) :
    ∃ s' ys, HeapS.Runs (fun f => heapIter cfg lt f contiguous it) ⟨m, .null⟩ (.ok () s') ∧ HeapS.Reach cfg lt s' ∧
      seen s' = some ys ∧ ys.Perm it.ahead := by
  have key : (fun f => heapIter cfg lt f contiguous it) =
      fun f => HeapS.fromRange cfg lt f contiguous (it.ahead.map .val) := by
    funext f
    unfold heapIter
    cases contiguous
    · rfl
    · obtain ⟨p, l⟩ := it
      have : p = .forward := hc rfl
      subst this
      rfl
  rw [key]
  rcases HeapS.heap_stored_range_partial ht hlt hw contiguous it.ahead hlen with ⟨s', ys, h1, h2, h3, h4, -⟩ | ⟨h, -⟩
  · exact ⟨s', ys, h1, h2, h3, h4⟩
  · exact absurd hn h

/-! ### The hypotheses can be met -/

section Examples

def passMem : Mem Nat := ⟨fun _ => none, fun _ _ => .raw, 1, none, 0, 0, 0⟩

theorem passMem_wf : WF passMem := ⟨fun _ _ => rfl, rfl, Nat.one_pos⟩

def passInt : Elem Nat := ⟨true, id⟩

/-- Elements 1, 2 with room for four, then a call. -/
def passRun (f : A Nat Unit) : Option (List Nat) :=
  match (do ctorCap 4; pushRange passInt [.val 1, .val 2]; f : A Nat Unit) ⟨passMem, .null⟩ with
  | .ok _ s => seen s
  | _ => none

example : passRun (pushIter passInt ⟨.forward, [8, 9]⟩) = some [1, 2, 8, 9] := by decide +kernel
example : passRun (pushIter passInt ⟨.stream, [8, 9]⟩) = some [1, 2] := by decide +kernel
example : passRun (pushIter passInt ⟨.cached, [8, 9]⟩) = some [1, 2, 8] := by decide +kernel
example : passRun (do let _ ← insertIter passInt 0 ⟨.forward, [8, 9]⟩) = some [8, 9, 1, 2] := by decide +kernel
example : passRun (do let _ ← insertIter passInt 0 ⟨.stream, [8, 9]⟩) = some [1, 2, 1, 2] := by decide +kernel
example : passRun (do let _ ← insertIter passInt 0 ⟨.stream, [7, 8, 9]⟩) = none := by decide +kernel

/-- The state of the first theorems. -/
example : ∃ s : St Nat, WF s.mem ∧ Holds passInt s.mem s.d [] ∧ s.mem.ticks = none :=
  ⟨⟨passMem, .null⟩, passMem_wf, holds_null passInt passMem, rfl⟩

end Examples

end Verif.Arr
