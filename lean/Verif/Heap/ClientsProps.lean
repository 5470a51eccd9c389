import Verif.Heap.Clients
import Verif.Heap.Lemmas
import Verif.Heap.Props
import Mathlib.Data.List.Flatten
import Mathlib.Data.List.Perm.Basic

/-!
# Property theorems: what programs can do with a heap

C163.  A simulation takes its events in order and loses none; keeping the best `k` of a stream keeps the best `k`; merging
sorted sequences gives their sorted union.
-/

set_option autoImplicit false

namespace Verif.Heap

variable {α : Type} {lt : α → α → Bool}

/-! ### Specification -/

/-- Nothing is less than something that follows it. -/
def Descending (lt : α → α → Bool) (l : List α) : Prop := l.Pairwise fun x y => lt x y = false

/-- All that was scheduled while the elements were taken in this order. -/
def scheduled (next : List α → α → List α) : List α → List α → List α
  | _, [] => []
  | past, x :: l => next past x ++ scheduled next (past ++ [x]) l

/-! ### Auxiliary facts -/

theorem scheduled_snoc (next : List α → α → List α) (x : α) : ∀ (l past : List α),
    scheduled next past (l ++ [x]) = scheduled next past l ++ next (past ++ l) x
  | [], past => by simp [scheduled]
  | y :: l, past => by
    rw [List.cons_append, scheduled, scheduled_snoc next x l, scheduled, List.append_assoc, List.append_assoc]
    rfl

theorem front_spec {s : St α} (hn : 0 < s.arr.size) : (front : M α α) s = .ok s.arr[0] s := get_ok (s := s) hn

theorem front_max (hw : StrictWeakOrder lt) {s : St α} (h : Ordered lt s.arr) (hn : 0 < s.arr.size) :
    ∀ y ∈ s.arr.toList, lt s.arr[0] y = false := by
  intro y hy
  obtain ⟨k, hk, rfl⟩ := Array.mem_iff_getElem.1 (Array.mem_toList_iff.mp hy)
  exact root_max hw h k hk

theorem simulate_spec (hw : StrictWeakOrder lt) (next : List α → α → List α) (P : α → Prop)
    (hnext : ∀ past x, P x → ∀ y ∈ next past x, P y ∧ lt x y = false) :
    ∀ (n : Nat) (taken : List α) (s : St α), Ordered lt s.arr → Descending lt taken →
      (∀ x ∈ taken, ∀ y ∈ s.arr.toList, lt x y = false) → (∀ x ∈ s.arr.toList, P x) →
      ∃ more s', Runs (fun f => simulate lt next f n taken) s (.ok (taken ++ more) s') ∧ Ordered lt s'.arr ∧
        Descending lt (taken ++ more) ∧ (∀ x ∈ taken ++ more, ∀ y ∈ s'.arr.toList, lt x y = false) ∧
        (more ++ s'.arr.toList).Perm (s.arr.toList ++ scheduled next taken more) ∧
        (s'.arr.size = 0 ∧ more.length ≤ n ∨ more.length = n) ∧ (∀ x ∈ more ++ s'.arr.toList, P x)
  | 0, taken, s, ho, hd, hb, hP =>
    ⟨[], s, ⟨0, fun _ _ => by simp [simulate]; rfl⟩, ho, by simpa using hd, by simpa using hb, by simp [scheduled], .inr rfl, by simpa using hP⟩
  | n + 1, taken, s, ho, hd, hb, hP => by
    have hs : (M.size : M α Nat) s = .ok s.arr.size s := rfl
    by_cases h0 : s.arr.size = 0
    · refine ⟨[], s, ⟨0, fun fuel _ => ?_⟩, ho, by simpa using hd, by simpa using hb, by simp [scheduled], .inl ⟨h0, by simp⟩, by simpa using hP⟩
      show simulate lt next fuel (n + 1) taken s = _
      unfold simulate
      rw [bind_ok hs, if_pos h0]
      simp; rfl
    · have hn : 0 < s.arr.size := by omega
      obtain ⟨s1, ⟨n1, h1⟩, h2⟩ := pop_spec hw ho hn
      obtain ⟨x, hx, hp⟩ := h2.perm
      have hx' : x = s.arr[0] := by
        have := (front_spec hn).symm.trans hx
        cases this; rfl
      have hmax : ∀ y ∈ s.arr.toList, lt x y = false := by rw [hx']; exact front_max hw ho hn
      have hxm : x ∈ s.arr.toList := by rw [hx']; simp
      obtain ⟨s2, ⟨n2, h3⟩, h4, h5⟩ := pushAll_spec hw (next taken x) h2.ordered
      have hPx := hP x hxm
      have hin : ∀ y ∈ s2.arr.toList, lt x y = false := by
        intro y hy
        rcases List.mem_append.mp (h5.mem_iff.mp hy) with hy | hy
        · exact (hnext _ _ hPx y hy).2
        · exact hmax y (hp.mem_iff.mpr (List.mem_cons_of_mem _ hy))
      have hP2 : ∀ y ∈ s2.arr.toList, P y := by
        intro y hy
        rcases List.mem_append.mp (h5.mem_iff.mp hy) with hy | hy
        · exact (hnext _ _ hPx y hy).1
        · exact hP y (hp.mem_iff.mpr (List.mem_cons_of_mem _ hy))
      have hd' : Descending lt (taken ++ [x]) := by
        refine List.pairwise_append.mpr ⟨hd, List.pairwise_singleton _ _, fun a ha b hb' => ?_⟩
        rw [List.mem_singleton.mp hb']
        exact hb a ha x hxm
      have hb' : ∀ a ∈ taken ++ [x], ∀ y ∈ s2.arr.toList, lt a y = false := by
        intro a ha y hy
        rcases List.mem_append.mp ha with ha | ha
        · exact hw.ge_trans (hb a ha x hxm) (hin y hy)
        · rw [List.mem_singleton.mp ha]; exact hin y hy
      obtain ⟨more, s3, ⟨n3, h6⟩, g1, g2, g3, g4, g5, g6⟩ := simulate_spec hw next P hnext n (taken ++ [x]) s2 h4 hd' hb' hP2
      refine ⟨x :: more, s3, ⟨max n1 (max n2 n3), fun fuel hf => ?_⟩, g1, ?_, ?_, ?_, ?_, ?_⟩
      · show simulate lt next fuel (n + 1) taken s = _
        unfold simulate
        rw [bind_ok hs, if_neg h0, bind_ok hx, bind_ok (h1 fuel (by omega)), bind_ok (h3 fuel (by omega))]
        have := h6 fuel (by omega)
        simpa using this
      · simpa using g2
      · simpa using g3
      · rw [scheduled, List.cons_append]
        calc x :: (more ++ s3.arr.toList)
            |>.Perm (x :: (s2.arr.toList ++ scheduled next (taken ++ [x]) more)) := g4.cons x
          _ |>.Perm (x :: (next taken x ++ s1.arr.toList ++ scheduled next (taken ++ [x]) more)) := (h5.append_right _).cons x
          _ |>.Perm (x :: (s1.arr.toList ++ (next taken x ++ scheduled next (taken ++ [x]) more))) := by
            rw [← List.append_assoc]; exact (List.perm_append_comm.append_right _).cons x
          _ |>.Perm (s.arr.toList ++ (next taken x ++ scheduled next (taken ++ [x]) more)) := by
            rw [← List.cons_append]; exact hp.symm.append_right _
      · rcases g5 with ⟨g5, g6⟩ | g5
        · exact .inl ⟨g5, by simp; omega⟩
        · exact .inr (by simp; omega)
      · intro y hy
        rcases List.mem_cons.mp hy with rfl | hy
        · exact hPx
        · exact g6 y hy

/-! ### The properties -/

/-- C163. A simulation: the front is taken again and again and elements not greater than it are pushed for it, in any way that may depend on
what was taken before, as long as the elements are valid in some sense. The elements are taken in order; what was taken and what is left is what there was and what has
been scheduled; nothing left is greater than something taken; and it only stops early when the heap is empty. -/
theorem heap_simulation (hw : StrictWeakOrder lt) {s : St α} (h : Reach lt s) (next : List α → α → List α)
    (valid : α → Prop) (hs : ∀ x ∈ s.arr.toList, valid x)
    (hnext : ∀ past x, valid x → ∀ y ∈ next past x, valid y ∧ lt x y = false) (n : Nat) :
    ∃ taken s', Runs (fun f => simulate lt next f n []) s (.ok taken s') ∧ Descending lt taken ∧
      (∀ x ∈ taken, ∀ y ∈ s'.arr.toList, lt x y = false) ∧
      (taken ++ s'.arr.toList).Perm (s.arr.toList ++ scheduled next [] taken) ∧
      (s'.arr.size = 0 ∧ taken.length ≤ n ∨ taken.length = n) ∧ ∀ x ∈ taken ++ s'.arr.toList, valid x := by
  obtain ⟨more, s', h1, -, h2, h3, h4, h5, h6⟩ :=
    simulate_spec hw next valid hnext n [] s (reach_ordered hw h) List.Pairwise.nil (by simp) hs
  exact ⟨more, s', by simpa using h1, by simpa using h2, by simpa using h3, h4, h5, h6⟩

theorem keepBest_spec (hw : StrictWeakOrder lt) (k : Nat) : ∀ (xs : List α) (s : St α) (gone : List α), Ordered lt s.arr →
    s.arr.size ≤ k → (gone ≠ [] → s.arr.size = k) → (∀ r ∈ s.arr.toList, ∀ d ∈ gone, lt d r = false) →
    ∃ s' gone', Runs (fun f => keepBest lt f k xs) s (.ok () s') ∧ (s'.arr.toList ++ gone').Perm (xs ++ (s.arr.toList ++ gone)) ∧
      s'.arr.size ≤ k ∧ (gone' ≠ [] → s'.arr.size = k) ∧ ∀ r ∈ s'.arr.toList, ∀ d ∈ gone', lt d r = false
  | [], s, gone, _, hk, hf, hg => ⟨s, gone, ⟨0, fun _ _ => rfl⟩, by simp, hk, hf, hg⟩
  | x :: xs, s, gone, ho, hk, hf, hg => by
    obtain ⟨s1, ⟨n1, h1⟩, h2⟩ := push_spec hw ho x
    have hs1 : (M.size : M α Nat) s1 = .ok s1.arr.size s1 := rfl
    have hsz : s1.arr.size = s.arr.size + 1 := by have := h2.perm.length_eq; simpa using this
    by_cases hlt : k < s1.arr.size
    · obtain ⟨s2, ⟨n2, h3⟩, h4⟩ := pop_spec hw h2.ordered (by omega)
      obtain ⟨y, hy, hp⟩ := h4.perm
      have hn : 0 < s1.arr.size := by omega
      have hy' : y = s1.arr[0] := by have := (front_spec hn).symm.trans hy; cases this; rfl
      have hmax : ∀ z ∈ s1.arr.toList, lt y z = false := by rw [hy']; exact front_max hw h2.ordered hn
      have hsz2 : s2.arr.size = k := by have := h4.size; omega
      have hg' : ∀ r ∈ s2.arr.toList, ∀ d ∈ y :: gone, lt d r = false := by
        intro r hr d hd
        have hr1 : r ∈ s1.arr.toList := hp.mem_iff.mpr (List.mem_cons_of_mem _ hr)
        rcases List.mem_cons.mp hd with rfl | hd
        · exact hmax r hr1
        · rcases List.mem_cons.mp (h2.perm.mem_iff.mp hr1) with rfl | hr
          · -- the new element stays, so something old was dropped for it, or it was kept before
            have hyr : lt y r = false := hmax r hr1
            have hym : y ∈ s1.arr.toList := hp.mem_iff.mpr (List.mem_cons_self)
            rcases List.mem_cons.mp (h2.perm.mem_iff.mp hym) with e | hy2
            · -- the front is the new element itself
              have hpp : (s.arr.toList).Perm s2.arr.toList := by
                have := h2.perm.symm.trans hp
                rw [e] at this
                exact this.cons_inv
              exact hg r (hpp.mem_iff.mpr hr) d hd
            · exact hw.ge_trans (hg y hy2 d hd) hyr
          · exact hg r hr d hd
      obtain ⟨s3, g3, ⟨n3, h5⟩, h6, h7, h8, h9⟩ := keepBest_spec hw k xs s2 (y :: gone) h4.ordered (by omega) (fun _ => hsz2) hg'
      refine ⟨s3, g3, ⟨max n1 (max n2 n3), fun fuel hf' => ?_⟩, ?_, h7, h8, h9⟩
      · show keepBest lt fuel k (x :: xs) s = _
        unfold keepBest
        rw [bind_ok (h1 fuel (by omega)), bind_ok hs1, if_pos hlt, bind_ok (h3 fuel (by omega))]
        exact h5 fuel (by omega)
      · refine h6.trans ?_
        rw [List.cons_append]
        have e1 : (s2.arr.toList ++ y :: gone).Perm (x :: (s.arr.toList ++ gone)) := by
          refine List.perm_middle.trans ?_
          rw [← List.cons_append, ← List.cons_append]
          exact (hp.symm.trans h2.perm).append_right _
        exact (e1.append_left xs).trans List.perm_middle
    · have hgone : gone = [] := by
        by_contra hne
        have := hf hne
        omega
      subst hgone
      obtain ⟨s3, g3, ⟨n3, h5⟩, h6, h7, h8, h9⟩ := keepBest_spec hw k xs s1 [] h2.ordered (by omega) (fun h => absurd rfl h) (by simp)
      refine ⟨s3, g3, ⟨max n1 n3, fun fuel hf' => ?_⟩, ?_, h7, h8, h9⟩
      · show keepBest lt fuel k (x :: xs) s = _
        unfold keepBest
        rw [bind_ok (h1 fuel (by omega)), bind_ok hs1, if_neg hlt]
        exact h5 fuel (by omega)
      · refine h6.trans ?_
        rw [List.append_nil, List.append_nil, List.cons_append]
        exact (h2.perm.append_left xs).trans List.perm_middle

/-- C163. Keeping the best `k`: of the elements of any stream, as many as there are up to `k` are kept, and none of those dropped
is less than one kept. -/
theorem heap_keeps_best (hw : StrictWeakOrder lt) (k : Nat) (xs : List α) :
    ∃ s dropped, Runs (fun f => keepBest lt f k xs) empty (.ok () s) ∧ (s.arr.toList ++ dropped).Perm xs ∧
      s.arr.size = min k xs.length ∧ ∀ kept ∈ s.arr.toList, ∀ d ∈ dropped, lt d kept = false := by
  obtain ⟨s, gone, h1, h2, h3, h4, h5⟩ := keepBest_spec hw k xs empty [] (ordered_empty lt) (by simp [empty]) (by simp) (by simp)
  have h2' : (s.arr.toList ++ gone).Perm xs := by simpa [empty] using h2
  refine ⟨s, gone, h1, h2', ?_, h5⟩
  have hl := h2'.length_eq
  rw [List.length_append, Array.length_toList] at hl
  by_cases hg : gone = []
  · rw [hg] at hl; simp at hl; omega
  · have := h4 hg; omega

theorem byHead_swo (hw : StrictWeakOrder lt) : StrictWeakOrder (byHead lt) := by
  constructor
  · intro a; cases a
    · rfl
    · exact hw.irrefl _
  · intro a b c; cases a <;> cases b <;> cases c <;> simp [byHead]
    exact hw.trans _ _ _
  · intro a b c; cases a <;> cases b <;> cases c <;> simp [byHead]
    exact hw.incomp _ _ _

/-- The first elements of the sequences that have been taken. -/
def heads : List (List α) → List α
  | [] => []
  | [] :: l => heads l
  | (x :: _) :: l => x :: heads l

theorem heads_flatten : ∀ (l past : List (List α)), (heads l ++ (scheduled restOf past l).flatten).Perm l.flatten
  | [], _ => by simp [heads, scheduled]
  | [] :: l, past => by
    have := heads_flatten l (past ++ [[]])
    simpa [heads, scheduled, restOf] using this
  | (x :: t) :: l, past => by
    have := heads_flatten l (past ++ [x :: t])
    have e : (scheduled restOf past ((x :: t) :: l)).flatten = t ++ (scheduled restOf (past ++ [x :: t]) l).flatten := by
      cases t <;> simp [scheduled, restOf]
    rw [e, heads, List.cons_append, List.flatten_cons, List.cons_append]
    refine List.Perm.cons x ?_
    have h2 : (heads l ++ (t ++ (scheduled restOf (past ++ [x :: t]) l).flatten)).Perm
        (t ++ (heads l ++ (scheduled restOf (past ++ [x :: t]) l).flatten)) := by
      rw [← List.append_assoc, ← List.append_assoc]; exact List.perm_append_comm.append_right _
    exact h2.trans (this.append_left t)

theorem heads_descending : ∀ l : List (List α), Descending (byHead lt) l → (∀ a ∈ l, a ≠ []) → Descending lt (heads l)
  | [], _, _ => List.Pairwise.nil
  | [] :: l, _, hn => absurd rfl (hn [] List.mem_cons_self)
  | (x :: t) :: l, h, hn => by
    obtain ⟨h1, h2⟩ := List.pairwise_cons.mp h
    refine List.pairwise_cons.mpr ⟨fun y hy => ?_, heads_descending l h2 fun a ha => hn a (List.mem_cons_of_mem _ ha)⟩
    have key : ∀ l : List (List α), y ∈ heads l → ∃ t, (y :: t) ∈ l := by
      intro l
      induction l with
      | nil => intro h; simp [heads] at h
      | cons a l ih =>
        cases a with
        | nil => intro h; obtain ⟨t, ht⟩ := ih h; exact ⟨t, List.mem_cons_of_mem _ ht⟩
        | cons b u =>
          intro h
          rcases List.mem_cons.mp h with rfl | h
          · exact ⟨u, List.mem_cons_self⟩
          · obtain ⟨t, ht⟩ := ih h; exact ⟨t, List.mem_cons_of_mem _ ht⟩
    obtain ⟨t', ht'⟩ := key l hy
    exact h1 _ ht'

theorem heads_length : ∀ l : List (List α), (∀ a ∈ l, a ≠ []) → (heads l).length = l.length
  | [], _ => rfl
  | [] :: _, hn => absurd rfl (hn [] List.mem_cons_self)
  | (_ :: _) :: l, hn => by
    simp only [heads, List.length_cons]
    rw [heads_length l fun a ha => hn a (List.mem_cons_of_mem _ ha)]

/-- C163. Merging: a heap of non-empty sequences, each in order, compared by their first elements; the sequence in front is taken, its first
element is the next of the result, and the rest is pushed again. After enough rounds the heap is empty and the result is all the
elements of all the sequences, in order. -/
theorem heap_merge (hw : StrictWeakOrder lt) {s : St (List α)} (h : Reach (byHead lt) s)
    (hs : ∀ l ∈ s.arr.toList, l ≠ [] ∧ Descending lt l) (n : Nat) (hn : s.arr.toList.flatten.length ≤ n) :
    ∃ taken s', Runs (fun f => simulate (byHead lt) restOf f n []) s (.ok taken s') ∧ s'.arr.size = 0 ∧
      (heads taken).Perm s.arr.toList.flatten ∧ Descending lt (heads taken) := by
  obtain ⟨taken, s', h1, h2, -, h4, h5, h6⟩ := heap_simulation (byHead_swo hw) h restOf (fun l => l ≠ [] ∧ Descending lt l) hs
    (by
      rintro past l ⟨hne, hd⟩ y hy
      unfold restOf at hy
      split at hy
      · simp at hy
      · rename_i ht
        obtain rfl : y = l.tail := by simpa using hy
        refine ⟨⟨by simpa using ht, ?_⟩, ?_⟩
        · cases l with
          | nil => exact List.Pairwise.nil
          | cons x t => exact (List.pairwise_cons.mp hd).2
        · cases l with
          | nil => exact absurd rfl hne
          | cons x t => cases t with
            | nil => rfl
            | cons z t => exact (List.pairwise_cons.mp hd).1 z List.mem_cons_self) n
  have hne : ∀ a ∈ taken, a ≠ [] := fun a ha => (h6 a (List.mem_append_left _ ha)).1
  have hall : (heads taken ++ s'.arr.toList.flatten).Perm s.arr.toList.flatten := by
    have e1 := h4.flatten
    rw [List.flatten_append, List.flatten_append] at e1
    have e2 := (heads_flatten taken []).append_right s'.arr.toList.flatten
    have e3 : (heads taken ++ s'.arr.toList.flatten ++ (scheduled restOf [] taken).flatten).Perm
        (s.arr.toList.flatten ++ (scheduled restOf [] taken).flatten) := by
      refine List.Perm.trans ?_ (e2.trans e1)
      rw [List.append_assoc, List.append_assoc]
      exact List.perm_append_comm.append_left _
    exact (List.perm_append_right_iff _).mp e3
  have hempty : s'.arr.size = 0 := by
    rcases h5 with ⟨h5, -⟩ | h5
    · exact h5
    · by_contra h0
      have hl := hall.length_eq
      rw [List.length_append, heads_length taken hne] at hl
      have hx : s'.arr[0] ∈ s'.arr.toList := by simp
      have hx0 := (h6 _ (List.mem_append_right _ hx)).1
      have : 0 < s'.arr.toList.flatten.length := by
        rw [List.length_pos_iff]
        intro hf
        exact hx0 (List.flatten_eq_nil_iff.mp hf _ hx)
      omega
  refine ⟨taken, s', h1, hempty, ?_, heads_descending taken h2 hne⟩
  have : s'.arr.toList = [] := by rw [← List.length_eq_zero_iff, Array.length_toList]; exact hempty
  simpa [this] using hall

/-! ### Examples -/

/-- The result of a program and the elements left, if it succeeds. -/
def leftover {β : Type} (r : Res (St α) β) : Option (β × List α) :=
  match r with
  | .ok b s => some (b, s.arr.toList)
  | _ => none

/-- Times of events, the earliest at the front: an event before 8 causes another one 4 later. -/
def natGreater (a b : Nat) : Bool := decide (b < a)

theorem natGreater_swo : StrictWeakOrder natGreater := by
  constructor <;> simp [natGreater] <;> omega

example : leftover ((pushAll natGreater 20 [5, 3, 9] >>= fun _ =>
    simulate natGreater (fun _ x => if x < 8 then [x + 4] else []) 20 5 []) empty) = some ([3, 5, 7, 9, 9], [11]) := by decide +kernel

/-- The hypothesis of `heap_simulation` is met by it. -/
example : ∀ (_past : List Nat) (x : Nat), True → ∀ y ∈ (if x < 8 then [x + 4] else []), True ∧ natGreater x y = false := by
  intro _ x _ y hy
  split at hy
  · simp at hy; simp [natGreater, hy]
  · simp at hy

/-- The three smallest of a stream. -/
example : leftover (keepBest natLess 20 3 [3, 1, 4, 1, 5, 9, 2, 6] empty) = some ((), [2, 1, 1]) := by decide +kernel

/-- Three sorted sequences. -/
example : (leftover ((pushAll (byHead natGreater) 20 [[2, 5], [1, 7, 8], [3]] >>= fun _ =>
    simulate (byHead natGreater) restOf 20 6 []) empty)).map (fun r => (heads r.1, r.2)) = some ([1, 2, 3, 5, 7, 8], []) := by
  decide +kernel

end Verif.Heap
