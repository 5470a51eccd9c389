import Verif.LinkedList.Iterator

/-! # Properties of the iterators of `LinkedList` -/

set_option autoImplicit false

namespace Verif.LL

variable {α : Type} {E : Env α} {h : List (Op α × Outcome)} {s : St α}

theorem Iter.inc_of {p q : Ptr} (e : next p s = .ok q s) : Iter.inc ⟨p⟩ s = .ok (⟨q⟩ : Iter) s := by
  show M.bind _ _ _ = _
  unfold M.bind
  rw [e]; rfl

theorem Iter.postInc_of {p q : Ptr} (e : next p s = .ok q s) :
    Iter.postInc ⟨p⟩ s = .ok ((⟨p⟩ : Iter), (⟨q⟩ : Iter)) s := by
  show M.bind _ _ _ = _
  unfold M.bind
  rw [e]; rfl

theorem ptr_its (xs : Els α) : ptr xs none = ((its xs).map Prod.fst).headD none := by
  cases xs <;> rfl

theorem split_at (xs : Els α) {i : Nat} (hi : i < xs.length) : xs = xs.take i ++ xs[i] :: xs.drop (i + 1) := by
  rw [← List.drop_eq_getElem_cons hi, List.take_append_drop]

theorem headD_drop (xs : List (Ptr × α)) (i : Nat) :
    ((xs.drop i).map Prod.fst).headD none = (xs[i]?.map Prod.fst).getD none := by
  rw [List.headD_eq_head?_getD, List.head?_map, List.head?_drop]

/-! ### C114 -/

/-- C114. In every state a client can bring about, let `xs` be the elements of list `l` with their iterators. `begin()` is
the iterator of the first element, or `end()`; `++before_begin()` is `begin()`. The iterator of an element designates
its value; its increment is the iterator of the next element, or `end()` after the last; the post-increment returns the
old iterator. No increment or dereference changes anything. -/
theorem list_iterator_steps (hr : Reach E h s) {I : Nat → Option (List (Ptr × α))} (hs : SeesIts s I) {l : Nat}
    {xs : List (Ptr × α)} (hl : I l = some xs) :
    let at' (i : Nat) : Iter := ⟨(xs[i]?.map Prod.fst).getD none⟩
    beginIt l s = .ok (at' 0) s ∧ (beforeBeginIt l).inc s = .ok (at' 0) s ∧ at' xs.length = endIt ∧
    ∀ i (hi : i < xs.length), (at' i).star s = .ok xs[i].2 s ∧ (at' i).toConst.star s = .ok xs[i].2 s ∧
      (at' i).inc s = .ok (at' (i + 1)) s ∧ (at' i).postInc s = .ok (at' i, at' (i + 1)) s := by
  intro at'
  obtain ⟨L, K, h1, -, -⟩ := reach_inv hr
  have := hs.unique h1.seesIts
  subst this
  obtain ⟨zs, hz, rfl⟩ := Option.map_eq_some_iff.1 hl
  have hb : next (beforeBegin l) s = .ok (at' 0).current_node s := by
    have := h1.next_head hz
    rw [ptr_its] at this
    have e := headD_drop (its zs) 0
    rw [List.drop_zero] at e
    rw [e] at this
    exact this
  refine ⟨Iter.inc_of hb, Iter.inc_of hb, by simp [at', endIt, «end»], fun i hi => ?_⟩
  have hi' : i < zs.length := by simpa [its] using hi
  have hsp : L l = some (zs.take i ++ zs[i] :: zs.drop (i + 1)) := by rw [hz]; congr 1; exact split_at zs hi'
  have ea : (at' i).current_node = some (.node zs[i].1) := by
    simp [at', its, hi']
  have ev : (its zs)[i].2 = zs[i].2 := by simp [its]
  have hd : deref (at' i).current_node s = .ok (its zs)[i].2 s := by
    rw [ea, ev]; exact h1.deref_elem hsp
  have hn : next (at' i).current_node s = .ok (at' (i + 1)).current_node s := by
    rw [ea, h1.next_elem hsp, ptr_its]
    have e := headD_drop (its zs) (i + 1)
    have e2 : (its zs).drop (i + 1) = its (zs.drop (i + 1)) := by simp [its, List.map_drop]
    rw [e2] at e
    rw [e]
  exact ⟨hd, hd, Iter.inc_of hn, Iter.postInc_of hn⟩

/-- C114. Iterators of one list are equal exactly if they designate the same position, `end()` included; iterators of
different lists are never equal unless both are `end()`. -/
theorem list_iterator_equality (hr : Reach E h s) {I : Nat → Option (List (Ptr × α))} (hs : SeesIts s I) {l m : Nat}
    {xs ys : List (Ptr × α)} (hl : I l = some xs) (hm : I m = some ys) :
    (∀ i j (hi : i < xs.length) (hj : j < xs.length),
      Iter.eq ⟨xs[i].1⟩ ⟨xs[j].1⟩ = decide (i = j)) ∧
    (∀ i (hi : i < xs.length), Iter.eq ⟨xs[i].1⟩ endIt = false ∧ Iter.eq ⟨xs[i].1⟩ (beforeBeginIt m) = false) ∧
    (l ≠ m → ∀ i j (hi : i < xs.length) (hj : j < ys.length), Iter.eq ⟨xs[i].1⟩ ⟨ys[j].1⟩ = false) ∧
    Iter.eq (beforeBeginIt l) endIt = false ∧ Iter.eq (beforeBeginIt l) (beforeBeginIt m) = decide (l = m) := by
  obtain ⟨J, h1, -, hd, -⟩ := linkedList_iterators hr
  have := hs.unique h1
  subst this
  obtain ⟨L, K, h2, -, -⟩ := reach_inv hr
  have e := h1.unique h2.seesIts
  refine ⟨fun i j hi hj => ?_, fun i hi => ?_, fun hne i j hi hj => ?_, rfl, by simp [Iter.eq, beforeBeginIt, beforeBegin]⟩
  · have hn := hd.1 l xs hl
    have := hn.getElem_inj_iff (i := i) (j := j) (hi := by simpa using hi) (hj := by simpa using hj)
    simp only [List.getElem_map] at this
    simp [Iter.eq, this]
  · rw [e] at hl
    obtain ⟨zs, hz, rfl⟩ := Option.map_eq_some_iff.1 hl
    simp [its, Iter.eq, endIt, «end», beforeBeginIt, beforeBegin]
  · have hn := hd.2 l m xs ys hne hl hm xs[i].1 (List.mem_map.2 ⟨_, List.getElem_mem hi, rfl⟩)
    have : xs[i].1 ≠ ys[j].1 := by
      intro e2
      exact hn (e2 ▸ List.mem_map.2 ⟨_, List.getElem_mem hj, rfl⟩)
    simp [Iter.eq, this]

theorem visit_from {xs : List (Ptr × α)} {at' : Nat → Iter} (hend : at' xs.length = endIt)
    (hne : ∀ i, i < xs.length → (at' i).eq endIt = false)
    (hstep : ∀ i (hi : i < xs.length), (at' i).star s = .ok xs[i].2 s ∧ (at' i).postInc s = .ok (at' i, at' (i + 1)) s)
    (n fuel i : Nat) (hn : i + n = xs.length) (hf : n < fuel) :
    visit fuel (at' i) endIt s = .ok ((xs.drop i).map Prod.snd) s := by
  induction n generalizing fuel i with
  | zero =>
    obtain ⟨fuel, rfl⟩ : ∃ f, fuel = f + 1 := ⟨fuel - 1, by omega⟩
    have : i = xs.length := by omega
    subst this
    unfold visit
    rw [hend, if_pos (by simp [Iter.eq])]
    simp; rfl
  | succ n ih =>
    obtain ⟨fuel, rfl⟩ : ∃ f, fuel = f + 1 := ⟨fuel - 1, by omega⟩
    have hi : i < xs.length := by omega
    obtain ⟨e1, e2⟩ := hstep i hi
    unfold visit
    rw [if_neg (by rw [hne i hi]; simp)]
    show M.bind _ _ _ = _
    unfold M.bind
    rw [e2]
    show M.bind _ _ _ = _
    unfold M.bind
    simp only
    rw [e1]
    show M.bind _ _ _ = _
    unfold M.bind
    simp only
    rw [ih fuel (i + 1) (by omega) (by omega), List.drop_eq_getElem_cons hi]
    rfl

/-- C114. The loop `while(it != end()) visit(*it++)` visits the elements in order, each once. -/
theorem list_iterator_traversal (hr : Reach E h s) {I : Nat → Option (List (Ptr × α))} (hs : SeesIts s I) {l : Nat}
    {xs : List (Ptr × α)} (hl : I l = some xs) {fuel : Nat} (hf : xs.length < fuel) :
    ∃ b, beginIt l s = .ok b s ∧ visit fuel b endIt s = .ok (xs.map Prod.snd) s := by
  obtain ⟨h1, -, h2, h3⟩ := list_iterator_steps hr hs hl
  refine ⟨_, h1, ?_⟩
  have h4 := (list_iterator_equality hr hs hl hl).2.1
  have := visit_from (s := s) (xs := xs) (at' := fun i => ⟨(xs[i]?.map Prod.fst).getD none⟩) h2 (fun i hi => by
    have := (h4 i hi).1
    simpa [hi] using this) (fun i hi => ⟨(h3 i hi).1, (h3 i hi).2.2.2⟩) xs.length fuel 0 (by omega) hf
  simpa using this

/-- A list to whose front 2 and then 1 was added. -/
def orderDemo : St Nat := (play [.newEmpty 0, .pushFront 0 2, .pushFront 0 1] init).getD init

/-- The order of iterators is not the order of the elements: there is a list whose first iterator compares greater than
its second, although both designate elements of it. -/
theorem list_iterator_order_is_not_position :
    ∃ (h : List (Op Nat × Outcome)) (s : St Nat) (I : Nat → Option (List (Ptr × Nat))) (p q : Ptr),
      Reach goodEnv h s ∧ SeesIts s I ∧ I 0 = some [(p, 1), (q, 2)] ∧ Iter.cmp ⟨p⟩ ⟨q⟩ = some .gt := by
  obtain ⟨h, hr, -⟩ := reach_play (s' := orderDemo) [.newEmpty 0, .pushFront 0 2, .pushFront 0 1] Reach.init
    (fun σ hs => by rw [sees_init hs]; decide +kernel)
    (by
      have : (play [.newEmpty 0, .pushFront 0 2, .pushFront 0 1] init).isSome = true := by decide +kernel
      obtain ⟨x, hx⟩ := Option.isSome_iff_exists.1 this
      rw [orderDemo, hx]; rfl)
  obtain ⟨I, hI, -⟩ := linkedList_iterators hr
  have h0 := hI 0
  have hh : (orderDemo.heads 0).isSome = true := by decide +kernel
  cases hl : I 0 with
  | none =>
    rw [hl] at h0
    simp only at h0
    rw [h0] at hh; cases hh
  | some xs =>
    rw [hl] at h0
    have h1 : Shows orderDemo 0 [(some (.node 2), 1), (some (.node 0), 2)] := by
      refine ⟨3, fun fuel hf => ?_⟩
      obtain ⟨f, rfl⟩ : ∃ f, fuel = f + 3 := ⟨fuel - 3, by omega⟩
      rfl
    have := h0.unique h1
    subst this
    exact ⟨h, _, I, _, _, hr, hI, hl, by decide⟩

end Verif.LL
