import Verif.LinkedList.Props

/-!
# C22: what a list constructor leaks when an element throws

`linkedList_constructor_leaks` is one execution in which a constructor leaks.  Here the leak is stated
exactly, for every constructor that copies elements, every number of elements and every element that throws:
as many nodes are lost as elements were already made.
-/

set_option autoImplicit false

namespace Verif.LL

variable {α : Type} {E : Env α} {h : List (Op α × Outcome)} {s s' : St α}
variable {L : Nat → Option (Els α)} {K : List Nat} {l m : Nat}

/-- Two facts about the same run. -/
theorem wp_and {β : Type} {f : M α β} {Q Q' : β → St α → Prop} {T T' : St α → Prop} (h1 : wp f s Q T)
    (h2 : ∀ b s', f s = .ok b s' → Q' b s') (h3 : ∀ s', f s = .thrown s' → T' s') :
    wp f s (fun b s' => Q b s' ∧ Q' b s') (fun s' => T s' ∧ T' s') := by
  unfold wp at h1 ⊢
  cases hf : f s with
  | ok b s' => rw [hf] at h1; exact ⟨h1, h2 b s' hf⟩
  | thrown s' => rw [hf] at h1; exact ⟨h1, h3 s' hf⟩
  | ub => rw [hf] at h1; exact h1
  | hang => rw [hf] at h1; exact h1

/-- Creating a node makes one element; if there is memory it throws exactly if the element does. -/
theorem createNode_tick (hp : s.nodes (E.pick s) = none) (v : α) :
    wp (createNode E v) s (fun _ s' => s'.tick = s.tick + 1 ∧ E.throws s.tick = false)
      (fun _ => E.throws s.tick = true) := by
  unfold createNode
  rw [wp_bind]
  refine wp_allocate (fun c hc => by rw [hp] at hc; cases hc) fun _ => ?_
  rw [wp_bind, wp_tryRethrow, wp_bind]
  refine (wp_of_eq (by unfold constructNode; simp only [upd_same]; rfl)).2 ?_
  unfold constructVal
  rw [wp_bind]
  refine wp_mayThrow (fun ht => ?_) fun ht => ?_
  · exact (wp_of_eq (by unfold deallocate; simp only [upd_same]; rfl)).2 ht
  · refine (wp_of_eq (by unfold putNew; simp only [upd_same]; rfl)).2 ?_
    rw [wp_pure]
    exact ⟨rfl, ht⟩

theorem next_same {p q : Ptr} (hx : next p s = .ok q s') : s' = s := by
  unfold next at hx
  split at hx
  · cases hx
  · split at hx <;> cases hx; rfl
  · split at hx <;> cases hx; rfl

theorem setNext_tick {p q : Ptr} {u : Unit} (hx : setNext p q s = .ok u s') : s'.tick = s.tick := by
  unfold setNext at hx
  split at hx
  · cases hx
  · split at hx <;> cases hx; rfl
  · split at hx <;> cases hx; rfl

/-- One step of the constructors' loops. -/
def link1 (E : Env α) (p : Ptr) (v : α) : M α Ptr := do
  let new ← createNode E v
  setNext p new
  next p

theorem link1_bind {β : Type} (p : Ptr) (v : α) (f : Ptr → M α β) :
    (do
      let new ← createNode E v
      setNext p new
      let c ← next p
      f c) = link1 E p v >>= f := by
  funext s
  show M.bind _ _ s = M.bind (M.bind _ _) _ s
  unfold M.bind
  cases createNode E v s with
  | ok b s1 =>
    show M.bind _ _ s1 = _
    have e : (setNext p b >>= fun _ => next p) s1 = M.bind (setNext p b) (fun _ => next p) s1 := rfl
    simp only [e]
    unfold M.bind
    cases setNext p b s1 <;> rfl
  | thrown s1 => rfl
  | ub => rfl
  | hang => rfl

theorem link1_tick (hp : s.nodes (E.pick s) = none) (p : Ptr) (v : α) :
    (∀ b s', link1 E p v s = .ok b s' → s'.tick = s.tick + 1 ∧ E.throws s.tick = false) ∧
      ∀ s', link1 E p v s = .thrown s' → E.throws s.tick = true := by
  have key := createNode_tick hp v
  unfold wp at key
  constructor
  · intro b s' hx
    unfold link1 at hx
    change M.bind _ _ _ = _ at hx
    unfold M.bind at hx
    cases hc : createNode E v s with
    | ok b1 s1 =>
      rw [hc] at hx key
      simp only at hx key
      change M.bind _ _ _ = _ at hx
      unfold M.bind at hx
      cases hn : setNext p b1 s1 with
      | ok b2 s2 =>
        rw [hn] at hx
        rw [next_same hx, setNext_tick hn]
        exact key
      | thrown s2 => rw [hn] at hx; cases hx
      | ub => rw [hn] at hx; cases hx
      | hang => rw [hn] at hx; cases hx
    | thrown s1 => rw [hc] at hx; cases hx
    | ub => rw [hc] at hx; cases hx
    | hang => rw [hc] at hx; cases hx
  · intro s' hx
    by_contra hcon
    refine bind_ne_thrown (s := s) (f := createNode E v) (g := fun new => (do setNext p new; next p)) ?_ ?_ s' hx
    · intro s1 hc; rw [hc] at key; exact hcon key
    · intro b s1 _ s2
      exact bind_ne_thrown (setNext_ne_thrown _ _ _) (fun _ _ _ => next_ne_thrown _ _) s2

theorem link1_good (E : Env α) (p : Ptr) (v : α) : Good (link1 E p v) :=
  (createNode_good E _).bind fun _ => (setNext_good _ _).bind fun _ => next_good _

theorem good_ledger {β : Type} {f : M α β} {b : β} (hf : Good f) (e : f s = .ok b s') (hl : Ledger s) :
    Ledger s' := by
  have := hf s
  rw [e] at this
  exact this.2 hl

/-- An allocator that finds memory as long as there is some. -/
def FindsMemory (E : Env α) : Prop := ∀ s : St α, (∃ a, s.nodes a = none) → s.nodes (E.pick s) = none

/-- `append_spec` with the number of elements made. -/
theorem append_tick (hp : FindsMemory E) (hg : Ledger s) (h : Inv s L K) {xs : Els α} (hl : L l = some xs) (v : α)
    {β : Type} {f : Ptr → M α β} {Q : β → St α → Prop} {T : St α → Prop}
    (k : ∀ a s', s.nodes a = none → (∀ b, b ≠ a → posPtr l xs ≠ some (.node b) → s'.nodes b = s.nodes b) →
      Inv s' (upd L l (some (xs ++ [(a, v)]))) K → Ledger s' → s'.tick = s.tick + 1 → E.throws s.tick = false →
      wp (f (some (.node a))) s' Q T)
    (t : ∀ s', Inv s' L K → E.throws s.tick = true → T s') :
    wp (do
      let new ← createNode E v
      setNext (posPtr l xs) new
      let c ← next (posPtr l xs)
      f c) s Q T := by
  rw [link1_bind, wp_bind]
  have h0 := link1_tick (E := E) (hp s (ledger_free hg)) (posPtr l xs) v
  have h1 : wp (link1 E (posPtr l xs) v) s
      (fun p s' => ∃ a, p = some (.node a) ∧ s.nodes a = none ∧
        (∀ b, b ≠ a → posPtr l xs ≠ some (.node b) → s'.nodes b = s.nodes b) ∧
        Inv s' (upd L l (some (xs ++ [(a, v)]))) K) (fun s' => Inv s' L K) := by
    have h2 := append_spec (E := E) (f := fun p => (pure p : M α Ptr)) h hl v
      (Q := fun p s' => ∃ a, p = some (.node a) ∧ s.nodes a = none ∧
        (∀ b, b ≠ a → posPtr l xs ≠ some (.node b) → s'.nodes b = s.nodes b) ∧
        Inv s' (upd L l (some (xs ++ [(a, v)]))) K) (T := fun s' => Inv s' L K)
      (fun a s' h3 h4 h5 => ⟨a, rfl, h3, h4, h5⟩) (fun s' _ h3 => h3)
    rw [link1_bind, wp_bind] at h2
    exact h2
  refine wp_mono (wp_and h1 (fun b s' e => And.intro (h0.1 b s' e) (good_ledger (link1_good E _ _) e hg)) h0.2) ?_ ?_
  · rintro p s' ⟨⟨a, rfl, h3, h4, h5⟩, ⟨h6, h7⟩, h8⟩
    exact k a s' h3 h4 h5 h8 h6 h7
  · rintro s' ⟨h3, h4⟩
    exact t s' h3 h4

/-- The elements `0 .. k-1` are made, element `k` throws. -/
def FailsAt (E : Env α) (t k : Nat) : Prop := (∀ i < k, E.throws (t + i) = false) ∧ E.throws (t + k) = true

theorem FailsAt.succ {t k : Nat} (h0 : E.throws t = false) (h1 : FailsAt E (t + 1) k) : FailsAt E t (k + 1) := by
  refine ⟨fun i hi => ?_, by rw [show t + (k + 1) = t + 1 + k by omega]; exact h1.2⟩
  cases i with
  | zero => exact h0
  | succ i => rw [show t + (i + 1) = t + 1 + i by omega]; exact h1.1 i (by omega)

theorem FailsAt.unique {t k j : Nat} (h0 : FailsAt E t k) (h1 : FailsAt E t j) : k = j := by
  rcases Nat.lt_trichotomy k j with hlt | e | hlt
  · have := h1.1 k hlt; rw [h0.2] at this; cases this
  · exact e
  · have := h0.1 j hlt; rw [h1.2] at this; cases this

theorem initLoop_tick (hp : FindsMemory E) (hg : Ledger s) (h : Inv s L K) {xs : Els α} (hl : L l = some xs)
    {r : Range α} {vs : List α} {F : List Nat} (hr : Readable s.nodes r vs F)
    (hF : ∀ a ∈ F, posPtr l xs ≠ some (.node a)) (hFl : ∀ a ∈ F, s.nodes a ≠ none)
    {fuel : Nat} (hfuel : vs.length < fuel) {Q : Unit → St α → Prop} {T : St α → Prop}
    (k : ∀ s', (∀ i < vs.length, E.throws (s.tick + i) = false) → Q () s')
    (t : ∀ ns s', Inv s' (upd L l (some (xs ++ ns))) K → FailsAt E s.tick ns.length → T s') :
    wp (initLoop E fuel (posPtr l xs) r) s Q T := by
  induction vs generalizing fuel s L xs r F with
  | nil =>
    obtain ⟨f, rfl⟩ : ∃ f, fuel = f + 1 := ⟨fuel - 1, by simp at hfuel; omega⟩
    unfold initLoop
    rw [hr.more_nil]
    show wp (pure _) _ _ _
    rw [wp_pure]
    exact k s (by simp)
  | cons v vs ih =>
    obtain ⟨f, rfl⟩ : ∃ f, fuel = f + 1 := ⟨fuel - 1, by simp at hfuel; omega⟩
    unfold initLoop
    rw [hr.more_cons]
    simp only [if_true]
    rw [wp_bind, wp_of_eq hr.front]
    refine append_tick hp hg h hl v ?_ ?_
    · intro a s1 ha hfr h1 hg1 ht1 ht0
      rw [wp_bind]
      have hr1 : Readable s1.nodes r (v :: vs) F := hr.frame fun b hb => by
        refine hfr b ?_ (hF b hb)
        rintro rfl; exact hFl b hb ha
      obtain ⟨r', e, hr'⟩ := hr1.advance
      rw [wp_of_eq e, show (some (.node a) : Ptr) = posPtr l (xs ++ [(a, v)]) by rw [posPtr_snoc]]
      refine ih hg1 h1 (upd_same _ _ _) hr' ?_ ?_ ?_ ?_ ?_
      · intro b hb e
        rw [posPtr_snoc] at e
        cases e
        exact hFl _ (List.mem_of_mem_tail hb) ha
      · intro b hb
        have hbF := List.mem_of_mem_tail hb
        rw [hfr b (by rintro rfl; exact hFl b hbF ha) (hF b hbF)]
        exact hFl b hbF
      · simp at hfuel; omega
      · intro s2 h2
        refine k s2 fun i hi => ?_
        cases i with
        | zero => exact ht0
        | succ i =>
          rw [show s.tick + (i + 1) = s1.tick + i by omega]
          exact h2 i (by simpa using hi)
      · intro ns s2 h2 h3
        rw [upd_upd] at h2
        rw [ht1] at h3
        exact t ((a, v) :: ns) s2 (by simpa using h2) (h3.succ ht0)
    · intro s1 h1 ht
      exact t [] s1 (by rw [List.append_nil, upd_self _ _ hl]; exact h1) ⟨by simp, ht⟩

theorem fillLoop_tick (hp : FindsMemory E) (hg : Ledger s) (h : Inv s L K) {xs : Els α} (hl : L l = some xs)
    (v : α) (n : Nat) {Q : Unit → St α → Prop} {T : St α → Prop}
    (k : ∀ s', (∀ i < n, E.throws (s.tick + i) = false) → Q () s')
    (t : ∀ ns s', Inv s' (upd L l (some (xs ++ ns))) K → FailsAt E s.tick ns.length → T s') :
    wp (fillLoop E n (posPtr l xs) v) s Q T := by
  induction n generalizing s L xs with
  | zero =>
    unfold fillLoop
    rw [wp_pure]
    exact k s (by simp)
  | succ n ih =>
    unfold fillLoop
    refine append_tick hp hg h hl v ?_ ?_
    · intro a s1 ha hfr h1 hg1 ht1 ht0
      rw [show (some (.node a) : Ptr) = posPtr l (xs ++ [(a, v)]) by rw [posPtr_snoc]]
      refine ih hg1 h1 (upd_same _ _ _) ?_ ?_
      · intro s2 h2
        refine k s2 fun i hi => ?_
        cases i with
        | zero => exact ht0
        | succ i =>
          rw [show s.tick + (i + 1) = s1.tick + i by omega]
          exact h2 i (by omega)
      · intro ns s2 h2 h3
        rw [upd_upd] at h2
        rw [ht1] at h3
        exact t ((a, v) :: ns) s2 (by simpa using h2) (h3.succ ht0)
    · intro s1 h1 ht
      exact t [] s1 (by rw [List.append_nil, upd_self _ _ hl]; exact h1) ⟨by simp, ht⟩

/-- The new list and the elements that the constructors from a count, a range and another list make, one
element after the other. -/
def builds (σ : Nat → Option (List α)) : Op α → Option (Nat × List α)
  | .newFill l n v => some (l, List.replicate n v)
  | .newRange l r => (r.read σ).map fun vs => (l, vs)
  | .newCopy l m => (σ m).map fun ys => (l, ys)
  | _ => none

theorem dropped_ids (hl : L l = none) {xs : Els α} (h : Inv s (upd L l (some xs)) K) :
    Inv { s with heads := upd s.heads l none } L (ids xs ++ K) := by
  have := h.drop (l := l) (upd_same _ _ _)
  rw [upd_upd, upd_self _ _ hl] at this
  exact this

theorem constructor_tick (hp : FindsMemory E) (hg : Ledger s) (h : Inv s L K) {op : Op α} {vs : List α}
    (hb : builds (values L) op = some (l, vs)) (hl : L l = none) :
    ∃ N, ∀ fuel, N ≤ fuel → wp (exec E fuel op) s (fun _ _ => ∀ i < vs.length, E.throws (s.tick + i) = false)
      (fun s' => ∃ ns, Inv s' (upd (upd L l (some ns)) l none) (ids ns ++ K) ∧ (ids ns).Nodup ∧
        (∀ a ∈ K, a ∉ ids ns) ∧ FailsAt E s.tick ns.length) := by
  have fin : ∀ (s1 s2 : St α) (ns : Els α), Inv s2 (upd (upd L l (some [])) l (some ([] ++ ns))) K →
      s1.tick = s.tick → FailsAt E s1.tick ns.length →
      ∃ ns, Inv { s2 with heads := upd s2.heads l none } (upd (upd L l (some ns)) l none) (ids ns ++ K) ∧
        (ids ns).Nodup ∧ (∀ a ∈ K, a ∉ ids ns) ∧ FailsAt E s.tick ns.length := by
    intro s1 s2 ns h2 e h3
    rw [upd_upd] at h2
    refine ⟨ns, ?_, h2.nodup l ns (upd_same _ _ _), fun a ha => (h2.leak a ha).2 l ns (upd_same _ _ _), e ▸ h3⟩
    rw [upd_upd, upd_self _ _ hl]
    exact dropped_ids hl (by simpa using h2)
  have led : ∀ s1 : St α, s1.nodes = s.nodes → s1.log = s.log → Ledger s1 := by
    intro s1 e1 e2 a
    have := hg a
    unfold holds at this ⊢
    rw [e1, e2]; exact this
  cases op <;> simp only [builds] at hb <;> try (cases hb)
  case newFill.refl n v =>
    refine ⟨0, fun fuel _ => ?_⟩
    show wp (construct _ _) _ _ _
    unfold construct
    rw [wp_bind, wp_get, if_pos (h.absent l hl), wp_bind, wp_modify, wp_tryRethrow]
    refine fillLoop_tick (l := l) (xs := []) hp (led { s with heads := upd s.heads l (some none) } rfl rfl) (h.new hl) (upd_same _ _ _) v n ?_ ?_
    · intro s2 h2; simpa using h2
    · intro ns s2 h2 h3; exact fin _ s2 ns h2 rfl h3
  case newRange l' r =>
    obtain ⟨vs', hr, e⟩ := Option.map_eq_some_iff.1 hb
    cases e
    refine ⟨vs.length + 1, fun fuel hf => ?_⟩
    obtain ⟨rg, F, h1, h2, h3, -⟩ := range_readable h hr
    refine wp_eq_bind h1 ?_
    unfold newRange construct
    rw [wp_bind, wp_get, if_pos (h.absent l hl), wp_bind, wp_modify, wp_tryRethrow]
    refine initLoop_tick (l := l) (xs := []) (F := F) hp (led { s with heads := upd s.heads l (some none) } rfl rfl) (h.new hl) (upd_same _ _ _) h2 (by simp)
      h3 (by omega) ?_ ?_
    · intro s2 h2; simpa using h2
    · intro ns s2 h2 h3; exact fin _ s2 ns h2 rfl h3
  case newCopy l' m =>
    obtain ⟨ys', hmv, e⟩ := Option.map_eq_some_iff.1 hb
    cases e
    obtain ⟨ys, hm, rfl⟩ := values_some hmv
    have hlm : m ≠ l := by rintro rfl; rw [hl] at hm; cases hm
    refine ⟨ys.length + 1, fun fuel hf => ?_⟩
    show wp (construct _ _) _ _ _
    unfold construct
    rw [wp_bind, wp_get, if_pos (h.absent l hl), wp_bind, wp_modify, wp_tryRethrow]
    have h4 := h.new hl
    have hm' : upd L l (some []) m = some ys := by rw [upd_other _ _ hlm]; exact hm
    obtain ⟨p, hp1, hp2⟩ := h4.seg m ys hm'
    refine wp_eq_bind (h4.next_head hm') ?_
    have e := hp2.ptr_eq
    refine initLoop_tick (l := l) (xs := []) (F := ids ys) (vs := vals ys) hp (led { s with heads := upd s.heads l (some none) } rfl rfl) h4 (upd_same _ _ _)
      (.nodes (e ▸ hp2) (by simp [«end»])) (by simp) (h4.live hm') (by simp; omega) ?_ ?_
    · intro s2 h2; simpa using h2
    · intro ns s2 h2 h3; exact fin _ s2 ns h2 rfl h3

/-- C22 for constructors, exactly: if element `k` of a list constructor (from a count, a range or another list)
throws, then the constructor throws, every list is as before, and exactly `k` nodes stay allocated that were free
before and belong to no list: one for each element already made. -/
theorem linkedList_constructor_leaks_exact (hp : FindsMemory E) (hr : Reach E h s)
    {I : Nat → Option (List (Ptr × α))} (hs : SeesIts s I) {op : Op α} {vs : List α}
    (hb : builds (values I) op = some (l, vs)) (hl : I l = none) {k : Nat} (hk : k < vs.length)
    (h0 : ∀ i < k, E.throws (s.tick + i) = false) (h1 : E.throws (s.tick + k) = true) :
    ∃ (s' : St α) (lost : List Nat), Runs E op s (.thrown s') ∧ SeesIts s' I ∧ lost.Nodup ∧ lost.length = k ∧
      (∀ a ∈ lost, s.nodes a = none ∧ ¬Owned I a) ∧ ∀ a, s'.nodes a ≠ none ↔ s.nodes a ≠ none ∨ a ∈ lost := by
  obtain ⟨L, K, h2, hg, -⟩ := reach_inv hr
  have := hs.unique h2.seesIts
  subst this
  rw [values_itsOf] at hb
  have hl' : L l = none := by
    cases e : L l with
    | none => rfl
    | some xs => simp [itsOf, e] at hl
  rcases runs_wp (constructor_tick hp hg h2 hb hl') with ⟨s', -, h3⟩ | ⟨s', hx, ns, h3, h4, h6, h5⟩
  · rw [h3 k hk] at h1; cases h1
  · rw [upd_upd, upd_self _ _ hl'] at h3
    have e := h5.unique ⟨h0, h1⟩
    refine ⟨s', ids ns, hx, h3.seesIts, h4, by rw [ids_length]; exact e, ?_, ?_⟩
    · intro a ha
      obtain ⟨-, h8⟩ := h3.leak a (List.mem_append_left _ ha)
      have hfree : s.nodes a = none := by
        by_contra hc
        rcases h2.cover a hc with ⟨m, ys, hm, hy⟩ | hk
        · exact h8 m ys hm hy
        · exact h6 a hk ha
      exact ⟨hfree, ((h3.lost_iff a).2 (List.mem_append_left _ ha)).2⟩
    · intro a
      constructor
      · intro hn
        rcases h3.cover a hn with ⟨m, ys, hm, hy⟩ | hk
        · exact .inl (h2.live hm a hy)
        · rcases List.mem_append.1 hk with hk | hk
          · exact .inr hk
          · exact .inl (h2.leak a hk).1
      · rintro (hn | hn)
        · rcases h2.cover a hn with ⟨m, ys, hm, hy⟩ | hk
          · exact h3.live hm a hy
          · exact (h3.leak a (List.mem_append_right _ hk)).1
        · exact (h3.leak a (List.mem_append_left _ hn)).1

/-- There are such environments: the third element throws, and two nodes are lost. -/
example : ∃ (E : Env Nat) (s' : St Nat) (lost : List Nat), FindsMemory E ∧
    Runs E (.newRange 0 (.vals [5, 6, 7, 8])) init (.thrown s') ∧ lost.Nodup ∧ lost.length = 2 ∧
    ∀ a, s'.nodes a ≠ none ↔ a ∈ lost := by
  classical
  let E : Env Nat := ⟨fun s => if h : ∃ a, s.nodes a = none then h.choose else 0, fun t => t == 2⟩
  have hp : FindsMemory E := by
    intro s hs
    show s.nodes (if h : ∃ a, s.nodes a = none then h.choose else 0) = none
    rw [dif_pos hs]; exact hs.choose_spec
  obtain ⟨s', lost, h1, -, h2, h3, -, h4⟩ := linkedList_constructor_leaks_exact (E := E) (k := 2) hp .init
    (I := fun _ => none) (by intro l; rfl) (op := .newRange 0 (.vals [5, 6, 7, 8])) rfl rfl (by simp)
    (by intro i hi; have : i = 0 ∨ i = 1 := by omega
        rcases this with rfl | rfl <;> rfl) rfl
  exact ⟨E, s', lost, hp, h1, h2, h3, fun a => by rw [h4 a]; simp [init]⟩

end Verif.LL
