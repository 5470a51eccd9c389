import Verif.LinkedList.Step

/-!
# Properties of `LinkedList` (C14 to C22)

Everything is stated about the states a client can reach (`Reach`), in any environment: any allocator that
returns free nodes or throws, and element constructors and assignments that throw whenever they like.
-/

set_option autoImplicit false

namespace Verif.LL

variable {α : Type} {E : Env α} {h : List (Op α × Outcome)} {s s' : St α}

/-! ## Concrete environments and states for the examples -/

/-- Nodes are handed out at increasing addresses; nothing throws. -/
def goodEnv : Env Nat where
  pick s := s.log.length
  throws _ := false

/-- Result of a list of operations in `goodEnv`. -/
def play : List (Op Nat) → St Nat → Option (St Nat)
  | [], s => some s
  | op :: ops, s =>
    match exec goodEnv 20 op s with
    | .ok _ s' => play ops s'
    | _ => none

/-- What iterating over list `l` shows. -/
def peek (s : St Nat) (l : Nat) : Option (List (Ptr × Nat)) :=
  match iterate 20 l s with
  | .ok xs _ => some xs
  | _ => none

/-! ## C14 -/

/-- C14.  In every reachable state the lists are definite sequences `σ`.  Every operation whose preconditions
hold (`after σ op` is defined) terminates without undefined behaviour; if it returns the lists are the ones
expected, and if it throws that is because the environment did, and the lists are as `afterThrow` says. -/
theorem linkedList_history (hr : Reach E h s) :
    ∃ σ, Sees s σ ∧ (∀ τ, Sees s τ → τ = σ) ∧ ∀ op σ', after σ op = some σ' →
      (∃ s', Runs E op s (.ok () s') ∧ Sees s' σ' ∧ s'.fails = s.fails) ∨
      (∃ s' σt, Runs E op s (.thrown s') ∧ Sees s' σt ∧ afterThrow σ op σt ∧ s.fails < s'.fails) := by
  obtain ⟨L, K, h1, -, -⟩ := reach_inv hr
  refine ⟨values L, h1.sees, fun τ ht => ht.unique h1.sees, fun op σ' ha => ?_⟩
  rcases step_runs E h1 ha with ⟨s', hx, L', h2, h3⟩ | ⟨s', hx, L', K', h2, h3, -, -⟩
  · refine .inl ⟨s', hx, ?_, (runs_good hx).1⟩
    rw [← afterIts_values h3 ha]; exact h2.sees
  · exact .inr ⟨s', _, hx, h2.sees, h3, (runs_good hx).1⟩

/-- C14, observers: `empty()` and `front()` tell the truth. -/
theorem linkedList_observers (hr : Reach E h s) {σ : Nat → Option (List α)} (hs : Sees s σ) {l : Nat} {xs : List α}
    (hl : σ l = some xs) :
    empty l s = .ok xs.isEmpty s ∧ ∀ x ys, xs = x :: ys → front l s = .ok x s := by
  obtain ⟨L, K, h1, -, -⟩ := reach_inv hr
  have := hs.unique h1.sees
  subst this
  obtain ⟨zs, hz, rfl⟩ := values_some hl
  have hb : begin l s = .ok (ptr zs none) s := h1.next_head hz
  constructor
  · unfold empty
    show M.bind _ _ _ = _
    unfold M.bind
    rw [hb]
    cases zs with
    | nil => rfl
    | cons z zs => simp only [ptr_cons]; rfl
  · intro x ys e
    cases zs with
    | nil => cases e
    | cons z zs =>
      unfold front
      show M.bind _ _ _ = _
      unfold M.bind
      rw [hb]
      simp only [ptr_cons]
      rw [h1.deref_elem (pre := []) (x := z) hz]
      simp only [List.map_cons, List.cons.injEq] at e
      rw [e.1]

/-- A reachable state with two lists, built with several operations. -/
def demoOps : List (Op Nat) :=
  [.newRange 0 (.vals [1, 2, 3]), .newCopy 1 0, .pushFront 1 9, .insertRange 0 1 (.sub 1 0 2), .reverse 1,
   .eraseAfter 0 0, .insertAfter 1 4 5]

def demo : St Nat := (play demoOps init).getD init

/-- The operations of the example do what is expected. -/
example : (play demoOps init).isSome = true ∧
    (peek demo 0).map (·.map Prod.snd) = some [9, 1, 2, 3] ∧
    (peek demo 1).map (·.map Prod.snd) = some [3, 2, 1, 9, 5] := by decide +kernel

theorem runs_exec {op : Op α} {fuel : Nat} {s' : St α} (hx : exec E fuel op s = .ok () s') :
    Runs E op s (.ok () s') := runs_of hx (by simp)

/-- `play` gives reachable states. -/
theorem reach_play {h : List (Op Nat × Outcome)} {s s' : St Nat} (ops : List (Op Nat)) (hr : Reach goodEnv h s)
    (hs : ∀ σ, Sees s σ → (ops.foldl (fun (a : Option _) op => a.bind fun σ => after σ op) (some σ)).isSome = true)
    (hp : play ops s = some s') : ∃ h', Reach goodEnv h' s' ∧ ∀ e ∈ h', e ∈ h ∨ e.2 = .done := by
  induction ops generalizing h s with
  | nil => cases hp; exact ⟨h, hr, fun e he => .inl he⟩
  | cons op ops ih =>
    rw [play] at hp
    cases hx : exec goodEnv 20 op s with
    | ok b s1 =>
      rw [hx] at hp
      obtain ⟨σ, h1, -, h2⟩ := linkedList_history hr
      have h3 := hs σ h1
      rw [List.foldl_cons] at h3
      simp only [Option.bind_some] at h3
      cases ha : after σ op with
      | none =>
        rw [ha] at h3
        have : ∀ ops : List (Op Nat),
            ops.foldl (fun (a : Option _) op => a.bind fun σ => after σ op) none = none := by
          intro ops; induction ops with
          | nil => rfl
          | cons _ _ ih => exact ih
        rw [this] at h3; cases h3
      | some σ' =>
        have hr' := Reach.done hr h1 ha (runs_exec hx)
        obtain ⟨h', h4, h5⟩ := ih hr' (fun τ ht => by
          have : τ = σ' := by
            rcases h2 op σ' ha with ⟨s2, hx2, hs2, -⟩ | ⟨s2, σt, hx2, -⟩
            · have := hx2.unique (runs_exec hx)
              cases this
              exact ht.unique hs2
            · have := hx2.unique (runs_exec hx)
              cases this
          rw [this, ← ha]; exact h3) hp
        refine ⟨h', h4, fun e he => ?_⟩
        rcases h5 e he with h6 | h6
        · rcases List.mem_cons.1 h6 with rfl | h6
          · exact .inr rfl
          · exact .inl h6
        · exact .inr h6
    | thrown s1 => rw [hx] at hp; cases hp
    | ub => rw [hx] at hp; cases hp
    | hang => rw [hx] at hp; cases hp

theorem sees_init {σ : Nat → Option (List α)} (hs : Sees (init : St α) σ) : σ = fun _ => none := by
  exact hs.unique (by intro l; rfl)

/-- The example state is reachable, without exceptions. -/
theorem demo_reach : ∃ h, Reach goodEnv h demo ∧ NewsDone h := by
  obtain ⟨h, h1, h2⟩ := reach_play (s' := demo) demoOps Reach.init
    (fun σ hs => by rw [sees_init hs]; decide +kernel)
    (by
      have : (play demoOps init).isSome = true := by decide +kernel
      obtain ⟨x, hx⟩ := Option.isSome_iff_exists.1 this
      rw [demo, hx]; rfl)
  refine ⟨h, h1, fun e he ht => ?_⟩
  rcases h2 e he with h3 | h3
  · cases h3
  · rw [h3] at ht; cases ht

/-! ## C15 -/

/-- C15, for histories in which no list constructor ended by an exception (missing: those, where nodes leak;
see `linkedList_constructor_leaks`).  At every address the number of deallocations is the number of
allocations, one less if the address is that of an element of a list now; same for destructions and
constructions of elements.  So every node is destroyed and freed exactly once, when it leaves its list. -/
theorem linkedList_ledger_partial (hr : Reach E h s) (hn : NewsDone h) {I : Nat → Option (List (Ptr × α))}
    (hs : SeesIts s I) (a : Nat) :
    (Owned I a → s.log.count (.alloc a) = s.log.count (.free a) + 1 ∧
      s.log.count (.ctor a) = s.log.count (.dtor a) + 1) ∧
    (¬Owned I a → s.log.count (.alloc a) = s.log.count (.free a) ∧
      s.log.count (.ctor a) = s.log.count (.dtor a)) := by
  obtain ⟨L, K, h1, h2, h3⟩ := reach_inv hr
  have := hs.unique h1.seesIts
  subst this
  have := h3 hn
  subst this
  obtain ⟨h4, h5⟩ := h1.nodes_owned a
  have h6 := h2 a
  constructor
  · intro ho
    obtain ⟨h7, h8⟩ := h4 ho
    rw [if_neg h7, h8] at h6
    exact h6
  · intro ho
    have h7 := h5 ho
    have h8 : holds s a = 0 := by unfold holds; rw [h7]
    rw [if_pos h7, h8] at h6
    exact h6

/-- C15: once all lists are destroyed everything allocated is freed and everything constructed is destroyed. -/
theorem linkedList_no_leak_partial (hr : Reach E h s) (hn : NewsDone h) (hs : ∀ l, s.heads l = none) (a : Nat) :
    s.nodes a = none ∧ s.log.count (.alloc a) = s.log.count (.free a) ∧
      s.log.count (.ctor a) = s.log.count (.dtor a) := by
  have hI : SeesIts s (fun _ => none) := fun l => hs l
  have ho : ¬Owned (fun _ => none : Nat → Option (List (Ptr × α))) a := by
    rintro ⟨l, xs, e, -⟩; cases e
  refine ⟨?_, (linkedList_ledger_partial hr hn hI a).2 ho⟩
  obtain ⟨L, K, h1, h2, h3⟩ := reach_inv hr
  have e := hI.unique h1.seesIts
  have := h3 hn
  subst this
  exact (h1.nodes_owned a).2 (e ▸ ho)

/-- C15: whenever an operation returns, the nodes that are no longer in a list have been freed, and (with
`linkedList_iterators`) the nodes of all other elements are untouched.  No assumption on earlier exceptions. -/
theorem linkedList_releases (hr : Reach E h s) {I I' : Nat → Option (List (Ptr × α))} (hs : SeesIts s I) {op : Op α}
    {σ' : Nat → Option (List α)} (ha : after (values I) op = some σ') (hx : Runs E op s (.ok () s'))
    (hs' : SeesIts s' I') (a : Nat) (ho : Owned I a) (hn : ¬Owned I' a) : s'.nodes a = none := by
  obtain ⟨L, K, h1, -, -⟩ := reach_inv hr
  have := hs.unique h1.seesIts
  subst this
  rw [values_itsOf] at ha
  rcases step_runs E h1 ha with ⟨s2, hx2, L', h2, -⟩ | ⟨s2, hx2, -⟩
  · have := hx.unique hx2
    cases this
    have := hs'.unique h2.seesIts
    subst this
    exact h1.gone h2 ho hn
  · have := hx.unique hx2
    cases this

/-- C15, in every history, exceptions from constructors included: nothing is ever freed or destroyed more
often than it was allocated or constructed, and the node of an element of a list is allocated and holds an
object. -/
theorem linkedList_no_double_free (hr : Reach E h s) {I : Nat → Option (List (Ptr × α))}
    (hs : SeesIts s I) (a : Nat) :
    s.log.count (.free a) ≤ s.log.count (.alloc a) ∧ s.log.count (.alloc a) ≤ s.log.count (.free a) + 1 ∧
    s.log.count (.dtor a) ≤ s.log.count (.ctor a) ∧ s.log.count (.ctor a) ≤ s.log.count (.dtor a) + 1 ∧
    (s.nodes a = none ↔ s.log.count (.alloc a) = s.log.count (.free a)) ∧
    (Owned I a → s.log.count (.alloc a) = s.log.count (.free a) + 1 ∧
      s.log.count (.ctor a) = s.log.count (.dtor a) + 1) := by
  obtain ⟨L, K, h1, h2, -⟩ := reach_inv hr
  have := hs.unique h1.seesIts
  subst this
  obtain ⟨h3, h4⟩ := h2 a
  have h5 : holds s a ≤ 1 := by unfold holds; split <;> omega
  refine ⟨by omega, by split at h3 <;> omega, by omega, by omega, ⟨fun hn => ?_, fun hn => ?_⟩, fun ho => ?_⟩
  · rw [if_pos hn] at h3; exact h3
  · by_contra hc
    rw [if_neg hc] at h3; omega
  · obtain ⟨h6, h7⟩ := h1.owned_holds ho
    rw [if_neg h6] at h3
    rw [h7] at h4
    exact ⟨h3, h4⟩

/-- C15, exactly where nodes leak: an operation that returns, or one that throws and is not a constructor,
leaves the set of lost nodes (allocated but in no list) as it is. -/
theorem linkedList_leaks_only_constructors (hr : Reach E h s) {I I' : Nat → Option (List (Ptr × α))}
    (hs : SeesIts s I) {op : Op α} {σ' : Nat → Option (List α)} (ha : after (values I) op = some σ')
    (hx : Runs E op s (.ok () s') ∨ (op.isNew = false ∧ Runs E op s (.thrown s'))) (hs' : SeesIts s' I')
    (a : Nat) : (s'.nodes a ≠ none ∧ ¬Owned I' a) ↔ (s.nodes a ≠ none ∧ ¬Owned I a) := by
  obtain ⟨L, K, h1, -, -⟩ := reach_inv hr
  have := hs.unique h1.seesIts
  subst this
  rw [values_itsOf] at ha
  have key : ∃ L', Inv s' L' K := by
    rcases step_runs E h1 ha with ⟨s2, hx2, L', h2, -⟩ | ⟨s2, hx2, L', K', h2, -, -, h3⟩
    · rcases hx with hx | ⟨-, hx⟩
      · have := hx.unique hx2; cases this; exact ⟨L', h2⟩
      · have := hx.unique hx2; cases this
    · rcases hx with hx | ⟨hnew, hx⟩
      · have := hx.unique hx2; cases this
      · have := hx.unique hx2; cases this
        have := h3 hnew; subst this; exact ⟨L', h2⟩
  obtain ⟨L', h2⟩ := key
  have := hs'.unique h2.seesIts
  subst this
  rw [h1.lost_iff, h2.lost_iff]

/-- The ledger of the example: ten allocations, one free; nine elements are left. -/
example : demo.log.countP (fun e => match e with | .alloc _ => true | _ => false) = 10 ∧
    demo.log.countP (fun e => match e with | .free _ => true | _ => false) = 1 ∧
    ((peek demo 0).getD []).length + ((peek demo 1).getD []).length = 9 := by decide +kernel

/-! ## C16 -/

/-- C16.  `reverse()` returns; the list then shows the same iterators and elements in the opposite order, all
other lists are unchanged, nothing was allocated, freed, constructed or destroyed, and a second `reverse()`
restores the list. -/
theorem linkedList_reverse (hr : Reach E h s) {I : Nat → Option (List (Ptr × α))} (hs : SeesIts s I) {l : Nat}
    {xs : List (Ptr × α)} (hl : I l = some xs) :
    ∃ s', Runs E (.reverse l) s (.ok () s') ∧ SeesIts s' (put I l (some xs.reverse)) ∧ s'.log = s.log ∧
      ∃ s'', Runs E (.reverse l) s' (.ok () s'') ∧ SeesIts s'' I ∧ s''.log = s.log := by
  obtain ⟨L, K, h1, -, -⟩ := reach_inv hr
  have := hs.unique h1.seesIts
  subst this
  have one : ∀ (s : St α) (L : Nat → Option (Els α)) (zs : Els α), Inv s L K → L l = some zs →
      ∃ s', Runs E (.reverse l) s (.ok () s') ∧ s'.log = s.log ∧ Inv s' (upd L l (some zs.reverse)) K := by
    intro s L zs h1 hz
    have : ∃ N, ∀ fuel, N ≤ fuel → wp (exec E fuel (.reverse l)) s
        (fun _ s' => s'.log = s.log ∧ Inv s' (upd L l (some zs.reverse)) K) (fun _ => False) :=
      ⟨zs.length + 1, fun fuel hf => reverse_spec h1 hz (by omega) fun s1 e h2 => ⟨e, h2⟩⟩
    rcases runs_wp this with ⟨s', hx, h2⟩ | ⟨s', hx, h2⟩
    · exact ⟨s', hx, h2⟩
    · exact absurd h2 id
  obtain ⟨zs, hz, rfl⟩ := Option.map_eq_some_iff.1 hl
  obtain ⟨s', hx, e, h2⟩ := one s L zs h1 hz
  obtain ⟨s'', hx', e', h3⟩ := one s' _ zs.reverse h2 (upd_same _ _ _)
  rw [List.reverse_reverse, upd_upd, upd_self _ _ hz] at h3
  refine ⟨s', hx, ?_, e, s'', hx', h3.seesIts, e'.trans e⟩
  have := h2.seesIts
  rw [← put_eq, itsOf_put] at this
  simpa [its, List.map_reverse] using this

example : peek demo 1 = some [(some (.node 10), 3), (some (.node 8), 2), (some (.node 6), 1),
    (some (.node 12), 9), (some (.node 20), 5)] := by decide +kernel

/-! ## C17 -/

/-- C17.  Whatever operation is applied, the iterators afterwards are as `afterIts` says: every element that
remains keeps its iterator (and its value, unless it was assigned to), in the list it is in or was moved to;
and no two elements ever share an iterator. -/
theorem linkedList_iterators (hr : Reach E h s) :
    ∃ I, SeesIts s I ∧ (∀ J, SeesIts s J → J = I) ∧ Distinct I ∧ ∀ op σ', after (values I) op = some σ' →
      (∃ s' I', Runs E op s (.ok () s') ∧ SeesIts s' I' ∧ afterIts I op I' ∧ Distinct I') ∨
      (∃ s' I', Runs E op s (.thrown s') ∧ SeesIts s' I' ∧ afterThrowIts I op I' ∧ Distinct I') := by
  obtain ⟨L, K, h1, -, -⟩ := reach_inv hr
  refine ⟨itsOf L, h1.seesIts, fun J hJ => hJ.unique h1.seesIts, h1.distinct, fun op σ' ha => ?_⟩
  rw [values_itsOf] at ha
  rcases step_runs E h1 ha with ⟨s', hx, L', h2, h3⟩ | ⟨s', hx, L', K', h2, -, h3, -⟩
  · exact .inl ⟨s', _, hx, h2.seesIts, afterIts_itsOf h3, h2.distinct⟩
  · exact .inr ⟨s', _, hx, h2.seesIts, afterThrowIts_itsOf h3, h2.distinct⟩

/-- C17, returned iterators: `insert_after` (and `emplace_after`) of one value returns the iterator of the new
element. -/
theorem linkedList_insert_returns (hr : Reach E h s) {I : Nat → Option (List (Ptr × α))} (hs : SeesIts s I)
    {l k : Nat} {xs : List (Ptr × α)} (hl : I l = some xs) (hk : k ≤ xs.length) {pos : Ptr}
    (hpos : advance k (beforeBegin l) s = .ok pos s) (v : α) {p : Ptr} (hx : insertAfter E pos v s = .ok p s') :
    SeesIts s' (put I l (some (xs.take k ++ (p, v) :: xs.drop k))) := by
  obtain ⟨L, K, h1, -, -⟩ := reach_inv hr
  have := hs.unique h1.seesIts
  subst this
  obtain ⟨zs, hz, rfl⟩ := Option.map_eq_some_iff.1 hl
  have hk' : k ≤ zs.length := by simpa [its] using hk
  have e := (advance_pos h1 hz hk').symm.trans hpos
  cases e
  have key : wp (insertAfter E (posPtr l (zs.take k)) v) s (fun p s' => ∃ a, p = some (.node a) ∧
      Inv s' (upd L l (some (zs.take k ++ (a, v) :: zs.drop k))) K) (fun _ => True) :=
    emplaceAfter_spec (pre := zs.take k) (post := zs.drop k) h1 (by simpa using hz) v
      (fun a s1 _ _ h2 => ⟨a, rfl, h2⟩) (fun _ _ _ => trivial)
  unfold wp at key
  rw [hx] at key
  obtain ⟨a, rfl, h2⟩ := key
  have := h2.seesIts
  rw [← put_eq, itsOf_put] at this
  simpa [its, List.map_take, List.map_drop] using this

/-- C17, returned iterators: `insert_after` of a range returns the iterator of the last inserted element, or
the position itself if the range is empty. -/
theorem linkedList_insertRange_returns (hr : Reach E h s) {I : Nat → Option (List (Ptr × α))} (hs : SeesIts s I)
    {l k : Nat} {xs : List (Ptr × α)} (hl : I l = some xs) (hk : k ≤ xs.length) {pos : Ptr}
    (hpos : advance k (beforeBegin l) s = .ok pos s) {r : Src α} {vs : List α}
    (hv : r.read (values I) = some vs) (hav : r.avoids l k) {rg : Range α} (hrg : r.range s = .ok rg s) {fuel : Nat}
    (hf : vs.length < fuel) {p : Ptr} (hx : insertRange E fuel pos rg s = .ok p s') :
    ∃ ns, ns.map Prod.snd = vs ∧ SeesIts s' (put I l (some (xs.take k ++ ns ++ xs.drop k))) ∧
      p = (ns.map Prod.fst).getLast?.getD pos := by
  obtain ⟨L, K, h1, -, -⟩ := reach_inv hr
  have := hs.unique h1.seesIts
  subst this
  obtain ⟨zs, hz, rfl⟩ := Option.map_eq_some_iff.1 hl
  have hk' : k ≤ zs.length := by simpa [its] using hk
  have e := (advance_pos h1 hz hk').symm.trans hpos
  cases e
  rw [values_itsOf] at hv
  obtain ⟨rg', F, e1, h2, h3, h4⟩ := range_readable h1 hv
  rw [e1] at hrg
  cases hrg
  have key : wp (insertRange E fuel (posPtr l (zs.take k)) rg) s (fun p s' => ∃ ns, vals ns = vs ∧
      p = posPtr l (zs.take k ++ ns) ∧ Inv s' (upd L l (some (zs.take k ++ ns ++ zs.drop k))) K) (fun _ => True) :=
    insertRange_spec (pre := zs.take k) (post := zs.drop k) h1 (by simpa using hz) h2
      (h4 l k zs hz hav hk') h3 hf (fun ns s1 e _ h2 => ⟨ns, e, rfl, h2⟩) (fun _ _ _ _ _ _ _ => trivial)
  unfold wp at key
  rw [hx] at key
  obtain ⟨ns, e2, rfl, h5⟩ := key
  refine ⟨its ns, by rw [its_vals]; exact e2, ?_, ?_⟩
  · have := h5.seesIts
    rw [← put_eq, itsOf_put] at this
    simpa [its, List.map_take, List.map_drop] using this
  · rcases List.eq_nil_or_concat ns with rfl | ⟨ms, x, rfl⟩
    · simp [its]
    · rw [List.concat_eq_append, ← List.append_assoc, posPtr_snoc]
      simp [its]

/-! ## C18 -/

/-- C18.  Assigning a range: either it returns and the list holds exactly the values the range had before the
call, its first elements being the old nodes, as many as fit, and no other list changed; or an assignment or
construction threw. -/
theorem linkedList_assign (hr : Reach E h s) {I : Nat → Option (List (Ptr × α))} (hs : SeesIts s I) {l : Nat}
    {xs : List (Ptr × α)} (hl : I l = some xs) {r : Src α} {vs : List α} (hv : r.read (values I) = some vs) :
    (∃ s' zs, Runs E (.assign l r) s (.ok () s') ∧ SeesIts s' (put I l (some zs)) ∧ zs.map Prod.snd = vs ∧
      (zs.map Prod.fst).take xs.length = (xs.map Prod.fst).take vs.length) ∨
    (∃ s', Runs E (.assign l r) s (.thrown s') ∧ s.fails < s'.fails) := by
  obtain ⟨J, h1, -, -, h3⟩ := linkedList_iterators hr
  have := hs.unique h1
  subst this
  rcases h3 (.assign l r) (put (values I) l (some vs)) (by simp [after, hv, values_of hl]) with
    ⟨s', I', hx, h4, h5, -⟩ | ⟨s', I', hx, -⟩
  · obtain ⟨xs', vs', zs, e1, e2, e3, e4, rfl⟩ := h5
    rw [hl] at e1; cases e1
    rw [hv] at e2; cases e2
    exact .inl ⟨s', zs, hx, h4, e3, e4⟩
  · exact .inr ⟨s', hx, (runs_good hx).1⟩

/-- C18, copy assignment from any list, also from itself. -/
theorem linkedList_copyAssign (hr : Reach E h s) {I : Nat → Option (List (Ptr × α))} (hs : SeesIts s I) {l m : Nat}
    {xs ys : List (Ptr × α)} (hl : I l = some xs) (hm : I m = some ys) :
    (∃ s' zs, Runs E (.copyAssign l m) s (.ok () s') ∧ SeesIts s' (put I l (some zs)) ∧
      zs.map Prod.snd = ys.map Prod.snd ∧
      (zs.map Prod.fst).take xs.length = (xs.map Prod.fst).take ys.length) ∨
    (∃ s', Runs E (.copyAssign l m) s (.thrown s') ∧ s.fails < s'.fails) := by
  obtain ⟨J, h1, -, -, h3⟩ := linkedList_iterators hr
  have := hs.unique h1
  subst this
  rcases h3 (.copyAssign l m) (put (values I) l (some (ys.map Prod.snd)))
      (by simp [after, values_of hl, values_of hm]) with ⟨s', I', hx, h4, h5, -⟩ | ⟨s', I', hx, -⟩
  · obtain ⟨xs', ys', zs, e1, e2, e3, e4, rfl⟩ := h5
    rw [hl] at e1; cases e1
    rw [hm] at e2; cases e2
    exact .inl ⟨s', zs, hx, h4, e3, e4⟩
  · exact .inr ⟨s', hx, (runs_good hx).1⟩

/-- C18: copy assignment of a list to itself changes nothing, not even the iterators; if an element
assignment throws the values are unchanged too. -/
theorem linkedList_self_copyAssign (hr : Reach E h s) {I : Nat → Option (List (Ptr × α))} (hs : SeesIts s I)
    {l : Nat} {xs : List (Ptr × α)} (hl : I l = some xs) :
    (∃ s', Runs E (.copyAssign l l) s (.ok () s') ∧ SeesIts s' I) ∨
    (∃ s', Runs E (.copyAssign l l) s (.thrown s') ∧ Sees s' (values I)) := by
  rcases linkedList_copyAssign hr hs hl hl with ⟨s', zs, hx, h1, h2, h3⟩ | ⟨s', hx, -⟩
  · refine .inl ⟨s', hx, ?_⟩
    have hlen : zs.length = xs.length := by
      have := congrArg List.length h2; simpa using this
    have e : zs = xs := by
      have e1 : zs.map Prod.fst = xs.map Prod.fst := by
        have hz : (zs.map Prod.fst).take xs.length = zs.map Prod.fst :=
          List.take_of_length_le (by simp [hlen])
        have hz' : (xs.map Prod.fst).take xs.length = xs.map Prod.fst :=
          List.take_of_length_le (by simp)
        rw [hz, hz'] at h3; exact h3
      rw [← List.zip_unzip zs, ← List.zip_unzip xs, List.unzip_eq_map, List.unzip_eq_map, e1, h2]
    rw [e] at h1
    have : put I l (some xs) = I := upd_self _ _ hl
    rw [this] at h1
    exact h1
  · refine .inr ⟨s', hx, ?_⟩
    obtain ⟨σ, h1, -, h3⟩ := linkedList_history hr
    have := h1.unique hs.sees
    subst this
    rcases h3 (.copyAssign l l) (put (values I) l (some (xs.map Prod.snd)))
        (by simp [after, values_of hl]) with ⟨s2, hx2, -⟩ | ⟨s2, σt, hx2, h4, h5, -⟩
    · have := hx2.unique hx; cases this
    · have := hx2.unique hx; cases this
      obtain ⟨a, b, n, e1, e2, -, rfl⟩ := h5
      rw [e1] at e2; cases e2
      rw [List.take_append_drop, show put (values I) l (some a) = values I from upd_self _ _ e1] at h4
      exact h4

/-- Assigning `[2, 9]`, part of the list itself, to a list of five elements: two nodes are reused. -/
example : ((play [.assign 1 (.sub 1 1 4)] demo).bind fun s => peek s 1) =
    some [(some (.node 10), 2), (some (.node 8), 1), (some (.node 6), 9)] := by decide +kernel

/-! ## C19 -/

/-- C19 for two different lists (missing: the self move, where the claim is false, see
`linkedList_self_move_loses`).  Move assignment and move construction never throw; the target has the source's
elements with their iterators, the source is empty, the target's old nodes are freed. -/
theorem linkedList_moveAssign_partial (hr : Reach E h s) {I : Nat → Option (List (Ptr × α))} (hs : SeesIts s I)
    {l m : Nat} (hlm : l ≠ m) {xs ys : List (Ptr × α)} (hl : I l = some xs) (hm : I m = some ys) :
    ∃ s', Runs E (.moveAssign l m) s (.ok () s') ∧ SeesIts s' (put (put I l (some ys)) m (some [])) ∧
      ∀ a, some (.node a) ∈ xs.map Prod.fst → s'.nodes a = none := by
  obtain ⟨L, K, h1, -, -⟩ := reach_inv hr
  have := hs.unique h1.seesIts
  subst this
  obtain ⟨xs', hx', rfl⟩ := Option.map_eq_some_iff.1 hl
  obtain ⟨ys', hy', rfl⟩ := Option.map_eq_some_iff.1 hm
  have : ∃ N, ∀ fuel, N ≤ fuel → wp (exec E fuel (.moveAssign l m)) s
      (fun _ s' => Inv s' (upd (upd L l (some ys')) m (some [])) K) (fun _ => False) :=
    ⟨xs'.length + 1, fun fuel hf => moveAssign_spec h1 hlm hx' hy' (by omega) fun s1 h2 => h2⟩
  rcases runs_wp this with ⟨s', hx, h2⟩ | ⟨s', hx, h2⟩
  swap
  · exact absurd h2 id
  refine ⟨s', hx, ?_, fun a ha => ?_⟩
  · have := h2.seesIts
    rw [← put_eq, itsOf_put, ← put_eq, itsOf_put] at this
    exact this
  · refine h1.gone h2 ⟨l, _, hl, ha⟩ fun ho => ?_
    obtain ⟨k, zs, hk, hz⟩ := owned_itsOf.1 ho
    rw [its_fst] at ha
    obtain ⟨b, hb, e⟩ := List.mem_map.1 ha
    have e : b = a := by simpa using e
    subst e
    by_cases e1 : k = m
    · subst e1; rw [upd_same] at hk; cases hk; simp at hz
    · rw [upd_other _ _ e1] at hk
      by_cases e2 : k = l
      · subst e2; rw [upd_same] at hk; cases hk
        exact h1.disj k m _ _ e1 hx' hy' b hb hz
      · rw [upd_other _ _ e2] at hk
        exact h1.disj l k _ _ (Ne.symm e2) hx' hk b hb hz

/-- C19, move construction. -/
theorem linkedList_newMove (hr : Reach E h s) {I : Nat → Option (List (Ptr × α))} (hs : SeesIts s I)
    {l m : Nat} {ys : List (Ptr × α)} (hl : I l = none) (hm : I m = some ys) :
    ∃ s', Runs E (.newMove l m) s (.ok () s') ∧ SeesIts s' (put (put I l (some ys)) m (some [])) ∧
      s'.log = s.log := by
  obtain ⟨L, K, h1, -, -⟩ := reach_inv hr
  have := hs.unique h1.seesIts
  subst this
  have hl' : L l = none := Option.map_eq_none_iff.1 hl
  obtain ⟨ys', hy', rfl⟩ := Option.map_eq_some_iff.1 hm
  have : ∃ N, ∀ fuel, N ≤ fuel → wp (exec E fuel (.newMove l m)) s
      (fun _ s' => s'.log = s.log ∧ Inv s' (upd (upd L l (some ys')) m (some [])) K) (fun _ => False) :=
    ⟨0, fun fuel _ => newMove_spec h1 hl' hy' fun s1 e h2 => ⟨e, h2⟩⟩
  rcases runs_wp this with ⟨s', hx, e, h2⟩ | ⟨s', hx, h2⟩
  · refine ⟨s', hx, ?_, e⟩
    have := h2.seesIts
    rw [← put_eq, itsOf_put, ← put_eq, itsOf_put] at this
    exact this
  · exact absurd h2 id

/-- C19 fails for the self move: moving any list onto itself destroys all its elements. -/
theorem linkedList_self_move_loses (hr : Reach E h s) {I : Nat → Option (List (Ptr × α))} (hs : SeesIts s I)
    {l : Nat} {xs : List (Ptr × α)} (hl : I l = some xs) :
    ∃ s', Runs E (.moveAssign l l) s (.ok () s') ∧ SeesIts s' (put I l (some [])) := by
  obtain ⟨L, K, h1, -, -⟩ := reach_inv hr
  have := hs.unique h1.seesIts
  subst this
  obtain ⟨xs', hx', rfl⟩ := Option.map_eq_some_iff.1 hl
  have : ∃ N, ∀ fuel, N ≤ fuel → wp (exec E fuel (.moveAssign l l)) s
      (fun _ s' => Inv s' (upd L l (some [])) K) (fun _ => False) :=
    ⟨xs'.length + 1, fun fuel hf => moveAssign_self_spec h1 hx' (by omega) fun s1 h2 => h2⟩
  rcases runs_wp this with ⟨s', hx, h2⟩ | ⟨s', hx, h2⟩
  · refine ⟨s', hx, ?_⟩
    have := h2.seesIts
    rw [← put_eq, itsOf_put] at this
    exact this
  · exact absurd h2 id

example : ((play [.moveAssign 0 1] demo).bind fun s => peek s 0) = peek demo 1 ∧
    ((play [.moveAssign 0 1] demo).bind fun s => peek s 1) = some [] ∧
    ((play [.moveAssign 0 0] demo).bind fun s => peek s 0) = some [] := by decide +kernel

/-! ## C20 -/

/-- C20.  `erase_after` at the position after `k` elements is undefined behaviour exactly when no element
follows; otherwise it removes just that element. -/
theorem linkedList_eraseAfter (hr : Reach E h s) {σ : Nat → Option (List α)} (hs : Sees s σ) {l k : Nat} {xs : List α}
    (hl : σ l = some xs) (hk : k ≤ xs.length) :
    (Runs E (.eraseAfter l k) s .ub ↔ k = xs.length) ∧
    (k < xs.length → ∃ s', Runs E (.eraseAfter l k) s (.ok () s') ∧
      Sees s' (put σ l (some (xs.take k ++ xs.drop (k + 1))))) := by
  have hok : k < xs.length → ∃ s', Runs E (.eraseAfter l k) s (.ok () s') ∧
      Sees s' (put σ l (some (xs.take k ++ xs.drop (k + 1)))) := by
    intro hlt
    obtain ⟨τ, h1, -, h3⟩ := linkedList_history hr
    have := hs.unique h1
    subst this
    rcases h3 (.eraseAfter l k) (put σ l (some (xs.take k ++ xs.drop (k + 1)))) (by simp only [after, hl, Option.bind_some, if_pos hlt]) with
      ⟨s', hx, h4, -⟩ | ⟨s', σt, hx, -, h5, -⟩
    · exact ⟨s', hx, h4⟩
    · exact absurd h5 id
  refine ⟨⟨fun hu => ?_, fun e => ?_⟩, hok⟩
  · by_contra hne
    obtain ⟨s', hx, -⟩ := hok (by omega)
    have := hx.unique hu
    cases this
  · obtain ⟨L, K, h1, -, -⟩ := reach_inv hr
    have := hs.unique h1.sees
    subst this
    obtain ⟨zs, hz, rfl⟩ := values_some hl
    rw [List.length_map] at e
    refine ⟨0, fun fuel _ => ?_⟩
    show M.bind _ _ _ = _
    unfold M.bind
    rw [advance_pos h1 hz (by omega)]
    simp only
    unfold eraseAfter
    show M.bind _ _ _ = _
    unfold M.bind
    rw [h1.next_pos (l := l) (pre := zs.take k) (post := []) (by
      rw [e, List.take_length]; simpa using hz)]
    rfl

/-- C20.  `pop_front` is undefined behaviour exactly on empty lists. -/
theorem linkedList_popFront (hr : Reach E h s) {σ : Nat → Option (List α)} (hs : Sees s σ) {l : Nat} {xs : List α}
    (hl : σ l = some xs) :
    (Runs E (.popFront l) s .ub ↔ xs = []) ∧
    ∀ x ys, xs = x :: ys → ∃ s', Runs E (.popFront l) s (.ok () s') ∧ Sees s' (put σ l (some ys)) := by
  obtain ⟨h1, h2⟩ := linkedList_eraseAfter hr hs (k := 0) hl (Nat.zero_le _)
  have same : ∀ r, Runs E (.popFront l) s r ↔ Runs E (.eraseAfter l 0) s r := fun r => Iff.rfl
  simp only [same]
  refine ⟨h1.trans ⟨fun e => List.length_eq_zero_iff.1 e.symm, fun e => by rw [e]; rfl⟩, ?_⟩
  rintro x ys rfl
  simpa using h2 (by simp)

/-- Both outcomes occur. -/
example : (∃ n, exec goodEnv n (.eraseAfter 0 4) demo matches .ub) ∧
    (play [.eraseAfter 0 3] demo).isSome = true := ⟨⟨20, by decide +kernel⟩, by decide +kernel⟩

/-! ## C21 -/

/-- C21 when the insertion position is outside the inserted range (missing: the position inside it, where the
claim is false, see `linkedList_self_insert_diverges`).  A range of the list itself is inserted as it was
before the call. -/
theorem linkedList_self_insert_partial (hr : Reach E h s) {σ : Nat → Option (List α)} (hs : Sees s σ)
    {l k i j : Nat} {xs : List α} (hl : σ l = some xs) (hij : i ≤ j) (hj : j ≤ xs.length) (hk : k ≤ xs.length)
    (hout : k ≤ i ∨ j < k) :
    (∃ s', Runs E (.insertRange l k (.sub l i j)) s (.ok () s') ∧
      Sees s' (put σ l (some (xs.take k ++ (xs.take j).drop i ++ xs.drop k)))) ∨
    (∃ s', Runs E (.insertRange l k (.sub l i j)) s (.thrown s') ∧ s.fails < s'.fails) := by
  obtain ⟨τ, h1, -, h3⟩ := linkedList_history hr
  have := hs.unique h1
  subst this
  have hav : (Src.sub l i j : Src α).avoids l k := by
    simp only [Src.avoids]; omega
  rcases h3 (.insertRange l k (.sub l i j)) (put σ l (some (xs.take k ++ (xs.take j).drop i ++ xs.drop k)))
      (by simp only [after, hl, Src.read, Option.bind_some, if_pos (And.intro hij hj), if_pos (And.intro hk hav)])
    with ⟨s', hx, h4, -⟩ | ⟨s', σt, hx, -, -, hf⟩
  · exact .inl ⟨s', hx, h4⟩
  · exact .inr ⟨s', hx, hf⟩

theorem self_insert_thrown_or_hang (hr : Reach E h s) {σ : Nat → Option (List α)} (hs : Sees s σ)
    {l k i j : Nat} {xs : List α} (hl : σ l = some xs) (hj : j ≤ xs.length) (hik : i < k) (hkj : k ≤ j)
    (fuel : Nat) :
    (∃ s', exec E fuel (.insertRange l k (.sub l i j)) s = .thrown s' ∧
      ∃ pos r, insertRange E fuel pos r s = .thrown s') ∨
    exec E fuel (.insertRange l k (.sub l i j)) s = .hang := by
  obtain ⟨L, K, h1, -, -⟩ := reach_inv hr
  have := hs.unique h1.sees
  subst this
  obtain ⟨zs, hz, rfl⟩ := values_some hl
  rw [List.length_map] at hj
  have hi : i < zs.length := by omega
  have hsplit : zs = zs.take i ++ (zs[i] :: (zs.take k).drop (i + 1)) ++ ((zs.take j).drop k ++ zs.drop j) := by
    have e1 := sub_split (xs := zs) (i := k) (j := j) hkj
    have e2 : zs.take k = zs.take i ++ (zs[i] :: (zs.take k).drop (i + 1)) := by
      have e3 : (zs.take k).drop i = zs[i] :: (zs.take k).drop (i + 1) := by
        rw [List.drop_eq_getElem_cons (by simp; omega)]; simp
      rw [← e3]
      conv_lhs => rw [← List.take_append_drop i (zs.take k)]
      rw [List.take_take, Nat.min_eq_left (by omega)]
    exact e1.trans (by rw [← e2])
  have htake : zs.take k = zs.take i ++ (zs[i] :: (zs.take k).drop (i + 1)) := by
    have h5 := congrArg (List.take k) hsplit
    rw [List.take_left' (by simp; omega)] at h5
    exact h5
  have key := insertRange_self (E := E) h1 (l := l) (A := zs.take i) (z := zs[i]) (F := (zs.take k).drop (i + 1))
    (B := (zs.take j).drop k) (C := zs.drop j) (by rw [← hsplit]; exact hz) fuel
  rw [← htake] at key
  have hx : exec E fuel (.insertRange l k (.sub l i j)) s =
      (insertRange E fuel (posPtr l (zs.take k)) (.nodes (some (.node zs[i].1)) (ptr (zs.drop j) none)) >>=
        fun _ => pure ()) s := by
    show M.bind _ _ _ = _
    unfold M.bind
    rw [advance_pos h1 hz (by omega)]
    have hrange : (Src.sub l i j : Src α).range s =
        .ok (.nodes (some (.node zs[i].1)) (ptr (zs.drop j) none)) s := by
      show M.bind _ _ _ = _
      unfold M.bind
      rw [advance_it h1 hz (by omega)]
      show M.bind _ _ _ = _
      unfold M.bind
      rw [advance_it h1 hz (by omega)]
      have : ptr (zs.drop i) none = some (Loc.node zs[i].1) := by
        rw [List.drop_eq_getElem_cons hi]; rfl
      rw [this]
      rfl
    show M.bind _ _ _ = _
    unfold M.bind
    rw [hrange]
  rw [hx]
  rcases key with ⟨s', e⟩ | e
  · refine .inl ⟨s', ?_, _, _, e⟩
    show M.bind _ _ _ = _
    unfold M.bind; rw [e]
  · refine .inr ?_
    show M.bind _ _ _ = _
    unfold M.bind; rw [e]

/-- C21 fails when the insertion position is one of the elements of the range: the call never returns.  It
goes on inserting until an allocation or a constructor throws. -/
theorem linkedList_self_insert_diverges (hr : Reach E h s) {σ : Nat → Option (List α)} (hs : Sees s σ)
    {l k i j : Nat} {xs : List α} (hl : σ l = some xs) (hj : j ≤ xs.length) (hik : i < k) (hkj : k ≤ j) :
    ∀ s', ¬Runs E (.insertRange l k (.sub l i j)) s (.ok () s') := by
  rintro s' ⟨n, hn⟩
  rcases self_insert_thrown_or_hang hr hs hl hj hik hkj n with ⟨s2, e, -⟩ | e
  · rw [hn n (Nat.le_refl _)] at e; cases e
  · rw [hn n (Nat.le_refl _)] at e; cases e

/-- C21: with an allocator that always finds memory and element types that never throw, it does not
terminate. -/
theorem linkedList_self_insert_hangs (hr : Reach E h s) (hE : ∀ t, E.throws t = false)
    (hp : ∀ s : St α, (∃ a, s.nodes a = none) → s.nodes (E.pick s) = none)
    {σ : Nat → Option (List α)} (hs : Sees s σ)
    {l k i j : Nat} {xs : List α} (hl : σ l = some xs) (hj : j ≤ xs.length) (hik : i < k) (hkj : k ≤ j) :
    Runs E (.insertRange l k (.sub l i j)) s .hang := by
  obtain ⟨L, K, -, h2, -⟩ := reach_inv hr
  refine ⟨0, fun fuel _ => ?_⟩
  rcases self_insert_thrown_or_hang hr hs hl hj hik hkj fuel with ⟨s', -, pos, r, e⟩ | e
  · exact absurd e (insertRange_ne_thrown hE (fun s hl => hp s (ledger_free hl)) fuel pos r h2 s')
  · exact e

/-- There are such environments, and reachable states in them to which the theorem applies. -/
example : ∃ E : Env Nat, (∀ t, E.throws t = false) ∧
    (∀ s : St Nat, (∃ a, s.nodes a = none) → s.nodes (E.pick s) = none) ∧
    ∃ h s σ, Reach E h s ∧ Sees s σ ∧ σ 0 = some [7, 8] ∧
      Runs E (.insertRange 0 1 (.sub 0 0 2)) s .hang := by
  classical
  let E : Env Nat := ⟨fun s => if h : ∃ a, s.nodes a = none then h.choose else 0, fun _ => false⟩
  have hE : ∀ t, E.throws t = false := fun _ => rfl
  have hp : ∀ s : St Nat, (∃ a, s.nodes a = none) → s.nodes (E.pick s) = none := by
    intro s hs
    show s.nodes (if h : ∃ a, s.nodes a = none then h.choose else 0) = none
    rw [dif_pos hs]; exact hs.choose_spec
  refine ⟨E, hE, hp, ?_⟩
  -- build the list `[7, 8]` by two `push_front`
  have push : ∀ (h : List (Op Nat × Outcome)) (s : St Nat) (σ : Nat → Option (List Nat)) (xs : List Nat) (v : Nat),
      Reach E h s → Sees s σ → σ 0 = some xs → ∃ h' s' σ', Reach E h' s' ∧ Sees s' σ' ∧ σ' 0 = some (v :: xs) := by
    intro h s σ xs v hr hs hx
    obtain ⟨τ, h1, -, h3⟩ := linkedList_history hr
    have := hs.unique h1
    subst this
    have ha : after σ (.pushFront 0 v) = some (put σ 0 (some (v :: xs))) := by simp [after, hx]
    rcases h3 _ _ ha with ⟨s', hx', h4, -⟩ | ⟨s', σt, hx', -⟩
    · exact ⟨_, s', _, .done hr hs ha hx', h4, by simp [put]⟩
    · obtain ⟨n, hn⟩ := hx'
      have h5 := hn n (Nat.le_refl _)
      obtain ⟨L, K, -, h2, -⟩ := reach_inv hr
      refine absurd h5 ?_
      refine bind_ne_thrown (f := pushFront E 0 v) ?_ (fun _ _ _ _ h => by cases h) s'
      exact emplaceAfter_ne_thrown hE (hp s (ledger_free h2)) _ v
  have h0 : Reach E [(.newEmpty 0, .done)] { (init : St Nat) with heads := upd (fun _ => none) 0 (some none) } :=
    .done (σ := fun _ => none) .init (by intro l; rfl) (by simp [after]; rfl) ⟨0, fun _ _ => rfl⟩
  obtain ⟨σ0, h1, -, -⟩ := linkedList_history h0
  have hσ0 : σ0 0 = some [] := by
    have := h1 0
    cases h : σ0 0 with
    | none => rw [h] at this; cases this
    | some xs =>
      rw [h] at this
      obtain ⟨its, ⟨n, hn⟩, rfl⟩ := this
      have := hn (n + 1) (by omega)
      cases its with
      | nil => rfl
      | cons x xs => cases this
  obtain ⟨h2, s2, σ2, r2, v2, e2⟩ := push _ _ _ _ 8 h0 h1 hσ0
  obtain ⟨h3, s3, σ3, r3, v3, e3⟩ := push _ _ _ _ 7 r2 v2 e2
  exact ⟨h3, s3, σ3, r3, v3, e3, linkedList_self_insert_hangs r3 hE hp v3 e3 (by simp) (by omega) (by omega)⟩

/-! ## C22 -/

/-- C22 for insertions (missing: list constructors, where the claim is false, see
`linkedList_constructor_leaks`).  If `push_front`/`insert_after` of one element throws, every list has
exactly the elements and iterators it had, and exactly the same nodes are allocated; if inserting a range
throws, the elements copied before that are in the list, every old element keeps its iterator, and exactly
the nodes of the lists are still allocated. -/
theorem linkedList_insert_throws_partial (hr : Reach E h s) {I : Nat → Option (List (Ptr × α))} (hs : SeesIts s I)
    {op : Op α} {σ' : Nat → Option (List α)} (ha : after (values I) op = some σ') (hnew : op.isNew = false)
    (hx : Runs E op s (.thrown s')) :
    ∃ I', SeesIts s' I' ∧ Distinct I' ∧ afterThrow (values I) op (values I') ∧ afterThrowIts I op I' ∧
      (∀ a, (Owned I a ↔ s.nodes a ≠ none) → (Owned I' a ↔ s'.nodes a ≠ none)) := by
  obtain ⟨L, K, h1, h2, -⟩ := reach_inv hr
  have := hs.unique h1.seesIts
  subst this
  rw [values_itsOf] at ha ⊢
  rcases step_runs E h1 ha with ⟨s2, hx2, -⟩ | ⟨s2, hx2, L', K', h3, h4, h5, h6⟩
  · have := hx.unique hx2; cases this
  · have := hx.unique hx2; cases this
    have := h6 hnew
    subst this
    refine ⟨_, h3.seesIts, h3.distinct, by rw [values_itsOf]; exact h4, afterThrowIts_itsOf h5, ?_⟩
    intro a hiff
    constructor
    · intro ho
      obtain ⟨l, xs, hl, hm⟩ := owned_itsOf.1 ho
      exact h3.live hl a hm
    · intro hn
      rcases h3.cover a hn with h7 | h7
      · exact owned_itsOf.2 h7
      · exfalso
        have h8 := h1.leak a h7
        obtain ⟨l, xs, hl, hm⟩ := owned_itsOf.1 (hiff.2 h8.1)
        exact h8.2 l xs hl hm

/-- Throws at the `n`-th element operation. -/
def failAt (n : Nat) : Env Nat where
  pick s := s.log.length
  throws t := t == n

/-- The hypotheses are met: a range insertion that throws at its third element, after two were inserted. -/
example : (match exec (failAt 4) 9 (.newRange 0 (.vals [1, 2])) init with
    | .ok _ s => match exec (failAt 4) 9 (.insertRange 0 1 (.vals [4, 5, 6])) s with
      | .thrown s' => (peek s 0, peek s' 0)
      | _ => (none, none)
    | _ => (none, none)) =
    (some [(some (.node 0), 1), (some (.node 2), 2)],
     some [(some (.node 0), 1), (some (.node 4), 4), (some (.node 6), 5), (some (.node 2), 2)]) := by
  decide +kernel

/-- C22 fails for constructors: a list constructor whose second element throws leaves the first node
allocated, though no list exists any more. -/
theorem linkedList_constructor_leaks :
    ∃ s', Reach (failAt 1) [(.newFill 0 2 7, .threw)] s' ∧ Sees s' (fun _ => none) ∧ s'.nodes 0 ≠ none := by
  let s' : St Nat := match exec (failAt 1) 5 (.newFill 0 2 7) init with
    | .thrown s' => s'
    | _ => init
  have hx : exec (failAt 1) 5 (.newFill 0 2 7) init = .thrown s' := rfl
  refine ⟨s', .threw (σ := fun _ => none) .init (by intro l; rfl) (by simp [after]; rfl)
    (runs_of hx (by simp)), ?_, by decide⟩
  intro l
  show s'.heads l = none
  cases l <;> rfl

end Verif.LL
