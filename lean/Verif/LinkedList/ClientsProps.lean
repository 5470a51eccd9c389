import Verif.LinkedList.Clients
import Verif.LinkedList.Props
import Verif.Sorting
import Mathlib.Data.List.TakeWhile
import Mathlib.Data.List.Destutter

/-!
# Properties of programs around a `LinkedList` (C167)

The programs of `Clients.lean`, started in any state a client can reach, in any environment.  `I` tells for each
list its elements with their iterators, before the program runs; the conclusions say what iterating over the
lists shows afterwards.
-/

set_option autoImplicit false

namespace Verif.LL

open Verif.Sorting

variable {α : Type} {E : Env α} {h : List (Op α × Outcome)} {s s' : St α}

/-! ## Single calls -/

variable {L : Nat → Option (Els α)} {K : List Nat} {l : Nat}

/-- The state is reachable, and its lists are `L`. -/
def At (E : Env α) (s : St α) (L : Nat → Option (Els α)) : Prop :=
  (∃ K, Inv s L K) ∧ ∃ h, Reach E h s

theorem At.insert (ha : At E s L) {pre post : Els α} (hl : L l = some (pre ++ post)) (v : α) :
    wp (insertAfter E (posPtr l pre) v) s
      (fun p s' => ∃ a, p = some (.node a) ∧ s.nodes a = none ∧ At E s' (upd L l (some (pre ++ (a, v) :: post))))
      (fun s' => At E s' L) := by
  obtain ⟨⟨K, h1⟩, h, hr⟩ := ha
  have key : wp (insertAfter E (posPtr l pre) v) s
      (fun p s' => ∃ a, p = some (.node a) ∧ s.nodes a = none ∧
        ∃ K, Inv s' (upd L l (some (pre ++ (a, v) :: post))) K)
      (fun s' => ∃ K, Inv s' L K) :=
    emplaceAfter_spec h1 hl v (fun a s1 hn _ h2 => ⟨a, rfl, hn, _, h2⟩) (fun s1 _ h2 => ⟨_, h2⟩)
  have hadv : advance pre.length (beforeBegin l) s = .ok (posPtr l pre) s := by
    simpa using advance_pos h1 hl (k := pre.length) (by simp)
  have hex : exec E 0 (.insertAfter l pre.length v) s =
      (insertAfter E (posPtr l pre) v >>= fun _ => pure ()) s := by
    show M.bind _ _ _ = _
    unfold M.bind
    rw [hadv]
  have haft : ∃ σ', after (values L) (.insertAfter l pre.length v) = some σ' := by
    simp only [after, values_of hl, Option.bind_some]
    rw [if_pos (by simp)]
    exact ⟨_, rfl⟩
  obtain ⟨σ', haft⟩ := haft
  unfold wp at *
  cases hx : insertAfter E (posPtr l pre) v s with
  | ok p s1 =>
    rw [hx] at key
    obtain ⟨a, e, hn, hk⟩ := key
    refine ⟨a, e, hn, hk, _, Reach.done hr h1.sees haft (runs_of (fuel := 0) (r := .ok () s1) ?_ (by simp))⟩
    rw [hex]
    show M.bind _ _ _ = _
    unfold M.bind
    rw [hx]; rfl
  | thrown s1 =>
    rw [hx] at key
    refine ⟨key, _, Reach.threw hr h1.sees haft (runs_of (fuel := 0) (r := .thrown s1) ?_ (by simp))⟩
    rw [hex]
    show M.bind _ _ _ = _
    unfold M.bind
    rw [hx]
  | ub => rw [hx] at key; exact key
  | hang => rw [hx] at key; exact key

theorem At.erase (ha : At E s L) {pre post : Els α} {x : Nat × α} (hl : L l = some (pre ++ x :: post)) :
    wp (eraseAfter (posPtr l pre)) s (fun _ s' => At E s' (upd L l (some (pre ++ post)))) (fun _ => False) := by
  obtain ⟨⟨K, h1⟩, h, hr⟩ := ha
  have key : wp (eraseAfter (posPtr l pre)) s (fun _ s' => ∃ K, Inv s' (upd L l (some (pre ++ post))) K)
      (fun _ => False) := eraseAfter_spec h1 hl (fun s1 h2 => ⟨_, h2⟩)
  have hadv : advance pre.length (beforeBegin l) s = .ok (posPtr l pre) s := by
    simpa using advance_pos h1 hl (k := pre.length) (by simp)
  have hex : exec E 0 (.eraseAfter l pre.length) s = eraseAfter (posPtr l pre) s := by
    show M.bind _ _ _ = _
    unfold M.bind
    rw [hadv]
  have haft : ∃ σ', after (values L) (.eraseAfter l pre.length) = some σ' := by
    simp only [after, values_of hl, Option.bind_some]
    rw [if_pos (by simp)]
    exact ⟨_, rfl⟩
  obtain ⟨σ', haft⟩ := haft
  unfold wp at *
  cases hx : eraseAfter (posPtr l pre) s with
  | ok p s1 =>
    rw [hx] at key
    exact ⟨key, _, Reach.done hr h1.sees haft (runs_of (fuel := 0) (r := .ok () s1) (hex.trans hx) (by simp))⟩
  | thrown s1 => rw [hx] at key; exact key.elim
  | ub => rw [hx] at key; exact key
  | hang => rw [hx] at key; exact key

theorem At.next (ha : At E s L) {pre post : Els α} (hl : L l = some (pre ++ post)) :
    next (posPtr l pre) s = .ok (ptr post none) s := by
  obtain ⟨⟨K, h1⟩, -⟩ := ha
  exact h1.next_pos hl

theorem At.deref (ha : At E s L) {pre post : Els α} {x : Nat × α} (hl : L l = some (pre ++ x :: post)) :
    deref (some (.node x.1)) s = .ok x.2 s := by
  obtain ⟨⟨K, h1⟩, -⟩ := ha
  exact h1.deref_elem hl

theorem At.seesIts (ha : At E s L) : SeesIts s (itsOf L) := by
  obtain ⟨⟨K, h1⟩, -⟩ := ha
  exact h1.seesIts

theorem At.same (ha : At E s L) {xs ys : Els α} (hl : L l = some xs) (e : xs = ys) : At E s (upd L l (some ys)) := by
  subst e; rwa [upd_self L l hl]

/-! ## The loops -/

theorem removeIf_spec (bad : α → Bool) (post : Els α) : ∀ (fuel : Nat) (pre : Els α) (s : St α)
    (L : Nat → Option (Els α)), At E s L → L l = some (pre ++ post) → post.length < fuel →
    wp (removeIf bad fuel (posPtr l pre)) s
      (fun _ s' => At E s' (upd L l (some (pre ++ post.filter fun x => !bad x.2)))) (fun _ => False) := by
  induction post with
  | nil =>
    intro fuel pre s L ha hl hf
    obtain ⟨fuel, rfl⟩ : ∃ k, fuel = k + 1 := ⟨fuel - 1, by simp at hf; omega⟩
    unfold removeIf
    rw [wp_bind, wp_of_eq (ha.next hl), wp_ite, if_pos (show ptr [] none = «end» from rfl), wp_pure]
    exact ha.same hl (by simp)
  | cons x post ih =>
    intro fuel pre s L ha hl hf
    obtain ⟨fuel, rfl⟩ : ∃ k, fuel = k + 1 := ⟨fuel - 1, by simp at hf; omega⟩
    have hf' : post.length < fuel := by simp at hf; omega
    unfold removeIf
    rw [wp_bind, wp_of_eq (ha.next hl), wp_ite, if_neg (by simp [«end»]), wp_bind, ptr_cons,
      wp_of_eq (ha.deref hl), wp_ite]
    split
    · rename_i hb
      rw [wp_bind]
      refine wp_mono (ha.erase hl) (fun _ s1 h1 => ?_) (fun _ h => h)
      have := ih fuel pre s1 _ h1 (upd_same ..) hf'
      rw [upd_upd] at this
      simpa [List.filter_cons, hb] using this
    · rename_i hb
      have := ih fuel (pre ++ [x]) s L ha (by simpa using hl) hf'
      rw [posPtr_snoc] at this
      simpa [List.filter_cons, hb] using this

theorem removeRepeatsFrom_spec (same : α → α → Bool) (post : Els α) : ∀ (fuel : Nat) (pre : Els α) (x : Nat × α)
    (s : St α) (L : Nat → Option (Els α)), At E s L → L l = some (pre ++ x :: post) → post.length < fuel →
    wp (removeRepeatsFrom same fuel (some (.node x.1))) s
      (fun _ s' => At E s' (upd L l (some (pre ++ post.destutter' (fun x y => same x.2 y.2 = false) x))))
      (fun _ => False) := by
  induction post with
  | nil =>
    intro fuel pre x s L ha hl hf
    obtain ⟨fuel, rfl⟩ : ∃ k, fuel = k + 1 := ⟨fuel - 1, by simp at hf; omega⟩
    have hn := ha.next (pre := pre ++ [x]) (post := []) (by simpa using hl)
    rw [posPtr_snoc] at hn
    unfold removeRepeatsFrom
    rw [wp_bind, wp_of_eq hn, wp_ite, if_pos (show ptr [] none = «end» from rfl), wp_pure]
    exact ha.same hl (by simp)
  | cons y post ih =>
    intro fuel pre x s L ha hl hf
    obtain ⟨fuel, rfl⟩ : ∃ k, fuel = k + 1 := ⟨fuel - 1, by simp at hf; omega⟩
    have hf' : post.length < fuel := by simp at hf; omega
    have hl' : L l = some ((pre ++ [x]) ++ y :: post) := by simpa using hl
    have hn := ha.next hl'
    rw [posPtr_snoc] at hn
    unfold removeRepeatsFrom
    rw [wp_bind, wp_of_eq hn, wp_ite, if_neg (by simp [«end»]), wp_bind, wp_of_eq (ha.deref hl), wp_bind, ptr_cons,
      wp_of_eq (ha.deref hl'), wp_ite]
    split
    · rename_i hb
      have he := ha.erase hl'
      rw [posPtr_snoc] at he
      rw [wp_bind]
      refine wp_mono he (fun _ s1 h1 => ?_) (fun _ h => h)
      have := ih fuel pre x s1 _ h1 (by rw [upd_same]; simp) hf'
      rw [upd_upd] at this
      rwa [List.destutter'_cons, if_neg (by simp [hb])]
    · rename_i hb
      have := ih fuel (pre ++ [x]) y s L ha hl' hf'
      rw [List.destutter'_cons, if_pos (by simpa using hb)]
      simpa using this

theorem insertSorted_spec (lt : α → α → Bool) (v : α) (post : Els α) : ∀ (fuel : Nat) (pre : Els α) (s : St α)
    (L : Nat → Option (Els α)), At E s L → L l = some (pre ++ post) → post.length < fuel →
    wp (insertSorted E lt v fuel (posPtr l pre)) s
      (fun p s' => ∃ a, p = some (.node a) ∧ s.nodes a = none ∧
        At E s' (upd L l (some (pre ++ post.takeWhile (fun x => !lt v x.2) ++
          (a, v) :: post.dropWhile (fun x => !lt v x.2)))))
      (fun s' => At E s' L) := by
  induction post with
  | nil =>
    intro fuel pre s L ha hl hf
    obtain ⟨fuel, rfl⟩ : ∃ k, fuel = k + 1 := ⟨fuel - 1, by simp at hf; omega⟩
    unfold insertSorted
    rw [wp_bind, wp_of_eq (ha.next hl), wp_ite, if_pos (show ptr [] none = «end» from rfl)]
    simpa using ha.insert hl v
  | cons x post ih =>
    intro fuel pre s L ha hl hf
    obtain ⟨fuel, rfl⟩ : ∃ k, fuel = k + 1 := ⟨fuel - 1, by simp at hf; omega⟩
    have hf' : post.length < fuel := by simp at hf; omega
    unfold insertSorted
    rw [wp_bind, wp_of_eq (ha.next hl), wp_ite, if_neg (by simp [«end»]), wp_bind, ptr_cons,
      wp_of_eq (ha.deref hl), wp_ite]
    split
    · rename_i hb
      simpa [hb] using ha.insert hl v
    · rename_i hb
      have := ih fuel (pre ++ [x]) s L ha (by simpa using hl) hf'
      rw [posPtr_snoc] at this
      simpa [hb] using this

/-! ## C167 -/

theorem at_of (hr : Reach E h s) {I : Nat → Option (List (Ptr × α))} (hs : SeesIts s I) {xs : List (Ptr × α)}
    (hl : I l = some xs) : ∃ L zs, At E s L ∧ I = itsOf L ∧ L l = some zs ∧ xs = its zs := by
  obtain ⟨L, K, h1, -, -⟩ := reach_inv hr
  have := hs.unique h1.seesIts
  subst this
  obtain ⟨zs, hz, rfl⟩ := Option.map_eq_some_iff.1 hl
  exact ⟨L, zs, ⟨⟨K, h1⟩, h, hr⟩, rfl, hz, rfl⟩

theorem wp_ok {β : Type} {f : M α β} {Q : β → St α → Prop} (hw : wp f s Q (fun _ => False)) :
    ∃ b s', f s = .ok b s' ∧ Q b s' := by
  unfold wp at hw
  cases hx : f s <;> rw [hx] at hw
  · exact ⟨_, _, rfl, hw⟩
  all_goals exact hw.elim

theorem wp_or {β : Type} {f : M α β} {Q : β → St α → Prop} {T : St α → Prop} (hw : wp f s Q T) :
    (∃ b s', f s = .ok b s' ∧ Q b s') ∨ ∃ s', f s = .thrown s' ∧ T s' := by
  unfold wp at hw
  cases hx : f s <;> rw [hx] at hw
  · exact .inl ⟨_, _, rfl, hw⟩
  · exact .inr ⟨_, rfl, hw⟩
  all_goals exact hw.elim


theorem At.seesPut {zs : Els α} (ha : At E s (upd L l (some zs))) : SeesIts s (put (itsOf L) l (some (its zs))) := by
  have := ha.seesIts
  rwa [← put_eq, itsOf_put] at this

/-- C167, removal: the loop returns, has erased exactly the elements for which `bad` holds, and every other
element (of this list and of the others) is still there, in the same order, with the same iterator. -/
theorem removeIf_result (hr : Reach E h s) {I : Nat → Option (List (Ptr × α))} (hs : SeesIts s I)
    {xs : List (Ptr × α)} (hl : I l = some xs) (bad : α → Bool) {fuel : Nat} (hf : xs.length < fuel) :
    ∃ s', removeIf bad fuel (beforeBegin l) s = .ok () s' ∧ (∃ h', Reach E h' s') ∧
      SeesIts s' (put I l (some (xs.filter fun x => !bad x.2))) := by
  obtain ⟨L, zs, ha, rfl, hz, rfl⟩ := at_of hr hs hl
  obtain ⟨_, s', hx, h1⟩ := wp_ok (removeIf_spec (E := E) bad zs fuel [] s L ha hz (by simpa [its] using hf))
  refine ⟨s', hx, h1.2, ?_⟩
  have := h1.seesPut
  simpa [its, List.filter_map, Function.comp_def] using this

theorem destutter'_map {β γ : Type} (R : γ → γ → Prop) [DecidableRel R] (f : β → γ) (x : β) (xs : List β) :
    (xs.map f).destutter' R (f x) = (xs.destutter' (fun a b => R (f a) (f b)) x).map f := by
  induction xs generalizing x with
  | nil => rfl
  | cons y xs ih =>
    rw [List.map_cons, List.destutter'_cons, List.destutter'_cons]
    split
    · rw [ih, List.map_cons]
    · exact ih x

/-- C167, repeated neighbours: the loop returns; of the elements that are the same as the last one kept before
them none is left, and all others are still there with their iterators. -/
theorem removeRepeats_result (hr : Reach E h s) {I : Nat → Option (List (Ptr × α))} (hs : SeesIts s I)
    {xs : List (Ptr × α)} (hl : I l = some xs) (same : α → α → Bool) {fuel : Nat} (hf : xs.length < fuel) :
    ∃ s', removeRepeats same fuel l s = .ok () s' ∧ (∃ h', Reach E h' s') ∧
      SeesIts s' (put I l (some (xs.destutter fun x y => same x.2 y.2 = false))) := by
  obtain ⟨L, zs, ha, rfl, hz, rfl⟩ := at_of hr hs hl
  have key : wp (removeRepeats same fuel l) s
      (fun _ s' => At E s' (upd L l (some (zs.destutter fun x y => same x.2 y.2 = false)))) (fun _ => False) := by
    have hb : begin l s = .ok (ptr zs none) s := ha.next (pre := []) hz
    unfold removeRepeats
    rw [wp_bind, wp_of_eq hb, wp_ite]
    cases zs with
    | nil =>
      rw [if_pos (show ptr [] none = «end» from rfl), wp_pure]
      exact ha.same hz (by simp)
    | cons z zs =>
      rw [if_neg (by simp [«end»]), ptr_cons]
      exact removeRepeatsFrom_spec (E := E) same zs fuel [] z s L ha hz (by simp [its] at hf; omega)
  obtain ⟨_, s', hx, h1⟩ := wp_ok key
  refine ⟨s', hx, h1.2, ?_⟩
  have := h1.seesPut
  cases zs with
  | nil => simpa [its] using this
  | cons z zs =>
    have e := destutter'_map (fun (x y : Ptr × α) => same x.2 y.2 = false)
      (fun x : Nat × α => ((some (.node x.1), x.2) : Ptr × α)) z zs
    simp only [its, List.map_cons, List.destutter_cons'] at this ⊢
    rw [e]
    exact this

/-- C167, insertion into a sorted list: the new element comes behind all elements up to the first that `v` is
less than, its iterator is returned and is new, and everything else stays.  If the insertion throws, nothing
has changed. -/
theorem insertSorted_result (hr : Reach E h s) {I : Nat → Option (List (Ptr × α))} (hs : SeesIts s I)
    {xs : List (Ptr × α)} (hl : I l = some xs) (lt : α → α → Bool) (v : α) {fuel : Nat} (hf : xs.length < fuel) :
    (∃ p s', insertSorted E lt v fuel (beforeBegin l) s = .ok p s' ∧ (∃ h', Reach E h' s') ∧
      (∀ m ys, I m = some ys → p ∉ ys.map Prod.fst) ∧
      SeesIts s' (put I l (some (xs.takeWhile (fun x => !lt v x.2) ++ (p, v) :: xs.dropWhile (fun x => !lt v x.2))))) ∨
    (∃ s', insertSorted E lt v fuel (beforeBegin l) s = .thrown s' ∧ (∃ h', Reach E h' s') ∧ SeesIts s' I) := by
  obtain ⟨L, zs, ha, rfl, hz, rfl⟩ := at_of hr hs hl
  rcases wp_or (insertSorted_spec (E := E) lt v zs fuel [] s L ha hz (by simpa [its] using hf)) with
    ⟨p, s', hx, a, rfl, hn, h1⟩ | ⟨s', hx, h1⟩
  · refine .inl ⟨_, s', hx, h1.2, ?_, ?_⟩
    · intro m ys hm hp
      obtain ⟨ws, hw, rfl⟩ := Option.map_eq_some_iff.1 hm
      obtain ⟨⟨x, y⟩, hx1, e⟩ := List.mem_map.1 hp
      obtain ⟨z, hz1, e2⟩ := List.mem_map.1 hx1
      obtain ⟨A, B, rfl⟩ := List.append_of_mem hz1
      have := ha.deref hw
      cases e2
      cases e
      unfold deref at this
      simp only [hn] at this
      cases this
    · have := h1.seesPut
      simpa [its, List.takeWhile_map, List.dropWhile_map, Function.comp_def] using this
  · exact .inr ⟨s', hx, h1.2, h1.seesIts⟩

theorem ins_stable {lt : α → α → Bool} (hw : Weak lt) (v : α) {xs : List α} (hx : InOrder lt xs) :
    StablySorted lt (xs ++ [v]) (xs.takeWhile (fun x => !lt v x) ++ v :: xs.dropWhile (fun x => !lt v x)) := by
  have e : xs.takeWhile (fun x => !lt v x) ++ xs.dropWhile (fun x => !lt v x) = xs := List.takeWhile_append_dropWhile
  have := split_stable hw (P := xs.takeWhile (fun x => !lt v x)) (Q := xs.dropWhile (fun x => !lt v x)) (v := v)
    (by rw [e]; exact hx) (fun p hp => by simpa using List.mem_takeWhile_imp hp) (fun q hq => ?_)
  · rwa [e] at this
  · obtain ⟨k, hk, rfl⟩ := List.mem_iff_getElem.1 hq
    have hd : InOrder lt (xs.dropWhile (fun x => !lt v x)) := hx.sublist (List.dropWhile_sublist _)
    have h0 : 0 < (xs.dropWhile (fun x => !lt v x)).length := by omega
    refine hd.greater hw (Nat.zero_le k) hk ?_
    have := List.dropWhile_get_zero_not (fun x => !lt v x) xs h0
    simpa using this

theorem sortInto_spec {lt : α → α → Bool} (hw : Weak lt) (fuel : Nat) (vs : List α) : ∀ (els : Els α) (s : St α)
    (L : Nat → Option (Els α)), At E s L → L l = some els → InOrder lt (els.map Prod.snd) →
    els.length + vs.length ≤ fuel →
    wp (sortInto E lt fuel l vs) s
      (fun _ s' => ∃ els', At E s' (upd L l (some els')) ∧ els.Sublist els' ∧
        StablySorted lt (els.map Prod.snd ++ vs) (els'.map Prod.snd))
      (fun s' => ∃ k els', k < vs.length ∧ At E s' (upd L l (some els')) ∧ els.Sublist els' ∧
        StablySorted lt (els.map Prod.snd ++ vs.take k) (els'.map Prod.snd)) := by
  induction vs with
  | nil =>
    intro els s L ha hl hi hf
    unfold sortInto
    rw [wp_pure]
    exact ⟨els, ha.same hl rfl, .refl _, by simpa [StablySorted] using hi⟩
  | cons v vs ih =>
    intro els s L ha hl hi hf
    unfold sortInto
    rw [wp_bind]
    refine wp_mono (insertSorted_spec (E := E) lt v els fuel [] s L ha hl (by simp at hf; omega)) ?_ ?_
    · rintro _ s1 ⟨a, -, -, h1⟩
      have hst := ins_stable hw v hi
      set els1 : Els α := els.takeWhile (fun x => !lt v x.2) ++ (a, v) :: els.dropWhile (fun x => !lt v x.2)
        with hels1
      have e1 : els1.map Prod.snd = (els.map Prod.snd).takeWhile (fun x => !lt v x) ++
          v :: (els.map Prod.snd).dropWhile (fun x => !lt v x) := by
        simp [hels1, List.takeWhile_map, List.dropWhile_map, Function.comp_def]
      rw [← e1] at hst
      have hsub : els.Sublist els1 := by
        have : els = els.takeWhile (fun x => !lt v x.2) ++ els.dropWhile (fun x => !lt v x.2) :=
          (List.takeWhile_append_dropWhile).symm
        rw [hels1]
        conv => lhs; rw [this]
        exact (List.Sublist.refl _).append (List.sublist_cons_self _ _)
      have hlen : els1.length = els.length + 1 := by
        have := hst.2.1.length_eq
        simpa using this
      have hcomb : ∀ ws (els' : Els α), StablySorted lt (els1.map Prod.snd ++ ws) (els'.map Prod.snd) →
          StablySorted lt (els.map Prod.snd ++ v :: ws) (els'.map Prod.snd) := fun ws els' hs => by
        simpa using hst.trans hs
      refine wp_mono (ih els1 s1 _ h1 (by rw [upd_same]; rfl) hst.1 (by simp at hf; omega)) ?_ ?_
      · rintro _ s2 ⟨els', b1, b2, b3⟩
        rw [upd_upd] at b1
        exact ⟨els', b1, hsub.trans b2, hcomb _ _ b3⟩
      · rintro s2 ⟨k, els', b0, b1, b2, b3⟩
        rw [upd_upd] at b1
        exact ⟨k + 1, els', by simpa using b0, b1, hsub.trans b2, by
          rw [List.take_succ_cons]; exact hcomb _ _ b3⟩
    · intro s1 h1
      exact ⟨0, els, by simp, h1.same hl rfl, .refl _, by simpa [StablySorted] using hi⟩

/-- C167, sorting by insertion: starting with a list in order (for example an empty one), the list afterwards is
the old values followed by the new ones, stably sorted; the old elements keep their iterators and the other
lists do not change.  If an insertion throws, the same holds for the values before that one. -/
theorem sortInto_result (hr : Reach E h s) {I : Nat → Option (List (Ptr × α))} (hs : SeesIts s I)
    {xs : List (Ptr × α)} (hl : I l = some xs) {lt : α → α → Bool} (hw : Weak lt)
    (hi : InOrder lt (xs.map Prod.snd)) (vs : List α) {fuel : Nat} (hf : xs.length + vs.length ≤ fuel) :
    (∃ s' ys, sortInto E lt fuel l vs s = .ok () s' ∧ (∃ h', Reach E h' s') ∧ SeesIts s' (put I l (some ys)) ∧
      xs.Sublist ys ∧ StablySorted lt (xs.map Prod.snd ++ vs) (ys.map Prod.snd)) ∨
    (∃ s' ys k, sortInto E lt fuel l vs s = .thrown s' ∧ (∃ h', Reach E h' s') ∧ k < vs.length ∧
      SeesIts s' (put I l (some ys)) ∧
      xs.Sublist ys ∧ StablySorted lt (xs.map Prod.snd ++ vs.take k) (ys.map Prod.snd)) := by
  obtain ⟨L, zs, ha, rfl, hz, rfl⟩ := at_of hr hs hl
  have e : ∀ zs : Els α, (its zs).map Prod.snd = zs.map Prod.snd := by intro zs; simp [its]
  rw [e] at hi ⊢
  rcases wp_or (sortInto_spec (E := E) hw fuel vs zs s L ha hz hi (by simpa [its] using hf)) with
    ⟨_, s', hx, els', h1, h2, h3⟩ | ⟨s', hx, k, els', h0, h1, h2, h3⟩
  · exact .inl ⟨s', its els', hx, h1.2, h1.seesPut, h2.map _, by rw [e]; exact h3⟩
  · exact .inr ⟨s', its els', k, hx, h1.2, h0, h1.seesPut, h2.map _, by rw [e]; exact h3⟩

/-- A first-in first-out queue with contents `q`: the elements taken, and what is left. -/
def fifo : List (Option α) → List α → List α × List α
  | [], q => ([], q)
  | some x :: ops, q => fifo ops (q ++ [x])
  | none :: ops, [] => fifo ops []
  | none :: ops, v :: q => (v :: (fifo ops q).1, (fifo ops q).2)

theorem posPtr_cons (l : Nat) (x y : Nat × α) (xs : Els α) : posPtr l (x :: y :: xs) = posPtr l (y :: xs) := by
  simp [posPtr]

theorem At.empty (ha : At E s L) {xs : Els α} (hl : L l = some xs) : empty l s = .ok xs.isEmpty s := by
  have hb : begin l s = .ok (ptr xs none) s := ha.next (pre := []) hl
  unfold Verif.LL.empty
  show M.bind _ _ _ = _
  unfold M.bind
  rw [hb]
  cases xs <;> rfl

theorem At.front (ha : At E s L) {x : Nat × α} {xs : Els α} (hl : L l = some (x :: xs)) :
    front l s = .ok x.2 s := by
  have hb : begin l s = .ok (ptr (x :: xs) none) s := ha.next (pre := []) hl
  unfold Verif.LL.front
  show M.bind _ _ _ = _
  unfold M.bind
  rw [hb]
  exact ha.deref (pre := []) hl

theorem queueRun_spec (ops : List (Option α)) : ∀ (els : Els α) (s : St α) (L : Nat → Option (Els α)), At E s L →
    L l = some els →
    wp (queueRun E l ops (posPtr l els)) s
      (fun vs s' => ∃ els', At E s' (upd L l (some els')) ∧ fifo ops (els.map Prod.snd) = (vs, els'.map Prod.snd))
      (fun s' => ∃ d x r els', ops = d ++ some x :: r ∧ At E s' (upd L l (some els')) ∧
        els'.map Prod.snd = (fifo d (els.map Prod.snd)).2) := by
  induction ops with
  | nil =>
    intro els s L ha hl
    unfold queueRun
    rw [wp_pure]
    exact ⟨els, ha.same hl rfl, rfl⟩
  | cons op ops ih =>
    intro els s L ha hl
    cases op with
    | some x =>
      unfold queueRun
      rw [wp_bind]
      refine wp_mono (ha.insert (pre := els) (post := []) (by simpa using hl) x) ?_ ?_
      · rintro _ s1 ⟨a, rfl, -, h1⟩
        have := ih (els ++ [(a, x)]) s1 _ h1 (upd_same ..)
        rw [posPtr_snoc] at this
        refine wp_mono this ?_ ?_
        · rintro vs s2 ⟨els', b1, b2⟩
          rw [upd_upd] at b1
          exact ⟨els', b1, by simpa [fifo] using b2⟩
        · rintro s2 ⟨d, y, r, els', rfl, b1, b2⟩
          rw [upd_upd] at b1
          exact ⟨some x :: d, y, r, els', rfl, b1, by simpa [fifo] using b2⟩
      · intro s1 h1
        exact ⟨[], x, ops, els, rfl, h1.same hl rfl, rfl⟩
    | none =>
      unfold queueRun
      rw [wp_bind, wp_of_eq (ha.empty hl), wp_ite]
      cases els with
      | nil =>
        rw [if_pos (show (List.isEmpty ([] : Els α)) = true from rfl)]
        refine wp_mono (ih [] s L ha hl) ?_ ?_
        · rintro vs s2 ⟨els', b1, b2⟩
          exact ⟨els', b1, by simpa [fifo] using b2⟩
        · rintro s2 ⟨d, y, r, els', rfl, b1, b2⟩
          exact ⟨none :: d, y, r, els', rfl, b1, by simpa [fifo] using b2⟩
      | cons x els =>
        rw [if_neg (by simp), wp_bind, wp_of_eq (ha.front hl), wp_bind]
        refine wp_mono (ha.erase (pre := []) hl) ?_ (fun _ hf => hf.elim)
        intro _ s1 h1
        rw [wp_bind, wp_of_eq (h1.empty (upd_same ..)), wp_bind]
        have htail : (if ([] ++ els).isEmpty = true then beforeBegin l else posPtr l (x :: els)) = posPtr l els := by
          cases els with
          | nil => rfl
          | cons y els => rw [if_neg (by simp), posPtr_cons]
        rw [htail]
        refine wp_mono (ih els s1 _ h1 (upd_same ..)) ?_ ?_
        · rintro vs s2 ⟨els', b1, b2⟩
          rw [upd_upd] at b1
          rw [wp_pure]
          exact ⟨els', b1, by simp [fifo, b2]⟩
        · rintro s2 ⟨d, y, r, els', rfl, b1, b2⟩
          rw [upd_upd] at b1
          exact ⟨none :: d, y, r, els', rfl, b1, by simpa [fifo] using b2⟩

/-- C167, a queue: a list used with an iterator to its last element gives the elements back first in, first out,
and `tail` never dangles.  If adding an element throws, the queue is as before that call. -/
theorem queueRun_result (hr : Reach E h s) {I : Nat → Option (List (Ptr × α))} (hs : SeesIts s I)
    (hl : I l = some []) (ops : List (Option α)) :
    (∃ vs s' ys, queueRun E l ops (beforeBegin l) s = .ok vs s' ∧ (∃ h', Reach E h' s') ∧
      SeesIts s' (put I l (some ys)) ∧ fifo ops [] = (vs, ys.map Prod.snd)) ∨
    (∃ s' d x r ys, queueRun E l ops (beforeBegin l) s = .thrown s' ∧ (∃ h', Reach E h' s') ∧
      ops = d ++ some x :: r ∧ SeesIts s' (put I l (some ys)) ∧ ys.map Prod.snd = (fifo d []).2) := by
  obtain ⟨L, zs, ha, rfl, hz, e⟩ := at_of hr hs hl
  have : zs = [] := by cases zs <;> simp [its] at e ⊢
  subst this
  have e : ∀ zs : Els α, (its zs).map Prod.snd = zs.map Prod.snd := by intro zs; simp [its]
  rcases wp_or (queueRun_spec (E := E) ops [] s L ha hz) with
    ⟨vs, s', hx, els', h1, h2⟩ | ⟨s', hx, d, x, r, els', h0, h1, h2⟩
  · exact .inl ⟨vs, s', its els', hx, h1.2, h1.seesPut, by rw [e]; exact h2⟩
  · exact .inr ⟨s', d, x, r, its els', hx, h1.2, h0, h1.seesPut, by rw [e]; exact h2⟩

/-- The queue neither loses, nor invents, nor reorders: what was taken followed by what is left is what was
there followed by what was added. -/
theorem fifo_all (ops : List (Option α)) (q : List α) :
    (fifo ops q).1 ++ (fifo ops q).2 = q ++ ops.filterMap id := by
  induction ops generalizing q with
  | nil => simp [fifo]
  | cons op ops ih =>
    cases op with
    | some x => simp [fifo, ih]
    | none =>
      cases q with
      | nil => simpa [fifo] using ih []
      | cons v q => simpa [fifo] using ih q

/-! ## Examples -/

/-- The values of list `l` after a program. -/
def shown {β : Type} (r : Res (St Nat) β) (l : Nat) : Option (List Nat) :=
  match r with
  | .ok _ s => (peek s l).map (·.map Prod.snd)
  | _ => none

/-- What a program returned. -/
def gave {β : Type} (r : Res (St Nat) β) : Option β :=
  match r with
  | .ok b _ => some b
  | _ => none

/-- The example state is reachable and its lists are definite; the programs do something in it. -/
example : (∃ h, Reach goodEnv h demo) ∧ (∃ I, SeesIts demo I) ∧
    shown (removeIf (fun v => v < 3) 20 (beforeBegin 0) demo) 0 = some [9, 3] ∧
    shown (removeIf (fun v => v < 3) 20 (beforeBegin 0) demo) 1 = some [3, 2, 1, 9, 5] ∧
    shown (removeRepeats (fun v w => v % 2 == w % 2) 20 0 demo) 0 = some [9, 2, 3] ∧
    shown (sortInto goodEnv (fun v w => v / 10 < w / 10) 20 2 [31, 12, 35, 11, 2]
      ((play [.newEmpty 2] demo).getD demo)) 2 = some [2, 12, 11, 31, 35] ∧
    gave (queueRun goodEnv 2 [some 1, none, none, some 2, some 3, none, some 4, none] (beforeBegin 2)
      ((play [.newEmpty 2] demo).getD demo)) = some [1, 2, 3] ∧
    shown (queueRun goodEnv 2 [some 1, none, none, some 2, some 3, none, some 4, none] (beforeBegin 2)
      ((play [.newEmpty 2] demo).getD demo)) 2 = some [4] := by
  obtain ⟨h, hr, -⟩ := demo_reach
  obtain ⟨L, K, h1, -, -⟩ := reach_inv hr
  exact ⟨⟨h, hr⟩, ⟨_, h1.seesIts⟩, by decide +kernel, by decide +kernel, by decide +kernel, by decide +kernel,
    by decide +kernel, by decide +kernel⟩

/-- The order of the example is one. -/
example : Weak (fun v w : Nat => decide (v / 10 < w / 10)) :=
  ⟨by intro a b; simp; omega, by intro a b c; simp; omega⟩

end Verif.LL
