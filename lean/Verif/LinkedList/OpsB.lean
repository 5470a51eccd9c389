import Verif.LinkedList.Ops

/-! Specifications of the constructors, assignments, moves and iteration. -/

set_option autoImplicit false

namespace Verif.LL

variable {α β : Type} {E : Env α} {s s' : St α} {L : Nat → Option (Els α)} {K : List Nat} {l m : Nat}

/-! ### Constructors -/

/-- One step of the constructors' loops: a node is created and linked behind the last one. -/
theorem append_spec (h : Inv s L K) {xs : Els α} (hl : L l = some xs) (v : α)
    {f : Ptr → M α β} {Q : β → St α → Prop} {T : St α → Prop}
    (k : ∀ a s', s.nodes a = none → (∀ b, b ≠ a → posPtr l xs ≠ some (.node b) → s'.nodes b = s.nodes b) →
      Inv s' (upd L l (some (xs ++ [(a, v)]))) K → wp (f (some (.node a))) s' Q T)
    (t : ∀ s', s'.nodes = s.nodes → Inv s' L K → T s') :
    wp (do
      let new ← createNode E v
      setNext (posPtr l xs) new
      let c ← next (posPtr l xs)
      f c) s Q T := by
  rw [wp_bind]
  refine createNode_spec E s v ?_ fun s1 h1 h2 => t s1 h2 (h.same h1 h2)
  intro a s1 h1
  obtain ⟨p, hp, hseg⟩ := h.seg l _ hl
  have hn := h.nodup l _ hl
  have hlive := h.live hl
  have hax : a ∉ ids xs := fun e => hlive a e h1.fresh
  have fr1 : ∀ b, b ≠ a → s1.nodes b = s.nodes b := fun b hb => by rw [h1.nodes]; exact upd_other _ _ hb
  have hL : LSeg s1 l xs none := ⟨p, by rw [h1.heads]; exact hp,
    hseg.frame fun b hb => fr1 b fun e => hax (e ▸ hb)⟩
  have hna : s1.nodes a = some (.node none (some v)) := by rw [h1.nodes]; exact upd_same _ _ _
  rw [wp_bind]
  have main : ∀ s2, LSeg s2 l xs (some (.node a)) → Only s1 s2 l (ids xs) →
      (∀ b, posPtr l xs ≠ some (.node b) → s2.nodes b = s1.nodes b) →
      wp (do
        let c ← next (posPtr l xs)
        f c) s2 Q T := by
    intro s2 h2 ho hpp
    rw [wp_bind, wp_of_eq (next_spec h2)]
    refine k a s2 h1.fresh (fun b hb hb' => (hpp b hb').trans (fr1 b hb)) (h.set hl ?_ ?_ ?_ ?_ ?_ ?_)
    · intro m hm; rw [ho.heads m hm, h1.heads]
    · obtain ⟨p', hp', hs'⟩ := h2
      exact ⟨p', hp', seg_append.2 ⟨_, hs', rfl, none, (ho.nodes a hax).trans hna, rfl⟩⟩
    · rw [ids_append, List.nodup_append]
      refine ⟨hn, by simp, ?_⟩
      intro b hb c hc e
      have : c = a := by simpa using hc
      subst this; subst e; exact hax hb
    · intro b hb hb'
      rw [ho.nodes b hb]
      exact fr1 b (by rintro rfl; exact hb' (by simp))
    · intro b hb
      rw [ids_append, List.mem_append] at hb
      rcases hb with hb | hb
      · exact .inl hb
      · have : b = a := by simpa using hb
        exact .inr (this ▸ h1.fresh)
    · intro b hb hb'
      exact absurd (by simp [hb]) hb'
  rcases posPtr_cases l xs with ⟨e', e⟩ | ⟨ys, x, e', e⟩
  · obtain ⟨p1, hp1, hs1⟩ := hL
    rw [e] at main ⊢
    refine (wp_of_eq (by unfold setNext; simp only [hp1]; rfl)).2 (main _ ?_ ?_ ?_)
    · exact ⟨_, upd_same _ _ _, by rw [e']; rfl⟩
    · exact ⟨fun m hm => upd_other _ _ hm, fun _ _ => rfl, rfl, rfl, rfl⟩
    · intro _ _; rfl
  · have hL' := hL
    obtain ⟨p1, hp1, hs1⟩ := hL'
    rw [e'] at hs1
    obtain ⟨r', hys, hx1, n, hx2, hx3⟩ := seg_append.1 hs1
    have hxys : x.1 ∉ ids ys := by
      intro hm
      rw [e', ids_append, List.nodup_append] at hn
      exact hn.2.2 _ hm x.1 (by simp) rfl
    rw [e] at main ⊢
    refine setNext_node hx2 _ (main _ ?_ ?_ ?_)
    · refine ⟨p1, hp1, ?_⟩
      rw [e']
      refine seg_append.2 ⟨r', hys.frame fun b hb => upd_other _ _ ?_, hx1, _, upd_same _ _ _, rfl⟩
      rintro rfl; exact hxys hb
    · refine ⟨fun _ _ => rfl, fun b hb => upd_other _ _ ?_, rfl, rfl, rfl⟩
      rintro rfl; exact hb (by rw [e']; simp)
    · intro b hb
      refine upd_other _ _ ?_
      rintro rfl; exact hb rfl

theorem initLoop_spec (h : Inv s L K) {xs : Els α} (hl : L l = some xs)
    {r : Range α} {vs : List α} {F : List Nat} (hr : Readable s.nodes r vs F)
    (hF : ∀ a ∈ F, posPtr l xs ≠ some (.node a)) (hFl : ∀ a ∈ F, s.nodes a ≠ none)
    {fuel : Nat} (hfuel : vs.length < fuel) {Q : Unit → St α → Prop} {T : St α → Prop}
    (k : ∀ ns s', vals ns = vs → Inv s' (upd L l (some (xs ++ ns))) K → Q () s')
    (t : ∀ ns s' w ws, vals ns ++ w :: ws = vs → Inv s' (upd L l (some (xs ++ ns))) K → T s') :
    wp (initLoop E fuel (posPtr l xs) r) s Q T := by
  induction vs generalizing fuel s L xs r F with
  | nil =>
    obtain ⟨f, rfl⟩ : ∃ f, fuel = f + 1 := ⟨fuel - 1, by simp at hfuel; omega⟩
    unfold initLoop
    rw [hr.more_nil]
    show wp (pure _) _ _ _
    rw [wp_pure]
    exact k [] s rfl (by rw [List.append_nil, upd_self _ _ hl]; exact h)
  | cons v vs ih =>
    obtain ⟨f, rfl⟩ : ∃ f, fuel = f + 1 := ⟨fuel - 1, by simp at hfuel; omega⟩
    unfold initLoop
    rw [hr.more_cons]
    simp only [if_true]
    rw [wp_bind, wp_of_eq hr.front]
    refine append_spec h hl v ?_ ?_
    · intro a s1 ha hfr h1
      rw [wp_bind]
      have hr1 : Readable s1.nodes r (v :: vs) F := hr.frame fun b hb => by
        refine hfr b ?_ (hF b hb)
        rintro rfl; exact hFl b hb ha
      obtain ⟨r', e, hr'⟩ := hr1.advance
      rw [wp_of_eq e, show (some (.node a) : Ptr) = posPtr l (xs ++ [(a, v)]) by rw [posPtr_snoc]]
      refine ih h1 (upd_same _ _ _) hr' ?_ ?_ ?_ ?_ ?_
      · intro b hb e
        rw [posPtr_snoc] at e
        cases e
        exact hFl _ (List.mem_of_mem_tail hb) ha
      · intro b hb
        have hbF := List.mem_of_mem_tail hb
        rw [hfr b (by rintro rfl; exact hFl b hbF ha) (hF b hbF)]
        exact hFl b hbF
      · simp at hfuel; omega
      · intro ns s2 hns h2
        rw [upd_upd] at h2
        exact k ((a, v) :: ns) s2 (by simp [hns]) (by simpa using h2)
      · intro ns s2 w ws hns h2
        rw [upd_upd] at h2
        exact t ((a, v) :: ns) s2 w ws (by simp [hns]) (by simpa using h2)
    · intro s1 _ h1
      exact t [] s1 v vs rfl (by rw [List.append_nil, upd_self _ _ hl]; exact h1)

theorem fillLoop_spec (h : Inv s L K) {xs : Els α} (hl : L l = some xs) (v : α) (n : Nat)
    {Q : Unit → St α → Prop} {T : St α → Prop}
    (k : ∀ ns s', vals ns = List.replicate n v → Inv s' (upd L l (some (xs ++ ns))) K → Q () s')
    (t : ∀ ns s', ns.length < n → Inv s' (upd L l (some (xs ++ ns))) K → T s') :
    wp (fillLoop E n (posPtr l xs) v) s Q T := by
  induction n generalizing s L xs with
  | zero =>
    unfold fillLoop
    rw [wp_pure]
    exact k [] s rfl (by rw [List.append_nil, upd_self _ _ hl]; exact h)
  | succ n ih =>
    unfold fillLoop
    refine append_spec h hl v ?_ ?_
    · intro a s1 ha hfr h1
      rw [show (some (.node a) : Ptr) = posPtr l (xs ++ [(a, v)]) by rw [posPtr_snoc]]
      refine ih h1 (upd_same _ _ _) ?_ ?_
      · intro ns s2 hns h2
        rw [upd_upd] at h2
        exact k ((a, v) :: ns) s2 (by simp [hns, List.replicate_succ]) (by simpa using h2)
      · intro ns s2 hns h2
        rw [upd_upd] at h2
        exact t ((a, v) :: ns) s2 (by simpa using hns) (by simpa using h2)
    · intro s1 _ h1
      exact t [] s1 (by simp) (by rw [List.append_nil, upd_self _ _ hl]; exact h1)

theorem construct_spec (h : Inv s L K) (hl : L l = none) {body : M α Unit}
    {Q : Unit → St α → Prop} {T : St α → Prop}
    (k : ∀ s1, s1.nodes = s.nodes → Inv s1 (upd L l (some [])) K →
      wp body s1 Q (fun s2 => T { s2 with heads := upd s2.heads l none })) :
    wp (construct l body) s Q T := by
  unfold construct
  rw [wp_bind, wp_get, if_pos (h.absent l hl), wp_bind, wp_modify, wp_tryRethrow]
  exact k _ rfl (h.new hl)

theorem newMove_spec (h : Inv s L K) (hl : L l = none) {xs : Els α} (hm : L m = some xs)
    {Q : Unit → St α → Prop} {T : St α → Prop}
    (k : ∀ s', s'.log = s.log → Inv s' (upd (upd L l (some xs)) m (some [])) K → Q () s') :
    wp (newMove l m) s Q T := by
  have hlm : l ≠ m := by rintro rfl; rw [hl] at hm; cases hm
  unfold newMove construct
  rw [wp_bind, wp_get, if_pos (h.absent l hl), wp_bind, wp_modify, wp_tryRethrow]
  have h1 := h.new hl
  obtain ⟨p, hp, hs⟩ := h.seg m xs hm
  have hp1 : upd s.heads l (some none) m = some p := (upd_other _ _ hlm.symm).trans hp
  rw [wp_bind]
  refine (wp_of_eq (by unfold next; simp only [hp1]; rfl)).2 ?_
  rw [wp_bind]
  refine (wp_of_eq (by unfold setNext; simp only [upd_same]; rfl)).2 ?_
  have hp2 : upd (upd s.heads l (some none)) l (some p) m = some p := (upd_other _ _ hlm.symm).trans hp1
  refine (wp_of_eq (by unfold setNext; simp only [hp2]; rfl)).2 ?_
  have := h1.hand (s' := { s with heads := upd (upd (upd s.heads l (some none)) l (some p)) m (some none) })
    hlm (upd_same _ _ _) (xs := xs) (by rw [upd_other _ _ hlm.symm]; exact hm) (by
      intro k h1 h2
      exact (upd_other _ _ h2).trans (upd_other _ _ h1)) rfl (by
      show upd _ m _ l = upd _ l _ m
      rw [upd_other _ _ hlm, upd_same, hp1]) (upd_same _ _ _)
  rw [show upd (upd L l (some [])) l (some xs) = upd L l (some xs) from upd_upd _ _ _ _] at this
  exact k _ rfl this

theorem destruct_spec (h : Inv s L K) {xs : Els α} (hl : L l = some xs) {fuel : Nat}
    (hfuel : xs.length < fuel) {Q : Unit → St α → Prop} {T : St α → Prop}
    (k : ∀ s', Inv s' (upd L l none) K → Q () s') : wp (destruct fuel l) s Q T := by
  unfold destruct
  rw [wp_bind]
  refine clear_spec h hl hfuel fun s1 h1 => ?_
  rw [wp_modify]
  have := h1.drop (upd_same _ _ _)
  rw [upd_upd] at this
  exact k _ this

theorem moveAssign_spec (h : Inv s L K) (hlm : l ≠ m) {xs ys : Els α} (hl : L l = some xs)
    (hm : L m = some ys) {fuel : Nat} (hfuel : xs.length < fuel) {Q : Unit → St α → Prop}
    {T : St α → Prop}
    (k : ∀ s', Inv s' (upd (upd L l (some ys)) m (some [])) K → Q () s') :
    wp (moveAssign fuel l m) s Q T := by
  unfold moveAssign
  rw [wp_bind]
  refine clear_spec h hl hfuel fun s1 h1 => ?_
  have hm1 : upd L l (some []) m = some ys := (upd_other _ _ hlm.symm).trans hm
  obtain ⟨p, hp, hs⟩ := h1.seg m ys hm1
  obtain ⟨q, hq, hs'⟩ := h1.seg l [] (upd_same _ _ _)
  have hq' : q = none := hs'
  subst hq'
  rw [wp_bind]
  refine (wp_of_eq (by unfold next; simp only [hq]; rfl)).2 ?_
  rw [wp_bind]
  refine (wp_of_eq (by unfold next; simp only [hp]; rfl)).2 ?_
  rw [wp_bind]
  refine (wp_of_eq (by unfold setNext; simp only [hq]; rfl)).2 ?_
  have hp2 : upd s1.heads l (some p) m = some p := (upd_other _ _ hlm.symm).trans hp
  refine (wp_of_eq (by unfold setNext; simp only [hp2]; rfl)).2 ?_
  have := h1.hand (s' := { s1 with heads := upd (upd s1.heads l (some p)) m (some none) })
    hlm (upd_same _ _ _) hm1 (by
      intro k h1 h2
      exact (upd_other _ _ h2).trans (upd_other _ _ h1)) rfl (by
      show upd _ m _ l = _
      rw [upd_other _ _ hlm, upd_same, hp]) (upd_same _ _ _)
  rw [show upd (upd L l (some [])) l (some ys) = upd L l (some ys) from upd_upd _ _ _ _] at this
  exact k _ this

/-- Moving a list onto itself empties it. -/
theorem moveAssign_self_spec (h : Inv s L K) {xs : Els α} (hl : L l = some xs) {fuel : Nat}
    (hfuel : xs.length < fuel) {Q : Unit → St α → Prop} {T : St α → Prop}
    (k : ∀ s', Inv s' (upd L l (some [])) K → Q () s') : wp (moveAssign fuel l l) s Q T := by
  unfold moveAssign
  rw [wp_bind]
  refine clear_spec h hl hfuel fun s1 h1 => ?_
  obtain ⟨q, hq, hs'⟩ := h1.seg l [] (upd_same _ _ _)
  have hq' : q = none := hs'
  subst hq'
  rw [wp_bind]
  refine (wp_of_eq (by unfold next; simp only [hq]; rfl)).2 ?_
  rw [wp_bind]
  refine (wp_of_eq (by unfold next; simp only [hq]; rfl)).2 ?_
  rw [wp_bind]
  refine (wp_of_eq (by unfold setNext; simp only [hq]; rfl)).2 ?_
  refine (wp_of_eq (by unfold setNext; simp only [upd_same]; rfl)).2 ?_
  refine k _ (h1.same ?_ rfl)
  show upd (upd s1.heads l (some none)) l (some none) = s1.heads
  rw [upd_upd]; exact upd_self _ _ hq

/-! ### assign -/

theorem assignTo_spec (h : Inv s L K) {pre post : Els α} {a : Nat} {x : α}
    (hl : L l = some (pre ++ (a, x) :: post)) (v : α) {Q : Unit → St α → Prop} {T : St α → Prop}
    (k : ∀ s', (∀ b, b ≠ a → s'.nodes b = s.nodes b) →
      Inv s' (upd L l (some (pre ++ (a, v) :: post))) K → Q () s')
    (t : ∀ s', Inv s' L K → T s') : wp (assignTo E (some (.node a)) v) s Q T := by
  obtain ⟨p, hp, hseg⟩ := h.seg l _ hl
  obtain ⟨r, hpre, rfl, n, hx, hpost⟩ := seg_append.1 hseg
  have hn := h.nodup l _ hl
  have hn' := hn
  rw [ids_append, ids_cons, List.nodup_middle] at hn'
  have hn2 := (List.nodup_cons.1 hn').1
  rw [List.mem_append, not_or] at hn2
  unfold assignTo
  rw [wp_bind]
  refine (wp_of_eq (by unfold deref; simp only [hx]; rfl)).2 ?_
  rw [wp_bind]
  refine wp_mayThrow (fun _ => t _ (h.same rfl rfl)) fun _ => ?_
  refine (wp_of_eq (by unfold putVal; simp only [hx]; rfl)).2 ?_
  refine k _ (fun b hb => upd_other _ _ hb) (h.set hl ?_ ?_ ?_ ?_ ?_ ?_)
  · intro _ _; rfl
  · refine ⟨p, hp, seg_append.2 ⟨_, hpre.frame ?_, rfl, n, upd_same _ _ _, hpost.frame ?_⟩⟩
    · intro b hb; refine upd_other _ _ ?_; rintro rfl; exact hn2.1 hb
    · intro b hb; refine upd_other _ _ ?_; rintro rfl; exact hn2.2 hb
  · simpa using hn
  · intro b hb _
    refine upd_other _ _ ?_
    rintro rfl; exact hb (by simp)
  · intro b hb; exact .inl (by simpa using hb)
  · intro b hb hb'; exact absurd (by simpa using hb) hb'

theorem Inv.next_pos (h : Inv s L K) {pre post : Els α} (hl : L l = some (pre ++ post)) :
    next (posPtr l pre) s = .ok (ptr post none) s := by
  obtain ⟨p, hp, hseg⟩ := h.seg l _ hl
  obtain ⟨r, hpre, hpost⟩ := seg_append.1 hseg
  rw [next_spec ⟨p, hp, hpre⟩, hpost.ptr_eq]

theorem Inv.next_head (h : Inv s L K) {xs : Els α} (hl : L l = some xs) :
    next (some (.head l)) s = .ok (ptr xs none) s := h.next_pos (l := l) (pre := []) hl

theorem Inv.next_elem (h : Inv s L K) {pre post : Els α} {x : Nat × α} (hl : L l = some (pre ++ x :: post)) :
    next (some (.node x.1)) s = .ok (ptr post none) s := by
  have := h.next_pos (l := l) (pre := pre ++ [x]) (post := post) (by simpa using hl)
  rwa [posPtr_snoc] at this

theorem Inv.deref_elem (h : Inv s L K) {pre post : Els α} {x : Nat × α} (hl : L l = some (pre ++ x :: post)) :
    deref (some (.node x.1)) s = .ok x.2 s := by
  obtain ⟨p, hp, hseg⟩ := h.seg l _ hl
  obtain ⟨r, hpre, rfl, n, hx, hpost⟩ := seg_append.1 hseg
  unfold deref; simp only [hx]

/-- The elements `xs` with their first values replaced by `vs`. -/
def over (xs : Els α) (vs : List α) : Els α := (ids xs).zip vs

@[simp] theorem over_cons (x : Nat × α) (xs : Els α) (v : α) (vs : List α) :
    over (x :: xs) (v :: vs) = (x.1, v) :: over xs vs := rfl
@[simp] theorem over_nil (vs : List α) : over ([] : Els α) vs = [] := rfl

theorem vals_over {xs : Els α} {vs : List α} (h : xs.length = vs.length) : vals (over xs vs) = vs := by
  unfold over vals
  rw [List.map_snd_zip]
  simp [h]

theorem ids_over {xs : Els α} {vs : List α} (h : xs.length = vs.length) : ids (over xs vs) = ids xs := by
  unfold over
  show (List.zip _ _).map Prod.fst = _
  rw [List.map_fst_zip]
  simp [h]

/-- `assign`'s loop over a range outside the list. -/
theorem assignLoop_spec (h : Inv s L K) {pre post : Els α} (hl : L l = some (pre ++ post))
    {r : Range α} {vs : List α} {F : List Nat} (hr : Readable s.nodes r vs F)
    (hF : ∀ a ∈ F, a ∉ ids (pre ++ post)) {fuel : Nat} (hfuel : vs.length < fuel)
    {Q : Ptr × Ptr × Range α → St α → Prop} {T : St α → Prop}
    (k1 : ∀ p1 p2 r' s', post = p1 ++ p2 → p1.length = vs.length → r'.more = false →
      Inv s' (upd L l (some (pre ++ over p1 vs ++ p2))) K →
      Q (posPtr l (pre ++ over p1 vs), ptr p2 none, r') s')
    (k2 : ∀ v1 v2 r' F' s', vs = v1 ++ v2 → v1.length = post.length → v2 ≠ [] →
      Readable s'.nodes r' v2 F' → (∀ a ∈ F', a ∈ F) → (∀ a, a ∉ ids (pre ++ post) → s'.nodes a = s.nodes a) →
      Inv s' (upd L l (some (pre ++ over post v1))) K →
      Q (posPtr l (pre ++ over post v1), none, r') s')
    (t : ∀ p1 p2 v1 w v2 s', post = p1 ++ p2 → p1.length = v1.length → vs = v1 ++ w :: v2 →
      Inv s' (upd L l (some (pre ++ over p1 v1 ++ p2))) K → T s') :
    wp (assignLoop E fuel (posPtr l pre) (ptr post none) r) s Q T := by
  induction vs generalizing fuel s L pre post r F with
  | nil =>
    obtain ⟨f, rfl⟩ : ∃ f, fuel = f + 1 := ⟨fuel - 1, by simp at hfuel; omega⟩
    unfold assignLoop
    rw [if_neg (by rw [hr.more_nil]; simp), wp_pure]
    have := k1 [] post r s rfl rfl hr.more_nil (by simpa [upd_self _ _ hl] using h)
    simpa using this
  | cons v vs ih =>
    obtain ⟨f, rfl⟩ : ∃ f, fuel = f + 1 := ⟨fuel - 1, by simp at hfuel; omega⟩
    unfold assignLoop
    cases post with
    | nil =>
      rw [if_neg (by simp [«end»]), wp_pure]
      have := k2 [] (v :: vs) r F s rfl rfl (by simp) hr (fun _ h => h) (fun _ _ => rfl)
        (by simpa [upd_self _ _ (show L l = some pre by simpa using hl)] using h)
      simpa using this
    | cons x post =>
      rw [if_pos ⟨by simp [«end»], hr.more_cons⟩, wp_bind, wp_of_eq hr.front, wp_bind]
      refine assignTo_spec (a := x.1) (x := x.2) h hl v ?_ ?_
      · intro s1 hfr h1
        have hl1 : upd L l (some (pre ++ (x.1, v) :: post)) l = some (pre ++ (x.1, v) :: post) := upd_same _ _ _
        rw [wp_bind, wp_of_eq (h1.next_pos hl1), wp_bind]
        have := h1.next_elem hl1
        simp only [ptr_cons] at this ⊢
        rw [wp_of_eq this, wp_bind]
        have hxF : ∀ a ∈ F, a ≠ x.1 := fun a ha e => hF a ha (by simp [e])
        have hr1 : Readable s1.nodes r (v :: vs) F := hr.frame fun b hb => hfr b (hxF b hb)
        obtain ⟨r', e, hr'⟩ := hr1.advance
        rw [wp_of_eq e, show (some (.node x.1) : Ptr) = posPtr l (pre ++ [(x.1, v)]) by rw [posPtr_snoc]]
        refine ih (pre := pre ++ [(x.1, v)]) (post := post) h1 (by rw [upd_same]; simp) hr' ?_ ?_ ?_ ?_ ?_
        · intro b hb
          have := hF b (List.mem_of_mem_tail hb)
          simpa using this
        · simp at hfuel; omega
        · intro p1 p2 r2 s2 e1 e2 e3 h2
          rw [upd_upd] at h2
          have := k1 (x :: p1) p2 r2 s2 (by simp [e1]) (by simp [e2]) e3 (by simpa using h2)
          simpa using this
        · intro v1 v2 r2 F' s2 e1 e2 e3 e4 e5 e6 h2
          rw [upd_upd] at h2
          have := k2 (v :: v1) v2 r2 F' s2 (by simp [e1]) (by simp [e2]) e3 e4
            (fun a ha => List.mem_of_mem_tail (e5 a ha))
            (fun a ha => (e6 a (by simpa using ha)).trans (hfr a (by rintro rfl; exact ha (by simp))))
            (by simpa using h2)
          simpa using this
        · intro p1 p2 v1 w v2 s2 e1 e2 e3 h2
          rw [upd_upd] at h2
          exact t (x :: p1) p2 (v :: v1) w v2 s2 (by simp [e1]) (by simp [e2]) (by simp [e3])
            (by simpa using h2)
      · intro s1 h1
        exact t [] (x :: post) [] v vs s1 rfl rfl rfl (by simpa [upd_self _ _ hl] using h1)

/-- `assign`'s loop over a range of the list itself. -/
theorem assignLoop_own (h : Inv s L K) {pre mid zs rest : Els α}
    (hl : L l = some (pre ++ (mid ++ (zs ++ rest)))) {fuel : Nat} (hfuel : zs.length < fuel)
    {Q : Ptr × Ptr × Range α → St α → Prop} {T : St α → Prop}
    (k : ∀ p1 p2 r' s', mid ++ (zs ++ rest) = p1 ++ p2 → p1.length = zs.length → r'.more = false →
      Inv s' (upd L l (some (pre ++ over p1 (vals zs) ++ p2))) K →
      Q (posPtr l (pre ++ over p1 (vals zs)), ptr p2 none, r') s')
    (t : ∀ p1 p2 v1 w v2 s', mid ++ (zs ++ rest) = p1 ++ p2 → p1.length = v1.length →
      vals zs = v1 ++ w :: v2 → Inv s' (upd L l (some (pre ++ over p1 v1 ++ p2))) K → T s') :
    wp (assignLoop E fuel (posPtr l pre) (ptr (mid ++ (zs ++ rest)) none)
      (.nodes (ptr zs (ptr rest none)) (ptr rest none))) s Q T := by
  induction zs generalizing fuel s L pre mid with
  | nil =>
    obtain ⟨f, rfl⟩ : ∃ f, fuel = f + 1 := ⟨fuel - 1, by simp at hfuel; omega⟩
    unfold assignLoop
    rw [if_neg (by simp [Range.more]), wp_pure]
    have := k [] (mid ++ rest) (.nodes (ptr rest none) (ptr rest none)) s rfl rfl (by simp [Range.more])
      (by simpa [upd_self _ _ (show L l = some (pre ++ (mid ++ rest)) from hl)] using h)
    simpa using this
  | cons z zs ih =>
    obtain ⟨f, rfl⟩ : ∃ f, fuel = f + 1 := ⟨fuel - 1, by simp at hfuel; omega⟩
    -- the element the loop is at
    obtain ⟨x, post, hpost, hnext⟩ : ∃ x post, mid ++ (z :: zs ++ rest) = x :: post ∧
        ((x = z ∧ post = [] ++ (zs ++ rest)) ∨ ∃ mid', post = mid' ++ (zs ++ rest)) := by
      cases mid with
      | nil => exact ⟨z, zs ++ rest, rfl, .inl ⟨rfl, rfl⟩⟩
      | cons c mid => exact ⟨c, mid ++ (z :: zs ++ rest), rfl, .inr ⟨mid ++ [z], by simp⟩⟩
    rw [hpost] at hl k t ⊢
    have hzmore : (Range.nodes (ptr (z :: zs) (ptr rest none)) (ptr rest none) : Range α).more = true := by
      simp only [Range.more, ptr_cons, bne_iff_ne, ne_eq]
      intro e
      cases rest with
      | nil => cases e
      | cons y rest =>
        have hn := h.nodup l _ hl
        rw [← hpost] at hn
        have e' : z.1 = y.1 := by simpa using e
        simp [e', List.nodup_append] at hn
    have hzfront : (Range.nodes (ptr (z :: zs) (ptr rest none)) (ptr rest none) : Range α).front s =
        .ok z.2 s := by
      refine h.deref_elem (l := l) (pre := pre ++ mid) (x := z) (post := zs ++ rest) ?_
      rw [hl, ← hpost]; simp
    unfold assignLoop
    rw [if_pos ⟨by simp [«end»], hzmore⟩, wp_bind, wp_of_eq hzfront, wp_bind]
    refine assignTo_spec (a := x.1) (x := x.2) h hl z.2 ?_ ?_
    · intro s1 hfr h1
      have hl1 : upd L l (some (pre ++ (x.1, z.2) :: post)) l = some (pre ++ (x.1, z.2) :: post) :=
        upd_same _ _ _
      rw [wp_bind, wp_of_eq (h1.next_pos hl1), wp_bind]
      have := h1.next_elem hl1
      simp only [ptr_cons] at this ⊢
      rw [wp_of_eq this, wp_bind]
      -- `++first`
      have hadv : (Range.nodes (some (.node z.1)) (ptr rest none) : Range α).advance s1 =
          .ok (.nodes (ptr zs (ptr rest none)) (ptr rest none)) s1 := by
        have hz : ∃ w pre' , pre ++ (x.1, z.2) :: post = pre' ++ (z.1, w) :: (zs ++ rest) := by
          cases mid with
          | nil =>
            simp only [List.nil_append, List.cons_append, List.cons.injEq] at hpost
            exact ⟨z.2, pre, by rw [← hpost.1, ← hpost.2]⟩
          | cons c mid =>
            simp only [List.cons_append, List.cons.injEq] at hpost
            exact ⟨z.2, pre ++ (x.1, z.2) :: mid, by rw [← hpost.2]; simp⟩
        obtain ⟨w, pre', hz⟩ := hz
        have h2 := h1.next_elem (l := l) (pre := pre') (x := (z.1, w)) (post := zs ++ rest) (by rw [upd_same, hz])
        simp only [Range.advance]
        show M.bind _ _ _ = _
        unfold M.bind
        rw [h2]
        show Res.ok _ _ = _
        congr 2
        cases zs <;> rfl
      rw [wp_of_eq hadv, show (some (.node x.1) : Ptr) = posPtr l (pre ++ [(x.1, z.2)]) by rw [posPtr_snoc]]
      obtain ⟨mid', hmid'⟩ : ∃ mid', post = mid' ++ (zs ++ rest) := by
        rcases hnext with ⟨_, e⟩ | ⟨mid', e⟩
        · exact ⟨[], e⟩
        · exact ⟨mid', e⟩
      rw [hmid']
      refine ih (pre := pre ++ [(x.1, z.2)]) (mid := mid') h1 (by rw [upd_same, hmid']; simp) ?_ ?_ ?_
      · simp at hfuel; omega
      · intro p1 p2 r2 s2 e1 e2 e3 h2
        rw [upd_upd] at h2
        have := k (x :: p1) p2 r2 s2 (by simp [hmid', e1]) (by simp [e2]) e3 (by simpa using h2)
        simpa using this
      · intro p1 p2 v1 w v2 s2 e1 e2 e3 h2
        rw [upd_upd] at h2
        exact t (x :: p1) p2 (z.2 :: v1) w v2 s2 (by simp [hmid', e1]) (by simp [e2]) (by simp [e3])
          (by simpa using h2)
    · intro s1 h1
      exact t [] (x :: post) [] z.2 (vals zs) s1 rfl rfl rfl (by simpa [upd_self _ _ hl] using h1)

/-- `assign` from a range outside the list: the nodes of the common prefix are reused. -/
theorem assign_spec (h : Inv s L K) {xs : Els α} (hl : L l = some xs)
    {r : Range α} {vs : List α} {F : List Nat} (hr : Readable s.nodes r vs F)
    (hF : ∀ a ∈ F, a ∉ ids xs ∧ s.nodes a ≠ none) {fuel : Nat} (hfuel : vs.length < fuel)
    (hfuel' : xs.length < fuel) {Q : Unit → St α → Prop} {T : St α → Prop}
    (k : ∀ xs' s', vals xs' = vs → (ids xs').take xs.length = (ids xs).take vs.length →
      Inv s' (upd L l (some xs')) K → Q () s')
    (t : ∀ n xs' s', n < vs.length → vals xs' = vs.take n ++ (vals xs).drop n →
      Inv s' (upd L l (some xs')) K → T s') :
    wp (assign E fuel l r) s Q T := by
  unfold assign begin beforeBegin
  rw [wp_bind, wp_of_eq (h.next_head hl), wp_bind]
  refine assignLoop_spec (pre := []) (post := xs) h hl hr (fun a ha => (hF a ha).1) hfuel ?_ ?_ ?_
  · intro p1 p2 r' s1 e1 e2 e3 h1
    show wp (if r'.more = true then _ else _) _ _ _
    rw [e3, if_neg (by simp)]
    have hv := vals_over e2
    have hi := ids_over e2
    cases p2 with
    | nil =>
      rw [if_neg (by simp [«end»]), wp_pure]
      refine k _ s1 ?_ ?_ h1
      · simpa using hv
      · simp only [List.append_nil] at e1
        subst e1
        simp [hi, e2]
    | cons y p2 =>
      rw [if_pos (by simp [«end»])]
      refine eraseAfterRange_spec (l := l) (post := []) (mid := y :: p2) h1 (by rw [upd_same]; simp) ?_ ?_
      · rw [e1] at hfuel'; simp at hfuel' ⊢; omega
      · intro s2 h2
        rw [upd_upd] at h2
        refine k _ s2 ?_ ?_ h2
        · simpa using hv
        · rw [e1]
          simp only [List.nil_append, List.append_nil, hi, ids_append]
          rw [← e2, List.take_of_length_le (by simp), ← ids_length p1, List.take_left]
  · intro v1 v2 r' F' s1 e1 e2 e3 hr' hF' hfr h1
    show wp (if r'.more = true then _ else _) _ _ _
    obtain ⟨w, ws, rfl⟩ : ∃ w ws, v2 = w :: ws := by
      cases v2 with
      | nil => exact absurd rfl e3
      | cons w ws => exact ⟨w, ws, rfl⟩
    rw [hr'.more_cons, if_pos rfl, wp_bind]
    have hi := ids_over e2.symm
    have hv := vals_over e2.symm
    refine insertRange_spec (l := l) (pre := [] ++ over xs v1) (post := []) h1 (by rw [upd_same]; simp) hr' ?_ ?_ ?_ ?_ ?_
    · intro a ha e
      rcases posPtr_cases l ([] ++ over xs v1) with ⟨-, e'⟩ | ⟨ys, x, e', e''⟩
      · rw [e'] at e; cases e
      · rw [e''] at e; cases e
        refine (hF _ (hF' _ ha)).1 ?_
        rw [← hi, show over xs v1 = ys ++ [x] by simpa using e']; simp
    · intro a ha
      have := hF a (hF' a ha)
      rw [hfr a (by simpa using this.1)]; exact this.2
    · rw [e1] at hfuel; simp at hfuel ⊢; omega
    · intro ns s2 hns _ h2
      rw [wp_pure]
      rw [upd_upd] at h2
      refine k _ s2 ?_ ?_ h2
      · simp [hv, hns, e1]
      · simp only [List.nil_append, List.append_nil, ids_append, hi]
        rw [← ids_length xs, List.take_left, List.take_of_length_le (by rw [e1]; simp; omega)]
    · intro ns s2 w' ws' hns _ h2
      rw [upd_upd] at h2
      refine t (xs.length + ns.length) _ s2 ?_ ?_ h2
      · rw [e1, ← hns]; simp; omega
      · simp only [List.nil_append, List.append_nil, vals_append, hv]
        rw [e1, ← hns, ← e2, List.take_length_add_append, ← vals_length ns, List.take_left,
          List.drop_eq_nil_of_le (by simp; omega)]
        simp
  · intro p1 p2 v1 w v2 s1 e1 e2 e3 h1
    refine t v1.length _ s1 (by rw [e3]; simp) ?_ h1
    rw [e3, e1]
    simp [vals_over e2, ← e2]

/-- `assign` from a range of the list itself. -/
theorem assign_own (h : Inv s L K) {mid zs rest : Els α} (hl : L l = some (mid ++ (zs ++ rest)))
    {fuel : Nat} (hfuel : (mid ++ (zs ++ rest)).length < fuel) {Q : Unit → St α → Prop} {T : St α → Prop}
    (k : ∀ xs' s', vals xs' = vals zs → ids xs' = (ids (mid ++ (zs ++ rest))).take zs.length →
      Inv s' (upd L l (some xs')) K → Q () s')
    (t : ∀ n xs' s', n < zs.length →
      vals xs' = (vals zs).take n ++ (vals (mid ++ (zs ++ rest))).drop n →
      Inv s' (upd L l (some xs')) K → T s') :
    wp (assign E fuel l (.nodes (ptr zs (ptr rest none)) (ptr rest none))) s Q T := by
  unfold assign begin beforeBegin
  rw [wp_bind, wp_of_eq (h.next_head hl), wp_bind]
  refine assignLoop_own (pre := []) h hl (by simp at hfuel; omega) ?_ ?_
  · intro p1 p2 r' s1 e1 e2 e3 h1
    show wp (if r'.more = true then _ else _) _ _ _
    rw [e3, if_neg (by simp)]
    have e2' : p1.length = (vals zs).length := by simpa using e2
    have hv := vals_over e2'
    have hi := ids_over e2'
    cases p2 with
    | nil =>
      rw [if_neg (by simp [«end»]), wp_pure]
      refine k _ s1 ?_ ?_ h1
      · simpa using hv
      · rw [e1]; simp [hi, ← e2, List.take_of_length_le]
    | cons y p2 =>
      rw [if_pos (by simp [«end»])]
      refine eraseAfterRange_spec (l := l) (post := []) (mid := y :: p2) h1 (by rw [upd_same]; simp) ?_ ?_
      · rw [e1] at hfuel; simp at hfuel ⊢; omega
      · intro s2 h2
        rw [upd_upd] at h2
        refine k _ s2 ?_ ?_ h2
        · simpa using hv
        · rw [e1]
          simp only [List.nil_append, List.append_nil, hi, ids_append]
          rw [← e2, ← ids_length p1, List.take_left]
  · intro p1 p2 v1 w v2 s1 e1 e2 e3 h1
    refine t v1.length _ s1 (by rw [← vals_length zs, e3]; simp) ?_ h1
    rw [e3, e1]
    simp [vals_over e2, ← e2]

/-! ### Iterating -/

theorem advance_spec (h : Inv s L K) {pre mid post : Els α} (hl : L l = some (pre ++ (mid ++ post))) :
    advance mid.length (posPtr l pre) s = .ok (posPtr l (pre ++ mid)) s := by
  induction mid generalizing pre with
  | nil => simp [advance]; rfl
  | cons x mid ih =>
    simp only [List.length_cons, advance]
    show M.bind _ _ _ = _
    unfold M.bind
    rw [h.next_pos (l := l) (pre := pre) (post := x :: (mid ++ post)) (by simpa using hl)]
    simp only [ptr_cons]
    have := ih (pre := pre ++ [x]) (by simpa using hl)
    rw [posPtr_snoc] at this
    rw [this]; simp

/-- The iterators of the elements, with the values they designate. -/
def its (xs : Els α) : List (Ptr × α) := xs.map fun x => (some (.node x.1), x.2)

theorem walk_seg {p : Ptr} {xs : Els α} (h : Seg s.nodes p xs none) {fuel : Nat}
    (hfuel : xs.length < fuel) : walk fuel p s = .ok (its xs) s := by
  induction xs generalizing p fuel with
  | nil =>
    obtain ⟨f, rfl⟩ : ∃ f, fuel = f + 1 := ⟨fuel - 1, by simp at hfuel; omega⟩
    unfold walk
    rw [if_pos (show p = «end» from h)]; rfl
  | cons x xs ih =>
    obtain ⟨f, rfl⟩ : ∃ f, fuel = f + 1 := ⟨fuel - 1, by simp at hfuel; omega⟩
    obtain ⟨rfl, n, hx, hs⟩ := h
    unfold walk
    rw [if_neg (by simp [«end»])]
    have h1 : deref (some (.node x.1)) s = .ok x.2 s := by unfold deref; simp only [hx]
    show M.bind _ _ _ = _
    unfold M.bind
    rw [h1]
    show M.bind _ _ _ = _
    unfold M.bind
    rw [next_node hx]
    show M.bind _ _ _ = _
    unfold M.bind
    rw [ih hs (by simp at hfuel; omega)]
    rfl

theorem Inv.walk (h : Inv s L K) {xs : Els α} (hl : L l = some xs) {fuel : Nat}
    (hfuel : xs.length < fuel) :
    (do let b ← begin l
        Verif.LL.walk fuel b : M α _) s = .ok (its xs) s := by
  obtain ⟨p, hp, hseg⟩ := h.seg l xs hl
  show M.bind _ _ _ = _
  unfold M.bind begin beforeBegin
  rw [h.next_head hl]
  rw [hseg.ptr_eq] at hseg
  exact walk_seg hseg hfuel

end Verif.LL
