import Verif.LinkedList.Logic

/-! Specifications of the `LinkedList` functions in terms of the representation invariant. -/

set_option autoImplicit false

namespace Verif.LL

variable {α β : Type} {E : Env α} {s s' : St α} {L : Nat → Option (Els α)} {K : List Nat} {l m : Nat}

/-! ### Creating nodes -/

/-- A state in which node `a` was added. -/
structure Added (s s' : St α) (a : Nat) (c : Cell α) : Prop where
  heads : s'.heads = s.heads
  fresh : s.nodes a = none
  nodes : s'.nodes = upd s.nodes a (some c)

theorem wp_mayThrow {Q : Unit → St α → Prop} {T : St α → Prop}
    (t : E.throws s.tick = true → T { s with tick := s.tick + 1, fails := s.fails + 1 })
    (k : E.throws s.tick = false → Q () { s with tick := s.tick + 1 }) : wp (mayThrow E) s Q T := by
  unfold wp mayThrow
  by_cases ht : E.throws s.tick
  · simp only [ht, if_true]; exact t ht
  · simp only [ht]; exact k (by simpa using ht)

theorem wp_allocate {Q : Nat → St α → Prop} {T : St α → Prop}
    (t : ∀ c, s.nodes (E.pick s) = some c → T { s with fails := s.fails + 1 })
    (k : s.nodes (E.pick s) = none → Q (E.pick s)
      { s with nodes := upd s.nodes (E.pick s) (some .raw), log := .alloc (E.pick s) :: s.log }) : wp (allocate E) s Q T := by
  unfold wp allocate
  cases hp : s.nodes (E.pick s) with
  | some c => simp only [hp]; exact t c hp
  | none => simp only [hp]; exact k hp

theorem createNode_spec (E : Env α) (s : St α) (v : α) {Q : Ptr → St α → Prop} {T : St α → Prop}
    (k : ∀ a s', Added s s' a (.node none (some v)) → Q (some (.node a)) s')
    (t : ∀ s', s'.heads = s.heads → s'.nodes = s.nodes → T s') : wp (createNode E v) s Q T := by
  unfold createNode
  rw [wp_bind]
  refine wp_allocate (fun c _ => t _ rfl rfl) fun hp => ?_
  rw [wp_bind, wp_tryRethrow, wp_bind]
  refine (wp_of_eq (by unfold constructNode; simp only [upd_same]; rfl)).2 ?_
  unfold constructVal
  rw [wp_bind]
  refine wp_mayThrow (fun ht => ?_) fun ht => ?_
  · refine (wp_of_eq (by unfold deallocate; simp only [upd_same]; rfl)).2 ?_
    refine t _ rfl ?_
    simp only [upd_upd]
    exact upd_self _ _ hp
  · refine (wp_of_eq (by unfold putNew; simp only [upd_same]; rfl)).2 ?_
    rw [wp_pure]
    exact k _ _ ⟨rfl, hp, by simp only [upd_upd]⟩

theorem Inv.mem_of_append {pre post : Els α} (h : Inv s L K) (hl : L l = some (pre ++ post)) :
    (ids pre).Nodup ∧ (ids post).Nodup ∧ ∀ a ∈ ids pre, a ∉ ids post := by
  have := h.nodup l _ hl
  rw [ids_append, List.nodup_append] at this
  exact ⟨this.1, this.2.1, fun a h1 h2 => this.2.2 a h1 a h2 rfl⟩

theorem emplaceAfter_spec (h : Inv s L K) {pre post : Els α} (hl : L l = some (pre ++ post)) (v : α)
    {Q : Ptr → St α → Prop} {T : St α → Prop}
    (k : ∀ a s', s.nodes a = none →
      (∀ b, b ≠ a → posPtr l pre ≠ some (.node b) → s'.nodes b = s.nodes b) →
      Inv s' (upd L l (some (pre ++ (a, v) :: post))) K → Q (some (.node a)) s')
    (t : ∀ s', s'.nodes = s.nodes → Inv s' L K → T s') :
    wp (emplaceAfter E (posPtr l pre) v) s Q T := by
  unfold emplaceAfter
  rw [wp_bind]
  refine createNode_spec E s v ?_ ?_
  · intro a s1 h1
    obtain ⟨p, hp, hseg⟩ := h.seg l _ hl
    obtain ⟨r, hpre, hpost⟩ := seg_append.1 hseg
    obtain ⟨n1, n2, n3⟩ := h.mem_of_append hl
    have hlive := h.live hl
    have ha1 : a ∉ ids pre := fun e => hlive a (by simp [e]) h1.fresh
    have ha2 : a ∉ ids post := fun e => hlive a (by simp [e]) h1.fresh
    have fr1 : ∀ b, b ≠ a → s1.nodes b = s.nodes b := fun b hb => by rw [h1.nodes]; exact upd_other _ _ hb
    have hpre1 : LSeg s1 l pre r := ⟨p, by rw [h1.heads]; exact hp,
      hpre.frame fun b hb => fr1 b fun e => ha1 (e ▸ hb)⟩
    rw [wp_bind, wp_of_eq (next_spec hpre1), wp_bind]
    have hna : s1.nodes a = some (.node none (some v)) := by rw [h1.nodes]; exact upd_same _ _ _
    refine setNext_node hna r ?_
    rw [wp_bind]
    have hpre2 : LSeg { s1 with nodes := upd s1.nodes a (some (.node r (some v))) } l pre r :=
      ⟨p, by rw [h1.heads]; exact hp, hpre.frame fun b hb => by
        have : b ≠ a := fun e => ha1 (e ▸ hb)
        exact (upd_other _ _ this).trans (fr1 b this)⟩
    rcases posPtr_cases l pre with ⟨rfl, e⟩ | ⟨ys, x, rfl, e⟩
    · rw [e]
      obtain ⟨p', hp', -⟩ := hpre2
      simp only [] at hp'
      refine (wp_of_eq (by unfold setNext; simp only [hp']; rfl)).2 ?_
      rw [wp_pure]
      refine k a _ h1.fresh ?_ ?_
      · intro b hb _
        exact (upd_other _ _ hb).trans (fr1 b hb)
      · refine h.set hl ?_ ?_ ?_ ?_ ?_ ?_
        · intro m hm; rw [show (_ : St α).heads m = _ from upd_other _ _ hm, h1.heads]
        · refine ⟨_, upd_same _ _ _, rfl, r, upd_same _ _ _, hpost.frame fun b hb => ?_⟩
          have : b ≠ a := fun e => ha2 (e ▸ hb)
          exact (upd_other _ _ this).trans (fr1 b this)
        · simp [ha2, n2]
        · intro b _ hb
          have : b ≠ a := fun e => hb (by simp [e])
          exact (upd_other _ _ this).trans (fr1 b this)
        · intro b hb
          rcases List.mem_cons.1 (by simpa using hb) with rfl | hb
          · exact .inr h1.fresh
          · exact .inl (by simpa using hb)
        · intro b hb hb'
          exact absurd hb (fun hb => hb' (by simpa using .inr (by simpa using hb)))
    · obtain ⟨p', hp', hs'⟩ := hpre2
      obtain ⟨r', hys, hx1, n, hx2, hx3⟩ := seg_append.1 hs'
      rw [e]
      refine setNext_node hx2 _ ?_
      rw [wp_pure]
      have hxa : x.1 ≠ a := fun e => ha1 (by simp [e])
      have fr : ∀ b, b ≠ a → b ≠ x.1 →
          upd (upd s1.nodes a (some (.node r (some v)))) x.1 (some (.node (some (.node a)) (some x.2))) b =
            s.nodes b := by
        intro b hb hb'
        exact (upd_other _ _ hb').trans ((upd_other _ _ hb).trans (fr1 b hb))
      have hxys : x.1 ∉ ids ys := by
        intro hm
        rw [ids_append, List.nodup_append] at n1
        exact n1.2.2 _ hm x.1 (by simp) rfl
      refine k a _ h1.fresh ?_ ?_
      · intro b hb hb'
        exact fr b hb fun h => hb' (by rw [e, h])
      · refine h.set hl ?_ ?_ ?_ ?_ ?_ ?_
        · intro m hm; show s1.heads m = _; rw [h1.heads]
        · refine ⟨p', hp', ?_⟩
          rw [List.append_assoc]
          refine seg_append.2 ⟨r', ?_, ?_⟩
          · refine hys.frame fun b hb => upd_other _ _ ?_
            rintro rfl; exact hxys hb
          · refine ⟨hx1, _, upd_same _ _ _, rfl, r, ?_, ?_⟩
            · exact (upd_other _ _ (Ne.symm hxa)).trans (upd_same _ _ _)
            · refine hpost.frame fun b hb => fr b ?_ ?_
              · rintro rfl; exact ha2 hb
              · rintro rfl; exact n3 x.1 (by simp) hb
        · have hn := h.nodup l _ hl
          rw [ids_append, ids_cons]
          rw [ids_append] at hn
          rw [List.nodup_middle]
          refine List.nodup_cons.2 ⟨?_, hn⟩
          simp only [List.mem_append, not_or]
          exact ⟨ha1, ha2⟩
        · intro b hb hb'
          refine fr b ?_ ?_
          · rintro rfl; exact hb' (by simp)
          · rintro rfl; exact hb (by simp)
        · intro b hb
          by_cases hba : b = a
          · exact .inr (hba ▸ h1.fresh)
          · refine .inl ?_
            simp only [ids_append, ids_cons, List.mem_append, List.mem_cons] at hb ⊢
            tauto
        · intro b hb hb'
          exfalso; apply hb'
          simp only [ids_append, ids_cons, List.mem_append, List.mem_cons] at hb ⊢
          tauto
  · intro s1 h1 h2
    exact t s1 h2 (h.same h1 h2)

/-! ### Reading ranges -/

/-- `r` is a valid range with the values `vs`, stored in the nodes `F` (none if the values come from
elsewhere). -/
inductive Readable (nodes : Nat → Option (Cell α)) : Range α → List α → List Nat → Prop
  | ext (xs : List α) : Readable nodes (.ext xs) xs []
  | nodes {p q : Ptr} {zs : Els α} (h : Seg nodes p zs q) (hq : ∀ a ∈ ids zs, q ≠ some (.node a)) :
      Readable nodes (.nodes p q) (vals zs) (ids zs)

theorem Readable.frame {nodes nodes' : Nat → Option (Cell α)} {r : Range α} {vs : List α} {F : List Nat}
    (h : Readable nodes r vs F) (hf : ∀ a ∈ F, nodes' a = nodes a) : Readable nodes' r vs F := by
  cases h with
  | ext => exact .ext _
  | nodes h hq => exact .nodes (h.frame hf) hq

theorem Readable.more_nil {nodes : Nat → Option (Cell α)} {r : Range α} {F : List Nat}
    (h : Readable nodes r [] F) : r.more = false := by
  generalize hv : ([] : List α) = vs at h
  cases h with
  | ext => subst hv; rfl
  | @nodes p q zs h hq =>
    have : zs = [] := List.length_eq_zero_iff.1 (by rw [← vals_length, ← hv]; rfl)
    subst this
    rw [show p = q from h]
    simp [Range.more]

theorem Readable.more_cons {nodes : Nat → Option (Cell α)} {r : Range α} {v : α} {vs : List α}
    {F : List Nat} (h : Readable nodes r (v :: vs) F) : r.more = true := by
  generalize hv : v :: vs = ws at h
  cases h with
  | ext => subst hv; rfl
  | @nodes p q zs h hq =>
    cases zs with
    | nil => cases hv
    | cons z zs =>
      rw [show p = _ from h.1]
      have := hq z.1 (by simp)
      simp only [Range.more, bne_iff_ne, ne_eq]
      exact fun e => this e.symm

theorem Readable.front {r : Range α} {v : α} {vs : List α} {F : List Nat}
    (h : Readable s.nodes r (v :: vs) F) : r.front s = .ok v s := by
  generalize hv : v :: vs = ws at h
  cases h with
  | ext => subst hv; rfl
  | @nodes p q zs h hq =>
    cases zs with
    | nil => cases hv
    | cons z zs =>
      obtain ⟨h1, n, h2, h3⟩ := h
      cases hv
      simp only [Range.front, deref, h1, h2]

/-- After `++first` the range has the remaining values. -/
theorem Readable.advance {r : Range α} {v : α} {vs : List α} {F : List Nat}
    (h : Readable s.nodes r (v :: vs) F) :
    ∃ r', r.advance s = .ok r' s ∧ Readable s.nodes r' vs F.tail := by
  generalize hv : v :: vs = ws at h
  cases h with
  | ext => subst hv; exact ⟨_, rfl, .ext _⟩
  | @nodes p q zs h hq =>
    cases zs with
    | nil => cases hv
    | cons z zs =>
      obtain ⟨h1, n, h2, h3⟩ := h
      cases hv
      refine ⟨.nodes n q, ?_, .nodes h3 fun a ha => hq a (by simp [ha])⟩
      simp only [Range.advance]
      show M.bind _ _ _ = _
      unfold M.bind
      rw [h1, next_node h2]
      rfl

theorem Readable.tail_sub {F : List Nat} {a : Nat} (h : a ∈ F.tail) : a ∈ F := List.mem_of_mem_tail h

/-! ### Inserting a range -/

theorem insertRange_spec (h : Inv s L K) {pre post : Els α} (hl : L l = some (pre ++ post))
    {r : Range α} {vs : List α} {F : List Nat} (hr : Readable s.nodes r vs F)
    (hF : ∀ a ∈ F, posPtr l pre ≠ some (.node a)) (hFl : ∀ a ∈ F, s.nodes a ≠ none)
    {fuel : Nat} (hfuel : vs.length < fuel) {Q : Ptr → St α → Prop} {T : St α → Prop}
    (k : ∀ ns s', vals ns = vs → (∀ a ∈ ids ns, s.nodes a = none) →
      Inv s' (upd L l (some (pre ++ ns ++ post))) K → Q (posPtr l (pre ++ ns)) s')
    (t : ∀ ns s' w ws, vals ns ++ w :: ws = vs → (∀ a ∈ ids ns, s.nodes a = none) →
      Inv s' (upd L l (some (pre ++ ns ++ post))) K → T s') :
    wp (insertRange E fuel (posPtr l pre) r) s Q T := by
  induction vs generalizing fuel s L pre r F with
  | nil =>
    obtain ⟨f, rfl⟩ : ∃ f, fuel = f + 1 := ⟨fuel - 1, by simp at hfuel; omega⟩
    unfold insertRange
    rw [hr.more_nil]
    show wp (pure _) _ _ _
    rw [wp_pure]
    have := k [] s rfl (by simp) (by rw [List.append_nil, upd_self _ _ hl]; exact h)
    simpa using this
  | cons v vs ih =>
    obtain ⟨f, rfl⟩ : ∃ f, fuel = f + 1 := ⟨fuel - 1, by simp at hfuel; omega⟩
    unfold insertRange
    rw [hr.more_cons]
    simp only [if_true]
    rw [wp_bind, wp_of_eq hr.front, wp_bind]
    refine emplaceAfter_spec h hl v ?_ ?_
    · intro a s1 ha hfr h1
      rw [wp_bind]
      have hr1 : Readable s1.nodes r (v :: vs) F := hr.frame fun b hb => by
        refine hfr b ?_ (hF b hb)
        rintro rfl; exact hFl b hb ha
      obtain ⟨r', e, hr'⟩ := hr1.advance
      rw [wp_of_eq e]
      have hpos : (some (.node a) : Ptr) = posPtr l (pre ++ [(a, v)]) := by rw [posPtr_snoc]
      rw [hpos]
      have hfr' : ∀ b, s1.nodes b = none → s.nodes b = none := by
        intro b hb
        by_cases hba : b = a
        · exact hba ▸ ha
        by_cases hbp : posPtr l pre = some (.node b)
        · exfalso
          rcases posPtr_cases l pre with ⟨rfl, e⟩ | ⟨ys, x, rfl, e⟩
          · rw [e] at hbp; cases hbp
          · rw [e] at hbp
            cases hbp
            refine h1.live (upd_same _ _ _) x.1 ?_ hb
            simp
        · rw [← hfr b hba hbp]; exact hb
      refine ih (L := upd L l (some (pre ++ (a, v) :: post))) (pre := pre ++ [(a, v)]) h1 ?_ hr' ?_ ?_ ?_ ?_ ?_
      · rw [upd_same]; simp
      · intro b hb e
        rw [posPtr_snoc] at e
        cases e
        exact hFl _ (List.mem_of_mem_tail hb) ha
      · intro b hb
        have hbF := List.mem_of_mem_tail hb
        rw [hfr b (by rintro rfl; exact hFl b hbF ha) (hF b hbF)]
        exact hFl b hbF
      · simp at hfuel; omega
      · intro ns s2 hns hfresh h2
        rw [upd_upd] at h2
        have := k ((a, v) :: ns) s2 (by simp [hns]) (by
          intro b hb
          rcases List.mem_cons.1 (by simpa using hb) with rfl | hb
          · exact ha
          · exact hfr' b (hfresh b hb)) (by simpa using h2)
        simpa using this
      · intro ns s2 w ws hns hfresh h2
        rw [upd_upd] at h2
        refine t ((a, v) :: ns) s2 w ws (by simp [hns]) (by
          intro b hb
          rcases List.mem_cons.1 (by simpa using hb) with rfl | hb
          · exact ha
          · exact hfr' b (hfresh b hb)) (by simpa using h2)
    · intro s1 hs1 h1
      exact t [] s1 v vs rfl (by simp) (by rw [List.append_nil, upd_self _ _ hl]; exact h1)

/-! ### Erasing -/

theorem eraseAfter_spec (h : Inv s L K) {pre post : Els α} {x : Nat × α}
    (hl : L l = some (pre ++ x :: post)) {Q : Unit → St α → Prop} {T : St α → Prop}
    (k : ∀ s', Inv s' (upd L l (some (pre ++ post))) K → Q () s') :
    wp (eraseAfter (posPtr l pre)) s Q T := by
  obtain ⟨p, hp, hseg⟩ := h.seg l _ hl
  obtain ⟨r, hpre, hx1, n, hx2, hpost⟩ := seg_append.1 hseg
  obtain ⟨n1, n2, n3⟩ := h.mem_of_append hl
  have hL : LSeg s l pre r := ⟨p, hp, hpre⟩
  have hxpre : x.1 ∉ ids pre := fun e => n3 _ e (by simp)
  have hxpost : x.1 ∉ ids post := (List.nodup_cons.1 (by simpa using n2)).1
  unfold eraseAfter
  rw [wp_bind, wp_of_eq (next_spec hL), wp_bind]
  subst hx1
  rw [wp_of_eq (next_node hx2), wp_bind]
  refine setNext_spec hL n1 n ?_
  intro s1 h1 ho
  have e1 : s1.nodes x.1 = some (.node n (some x.2)) := (ho.nodes _ hxpre).trans hx2
  rw [wp_bind]
  refine (wp_of_eq (by unfold destroy; simp only [e1]; rfl)).2 ?_
  refine (wp_of_eq (by unfold deallocate; simp only [upd_same]; rfl)).2 ?_
  have fr : ∀ a, a ≠ x.1 → upd (upd s1.nodes x.1 (some (.node n none))) x.1 none a = s1.nodes a := by
    intro a ha; rw [upd_upd]; exact upd_other _ _ ha
  refine k _ (h.set hl ?_ ?_ ?_ ?_ ?_ ?_)
  · intro m hm; exact ho.heads m hm
  · obtain ⟨p', hp', hs'⟩ := h1
    refine ⟨p', hp', seg_append.2 ⟨n, hs'.frame fun a ha => fr a ?_, hpost.frame fun a ha => ?_⟩⟩
    · rintro rfl; exact hxpre ha
    · refine (fr a (by rintro rfl; exact hxpost ha)).trans ?_
      exact ho.nodes a fun e => n3 a e (by simp [ha])
  · have := h.nodup l _ hl
    rw [ids_append, ids_cons, List.nodup_middle] at this
    rw [ids_append]; exact (List.nodup_cons.1 this).2
  · intro a ha ha'
    refine (fr a (by rintro rfl; exact ha (by simp))).trans ?_
    exact ho.nodes a fun e => ha (by simp [e])
  · intro a ha
    refine .inl ?_
    simp only [ids_append, ids_cons, List.mem_append, List.mem_cons] at ha ⊢
    tauto
  · intro a ha ha'
    have : a = x.1 := by
      simp only [ids_append, ids_cons, List.mem_append, List.mem_cons] at ha ha'
      tauto
    subst this
    exact upd_same _ _ _

theorem eraseLoop_spec {p q : Ptr} {mid : Els α} (hs : Seg s.nodes p mid q) (hn : (ids mid).Nodup)
    (hq : ∀ a ∈ ids mid, q ≠ some (.node a)) {fuel : Nat} (hfuel : mid.length < fuel)
    {Q : Unit → St α → Prop} {T : St α → Prop}
    (k : ∀ s', s'.heads = s.heads → (∀ a, a ∉ ids mid → s'.nodes a = s.nodes a) →
      (∀ a ∈ ids mid, s'.nodes a = none) → Q () s') :
    wp (eraseLoop fuel p q) s Q T := by
  induction mid generalizing fuel s p with
  | nil =>
    obtain ⟨f, rfl⟩ : ∃ f, fuel = f + 1 := ⟨fuel - 1, by simp at hfuel; omega⟩
    unfold eraseLoop
    rw [if_pos (show p = q from hs), wp_pure]
    exact k s rfl (fun _ _ => rfl) (by simp)
  | cons x mid ih =>
    obtain ⟨f, rfl⟩ : ∃ f, fuel = f + 1 := ⟨fuel - 1, by simp at hfuel; omega⟩
    obtain ⟨hp, n, hx, hs⟩ := hs
    obtain ⟨n1, n2⟩ := List.nodup_cons.1 (by simpa using hn)
    subst hp
    unfold eraseLoop
    rw [if_neg fun e => hq x.1 (by simp) e.symm, wp_bind, wp_of_eq (next_node hx), wp_bind]
    refine (wp_of_eq (by unfold destroy; simp only [hx]; rfl)).2 ?_
    rw [wp_bind]
    refine (wp_of_eq (by unfold deallocate; simp only [upd_same]; rfl)).2 ?_
    have fr : ∀ a, a ≠ x.1 → upd (upd s.nodes x.1 (some (.node n none))) x.1 none a = s.nodes a := by
      intro a ha; rw [upd_upd]; exact upd_other _ _ ha
    refine ih (hs.frame fun a ha => fr a (by rintro rfl; exact n1 ha)) n2
      (fun a ha => hq a (by simp [ha])) (by simp at hfuel; omega) ?_
    intro s' h1 h2 h3
    refine k s' h1 (fun a ha => ?_) fun a ha => ?_
    · simp only [ids_cons, List.mem_cons, not_or] at ha
      rw [h2 a ha.2]; exact fr a ha.1
    · rcases List.mem_cons.1 (by simpa using ha) with rfl | ha
      · rw [h2 _ n1]; exact upd_same _ _ _
      · exact h3 a ha

theorem eraseAfterRange_spec (h : Inv s L K) {pre mid post : Els α}
    (hl : L l = some (pre ++ (mid ++ post))) {fuel : Nat} (hfuel : mid.length < fuel)
    {Q : Unit → St α → Prop} {T : St α → Prop}
    (k : ∀ s', Inv s' (upd L l (some (pre ++ post))) K → Q () s') :
    wp (eraseAfterRange fuel (posPtr l pre) (ptr post none)) s Q T := by
  obtain ⟨p, hp, hseg⟩ := h.seg l _ hl
  obtain ⟨r, hpre, hrest⟩ := seg_append.1 hseg
  obtain ⟨q, hmid, hpost⟩ := seg_append.1 hrest
  obtain ⟨n1, n2, n3⟩ := h.mem_of_append hl
  rw [ids_append, List.nodup_append] at n2
  obtain ⟨n4, n5, n6⟩ := n2
  rw [hpost.ptr_eq] at hmid
  unfold eraseAfterRange
  rw [wp_bind, wp_of_eq (next_spec ⟨p, hp, hpre⟩), wp_bind]
  refine eraseLoop_spec hmid n4 ?_ hfuel ?_
  · intro a ha e
    cases post with
    | nil => cases e
    | cons y post =>
      cases e
      exact n6 _ ha _ (by simp) rfl
  · intro s1 h1 h2 h3
    have d1 : ∀ a ∈ ids pre, a ∉ ids mid := fun a ha hb => n3 a ha (by simp [hb])
    have d2 : ∀ a ∈ ids post, a ∉ ids mid := fun a ha hb => n6 a hb a ha rfl
    refine setNext_spec (l := l) (pre := pre) (r := r)
      ⟨p, by rw [h1]; exact hp, hpre.frame fun a ha => h2 a (d1 a ha)⟩ n1 _ ?_
    intro s2 h4 ho
    refine k _ (h.set hl ?_ ?_ ?_ ?_ ?_ ?_)
    · intro m hm; rw [ho.heads m hm, h1]
    · obtain ⟨p', hp', hs'⟩ := h4
      refine ⟨p', hp', seg_append.2 ⟨_, hs', ?_⟩⟩
      rw [hpost.ptr_eq] at hpost
      refine hpost.frame fun a ha => ?_
      rw [ho.nodes a fun e => n3 a e (by simp [ha]), h2 a (d2 a ha)]
    · rw [ids_append, List.nodup_append]
      exact ⟨n1, n5, fun a ha b hb e => n3 a ha (by subst e; simp [hb])⟩
    · intro a ha ha'
      simp only [ids_append, List.mem_append, not_or] at ha ha'
      rw [ho.nodes a ha.1, h2 a ha.2.1]
    · intro a ha
      refine .inl ?_
      simp only [ids_append, List.mem_append] at ha ⊢
      tauto
    · intro a ha ha'
      simp only [ids_append, List.mem_append, not_or] at ha ha'
      rw [ho.nodes a ha'.1, h3 a (by tauto)]

theorem clear_spec (h : Inv s L K) {xs : Els α} (hl : L l = some xs) {fuel : Nat}
    (hfuel : xs.length < fuel) {Q : Unit → St α → Prop} {T : St α → Prop}
    (k : ∀ s', Inv s' (upd L l (some [])) K → Q () s') : wp (clear fuel l) s Q T := by
  have := eraseAfterRange_spec (l := l) (pre := []) (mid := xs) (post := []) h (by simpa using hl) hfuel
    (Q := Q) (T := T) k
  exact this

/-! ### reverse -/

theorem reverseLoop_spec (h : Inv s L K) {fr rest : Els α} {t : Nat × α}
    (hl : L l = some (fr ++ t :: rest)) {fuel : Nat} (hfuel : rest.length < fuel)
    {Q : Unit → St α → Prop} {T : St α → Prop}
    (k : ∀ s', s'.log = s.log → Inv s' (upd L l (some (rest.reverse ++ fr ++ [t]))) K → Q () s') :
    wp (reverseLoop fuel l (some (.node t.1))) s Q T := by
  induction rest generalizing fuel s L fr with
  | nil =>
    obtain ⟨f, rfl⟩ : ∃ f, fuel = f + 1 := ⟨fuel - 1, by simp at hfuel; omega⟩
    obtain ⟨p, hp, hseg⟩ := h.seg l _ hl
    obtain ⟨r, -, -, n, ht2, ht3⟩ := seg_append.1 hseg
    unfold reverseLoop
    rw [wp_bind, wp_of_eq (next_node ht2), if_pos (show n = none from ht3), wp_pure]
    refine k s rfl ?_
    simp only [List.reverse_nil, List.nil_append]
    rw [upd_self _ _ hl]; exact h
  | cons c rest ih =>
    obtain ⟨f, rfl⟩ : ∃ f, fuel = f + 1 := ⟨fuel - 1, by simp at hfuel; omega⟩
    obtain ⟨p, hp, hseg⟩ := h.seg l _ hl
    obtain ⟨r, hfr, rfl, n, ht2, rfl, n', hc2, hrest⟩ := seg_append.1 hseg
    have hnd := h.nodup l _ hl
    simp only [ids_append, ids_cons] at hnd
    rw [List.nodup_append] at hnd
    obtain ⟨d1, d2, d3⟩ := hnd
    obtain ⟨d4, d5⟩ := List.nodup_cons.1 d2
    obtain ⟨d6, d7⟩ := List.nodup_cons.1 d5
    have htc : t.1 ≠ c.1 := fun e => d4 (by simp [e])
    have htr : t.1 ∉ ids rest := fun e => d4 (by simp [e])
    have htf : t.1 ∉ ids fr := fun e => d3 _ e _ (by simp) rfl
    have hcf : c.1 ∉ ids fr := fun e => d3 _ e c.1 (by simp) rfl
    unfold reverseLoop
    have hp0 : next (some (.head l)) s = .ok p s := by unfold next; simp only [hp]
    rw [wp_bind, wp_of_eq (next_node ht2), if_neg (by simp), wp_bind, wp_of_eq hp0, wp_bind]
    refine (wp_of_eq (by unfold setNext; simp only [hp]; rfl)).2 ?_
    rw [wp_bind]
    refine (wp_of_eq (by unfold next; simp only [hc2]; rfl)).2 ?_
    rw [wp_bind]
    refine (wp_of_eq (by unfold setNext; simp only [ht2]; rfl)).2 ?_
    rw [wp_bind]
    refine (wp_of_eq (by unfold next; simp only [upd_same]; rfl)).2 ?_
    rw [wp_bind]
    refine (wp_of_eq (by unfold setNext; simp only [upd_other _ _ (Ne.symm htc), hc2]; rfl)).2 ?_
    have fr' : ∀ a, a ≠ t.1 → a ≠ c.1 →
        upd (upd s.nodes t.1 (some (.node n' (some t.2)))) c.1 (some (.node p (some c.2))) a =
          s.nodes a := fun a h1 h2 => (upd_other _ _ h2).trans (upd_other _ _ h1)
    refine ih (L := upd L l (some ((c :: fr) ++ t :: rest))) (fr := c :: fr) (h.set hl ?_ ?_ ?_ ?_ ?_ ?_)
      (upd_same _ _ _) (by simp at hfuel; omega) ?_
    · intro m hm; exact upd_other _ _ hm
    · refine ⟨some (.node c.1), upd_same _ _ _, rfl, p, upd_same _ _ _, seg_append.2 ⟨_, hfr.frame ?_, rfl, n', ?_, ?_⟩⟩
      · intro a ha
        exact fr' a (by rintro rfl; exact htf ha) (by rintro rfl; exact hcf ha)
      · exact (upd_other _ _ htc).trans (upd_same _ _ _)
      · refine hrest.frame fun a ha => fr' a ?_ ?_
        · rintro rfl; exact htr ha
        · rintro rfl; exact d6 ha
    · simp only [ids_append, ids_cons, List.cons_append]
      refine List.nodup_cons.2 ⟨?_, ?_⟩
      · simp only [List.mem_append, List.mem_cons, not_or]
        exact ⟨hcf, Ne.symm htc, d6⟩
      · rw [List.nodup_append]
        refine ⟨d1, List.nodup_cons.2 ⟨htr, d7⟩, fun a ha b hb => d3 a ha b ?_⟩
        simp only [List.mem_cons] at hb ⊢; tauto
    · intro a ha _
      simp only [ids_append, ids_cons, List.mem_append, List.mem_cons, not_or] at ha
      exact fr' a ha.2.1 ha.2.2.1
    · intro a ha
      refine .inl ?_
      simp only [ids_append, ids_cons, List.cons_append, List.mem_append, List.mem_cons] at ha ⊢
      tauto
    · intro a ha ha'
      exfalso; apply ha'
      simp only [ids_append, ids_cons, List.cons_append, List.mem_append, List.mem_cons] at ha ⊢
      tauto
    · intro s' h1 h2
      rw [upd_upd] at h2
      exact k s' h1 (by simpa using h2)

theorem reverse_spec (h : Inv s L K) {xs : Els α} (hl : L l = some xs) {fuel : Nat}
    (hfuel : xs.length < fuel) {Q : Unit → St α → Prop} {T : St α → Prop}
    (k : ∀ s', s'.log = s.log → Inv s' (upd L l (some xs.reverse)) K → Q () s') :
    wp (reverse fuel l) s Q T := by
  obtain ⟨p, hp, hseg⟩ := h.seg l _ hl
  have hp0 : next (some (.head l)) s = .ok p s := by unfold next; simp only [hp]
  unfold reverse
  rw [wp_bind, wp_of_eq hp0]
  cases xs with
  | nil =>
    rw [if_pos (show p = none from hseg), wp_pure]
    refine k s rfl ?_
    rw [List.reverse_nil, upd_self _ _ hl]; exact h
  | cons x xs =>
    obtain ⟨rfl, n, -, -⟩ := hseg
    rw [if_neg (by simp)]
    refine reverseLoop_spec (fr := []) h hl (by simp at hfuel; omega) ?_
    intro s' h1 h2
    exact k s' h1 (by simpa using h2)

end Verif.LL
