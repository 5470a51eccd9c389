import Verif.Array.OpsC

/-! Specifications of the `Array` member functions, continued: erasure, ranges, constructors,
destruction. -/

set_option autoImplicit false

namespace Verif.Arr

variable {α : Type} (cfg : Elem α)

/-- `xs` without the elements at positions `i, ..., j - 1`. -/
def cut (xs : List α) (i j : Nat) : List α := xs.take i ++ xs.drop j

theorem cut_length {xs : List α} {i j : Nat} (h1 : i ≤ j) (h2 : j ≤ xs.length) :
    (cut xs i j).length = xs.length - (j - i) := by
  simp [cut]; omega

theorem cut_getElem {xs : List α} {i j : Nat} (h1 : i ≤ j) (h2 : j ≤ xs.length) (k : Nat)
    (hk : k < (cut xs i j).length) :
    (cut xs i j)[k] = xs[if k < i then k else k + (j - i)]'(by
      rw [cut_length h1 h2] at hk; split <;> omega) := by
  have hk' := hk
  rw [cut_length h1 h2] at hk'
  simp only [cut]
  by_cases h : k < i
  · rw [List.getElem_append_left (by simp; omega), List.getElem_take]
    congr 1; rw [if_pos h]
  · rw [List.getElem_append_right (by simp; omega), List.getElem_drop]
    congr 1; rw [if_neg h]; simp; omega

/-- Common part of the two `erase` functions. -/
theorem wp_eraseRange {s : St α} {xs : List α} {i j : Nat} {Q : Nat → St α → Prop}
    {E : St α → Prop} (hw : WF s.mem) (hh : Holds cfg s.mem s.d xs) (hij : i ≤ j)
    (hj : j ≤ xs.length) (hc : cfg.triv = true ∨ i = j ∨ j = xs.length)
    (hQ : ∀ s', Post cfg s s' (cut xs i j) s.d.cap → Q i s')
    (hE : ∀ s', Post cfg s s' xs s.d.cap → s.mem.ticks ≠ none → E s') :
    wp (eraseRange cfg i j) s Q E := by
  have hsz := hh.size
  have hle := hh.le
  unfold eraseRange
  rw [wp_bind, wp_getD]
  simp only
  rw [wp_bind]
  refine wp_mono (wp_destroyLoop cfg (nb := s.d.cap) (j - i) i s ?_ ?_ E) ?_ (fun _ h => h)
  · by_cases h : j - i = 0
    · exact .inl h
    · exact .inr ⟨hh.alive cfg (by omega), by omega⟩
  · exact .inr fun k hk => hh.live cfg (by omega)
  rintro _ s1 ⟨e1, _, c1⟩
  have fin : ∀ s2 : St α, Same s1 s2 →
      (∀ b k, s2.mem.cell b k = if b = s.d.blk ∧ i ≤ k ∧ k < i + (s.d.size - j) then
        s.mem.cell s.d.blk (k + (j - i)) else if b = s.d.blk ∧ i ≤ k ∧ k < j then
          .raw else s.mem.cell b k) →
      Q i { s2 with d := { s.d with size := s.d.size - (j - i) } } := by
    intro s2 e2 c2
    have e12 := e1.trans e2
    refine hQ _ (own_post cfg hw hh e12.size e12.next e12.ticks ?_ rfl rfl ?_ ?_ ?_ ?_)
    · intro b k hb
      simp only
      rw [c2, if_neg (by rintro ⟨h, _⟩; exact hb h), if_neg (by rintro ⟨h, _⟩; exact hb h)]
    · simp only; rw [cut_length hij hj, hsz]
    · rw [cut_length hij hj]; omega
    · intro k hk
      have hk' := hk
      rw [cut_length hij hj] at hk'
      simp only
      rw [c2, cut_getElem hij hj]
      by_cases h : k < i
      · rw [if_neg (by omega), if_neg (by omega), hh.cells k (by omega)]
        simp [h]
      · rw [if_pos ⟨rfl, by omega, by omega⟩, hh.cells (k + (j - i)) (by omega)]
        simp [h]
    · intro ht k h1 h2
      rw [cut_length hij hj] at h1
      simp only
      rw [c2]
      rw [if_neg (by omega)]
      split
      · rfl
      · rename_i h
        refine hh.rest ht k ?_ h2
        rcases hc.resolve_left (by rw [ht]; simp) with h' | h'
        · omega
        · simp at h; omega
  rw [wp_bind]
  by_cases hself : i = j
  · -- nothing is removed: the elements are copied onto themselves
    subst hself
    have hc1 : s1.mem.cell = s.mem.cell := by
      funext b k; rw [c1, if_neg (by omega)]
    simp only [Nat.sub_self, Nat.add_zero]
    by_cases h0 : s.d.size - i = 0
    · rw [h0]
      unfold fwdLoop
      rw [wp_pure, wp_bind, wp_setD, wp_pure]
      have := fin s1 (Same.rfl' s1) (fun b k => by
        rw [hc1, if_neg (by omega), if_neg (by omega)])
      simpa using this
    · obtain ⟨f, hf⟩ := choose_live (n := s.d.size - i) (g := fun k => s1.mem.cell s.d.blk (i + k))
        (by omega) (fun k hk => by
          show Live (s1.mem.cell s.d.blk (i + k))
          rw [hc1]; exact hh.live cfg (by omega))
      refine wp_mono (wp_fwdLoop_self cfg (nb := s.d.cap) (s.d.size - i) i s1 f
        (.inr ⟨by rw [e1.size]; exact hh.alive cfg (by omega), by omega⟩) hf) ?_ ?_
      · rintro _ s2 ⟨e2, c2⟩
        rw [wp_bind, wp_setD, wp_pure]
        have := fin s2 e2 (fun b k => by
          rw [c2, hc1]
          split
          · rename_i h; rw [h.1]; simp
          · rw [if_neg (by omega)])
        simpa using this
      · rintro s2 ⟨e2, c2, ht⟩
        have e12 := e1.trans e2
        refine hE s2 (own_post cfg hw hh e12.size e12.next e12.ticks ?_ ?_ ?_ ?_ ?_ ?_ ?_)
          (fun h0 => ht (e1.ticks h0))
        · intro b k _; rw [c2, hc1]
        · rw [e12.d]
        · rw [e12.d]
        · rw [e12.d, hsz]
        · omega
        · intro k hk; rw [c2, hc1]; exact hh.cells k hk
        · intro h k h1 h2; rw [c2, hc1]; exact hh.rest h k h1 h2
  · rw [show i + (j - i) = j by omega]
    refine wp_fwd cfg false (ns := s.d.cap) (nd := s.d.cap) ?_ (.inr hij) ?_ ?_ fun s2 e2 _ c2 => ?_
    · exact hc.imp id fun h => by have := h.resolve_left hself; omega
    · by_cases h : s.d.size - j = 0
      · exact .inl h
      · have := hh.alive cfg (by omega)
        exact .inr ⟨by rw [e1.size]; exact this, by rw [e1.size]; exact this, by omega, by omega⟩
    · intro k hk
      rw [c1, if_neg (by omega)]
      exact hh.live cfg (by omega)
    · rw [wp_bind, wp_setD, wp_pure]
      refine fin s2 e2 fun b k => ?_
      rw [c2]
      split
      · rw [c1, if_neg (by omega)]
        congr 1; omega
      · rw [c1]
        rename_i h
        split
        · rename_i h'; rw [if_pos (by omega)]
        · rw [if_neg (by omega)]

theorem erase_eq (pos : Nat) : erase cfg pos = eraseRange cfg pos (pos + 1) := by
  have h1 : pos + 1 - pos = 1 := by omega
  funext s
  unfold erase eraseRange
  simp only [h1]
  have h2 : destroyLoop cfg s.d.blk pos 1 = destroy cfg s.d.blk pos := by
    funext t
    show M.bind _ _ t = _
    unfold M.bind
    rcases destroy cfg s.d.blk pos t with ⟨⟨⟩, _⟩ | _ | _ <;> rfl
  show M.bind getD _ s = M.bind getD _ s
  unfold M.bind getD
  simp only [h2]

/-! ### Ranges -/

/-- The arguments denote the values. -/
def SrcsOk (m : Mem α) : List (Src α) → List α → Prop
  | [], [] => True
  | s :: ss, v :: vs => SrcOk m s v ∧ SrcsOk m ss vs
  | _, _ => False

theorem SrcsOk.length {m : Mem α} : ∀ {ss : List (Src α)} {vs : List α}, SrcsOk m ss vs →
    ss.length = vs.length
  | [], [], _ => rfl
  | _ :: _, _ :: _, h => by simp [h.2.length]
  | [], _ :: _, h => h.elim
  | _ :: _, [], h => h.elim

theorem SrcsOk.imp {m m' : Mem α} : ∀ {ss : List (Src α)} {vs : List α}, SrcsOk m ss vs →
    (∀ s v, s ∈ ss → SrcOk m s v → SrcOk m' s v) → SrcsOk m' ss vs
  | [], [], _, _ => trivial
  | s :: ss, v :: vs, h, hi => ⟨hi s v (by simp) h.1, h.2.imp fun s v hs => hi s v (by simp [hs])⟩
  | [], _ :: _, h, _ => h.elim
  | _ :: _, [], h, _ => h.elim

theorem SrcsOk.upd {m m' : Mem α} {b b' : Nat} {ss : List (Src α)} {vs : List α}
    (h : SrcsOk m ss vs) (hu : Upd m m' b b') (hf : ∀ s ∈ ss, Foreign b s) : SrcsOk m' ss vs :=
  h.imp fun s _ hs h1 => h1.upd hu (hf s hs)

theorem SrcOk.fresh {s s1 : St α} {n : Nat} (hf : Fresh s s1 n) {src : Src α} {v : α}
    (h : SrcOk s.mem src v) : SrcOk s1.mem src v ∧ Foreign s.mem.next src := by
  cases src with
  | val u => exact ⟨h, trivial⟩
  | ref b i =>
    obtain ⟨h1, h2⟩ := h
    have hx : s.mem.size b ≠ none := by intro hc; simp [inBounds, hc] at h1
    obtain ⟨g1, g2, g3⟩ := hf.old b hx
    exact ⟨⟨by simpa [inBounds, g2] using h1, by rw [g3]; exact h2⟩, g1⟩

theorem SrcsOk.foreign {s s1 : St α} {n : Nat} (hf : Fresh s s1 n) : ∀ {ss : List (Src α)}
    {vs : List α}, SrcsOk s.mem ss vs → SrcsOk s1.mem ss vs ∧ ∀ x ∈ ss, Foreign s.mem.next x
  | [], [], _ => ⟨trivial, by simp⟩
  | x :: xs, v :: vs, h => by
    obtain ⟨h1, h2⟩ := h.1.fresh hf
    obtain ⟨h3, h4⟩ := SrcsOk.foreign hf h.2
    exact ⟨⟨h1, h3⟩, by simpa using ⟨h2, h4⟩⟩
  | [], _ :: _, h => h.elim
  | _ :: _, [], h => h.elim

/-- Evaluating the argument cannot throw: a trivially copyable object is copied. -/
def Quiet (src : Src α) : Prop := cfg.triv = true ∧ ∃ b i, src = .ref b i

theorem wp_evalSrc' {src : Src α} {v : α} {s : St α} {Q : α → St α → Prop} {E : St α → Prop}
    (h : SrcOk s.mem src v) (hQ : ∀ s', Eff s s' s.mem.cell → Q v s')
    (hE : ∀ s', Eff s s' s.mem.cell → s.mem.ticks ≠ none → ¬ Quiet cfg src → E s') :
    wp (evalSrc cfg src) s Q E := by
  cases src with
  | val u => exact wp_evalSrc cfg h hQ fun s' e1 e2 => hE s' e1 e2 (by rintro ⟨_, _, _, h⟩; cases h)
  | ref b i =>
    exact wp_copyFrom cfg h.1 h.2 hQ (fun s' e h1 h2 => hE s' e h1 (by
      rintro ⟨h, _⟩; rw [h] at h2; cases h2))

/-- Constructing a range of values in consecutive cells of a block. -/
theorem wp_constructLoop {b nb : Nat} (srcs : List (Src α)) :
    ∀ (o : Nat) (s : St α) (vs : List α), SrcsOk s.mem srcs vs → (∀ x ∈ srcs, Foreign b x) →
    (srcs = [] ∨ s.mem.size b = some nb ∧ o + srcs.length ≤ nb) →
    (cfg.triv = true ∨ ∀ i, i < srcs.length → s.mem.cell b (o + i) = .raw) →
    wp (constructLoop cfg b o srcs) s
      (fun _ s' => Same s s' ∧
        (∀ b' i, (b' ≠ b ∨ i < o ∨ o + srcs.length ≤ i) → s'.mem.cell b' i = s.mem.cell b' i) ∧
        ∀ j (h : j < vs.length), s'.mem.cell b (o + j) = .live vs[j])
      (fun s' => Same s s' ∧ (s.mem.ticks ≠ none ∧ ∃ x ∈ srcs, ¬ Quiet cfg x) ∧
        (∀ b' i, (b' ≠ b ∨ i < o ∨ o + srcs.length ≤ i) → s'.mem.cell b' i = s.mem.cell b' i)) := by
  induction srcs with
  | nil =>
    intro o s vs hv _ _ _
    unfold constructLoop
    rw [wp_pure]
    refine ⟨Same.rfl' s, fun _ _ _ => rfl, ?_⟩
    have := hv.length
    intro j hj
    simp at this; omega
  | cons x srcs ih =>
    intro o s vs hv hfor hs hraw
    rcases vs with _ | ⟨v, vs⟩
    · exact hv.elim
    obtain ⟨hv1, hv2⟩ := hv
    obtain ⟨hsz, hlen⟩ := hs.resolve_left (by simp)
    simp only [List.length_cons] at hlen
    unfold constructLoop
    rw [wp_bind]
    refine wp_evalSrc' cfg hv1 (fun s1 e1 => ?_)
      (fun s1 e1 h hq => ⟨e1.toSame, ⟨h, x, by simp, hq⟩, fun _ _ _ => by rw [e1.cell]⟩)
    rw [wp_bind]
    refine wp_construct cfg ((inBounds_iff (by rw [e1.size]; exact hsz)).mpr (by omega)) ?_
      fun s2 e2 => ?_
    · refine hraw.imp id fun h => ?_
      rw [e1.cell]; simpa using h 0 (by simp)
    have e12 := e1.toSame.trans e2.toSame
    have hc2 : ∀ b' i, (b' ≠ b ∨ i ≠ o) → s2.mem.cell b' i = s.mem.cell b' i := by
      intro b' i h
      rw [e2.cell]; simp only [upd2]
      rw [if_neg (by rintro ⟨h1, h2⟩; rcases h with h | h; exact h h1; exact h h2), e1.cell]
    refine wp_mono (ih (o + 1) s2 vs ?_ (fun y hy => hfor y (by simp [hy]))
      (.inr ⟨by rw [e12.size]; exact hsz, by omega⟩) ?_) ?_ ?_
    · refine hv2.imp fun y u hy h => h.same e12 fun b' i hbi => hc2 b' i (.inl ?_)
      have := hfor y (by simp [hy])
      subst hbi
      exact this
    · refine hraw.imp id fun h i hi => ?_
      rw [hc2 _ _ (.inr (by omega))]
      have := h (i + 1) (by simp; omega)
      rw [← this]; congr 1; omega
    · rintro _ s3 ⟨g1, g2, g3⟩
      refine ⟨e12.trans g1, ?_, ?_⟩
      · intro b' i h
        simp only [List.length_cons] at h
        rw [g2 b' i (by rcases h with h | h | h; exact .inl h; exact .inr (.inl (by omega)); exact .inr (.inr (by omega))),
          hc2 b' i (by omega)]
      · intro j hj
        rcases j with _ | j
        · rw [g2 b (o + 0) (by omega), e2.cell]
          simp [upd2]
        · simp only [List.length_cons] at hj
          have := g3 j (by omega)
          rw [show o + (j + 1) = o + 1 + j by omega, this]
          simp
    · rintro s3 ⟨g1, g2, g3⟩
      obtain ⟨y, hy, hq⟩ := g2.2
      refine ⟨e12.trans g1, ⟨fun h0 => g2.1 (e12.ticks h0), y, by simp [hy], hq⟩, ?_⟩
      intro b' i h
      simp only [List.length_cons] at h
      rw [g3 b' i (by rcases h with h | h | h; exact .inl h; exact .inr (.inl (by omega)); exact .inr (.inr (by omega))),
        hc2 b' i (by omega)]

/-- The loop of `push_back(first, last)` when there is room for the whole range. -/
theorem wp_pushLoop (srcs : List (Src α)) :
    ∀ (s : St α) (xs vs : List α), WF s.mem → Holds cfg s.mem s.d xs →
    xs.length + srcs.length ≤ s.d.cap → SrcsOk s.mem srcs vs →
    (∀ b i, Src.ref b i ∈ srcs → b ≠ s.d.blk ∨ i < xs.length) →
    wp (pushLoop cfg srcs) s (fun _ s' => Post cfg s s' (xs ++ vs) s.d.cap)
      (fun s' => s.mem.ticks ≠ none ∧ ∃ k, Post cfg s s' (xs ++ vs.take k) s.d.cap) := by
  induction srcs with
  | nil =>
    intro s xs vs hw hh hroom hv _
    unfold pushLoop
    rw [wp_pure]
    have := hv.length
    have : vs = [] := List.length_eq_zero_iff.mp (by simpa using this.symm)
    rw [this, List.append_nil]
    exact Post.refl cfg hw hh
  | cons x srcs ih =>
    intro s xs vs hw hh hroom hv hfor
    rcases vs with _ | ⟨v, vs⟩
    · exact hv.elim
    obtain ⟨hv1, hv2⟩ := hv
    simp only [List.length_cons] at hroom
    have key : wp (do
        let v ← evalSrc cfg x
        construct cfg s.d.blk s.d.size v
        setD { s.d with size := s.d.size + 1 }) s
          (fun _ s' => wp (pushLoop cfg srcs) s' (fun _ s' => Post cfg s s' (xs ++ v :: vs) s.d.cap)
            (fun s' => s.mem.ticks ≠ none ∧ ∃ k, Post cfg s s' (xs ++ (v :: vs).take k) s.d.cap))
          (fun s' => s.mem.ticks ≠ none ∧ ∃ k, Post cfg s s' (xs ++ (v :: vs).take k) s.d.cap) → 
        wp (pushLoop cfg (x :: srcs)) s (fun _ s' => Post cfg s s' (xs ++ v :: vs) s.d.cap)
          (fun s' => s.mem.ticks ≠ none ∧ ∃ k, Post cfg s s' (xs ++ (v :: vs).take k) s.d.cap) := by
      intro h
      conv => enter [1]; unfold pushLoop
      simp only [wp_bind, wp_getD] at h ⊢
      exact h
    apply key
    refine wp_append cfg hw hh (by omega) hv1 (fun s1 p1 _ _ hb hcells hsize => ?_)
      (fun s1 p1 h => ⟨h, 0, by simpa using p1⟩)
    have hcap := p1.cap
    refine wp_mono (ih s1 (xs ++ [v]) vs p1.wf p1.holds (by simp; omega) ?_ ?_) ?_ ?_
    · refine hv2.imp fun y u hy h => ?_
      cases y with
      | val _ => exact h
      | ref b i =>
        refine ⟨by simpa [inBounds, hsize] using h.1, ?_⟩
        rw [hcells b i ((hfor b i (by simp [hy])).imp id (by omega))]
        exact h.2
    · intro b i hbi
      refine (hfor b i (by simp [hbi])).imp (by rw [hb]; exact id) (by simp; omega)
    · intro _ s2 p2
      have := p1.trans cfg p2
      rw [hcap] at this
      simpa using this
    · rintro s2 ⟨h, k, p2⟩
      refine ⟨fun h0 => h (p1.ticks h0), k + 1, ?_⟩
      have := p1.trans cfg p2
      rw [hcap] at this
      simpa using this

theorem wp_pushRange {s : St α} {xs vs : List α} {srcs : List (Src α)}
    (hw : WF s.mem) (hh : Holds cfg s.mem s.d xs)
    (hc : cfg.triv = true ∨ xs = [] ∨ xs.length + vs.length ≤ s.d.cap)
    (hv : SrcsOk s.mem srcs vs)
    (hfor : ∀ x ∈ srcs, Foreign s.d.blk x ∨
      (xs.length + vs.length ≤ s.d.cap ∧ ∀ b i, x = .ref b i → i < xs.length))
    {Q : Unit → St α → Prop} {E : St α → Prop}
    (hQ : ∀ s', Post cfg s s' (xs ++ vs) (max s.d.cap (xs.length + vs.length)) → Q () s')
    (hE : ∀ s' k c, Post cfg s s' (xs ++ vs.take k) c → s.d.cap ≤ c → s.mem.ticks ≠ none → E s') :
    wp (pushRange cfg srcs) s Q E := by
  have hsz := hh.size
  have hle := hh.le
  have hl := hv.length
  unfold pushRange
  rw [wp_bind, wp_getD]
  simp only
  rw [wp_bind, wp_onlyIf]
  split
  · rename_i hg
    have hf : ∀ x ∈ srcs, Foreign s.d.blk x := fun x hx => (hfor x hx).resolve_right (by omega)
    refine wp_growStorage cfg hw hh (hc.imp id fun h => h.resolve_right (by omega))
      (n := s.d.size + srcs.length) (by omega) (fun s1 p1 _ _ _ => ?_)
      (fun s1 p1 h => hE s1 0 _ (by simpa using p1) (Nat.le_refl _) h)
    have hcap := p1.cap
    have hv1 := hv.upd p1.upd hf
    refine wp_mono (wp_pushLoop cfg srcs s1 xs vs p1.wf p1.holds (by omega) hv1 ?_) ?_ ?_
    · intro b i hbi
      by_cases h : b = s1.d.blk
      · right
        -- references into the fresh block cannot exist
        exfalso
        have hfb := hf _ hbi
        rcases p1.upd.new with h' | h'
        · rw [h, h'] at hfb; exact hfb rfl
        · have : ∀ (ss : List (Src α)) (us : List α), SrcsOk s.mem ss us → Src.ref b i ∈ ss →
              s.mem.size b ≠ none := by
            intro ss
            induction ss with
            | nil => intro us _ hm; simp at hm
            | cons y ss ih =>
              intro us hu hm
              rcases us with _ | ⟨u, us⟩
              · exact hu.elim
              · rcases List.mem_cons.mp hm with rfl | hm
                · have := hu.1.1
                  intro hc
                  simp [inBounds, hc] at this
                · exact ih us hu.2 hm
          rw [h] at this
          exact this srcs vs hv (by rw [← h]; exact hbi) h'
      · exact .inl h
    · intro _ s2 p2
      have := p1.trans cfg p2
      rw [hcap] at this
      refine hQ s2 ?_
      rw [show max s.d.cap (xs.length + vs.length) = s.d.size + srcs.length by omega]
      exact this
    · rintro s2 ⟨h, k, p2⟩
      exact hE s2 k _ (p1.trans cfg p2) (by omega) (fun h0 => h (p1.ticks h0))
  · rename_i hg
    refine wp_mono (wp_pushLoop cfg srcs s xs vs hw hh (by omega) hv ?_) ?_ ?_
    · intro b i hbi
      rcases hfor _ hbi with h | ⟨_, h⟩
      · exact .inl h
      · exact .inr (h b i rfl)
    · intro _ s2 p2
      refine hQ s2 ?_
      rw [show max s.d.cap (xs.length + vs.length) = s.d.cap by omega]
      exact p2
    · rintro s2 ⟨h, k, p2⟩
      exact hE s2 k _ p2 (Nat.le_refl _) h

/-- The destructor of an object with data `d` that holds `xs`. -/
theorem wp_destructor {s : St α} {d : Data} {xs : List α} (hh : Holds cfg s.mem d xs)
    {Q : Unit → St α → Prop} {E : St α → Prop}
    (hQ : ∀ s', (∀ b, s'.mem.size b = if d.blk ≠ 0 ∧ b = d.blk then none else s.mem.size b) →
      (∀ b, b ≠ d.blk → s'.mem.cell b = s.mem.cell b) → s'.mem.next = s.mem.next → s'.d = s.d →
      (s.mem.ticks = none → s'.mem.ticks = none) → Q () s') :
    wp (destructor cfg d) s Q E := by
  have hsz := hh.size
  have hle := hh.le
  unfold destructor
  rw [wp_bind]
  refine wp_mono (wp_destroyLoop cfg (nb := d.cap) d.size 0 s ?_ ?_ E) ?_ (fun _ h => h)
  · by_cases h : d.size = 0
    · exact .inl h
    · exact .inr ⟨hh.alive cfg (by omega), by omega⟩
  · exact .inr fun i hi => by rw [Nat.zero_add]; exact hh.live cfg hi
  rintro _ s1 ⟨e1, _, c1⟩
  rw [wp_onlyIf]
  split
  · rename_i h0
    have hblk := (hh.blk.resolve_left fun h => h0 h.1).2
    refine wp_deallocate cfg (by rw [e1.size]; exact hblk) ?_ fun s2 e2 => ?_
    · by_cases ht : cfg.triv = true
      · exact .inl ht
      · refine .inr fun i hi => ?_
        rw [c1]
        split
        · rfl
        · rename_i h
          exact hh.rest (by simpa using ht) i (by simp at h; omega) hi
    · refine hQ s2 ?_ ?_ ?_ ?_ ?_
      · intro b
        rw [e2.size, e1.size]
        simp only [Arr.upd]
        by_cases hb : b = d.blk
        · rw [if_pos hb, if_pos ⟨h0, hb⟩]
        · rw [if_neg hb, if_neg (by rintro ⟨_, h⟩; exact hb h)]
      · intro b hb
        funext i
        rw [e2.cell, c1, if_neg (by rintro ⟨h, _⟩; exact hb h)]
      · rw [e2.next, e1.next]
      · rw [e2.d, e1.d]
      · intro h; exact e2.ticks (e1.ticks h)
  · rename_i h0
    refine hQ s1 ?_ ?_ e1.next e1.d e1.ticks
    · intro b; rw [e1.size, if_neg (by rintro ⟨h, _⟩; exact h0 h)]
    · intro b hb
      funext i
      rw [c1, if_neg (by rintro ⟨h, _⟩; exact hb h)]

end Verif.Arr
