import Verif.Array.OpsD

/-! Specifications of the `Array` member functions, continued: range insertion, `reserve`, `resize`,
constructors and assignment. -/

set_option autoImplicit false

namespace Verif.Arr

variable {α : Type} (cfg : Elem α)

theorem holds_null (m : Mem α) : Holds cfg m .null [] :=
  ⟨rfl, Nat.le_refl _, .inl ⟨rfl, rfl⟩, fun i h => by simp at h, fun _ i _ h => by
    simp [Data.null] at h⟩

/-- After allocating `nb := s.mem.next` and filling only `nb`, an object owning it exists. -/
theorem fresh_post {s s1 s2 : St α} {n : Nat} {xs' : List α} {d' : Data}
    (hw : WF s.mem) (hf : Fresh s s1 n) (h2 : Same s1 s2)
    (hk : ∀ b, b ≠ s.mem.next → s2.mem.cell b = s1.mem.cell b)
    (hd : d'.blk = s.mem.next) (hsz : d'.size = xs'.length) (hcap : d'.cap = n)
    (hle : xs'.length ≤ n)
    (hc : ∀ i (h : i < xs'.length), s2.mem.cell s.mem.next i = .live xs'[i])
    (hr : cfg.triv = false → ∀ i, xs'.length ≤ i → i < n → s2.mem.cell s.mem.next i = .raw) :
    Post cfg ⟨s.mem, .null⟩ ⟨s2.mem, d'⟩ xs' n := by
  have hf' : Fresh (⟨s.mem, .null⟩ : St α) ⟨s1.mem, .null⟩ n :=
    ⟨⟨hf.alloc.size, hf.alloc.cell, hf.alloc.next, rfl, hf.alloc.allocs, hf.alloc.moves,
      hf.alloc.ticks⟩, hf.ne0, hf.none', hf.old⟩
  exact replace_post cfg (s := ⟨s.mem, .null⟩) (s1 := ⟨s1.mem, .null⟩) (s2 := ⟨s2.mem, .null⟩)
    (s3 := ⟨s2.mem, .null⟩) hw (holds_null cfg _) hf'
    ⟨h2.size, h2.next, rfl, h2.allocs, h2.ticks⟩ (fun b hb _ => hk b hb) (.inl ⟨rfl, rfl⟩) hd hsz
    hcap hle hc hr

/-- A new object `p` exists next to the old one (`d`); destroying the old one completes a
replacement. -/
theorem wp_dropOld {m0 : Mem α} {d : Data} {s1 : St α} {xs vs : List α} {n : Nat}
    (hw0 : WF m0) (p : Post cfg ⟨m0, .null⟩ s1 vs n) (hh : Holds cfg m0 d xs)
    {Q : Unit → St α → Prop} {E : St α → Prop}
    (hQ : ∀ s2, Post cfg ⟨m0, d⟩ s2 vs n → Q () s2) :
    wp (destructor cfg d) s1 Q E := by
  have hnew : s1.d.blk = 0 ∨ m0.size s1.d.blk = none := p.upd.new
  -- the old object is untouched
  have hold : d.blk ≠ 0 → s1.mem.size d.blk = some d.cap ∧ s1.mem.cell d.blk = m0.cell d.blk := by
    intro h0
    have hb := (hh.blk.resolve_left fun h => h0 h.1).2
    obtain ⟨g1, g2⟩ := p.upd.keep d.blk (by rw [hb]; simp) h0
    exact ⟨by rw [g1, hb], g2⟩
  have hh1 : Holds cfg s1.mem d xs := by
    refine ⟨hh.size, hh.le, ?_, ?_, ?_⟩
    · rcases hh.blk with h | h
      · exact .inl h
      · exact .inr ⟨h.1, (hold h.1).1⟩
    · intro i hi
      have h0 : d.blk ≠ 0 := by
        intro h
        have := (hh.blk.resolve_right fun h' => h'.1 h).2
        have h1 := hh.size
        have h2 := hh.le
        omega
      rw [(hold h0).2]; exact hh.cells i hi
    · intro ht i h1 h2
      have h0 : d.blk ≠ 0 := by
        intro h
        have := (hh.blk.resolve_right fun h' => h'.1 h).2
        omega
      rw [(hold h0).2]; exact hh.rest ht i h1 h2
  refine wp_destructor cfg hh1 fun s2 hsize hcell hnext hd htick => hQ s2 ?_
  have hne : d.blk ≠ 0 → s1.d.blk ≠ d.blk := by
    intro h0 h
    rcases hnew with h1 | h1
    · exact h0 (h ▸ h1)
    · have := (hold h0).1
      have hb := (hh.blk.resolve_left fun h => h0 h.1).2
      rw [h] at h1
      rw [h1] at hb; cases hb
  have hcellblk : s1.d.blk ≠ 0 → s2.mem.cell s1.d.blk = s1.mem.cell s1.d.blk := by
    intro h
    apply hcell
    intro h'
    by_cases h0 : d.blk = 0
    · exact h (h'.trans h0)
    · exact hne h0 h'
  refine ⟨⟨?_, ?_, ?_⟩, ⟨?_, ?_, ?_, ?_, ?_⟩, by rw [hd]; exact p.cap, ⟨?_, ?_, ?_⟩,
    fun h => htick (p.ticks h)⟩
  · intro b hb
    rw [hsize]
    split
    · rfl
    · exact p.wf.fresh b (by rw [← hnext]; exact hb)
  · rw [hsize]
    split
    · rfl
    · exact p.wf.null
  · rw [hnext]; exact p.wf.pos
  · rw [hd]; exact p.holds.size
  · rw [hd]; exact p.holds.le
  · rw [hd]
    rcases p.holds.blk with h | h
    · exact .inl h
    · refine .inr ⟨h.1, ?_⟩
      rw [hsize, if_neg]
      · exact h.2
      · rintro ⟨h0, h1⟩; exact hne h0 h1
  · intro i hi
    rw [hd, hcellblk]
    · exact p.holds.cells i hi
    · intro h
      have := (p.holds.blk.resolve_right fun h' => h'.1 h).2
      have h1 := p.holds.size
      have h2 := p.holds.le
      omega
  · intro ht i h1 h2
    rw [hd] at h2 ⊢
    rw [hcellblk]
    · exact p.holds.rest ht i h1 h2
    · intro h
      have := (p.holds.blk.resolve_right fun h' => h'.1 h).2
      omega
  · intro x hx hxd
    simp only at hx hxd
    have hx0 : x ≠ 0 := by rintro rfl; exact hx hw0.null
    obtain ⟨g1, g2⟩ := p.upd.keep x hx hx0
    exact ⟨by rw [hsize, if_neg (by rintro ⟨_, h⟩; exact hxd h)]; exact g1,
      by rw [hcell x hxd]; exact g2⟩
  · intro x hx
    rw [hsize] at hx
    rw [hd]
    split at hx
    · exact absurd rfl hx
    · rename_i h
      rcases p.upd.owned x hx with h1 | h1
      · exact .inl h1
      · refine .inr ⟨h1.1, ?_⟩
        intro hxd
        apply h
        refine ⟨?_, hxd⟩
        simp only at hxd
        rw [← hxd]; exact h1.2
  · rw [hd]
    simp only
    by_cases h0 : s1.d.blk = 0
    · right; rw [h0]; exact hw0.null
    · exact .inr (hnew.resolve_left h0)

/-- Allocating a block, writing to it and giving it back: no object. -/
theorem undo_new {s s1 s2 s3 : St α} {n : Nat}
    (hw : WF s.mem) (hf : Fresh s s1 n) (h2 : Same s1 s2)
    (hk : ∀ b, b ≠ s.mem.next → s2.mem.cell b = s1.mem.cell b)
    (hsize : ∀ b, s3.mem.size b = if b = s.mem.next then none else s2.mem.size b)
    (hcell : ∀ b, b ≠ s.mem.next → s3.mem.cell b = s2.mem.cell b)
    (hnext : s3.mem.next = s2.mem.next) (ht : s2.mem.ticks = none → s3.mem.ticks = none) :
    Post cfg ⟨s.mem, .null⟩ ⟨s3.mem, .null⟩ [] 0 := by
  have hsz : s3.mem.size = s.mem.size := by
    funext b
    rw [hsize, h2.size, hf.alloc.size]
    simp only [Arr.upd]
    by_cases h : b = s.mem.next
    · rw [if_pos h, h, hf.none']
    · rw [if_neg h, if_neg h]
  refine ⟨⟨?_, ?_, ?_⟩, holds_null cfg _, rfl, ⟨?_, ?_, .inl rfl⟩,
    fun h => ht (h2.ticks (hf.alloc.ticks h))⟩
  · intro b hb
    simp only at hb ⊢
    rw [hsz]
    rw [hnext, h2.next, hf.alloc.next] at hb
    exact hw.fresh b (by omega)
  · simp only; rw [hsz]; exact hw.null
  · simp only; rw [hnext, h2.next, hf.alloc.next]; omega
  · intro x hx _
    simp only at hx ⊢
    obtain ⟨g1, _, g3⟩ := hf.old x hx
    exact ⟨by rw [hsz], by rw [hcell x g1, hk x g1, g3]⟩
  · intro x hx
    simp only at hx ⊢
    rw [hsz] at hx
    by_cases h : x = 0
    · exact .inl h
    · exact .inr ⟨hx, h⟩

/-- The argument list cannot throw. -/
def AllQuiet (srcs : List (Src α)) : Prop := ∀ x ∈ srcs, Quiet cfg x

theorem wp_copyLoop_of {b : Nat} {Q : Unit → St α → Prop} {E : St α → Prop} :
    ∀ (srcs : List (Src α)) (o : Nat) (s : St α),
    wp (constructLoop cfg b o srcs) s Q (fun _ => False) → wp (copyLoop cfg b o srcs) s Q E
  | [], _, _, h => h
  | x :: srcs, o, s, h => by
    unfold constructLoop at h
    unfold copyLoop
    rw [wp_bind, wp_tryRethrow, wp_bind]
    rw [wp_bind] at h
    refine wp_mono h (fun v s1 h1 => ?_) (fun _ h => h.elim)
    rw [wp_bind] at h1
    refine wp_mono h1 (fun _ s2 h2 => ?_) (fun _ h => h.elim)
    exact wp_copyLoop_of srcs (o + 1) s2 h2

theorem wp_ctorCap {s : St α} {n : Nat} {Q : Unit → St α → Prop} {E : St α → Prop}
    (hw : WF s.mem) (hd : s.d = .null)
    (hQ : ∀ s', Post cfg s s' [] n → Q () s')
    (hE : ∀ s', Post cfg s ⟨s'.mem, .null⟩ [] 0 → s.mem.ticks ≠ none → E s') :
    wp (ctorCap n) s Q E := by
  obtain ⟨m, d⟩ := s
  simp only at hd
  subst hd
  unfold ctorCap
  rw [wp_bind]
  refine wp_allocate (fun s1 e1 => ?_) (fun s1 e1 h => ?_)
  · rw [wp_setD]
    have hf := e1.fresh hw
    exact hQ _ (fresh_post cfg (s := ⟨m, .null⟩) hw hf (Same.rfl' s1) (fun _ _ => rfl) rfl rfl rfl
      (by simp) (fun i h => by simp at h) (fun _ i _ _ => hf.cell_new i))
  · have p := Eff.post cfg e1 hw (holds_null cfg _)
    refine hE _ (Post.congr cfg p rfl ?_) h
    exact e1.d.symm

theorem wp_ctorRange {s : St α} {srcs : List (Src α)} {vs : List α} {Q : Unit → St α → Prop}
    {E : St α → Prop} (hw : WF s.mem) (hd : s.d = .null) (hv : SrcsOk s.mem srcs vs)
    (hno : s.mem.ticks = none ∨ AllQuiet cfg srcs)
    (hQ : ∀ s', Post cfg s s' vs vs.length → Q () s')
    (hE : ∀ s', Post cfg s ⟨s'.mem, .null⟩ [] 0 → s.mem.ticks ≠ none → E s') :
    wp (ctorRange cfg srcs) s Q E := by
  have hl := hv.length
  obtain ⟨m, d⟩ := s
  simp only at hd
  subst hd
  unfold ctorRange
  rw [wp_bind]
  unfold ctorCap
  rw [wp_bind]
  refine wp_allocate (fun s1 e1 => ?_) (fun s1 e1 h => ?_)
  · rw [wp_setD, wp_bind, wp_getD]
    simp only
    have hf := e1.fresh hw
    obtain ⟨hv1, hfor⟩ := SrcsOk.foreign hf hv
    rw [wp_bind, wp_tryRethrow]
    refine wp_copyLoop_of cfg srcs 0 _ ?_
    refine wp_mono (wp_constructLoop cfg (b := m.next) (nb := srcs.length) srcs 0
      ⟨s1.mem, ⟨m.next, 0, srcs.length⟩⟩ vs hv1 hfor
      (.inr ⟨hf.size_new, by omega⟩) (.inr fun i _ => hf.cell_new _)) ?_ ?_
    · rintro _ s2 ⟨g1, g2, g3⟩
      rw [wp_setD]
      refine hQ _ (fresh_post cfg (s := ⟨m, .null⟩) (s1 := s1) (s2 := ⟨s2.mem, s1.d⟩) hw (hl ▸ hf)
        ⟨g1.size, g1.next, rfl, g1.allocs, g1.ticks⟩ ?_ rfl hl hl (Nat.le_refl _) ?_ ?_)
      · intro b hb
        funext i
        exact g2 b i (.inl hb)
      · intro i hi
        simpa using g3 i hi
      · intro _ i h1 h2; omega
    · rintro s2 ⟨_, ⟨h1, x, hx, hq⟩, _⟩
      rcases hno with h | h
      · exact h1 (e1.ticks h)
      · exact hq (h x hx)
  · have p := Eff.post cfg e1 hw (holds_null cfg _)
    refine hE _ (Post.congr cfg p rfl ?_) h
    exact e1.d.symm

theorem wp_fillLoop {b nb first : Nat} {v : α} (n : Nat) :
    ∀ (k : Nat) (s : St α), s.mem.size b = some nb → first + k + n ≤ nb →
    (∀ i, i < k → s.mem.cell b (first + i) = .live v) →
    (cfg.triv = true ∨ ∀ i, i < n → s.mem.cell b (first + k + i) = .raw) →
    wp (fillLoop cfg b first v (first + k) n) s
      (fun _ s' => Same s s' ∧
        (∀ b' i, (b' ≠ b ∨ i < first ∨ first + k + n ≤ i) → s'.mem.cell b' i = s.mem.cell b' i) ∧
        ∀ i, i < k + n → s'.mem.cell b (first + i) = .live v)
      (fun s' => Same s s' ∧ s.mem.ticks ≠ none ∧
        (∀ b' i, b' ≠ b → s'.mem.cell b' i = s.mem.cell b' i) ∧
        (cfg.triv = false → ∀ i, (∀ j, first ≤ j → j < first + k → i ≠ j) → 
          s.mem.cell b i = .raw → s'.mem.cell b i = .raw) ∧
        (cfg.triv = false → ∀ i, i < k → s'.mem.cell b (first + i) = .raw)) := by
  induction n with
  | zero =>
    intro k s _ _ hlive _
    unfold fillLoop
    rw [wp_pure]
    exact ⟨Same.rfl' s, fun _ _ _ => rfl, by simpa using hlive⟩
  | succ n ih =>
    intro k s hs hle hlive hraw
    unfold fillLoop
    rw [wp_bind, wp_tryRethrow, wp_bind]
    refine wp_tick (fun s1 e1 => ?_) (fun s1 e1 h => ?_)
    · refine wp_construct cfg ((inBounds_iff (by rw [e1.size]; exact hs)).mpr (by omega))
        (hraw.imp id fun h => by rw [e1.cell]; simpa using h 0 (by omega)) fun s2 e2 => ?_
      have e12 := e1.toSame.trans e2.toSame
      have hc2 : ∀ b' i, s2.mem.cell b' i = if b' = b ∧ i = first + k then .live v
          else s.mem.cell b' i := by
        intro b' i; rw [e2.cell]; simp only [upd2, e1.cell]
      rw [show first + k + 1 = first + (k + 1) by omega]
      refine wp_mono (ih (k + 1) s2 (by rw [e12.size]; exact hs) (by omega) ?_ ?_) ?_ ?_
      · intro i hi
        rw [hc2]
        by_cases h : i = k
        · rw [if_pos ⟨rfl, by omega⟩]
        · rw [if_neg (by omega)]; exact hlive i (by omega)
      · refine hraw.imp id fun h i hi => ?_
        rw [hc2, if_neg (by omega)]
        have := h (i + 1) (by omega)
        rw [← this]; congr 1; omega
      · rintro _ s3 ⟨g1, g2, g3⟩
        refine ⟨e12.trans g1, ?_, fun i hi => g3 i (by omega)⟩
        intro b' i h
        rw [g2 b' i (by omega), hc2, if_neg (by omega)]
      · rintro s3 ⟨g1, g2, g3, g4, g5⟩
        refine ⟨e12.trans g1, fun h0 => g2 (e12.ticks h0), ?_, ?_, ?_⟩
        · intro b' i hb
          rw [g3 b' i hb, hc2, if_neg (by rintro ⟨h, _⟩; exact hb h)]
        · intro ht i hi hr
          by_cases h : i = first + k
          · have := g5 ht k (by omega)
            rw [h]; exact this
          · refine g4 ht i (fun j h1 h2 => ?_) ?_
            · by_cases hj : j = first + k
              · rw [hj]; exact h
              · exact hi j h1 (by omega)
            · rw [hc2, if_neg (by rintro ⟨_, h'⟩; exact h h')]; exact hr
        · intro ht i hi
          exact g5 ht i (by omega)
    · refine wp_mono (wp_destroyLoop cfg (nb := nb) (first + k - first) first s1 ?_ ?_
        (fun s' => False)) ?_ (fun _ h => h.elim)
      · by_cases h : k = 0
        · left; omega
        · exact .inr ⟨by rw [e1.size]; exact hs, by omega⟩
      · exact .inr fun i hi => ⟨v, by rw [e1.cell]; exact hlive i (by omega)⟩
      · rintro _ s2 ⟨g1, _, g2⟩
        refine ⟨e1.toSame.trans g1, h, ?_, ?_, ?_⟩
        · intro b' i hb
          rw [g2, if_neg (by rintro ⟨h, _⟩; exact hb h), e1.cell]
        · intro _ i _ hr
          rw [g2, e1.cell]
          split
          · rfl
          · exact hr
        · intro _ i hi
          rw [g2, if_pos ⟨rfl, by omega, by omega⟩]

theorem wp_ctorFill {s : St α} {n : Nat} {v : α} {Q : Unit → St α → Prop}
    {E : St α → Prop} (hw : WF s.mem) (hd : s.d = .null)
    (hQ : ∀ s', Post cfg s s' (List.replicate n v) n → Q () s')
    (hE : ∀ s', Post cfg s ⟨s'.mem, .null⟩ [] 0 → s.mem.ticks ≠ none → E s') :
    wp (ctorFill cfg n v) s Q E := by
  obtain ⟨m, d⟩ := s
  simp only at hd
  subst hd
  unfold ctorFill
  rw [wp_bind]
  unfold ctorCap
  rw [wp_bind]
  refine wp_allocate (fun s1 e1 => ?_) (fun s1 e1 h => ?_)
  · rw [wp_setD, wp_bind, wp_getD]
    simp only
    have hf := e1.fresh hw
    rw [wp_bind, wp_tryRethrow]
    refine wp_mono (wp_fillLoop cfg (b := m.next) (nb := n) (first := 0) (v := v) n 0
      ⟨s1.mem, ⟨m.next, 0, n⟩⟩ hf.size_new (by omega) (fun i h => by omega)
      (.inr fun i _ => hf.cell_new _)) ?_ ?_
    · rintro _ s2 ⟨g1, g2, g3⟩
      rw [wp_setD]
      refine hQ _ (fresh_post cfg (s := ⟨m, .null⟩) (s1 := s1) (s2 := ⟨s2.mem, s1.d⟩) hw hf
        ⟨g1.size, g1.next, rfl, g1.allocs, g1.ticks⟩ ?_ rfl (by simp) rfl (by simp) ?_ ?_)
      · intro b hb
        funext i
        exact g2 b i (.inl hb)
      · intro i hi
        simp only [List.length_replicate] at hi
        simpa using g3 i (by omega)
      · intro _ i h1 h2; simp at h1; omega
    · rintro s2 ⟨g1, g2, g3, g4, g5⟩
      have hh2 : Holds cfg s2.mem ⟨m.next, 0, n⟩ [] := by
        refine ⟨rfl, by simp, .inr ⟨hf.ne0, ?_⟩, fun i h => by simp at h, ?_⟩
        · rw [g1.size]; exact hf.size_new
        · intro ht i _ hi
          exact g4 ht i (fun j _ h => by omega) (hf.cell_new i)
      refine wp_destructor cfg hh2 fun s3 hsize hcell hnext _ htick => hE s3 ?_ ?_
      · refine undo_new cfg (s := ⟨m, .null⟩) (s1 := s1) (s2 := ⟨s2.mem, s1.d⟩) (s3 := s3) hw hf
          ⟨g1.size, g1.next, rfl, g1.allocs, g1.ticks⟩ ?_ ?_ hcell hnext htick
        · intro b hb
          funext i
          exact g3 b i hb
        · intro b
          rw [hsize]
          by_cases h : b = m.next
          · rw [if_pos ⟨hf.ne0, h⟩, if_pos h]
          · rw [if_neg (by rintro ⟨_, h'⟩; exact h h'), if_neg h]
      · intro h0
        exact g2 (e1.ticks h0)
  · have p := Eff.post cfg e1 hw (holds_null cfg _)
    refine hE _ (Post.congr cfg p rfl ?_) h
    exact e1.d.symm

/-- Assignment through a temporary built by `f`. -/
theorem wp_assignVia {s : St α} {f : A α Unit} {xs vs : List α} {n : Nat}
    {Q : Unit → St α → Prop} {E : St α → Prop} (hw : WF s.mem) (hh : Holds cfg s.mem s.d xs)
    (hfQ : wp f ⟨s.mem, .null⟩ (fun _ s' => Post cfg ⟨s.mem, .null⟩ s' vs n)
      (fun s' => Post cfg ⟨s.mem, .null⟩ ⟨s'.mem, .null⟩ [] 0 ∧ s.mem.ticks ≠ none))
    (hQ : ∀ s', Post cfg s s' vs n → Q () s')
    (hE : ∀ s', Post cfg s s' xs s.d.cap → s.mem.ticks ≠ none → E s') :
    wp (assignVia cfg f) s Q E := by
  unfold assignVia
  rw [wp_bind, wp_getD, wp_bind, wp_tryRethrow, wp_bind, wp_setD]
  refine wp_mono hfQ (fun _ s1 p => ?_) (fun s1 h => ?_)
  · refine wp_dropOld cfg hw p hh fun s2 p2 => hQ s2 p2
  · obtain ⟨p, ht⟩ := h
    rw [wp_setD]
    refine hE _ ?_ ht
    have hkeep : ∀ x, s.mem.size x ≠ none → s1.mem.size x = s.mem.size x ∧
        s1.mem.cell x = s.mem.cell x := by
      intro x hx
      exact p.upd.keep x hx (by rintro rfl; exact hx hw.null)
    have hown : ∀ x, s1.mem.size x ≠ none → s.mem.size x ≠ none := by
      intro x hx
      rcases p.upd.owned x hx with h | h
      · simp only [Data.null] at h
        rw [h] at hx
        exact absurd p.wf.null hx
      · exact h.1
    have hblk : s.d.cap ≠ 0 → s.mem.size s.d.blk ≠ none := by
      intro h; rw [hh.alive cfg h]; simp
    refine ⟨p.wf, ⟨hh.size, hh.le, ?_, ?_, ?_⟩, rfl, ⟨?_, ?_, .inl rfl⟩, p.ticks⟩
    · rcases hh.blk with h | h
      · exact .inl h
      · refine .inr ⟨h.1, ?_⟩
        simp only
        rw [(hkeep _ (by rw [h.2]; simp)).1]; exact h.2
    · intro i hi
      have h1 := hh.size
      have h2 := hh.le
      simp only
      rw [(hkeep _ (hblk (by omega))).2]
      exact hh.cells i hi
    · intro ht i h1 h2
      simp only at h2 ⊢
      rw [(hkeep _ (hblk (by omega))).2]
      exact hh.rest ht i h1 h2
    · intro x hx _; exact hkeep x hx
    · intro x hx
      by_cases h : x = s.d.blk
      · exact .inl h
      · exact .inr ⟨hown x hx, h⟩

theorem wp_reserve {s : St α} {xs : List α} {n : Nat} {Q : Unit → St α → Prop} {E : St α → Prop}
    (hw : WF s.mem) (hh : Holds cfg s.mem s.d xs)
    (hc : cfg.triv = true ∨ xs = [] ∨ n ≤ s.d.cap)
    (hQ : ∀ s', Post cfg s s' xs (max s.d.cap n) → Q () s')
    (hE : ∀ s', Post cfg s s' xs s.d.cap → s.mem.ticks ≠ none → E s') :
    wp (reserve cfg n) s Q E := by
  have hsz := hh.size
  have hle := hh.le
  unfold reserve
  rw [wp_bind, wp_getD, wp_onlyIf]
  split
  · rename_i h
    refine wp_growStorage cfg hw hh (hc.imp id fun h => h.resolve_right (by omega)) (by omega)
      (fun s' p _ _ _ => hQ s' ?_) hE
    rw [show max s.d.cap n = n by omega]; exact p
  · rename_i h
    have := Post.refl cfg hw hh
    refine hQ s ?_
    rw [show max s.d.cap n = s.d.cap by omega]; exact this

theorem wp_resize {s : St α} {xs : List α} {n : Nat} {Q : Unit → St α → Prop} {E : St α → Prop}
    (hw : WF s.mem) (hh : Holds cfg s.mem s.d xs)
    (hc : cfg.triv = true ∨ xs = [] ∨ n = 0 ∨ n = s.d.cap)
    (hQ : ∀ s', Post cfg s s' (xs.take n) n → Q () s')
    (hE : ∀ s', Post cfg s s' xs s.d.cap → s.mem.ticks ≠ none → E s') :
    wp (resize cfg n) s Q E := by
  have hsz := hh.size
  have hle := hh.le
  unfold resize
  rw [wp_bind, wp_getD, wp_ite]
  split
  · rename_i h
    refine wp_growStorage cfg hw hh (hc.imp id fun h => h.resolve_right (by omega)) (by omega)
      (fun s' p _ _ _ => hQ s' ?_) hE
    rw [List.take_of_length_le (by omega)]; exact p
  · rw [wp_onlyIf]
    split
    · rename_i h1 h
      exact wp_shrinkStorage cfg hw hh
        (hc.imp id fun h' => h'.imp id fun h' => h'.resolve_right (by omega)) h hQ hE
    · rename_i h1 h
      have := Post.refl cfg hw hh
      refine hQ s ?_
      rw [List.take_of_length_le (by omega), show n = s.d.cap by omega]; exact this

theorem wp_insertRange {s : St α} {xs vs : List α} {srcs : List (Src α)} {pos : Nat}
    {Q : Nat → St α → Prop} {E : St α → Prop}
    (hw : WF s.mem) (hh : Holds cfg s.mem s.d xs) (hpos : pos ≤ xs.length)
    (hv : SrcsOk s.mem srcs vs)
    (hc : cfg.triv = true ∨ (xs = [] ∧ s.d.cap < vs.length) ∨
      (xs.length + vs.length ≤ s.d.cap ∧ (pos = xs.length ∨ vs = [])))
    (hno : s.mem.ticks = none ∨ (cfg.triv = true ∧ s.d.cap < xs.length + vs.length))
    (hfor : xs.length + vs.length ≤ s.d.cap → ∀ x ∈ srcs, Foreign s.d.blk x)
    (hQ : ∀ s', Post cfg s s' (insAt xs pos vs) (if xs.length + vs.length ≤ s.d.cap then s.d.cap
      else s.d.cap + vs.length) → Q pos s')
    (hE : ∀ s', Post cfg s s' xs s.d.cap → s.mem.ticks ≠ none → E s') :
    wp (insertRange cfg pos srcs) s Q E := by
  have hsz := hh.size
  have hle := hh.le
  have hl := hv.length
  unfold insertRange
  rw [wp_bind, wp_getD]
  simp only
  rw [wp_ite]
  split
  · -- new storage
    rename_i hg
    have hcap : (if s.d.cap = 0 then srcs.length else s.d.cap + srcs.length)
        = s.d.cap + vs.length := by split <;> omega
    rw [hcap, wp_bind]
    have hcx : cfg.triv = true ∨ xs = [] := hc.imp id fun h => by
      rcases h with h | h
      · exact h.1
      · omega
    refine wp_allocate (fun s1 e1 => ?_) (fun s1 e1 h => hE s1 (Eff.post cfg e1 hw hh) h)
    have hf := e1.fresh hw
    have hblk : s.d.size ≠ 0 → s.mem.size s.d.blk = some s.d.cap := fun h => hh.alive cfg (by omega)
    have hb0 : s.d.blk ≠ s.mem.next := by
      rcases hh.blk with h | h
      · rw [h.1]; exact hf.ne0.symm
      · exact (hf.old _ (by rw [h.2]; simp)).1
    obtain ⟨hv1, hfor1⟩ := SrcsOk.foreign hf hv
    rw [wp_bind, wp_tryRethrow, wp_bind]
    refine wp_mono (wp_constructLoop cfg (b := s.mem.next) (nb := s.d.cap + vs.length) srcs pos s1 vs
      hv1 hfor1 (.inr ⟨hf.size_new, by omega⟩) (.inr fun i _ => hf.cell_new _)) ?_ ?_
    · rintro _ s2 ⟨e2, c2, l2⟩
      have hold2 : s.d.size ≠ 0 → ∀ i, s2.mem.cell s.d.blk i = s.mem.cell s.d.blk i := by
        intro h0 i
        rw [c2 _ _ (.inl hb0), (hf.old s.d.blk (by rw [hblk h0]; simp)).2.2]
      have hsz2 : s.d.size ≠ 0 → s2.mem.size s.d.blk = some s.d.cap := by
        intro h0
        rw [e2.size, (hf.old s.d.blk (by rw [hblk h0]; simp)).2.1, hblk h0]
      have hnb2 : s2.mem.size s.mem.next = some (s.d.cap + vs.length) := by
        rw [e2.size]; exact hf.size_new
      rw [wp_bind]
      refine wp_fwd cfg false (ns := s.d.cap) (nd := s.d.cap + vs.length)
        (hcx.imp id fun h => by rw [h] at hpos; simpa using hpos) (.inl hb0) ?_ ?_
        fun s3 e3 _ c3 => ?_
      · by_cases h : pos = 0
        · exact .inl h
        · exact .inr ⟨hsz2 (by omega), hnb2, by omega, by omega⟩
      · intro i hi
        rw [Nat.zero_add, hold2 (by omega)]
        exact hh.live cfg (by omega)
      refine wp_fwd cfg false (ns := s.d.cap) (nd := s.d.cap + vs.length)
        (hcx.imp id fun h => by rw [h] at hsz; simp at hsz; omega) (.inl hb0) ?_ ?_
        fun s4 e4 _ c4 => ?_
      · by_cases h : s.d.size - pos = 0
        · exact .inl h
        · exact .inr ⟨by rw [e3.size]; exact hsz2 (by omega), by rw [e3.size]; exact hnb2, by omega,
            by omega⟩
      · intro i hi
        rw [c3, if_neg (by rintro ⟨h, _⟩; exact hb0 h), hold2 (by omega)]
        exact hh.live cfg (by omega)
      rw [wp_bind, wp_setD]
      have e24 := (e2.trans e3).trans e4
      rw [wp_bind]
      refine wp_dropOld cfg (m0 := s.mem) (vs := insAt xs pos vs) (n := s.d.cap + vs.length) hw
        (fresh_post cfg hw hf e24 ?_ rfl ?_ rfl ?_ ?_ ?_) hh fun s5 p5 => ?_
      · intro b hb
        funext i
        rw [c4, if_neg (by rintro ⟨h, _⟩; exact hb h), c3, if_neg (by rintro ⟨h, _⟩; exact hb h),
          c2 _ _ (.inl hb)]
      · simp only; rw [insAt_length hpos]; omega
      · rw [insAt_length hpos]; omega
      · intro i hi
        have hi' := hi
        rw [insAt_length hpos] at hi'
        rw [insAt_getElem hpos, c4]
        by_cases h1 : i < pos
        · rw [if_neg (by omega), c3, if_pos ⟨rfl, by omega, by omega⟩, hold2 (by omega),
            hh.cells _ (by omega)]
          simp [h1]
        · by_cases h2 : i < pos + vs.length
          · rw [if_neg (by omega), c3, if_neg (by omega)]
            have := l2 (i - pos) (by omega)
            rw [show pos + (i - pos) = i by omega] at this
            rw [this]; simp [h1, h2]
          · rw [if_pos ⟨rfl, by omega, by omega⟩, c3, if_neg (by rintro ⟨h, _⟩; exact hb0 h),
              hold2 (by omega), hh.cells _ (by omega)]
            simp only [h1, h2, dif_neg, not_false_eq_true]
            congr 2; omega
      · intro ht i h1 h2
        have hx := hcx.resolve_left (by rw [ht]; simp)
        rw [insAt_length hpos] at h1
        have : xs.length = 0 := by rw [hx]; rfl
        rw [c4, if_neg (by omega), c3, if_neg (by omega), c2 _ _ (.inr (.inr (by omega)))]
        exact hf.cell_new i
      · rw [wp_pure]
        have := hQ s5
        rw [if_neg (by omega)] at this
        exact this p5
    · rintro s2 ⟨e2, ⟨ht, _⟩, c2⟩
      have hn : s.mem.ticks ≠ none := fun h => ht (e1.ticks h)
      have htr := (hno.resolve_left hn).1
      unfold destructor destroyLoop
      simp only
      rw [wp_bind, wp_pure, wp_onlyIf, if_pos hf.ne0]
      refine wp_deallocate cfg (by rw [e2.size]; exact hf.size_new) (.inl htr) fun s3 e3 => ?_
      refine hE s3 (undo_post cfg hw hh hf e2 ?_ e3) hn
      intro b hb
      funext i
      exact c2 b i (.inl hb)
  · -- in place
    rename_i hg
    have hroom : xs.length + vs.length ≤ s.d.cap := by omega
    have htn : s.mem.ticks = none := hno.resolve_right (by omega)
    have hfo := hfor hroom
    rw [wp_bind]
    -- moving the tail
    have hback : ∀ Q' : Unit → St α → Prop, (∀ s1, Same s s1 →
        (∀ b i, s1.mem.cell b i = if b = s.d.blk ∧ pos + srcs.length ≤ i ∧
            i < pos + srcs.length + (s.d.size - pos) then
          s.mem.cell s.d.blk (pos + (i - (pos + srcs.length))) else s.mem.cell b i) → Q' () s1) →
        wp (backLoop cfg false s.d.blk pos (pos + srcs.length) (s.d.size - pos)) s Q' E := by
      intro Q' hQ'
      by_cases hm : cfg.triv = true ∨ s.d.size - pos = 0
      · refine wp_back cfg false (nb := s.d.cap) hm (by omega) ?_ ?_ hQ'
        · by_cases h : s.d.size - pos = 0
          · exact .inl h
          · exact .inr ⟨hh.alive cfg (by omega), by omega⟩
        · intro i hi; exact hh.live cfg (by omega)
      · have hvs : srcs.length = 0 := by
          rcases hc with h | h | h
          · exact absurd (.inl h) hm
          · omega
          · rcases h.2 with h' | h'
            · exact absurd (.inr (by omega)) hm
            · rw [h'] at hl; simpa using hl
        rw [hvs, Nat.add_zero]
        rw [hvs] at hQ'
        simp only [Nat.add_zero] at hQ'
        obtain ⟨f, hf⟩ := choose_live (n := s.d.size - pos)
          (g := fun k => s.mem.cell s.d.blk (pos + k))
          (by omega) (fun k hk => hh.live cfg (by omega))
        refine wp_mono (wp_backLoop_self cfg (nb := s.d.cap) (s.d.size - pos) pos s f
          (.inr ⟨hh.alive cfg (by omega), by omega⟩) hf) ?_ ?_
        · rintro _ s1 ⟨e1, c1⟩
          refine hQ' s1 e1 fun b i => ?_
          rw [c1]
          split
          · rename_i h; rw [h.1]; congr 1; omega
          · rfl
        · rintro s1 ⟨_, _, h⟩; exact absurd htn h
    refine hback _ fun s1 e1 c1 => ?_
    rw [wp_bind, wp_setD, wp_bind]
    have hv1 : SrcsOk s1.mem srcs vs := hv.imp fun x v hx h => h.same e1 fun b i hbi => by
      have := hfo x hx
      subst hbi
      rw [c1, if_neg (by rintro ⟨h, _⟩; exact this h)]
    refine wp_mono (wp_constructLoop cfg (b := s.d.blk) (nb := s.d.cap) srcs pos
      { s1 with d := { s.d with size := s.d.size + srcs.length } } vs hv1 hfo ?_ ?_) ?_ ?_
    · by_cases h : srcs = []
      · exact .inl h
      · have : srcs.length ≠ 0 := by simpa using h
        refine .inr ⟨?_, by omega⟩
        simp only
        rw [e1.size]; exact hh.alive cfg (by omega)
    · by_cases ht : cfg.triv = true
      · exact .inl ht
      · refine .inr fun i hi => ?_
        have hp : pos = xs.length := by
          rcases hc with h | h | h
          · exact absurd h ht
          · omega
          · rcases h.2 with h' | h'
            · exact h'
            · rw [h'] at hl; simp at hl; rw [hl] at hi; simp at hi
        simp only
        rw [c1, if_neg (by omega)]
        exact hh.rest (by simpa using ht) _ (by omega) (by omega)
    · rintro _ s2 ⟨e2, c2, l2⟩
      rw [wp_pure]
      have := hQ s2
      rw [if_pos hroom] at this
      apply this
      refine own_post cfg hw hh (by rw [e2.size]; exact e1.size) (by rw [e2.next]; exact e1.next)
        (fun h => e2.ticks (e1.ticks h)) ?_ (by rw [e2.d]) (by rw [e2.d]) ?_ ?_ ?_ ?_
      · intro b i hb
        rw [c2 _ _ (.inl hb)]
        simp only
        rw [c1, if_neg (by rintro ⟨h, _⟩; exact hb h)]
      · rw [e2.d, insAt_length hpos]; simp only; omega
      · rw [insAt_length hpos]; omega
      · intro i hi
        have hi' := hi
        rw [insAt_length hpos] at hi'
        rw [insAt_getElem hpos]
        by_cases h1 : i < pos
        · rw [c2 _ _ (.inr (.inl h1))]
          simp only
          rw [c1, if_neg (by omega), hh.cells _ (by omega)]
          simp [h1]
        · by_cases h2 : i < pos + vs.length
          · have := l2 (i - pos) (by omega)
            rw [show pos + (i - pos) = i by omega] at this
            rw [this]; simp [h1, h2]
          · rw [c2 _ _ (.inr (.inr (by omega)))]
            simp only
            rw [c1, if_pos ⟨rfl, by omega, by omega⟩, hh.cells _ (by omega)]
            simp only [h1, h2, dif_neg, not_false_eq_true]
            congr 2; omega
      · intro ht i h1 h2
        rw [insAt_length hpos] at h1
        rw [c2 _ _ (.inr (.inr (by omega)))]
        simp only
        rw [c1, if_neg (by omega)]
        exact hh.rest ht i (by omega) h2
    · rintro s2 ⟨_, ⟨h, _⟩, _⟩
      exact absurd (e1.ticks htn) h

end Verif.Arr
