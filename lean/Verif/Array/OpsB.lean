import Verif.Array.Ops

/-! Specifications of the `Array` member functions, continued: storage and single elements. -/

set_option autoImplicit false

namespace Verif.Arr

variable {α : Type} (cfg : Elem α)

/-- A change inside the array's own block. -/
theorem own_post {s s' : St α} {xs xs' : List α} (hw : WF s.mem) (hh : Holds cfg s.mem s.d xs)
    (hsize : s'.mem.size = s.mem.size) (hnext : s'.mem.next = s.mem.next)
    (hticks : s.mem.ticks = none → s'.mem.ticks = none)
    (hk : ∀ b i, b ≠ s.d.blk → s'.mem.cell b i = s.mem.cell b i)
    (hb : s'.d.blk = s.d.blk) (hcap : s'.d.cap = s.d.cap) (hsz : s'.d.size = xs'.length)
    (hle : xs'.length ≤ s.d.cap)
    (hc : ∀ i (h : i < xs'.length), s'.mem.cell s.d.blk i = .live xs'[i])
    (hr : cfg.triv = false → ∀ i, xs'.length ≤ i → i < s.d.cap → s'.mem.cell s.d.blk i = .raw) :
    Post cfg s s' xs' s.d.cap := by
  refine ⟨⟨?_, ?_, ?_⟩, ⟨hsz, ?_, ?_, ?_, ?_⟩, hcap, ⟨?_, ?_, ?_⟩, hticks⟩
  · intro b; rw [hnext, hsize]; exact hw.fresh b
  · rw [hsize]; exact hw.null
  · rw [hnext]; exact hw.pos
  · rw [hsz, hcap]; exact hle
  · rw [hb, hcap, hsize]; exact hh.blk
  · intro i hi; rw [hb]; exact hc i hi
  · intro ht i h1 h2; rw [hb]; rw [hcap] at h2; exact hr ht i h1 h2
  · intro x _ hx; exact ⟨by rw [hsize], funext fun i => hk x i hx⟩
  · intro x hx
    rw [hsize] at hx
    by_cases h' : x = s'.d.blk
    · exact .inl h'
    · exact .inr ⟨hx, by rw [← hb]; exact h'⟩
  · left; exact hb

/-- `Post` does not depend on how the two states write the own data. -/
theorem Post.congr {s s' s'' : St α} {xs : List α} {c : Nat} (h : Post cfg s s' xs c)
    (h1 : s''.mem = s'.mem) (h2 : s''.d = s'.d) : Post cfg s s'' xs c := by
  have : s'' = s' := by cases s''; cases s'; simp_all
  rw [this]; exact h

theorem wp_growStorage {n : Nat} {s : St α} {xs : List α} {Q : Unit → St α → Prop}
    {E : St α → Prop} (hw : WF s.mem) (hh : Holds cfg s.mem s.d xs)
    (hc : cfg.triv = true ∨ xs = []) (hn : xs.length ≤ n)
    (hQ : ∀ s', Post cfg s s' xs n → s'.mem.moves = s.mem.moves + xs.length →
      s'.mem.allocs = s.mem.allocs + 1 → s'.d.blk = s.mem.next → Q () s')
    (hE : ∀ s', Post cfg s s' xs s.d.cap → s.mem.ticks ≠ none → E s') :
    wp (growStorage cfg n) s Q E := by
  unfold growStorage
  rw [wp_bind, wp_getD, wp_bind]
  refine wp_allocate (fun s1 e1 => ?_) (fun s1 e1 h => hE s1 (Eff.post cfg e1 hw hh) h)
  have hf := e1.fresh hw
  have hsz := hh.size
  have hle := hh.le
  have hblk : s.d.size ≠ 0 → s.mem.size s.d.blk = some s.d.cap := fun h => hh.alive cfg (by omega)
  have hne : s.d.blk ≠ s.mem.next := by
    rcases hh.blk with h | h
    · rw [h.1]; exact hf.ne0.symm
    · exact (hf.old _ (by rw [h.2]; simp)).1
  have hcellb : s.d.blk ≠ 0 → s1.mem.size s.d.blk = some s.d.cap ∧
      s1.mem.cell s.d.blk = s.mem.cell s.d.blk := by
    intro h0
    have h1 := (hh.blk.resolve_left fun h => h0 h.1).2
    obtain ⟨_, g1, g2⟩ := hf.old s.d.blk (by rw [h1]; simp)
    exact ⟨by rw [g1, h1], g2⟩
  have hb0 : s.d.size ≠ 0 → s.d.blk ≠ 0 := by
    intro h h0
    have := hblk h
    rw [h0, hw.null] at this; cases this
  rw [wp_bind]
  refine wp_fwd cfg true (ns := s.d.cap) (nd := n) (hc.imp id fun h => by rw [hsz, h]; rfl)
    (.inl hne) ?_ ?_ fun s2 e2 hm e3 => ?_
  · by_cases h : s.d.size = 0
    · exact .inl h
    · exact .inr ⟨(hcellb (hb0 h)).1, hf.size_new, by omega, by omega⟩
  · intro i hi
    rw [(hcellb (hb0 (by omega))).2, Nat.zero_add]
    exact hh.live cfg hi
  have fin : ∀ s3, ((s.d.blk = 0 ∧ s3 = s2) ∨ (s.d.blk ≠ 0 ∧ FreeEff s2 s3 s.d.blk)) →
      s3.mem.moves = s2.mem.moves → s3.mem.allocs = s2.mem.allocs →
      Q () { s3 with d := ⟨s.mem.next, s.d.size, n⟩ } := by
    intro s3 h3 hm3 ha3
    refine hQ _ (replace_post cfg hw hh hf e2 ?_ h3 rfl hsz rfl hn ?_ ?_) ?_ ?_ rfl
    · intro b h1 h2
      funext i
      rw [e3, if_neg (by rintro ⟨h, _⟩; exact h1 h)]
    · intro i hi
      rw [e3, if_pos ⟨rfl, by omega, by omega⟩, (hcellb (hb0 (by omega))).2]
      simpa using hh.cells i hi
    · intro ht i h1 h2
      have hx := hc.resolve_left (by rw [ht]; simp)
      rw [e3, if_neg (by rw [hx] at hsz; simp at hsz; omega)]
      exact hf.cell_new i
    · simp only; rw [hm3, hm, e1.moves, hsz]
    · simp only; rw [ha3, e2.allocs, e1.allocs]
  rw [wp_bind, wp_onlyIf]
  split
  · rename_i h0
    refine wp_deallocate cfg (by rw [e2.size]; exact (hcellb h0).1) ?_ fun s3 e => ?_
    · by_cases ht : cfg.triv = true
      · exact .inl ht
      · refine .inr fun i hi => ?_
        rw [e3, if_neg (by rintro ⟨h, _⟩; exact hne h), (hcellb h0).2]
        exact hh.rest (by simpa using ht) i (by rw [hc.resolve_left ht]; simp) hi
    · exact fin s3 (.inr ⟨h0, e⟩) e.moves e.allocs
  · rename_i h0
    exact fin s2 (.inl ⟨by simpa using h0, rfl⟩) rfl rfl

theorem wp_shrinkStorage {n : Nat} {s : St α} {xs : List α} {Q : Unit → St α → Prop}
    {E : St α → Prop} (hw : WF s.mem) (hh : Holds cfg s.mem s.d xs)
    (hc : cfg.triv = true ∨ xs = [] ∨ n = 0) (hn : n < s.d.cap)
    (hQ : ∀ s', Post cfg s s' (xs.take n) n → Q () s')
    (hE : ∀ s', Post cfg s s' xs s.d.cap → s.mem.ticks ≠ none → E s') :
    wp (shrinkStorage cfg n) s Q E := by
  unfold shrinkStorage
  rw [wp_bind, wp_getD]
  simp only
  rw [wp_bind]
  refine wp_allocate (fun s1 e1 => ?_) (fun s1 e1 h => hE s1 (Eff.post cfg e1 hw hh) h)
  have hf := e1.fresh hw
  have hsz := hh.size
  have hle := hh.le
  have hblk : s.mem.size s.d.blk = some s.d.cap := hh.alive cfg (by omega)
  have hb0 : s.d.blk ≠ 0 := by intro h; rw [h, hw.null] at hblk; cases hblk
  obtain ⟨hne, hs1, hc1⟩ := hf.old s.d.blk (by rw [hblk]; simp)
  rw [hblk] at hs1
  rw [wp_bind]
  refine wp_fwd cfg true (ns := s.d.cap) (nd := n) (n := min s.d.size n)
    (hc.imp id fun h => by rcases h with h | h
                           · rw [hsz, h]; simp
                           · rw [h]; simp)
    (.inl hne) (.inr ⟨hs1, hf.size_new, by omega, by omega⟩) ?_ fun s2 e2 hm e3 => ?_
  · intro i hi
    rw [hc1, Nat.zero_add]
    exact hh.live cfg (by omega)
  have hc2 : ∀ i, s2.mem.cell s.d.blk i = s.mem.cell s.d.blk i := by
    intro i
    rw [e3, if_neg (by rintro ⟨h, _⟩; exact hne h), hc1]
  rw [wp_bind]
  refine wp_mono (wp_destroyLoop cfg (nb := s.d.cap) (s.d.size - min s.d.size n) (min s.d.size n) s2
    (.inr ⟨by rw [e2.size]; exact hs1, by omega⟩)
    (.inr fun i hi => by rw [hc2]; exact hh.live cfg (by omega)) E) ?_ (fun _ h => h)
  rintro _ s3 ⟨e4, _, e5⟩
  have e24 := e2.trans e4
  rw [wp_bind]
  refine wp_deallocate cfg (by rw [e24.size]; exact hs1) ?_ fun s4 e6 => ?_
  · by_cases ht : cfg.triv = true
    · exact .inl ht
    · refine .inr fun i hi => ?_
      rw [e5]
      split
      · rfl
      · rename_i h
        rw [hc2]
        refine hh.rest (by simpa using ht) i ?_ hi
        rcases hc.resolve_left ht with h' | h'
        · rw [h']; simp
        · rw [h'] at h; simp at h; omega
  · have := replace_post cfg (xs' := xs.take n) (d' := ⟨s.mem.next, min s.d.size n, n⟩) hw hh hf e24
      ?_ (.inr ⟨hb0, e6⟩) rfl (by simp [hsz, Nat.min_comm]) rfl (by simp; omega) ?_ ?_
    · rw [wp_setD]; exact hQ _ this
    · intro b h1 h2
      funext i
      rw [e5, if_neg (by rintro ⟨h, _⟩; exact h2 h), e3, if_neg (by rintro ⟨h, _⟩; exact h1 h)]
    · intro i hi
      simp only [List.length_take] at hi
      rw [e5, if_neg (by rintro ⟨h, _⟩; exact hne h.symm), e3, if_pos ⟨rfl, by omega, by omega⟩, hc1]
      have := hh.cells i (by omega)
      simp only [Nat.sub_zero, Nat.zero_add]
      rw [this, List.getElem_take]
    · intro ht i h1 h2
      rw [e5, if_neg (by rintro ⟨h, _⟩; exact hne h.symm), e3, if_neg ?_]
      · exact hf.cell_new i
      · rintro ⟨_, _, h⟩
        rcases hc.resolve_left (by rw [ht]; simp) with h' | h'
        · rw [h'] at hsz; simp at hsz; omega
        · omega

/-- The last step of `emplace_back`: construct at the end when there is room. -/
theorem wp_append {s : St α} {xs : List α} {src : Src α} {v : α} {Q : Unit → St α → Prop}
    {E : St α → Prop} (hw : WF s.mem) (hh : Holds cfg s.mem s.d xs) (hroom : xs.length < s.d.cap)
    (hsrc : SrcOk s.mem src v)
    (hQ : ∀ s', Post cfg s s' (xs ++ [v]) s.d.cap → s'.mem.moves = s.mem.moves →
      s'.mem.allocs = s.mem.allocs → s'.d.blk = s.d.blk →
      (∀ b i, (b ≠ s.d.blk ∨ i ≠ xs.length) → s'.mem.cell b i = s.mem.cell b i) →
      s'.mem.size = s.mem.size → Q () s')
    (hE : ∀ s', Post cfg s s' xs s.d.cap → s.mem.ticks ≠ none → E s') :
    wp (do let v ← evalSrc cfg src
           construct cfg s.d.blk s.d.size v
           setD { s.d with size := s.d.size + 1 }) s Q E := by
  have hsz := hh.size
  have hblk := hh.alive cfg (by omega)
  rw [wp_bind]
  refine wp_evalSrc cfg hsrc (fun s1 e1 => ?_) (fun s1 e1 h => hE s1 (Eff.post cfg e1 hw hh) h)
  rw [wp_bind]
  refine wp_construct cfg ((inBounds_iff (by rw [e1.size]; exact hblk)).mpr (by omega)) ?_
    fun s2 e2 => ?_
  · by_cases ht : cfg.triv = true
    · exact .inl ht
    · right; rw [e1.cell, hsz]; exact hh.rest (by simpa using ht) _ (Nat.le_refl _) hroom
  rw [wp_setD]
  have hcell : ∀ b i, s2.mem.cell b i = if b = s.d.blk ∧ i = xs.length then .live v
      else s.mem.cell b i := by
    intro b i; rw [e2.cell, e1.cell, hsz]; rfl
  refine hQ _ (own_post cfg hw hh ?_ ?_ ?_ ?_ rfl rfl ?_ ?_ ?_ ?_) ?_ ?_ rfl ?_ ?_
  · simp only; rw [e2.size, e1.size]
  · simp only; rw [e2.next, e1.next]
  · intro h; exact e2.ticks (e1.ticks h)
  · intro b i hb; simp only; rw [hcell, if_neg (by rintro ⟨h, _⟩; exact hb h)]
  · simp [hsz]
  · simp; omega
  · intro i hi
    simp only [List.length_append, List.length_cons, List.length_nil] at hi
    simp only
    rw [hcell]
    by_cases h : i = xs.length
    · subst h; simp
    · rw [if_neg (by rintro ⟨_, h'⟩; exact h h'), List.getElem_append_left (by omega)]
      exact hh.cells i (by omega)
  · intro ht i h1 h2
    simp only [List.length_append, List.length_cons, List.length_nil] at h1
    simp only
    rw [hcell, if_neg (by omega)]
    exact hh.rest ht i (by omega) h2
  · simp only; rw [e2.moves, e1.moves]
  · simp only; rw [e2.allocs, e1.allocs]
  · intro b i h; simp only; rw [hcell, if_neg (by rintro ⟨h1, h2⟩; rcases h with h | h; exact h h1; exact h h2)]
  · simp only; rw [e2.size, e1.size]

theorem wp_emplaceBack' {s : St α} {xs : List α} {src : Src α} {v : α} {Q : Unit → St α → Prop}
    {E : St α → Prop} (hw : WF s.mem) (hh : Holds cfg s.mem s.d xs)
    (hc : cfg.triv = true ∨ xs = [] ∨ xs.length < s.d.cap)
    (hsrc : SrcOk s.mem src v) (hfor : xs.length = s.d.cap → Foreign s.d.blk src)
    (hQ : ∀ s', Post cfg s s' (xs ++ [v])
        (if xs.length = s.d.cap then xs.length + max xs.length 1 else s.d.cap) →
      s'.mem.moves = s.mem.moves + (if xs.length = s.d.cap then xs.length else 0) →
      s'.mem.allocs = s.mem.allocs + (if xs.length = s.d.cap then 1 else 0) → Q () s')
    (hE : ∀ s' c, Post cfg s s' xs c → s.d.cap ≤ c →
      c ≤ (if xs.length = s.d.cap then xs.length + max xs.length 1 else s.d.cap) → s.mem.ticks ≠ none → E s') :
    wp (emplaceBack cfg src) s Q E := by
  have hsz := hh.size
  have hle := hh.le
  unfold emplaceBack
  rw [wp_bind, wp_getD, wp_bind, wp_onlyIf]
  split
  · rename_i hfull
    refine wp_growStorage cfg hw hh (hc.imp id fun h => h.resolve_right (by omega))
      (n := s.d.size + max s.d.size 1) (by omega) (fun s1 p1 hm ha _ => ?_)
      (fun s1 p1 h => hE s1 _ p1 (Nat.le_refl _) (by rw [if_pos (by omega)]; omega) h)
    have hcap := p1.cap
    rw [wp_bind, wp_getD]
    refine wp_append cfg p1.wf p1.holds (by omega) (hsrc.upd p1.upd (hfor (by omega)))
      (fun s2 p2 hm2 ha2 _ _ _ => hQ s2 ?_ ?_ ?_) (fun s2 p2 h => hE s2 _ (p1.trans cfg p2) (by omega) (by rw [if_pos (by omega)]; omega)
        (fun h0 => h (p1.ticks h0)))
    · have := p1.trans cfg p2
      rw [if_pos (by omega)]
      rw [hcap, hsz] at this
      exact this
    · rw [if_pos (by omega), hm2, hm]
    · rw [if_pos (by omega), ha2, ha]
  · rename_i hfull
    rw [wp_bind, wp_getD]
    refine wp_append cfg hw hh (by omega) hsrc (fun s2 p2 hm2 ha2 _ _ _ => hQ s2 ?_ ?_ ?_)
      (fun s2 p2 h => hE s2 _ p2 (Nat.le_refl _) (by rw [if_neg (by omega)]; exact Nat.le_refl _) h)
    · rw [if_neg (by omega)]; exact p2
    · rw [if_neg (by omega), hm2]; rfl
    · rw [if_neg (by omega), ha2]; rfl

theorem wp_emplaceBack {s : St α} {xs : List α} {src : Src α} {v : α} {Q : Unit → St α → Prop}
    {E : St α → Prop} (hw : WF s.mem) (hh : Holds cfg s.mem s.d xs)
    (hc : cfg.triv = true ∨ xs = [] ∨ xs.length < s.d.cap)
    (hsrc : SrcOk s.mem src v) (hfor : xs.length = s.d.cap → Foreign s.d.blk src)
    (hQ : ∀ s', Post cfg s s' (xs ++ [v])
        (if xs.length = s.d.cap then xs.length + max xs.length 1 else s.d.cap) →
      s'.mem.moves = s.mem.moves + (if xs.length = s.d.cap then xs.length else 0) →
      s'.mem.allocs = s.mem.allocs + (if xs.length = s.d.cap then 1 else 0) → Q () s')
    (hE : ∀ s' c, Post cfg s s' xs c → s.d.cap ≤ c → s.mem.ticks ≠ none → E s') :
    wp (emplaceBack cfg src) s Q E :=
  wp_emplaceBack' cfg hw hh hc hsrc hfor hQ fun s' c h1 h2 _ h3 => hE s' c h1 h2 h3

theorem wp_popBack {s : St α} {xs : List α} {Q : Unit → St α → Prop}
    {E : St α → Prop} (hw : WF s.mem) (hh : Holds cfg s.mem s.d xs) (hne : xs ≠ [])
    (hQ : ∀ s', Post cfg s s' xs.dropLast s.d.cap → Q () s') :
    wp (popBack cfg) s Q E := by
  have hsz := hh.size
  have hle := hh.le
  have hpos : 0 < xs.length := List.length_pos_iff.mpr hne
  have hblk := hh.alive cfg (by omega)
  unfold popBack
  rw [wp_bind, wp_getD, wp_ite, if_neg (by omega), wp_bind, wp_setD]
  refine wp_destroy cfg ((inBounds_iff hblk).mpr (by omega)) (.inr (hh.live cfg (by omega)))
    fun s2 e2 => ?_
  have hcell : ∀ b i, s2.mem.cell b i = if b = s.d.blk ∧ i = xs.length - 1 then .raw
      else s.mem.cell b i := by
    intro b i; rw [e2.cell]; simp only [upd2, hsz]
  refine hQ _ (own_post cfg hw hh ?_ ?_ ?_ ?_ ?_ ?_ ?_ ?_ ?_ ?_)
  · rw [e2.size]
  · rw [e2.next]
  · exact e2.ticks
  · intro b i hb; rw [hcell, if_neg (by rintro ⟨h, _⟩; exact hb h)]
  · rw [e2.d]
  · rw [e2.d]
  · rw [e2.d]; simp [hsz]
  · simp; omega
  · intro i hi
    simp only [List.length_dropLast] at hi
    rw [hcell, if_neg (by omega), List.getElem_dropLast]
    exact hh.cells i (by omega)
  · intro ht i h1 h2
    simp only [List.length_dropLast] at h1
    rw [hcell]
    split
    · rfl
    · exact hh.rest ht i (by omega) h2

theorem wp_clear {s : St α} {xs : List α} {Q : Unit → St α → Prop}
    {E : St α → Prop} (hw : WF s.mem) (hh : Holds cfg s.mem s.d xs)
    (hQ : ∀ s', Post cfg s s' [] s.d.cap → Q () s') :
    wp (clear cfg) s Q E := by
  have hsz := hh.size
  have hle := hh.le
  unfold clear
  rw [wp_bind, wp_getD, wp_bind]
  refine wp_mono (wp_destroyLoop cfg (nb := s.d.cap) s.d.size 0 s ?_ ?_ E) ?_ (fun _ h => h)
  · by_cases h : s.d.size = 0
    · exact .inl h
    · exact .inr ⟨hh.alive cfg (by omega), by omega⟩
  · exact .inr fun i hi => by rw [Nat.zero_add]; exact hh.live cfg hi
  rintro _ s1 ⟨e1, _, e2⟩
  rw [wp_setD]
  refine hQ _ (own_post cfg hw hh ?_ ?_ ?_ ?_ rfl rfl rfl ?_ ?_ ?_)
  · exact e1.size
  · exact e1.next
  · exact e1.ticks
  · intro b i hb; simp only; rw [e2, if_neg (by rintro ⟨h, _⟩; exact hb h)]
  · simp
  · intro i hi; simp at hi
  · intro ht i _ h2
    simp only
    rw [e2]
    split
    · rfl
    · rename_i h
      exact hh.rest ht i (by simp at h; omega) h2

theorem wp_writeAt {s : St α} {xs : List α} {i : Nat} {v : α} {Q : Unit → St α → Prop}
    {E : St α → Prop} (hw : WF s.mem) (hh : Holds cfg s.mem s.d xs) (hi : i < xs.length)
    (hQ : ∀ s', Post cfg s s' (xs.set i v) s.d.cap → Q () s') :
    wp (writeAt cfg i v) s Q E := by
  have hsz := hh.size
  have hle := hh.le
  have hblk := hh.alive cfg (by omega)
  unfold writeAt
  rw [wp_bind, wp_getD]
  refine wp_assign cfg ((inBounds_iff hblk).mpr (by omega)) (.inr (hh.live cfg (by omega)))
    fun s2 e2 => ?_
  have hcell : ∀ b j, s2.mem.cell b j = if b = s.d.blk ∧ j = i then .live v
      else s.mem.cell b j := by
    intro b j; rw [e2.cell]; rfl
  refine hQ _ (own_post cfg hw hh ?_ ?_ ?_ ?_ ?_ ?_ ?_ ?_ ?_ ?_)
  · rw [e2.size]
  · rw [e2.next]
  · exact e2.ticks
  · intro b i hb; rw [hcell, if_neg (by rintro ⟨h, _⟩; exact hb h)]
  · rw [e2.d]
  · rw [e2.d]
  · rw [e2.d]; simp [hsz]
  · simp; omega
  · intro j hj
    simp only [List.length_set] at hj
    rw [hcell, List.getElem_set]
    by_cases h : j = i
    · subst h; simp
    · rw [if_neg (by rintro ⟨_, h'⟩; exact h h'), if_neg (fun h' => h h'.symm)]
      exact hh.cells j (by omega)
  · intro ht j h1 h2
    simp only [List.length_set] at h1
    rw [hcell, if_neg (by omega)]
    exact hh.rest ht j (by omega) h2

end Verif.Arr
