import Verif.Array.Logic

/-! Specifications of the `Array` member functions (helper lemmas for `Verif.Array.Props`). -/

set_option autoImplicit false

namespace Verif.Arr

variable {α : Type} (cfg : Elem α)

/-- The cell holds an object. -/
def Live (c : Cell α) : Prop := ∃ v, c = .live v

theorem choose_live {n : Nat} {g : Nat → Cell α} (hn : 0 < n) (h : ∀ i, i < n → Live (g i)) :
    ∃ f : Nat → α, ∀ i, i < n → g i = .live (f i) := by
  classical
  obtain ⟨v0, _⟩ := h 0 hn
  refine ⟨fun i => if hi : i < n then (h i hi).choose else v0, fun i hi => ?_⟩
  simp only [hi, dif_pos]
  exact (h i hi).choose_spec

/-- Forward relocation: `n` live cells of `src` are copied over; for class types only `n = 0`. -/
theorem wp_fwd (mv : Bool) {src dst ns nd n so o : Nat} {s : St α}
    (hc : cfg.triv = true ∨ n = 0) (hne : src ≠ dst ∨ o ≤ so)
    (hs : n = 0 ∨ s.mem.size src = some ns ∧ s.mem.size dst = some nd ∧ so + n ≤ ns ∧ o + n ≤ nd)
    (hf : ∀ i, i < n → Live (s.mem.cell src (so + i)))
    {Q : Unit → St α → Prop} {E : St α → Prop}
    (hQ : ∀ s', Same s s' → s'.mem.moves = s.mem.moves + n →
      (∀ b i, s'.mem.cell b i = if b = dst ∧ o ≤ i ∧ i < o + n then
        s.mem.cell src (so + (i - o)) else s.mem.cell b i) → Q () s') :
    wp (fwdLoop cfg mv src so dst o n) s Q E := by
  rcases Nat.eq_zero_or_pos n with rfl | hn
  · unfold fwdLoop
    rw [wp_pure]
    exact hQ s (Same.rfl' s) rfl (fun b i => by rw [if_neg (by omega)])
  · obtain ⟨f, hf'⟩ := choose_live hn hf
    refine wp_mono (wp_fwdLoop_triv cfg (hc.resolve_right (by omega)) mv n so o s f hne hs hf' E)
      ?_ (fun _ h => h)
    rintro _ s' ⟨h1, h2, h3⟩
    refine hQ s' h1 h2 fun b i => ?_
    rw [h3]
    split
    · rw [hf' _ (by omega)]
    · rfl

/-- Backward relocation to higher offsets. -/
theorem wp_back (mv : Bool) {blk nb n so o : Nat} {s : St α}
    (hc : cfg.triv = true ∨ n = 0) (hne : so ≤ o)
    (hs : n = 0 ∨ s.mem.size blk = some nb ∧ o + n ≤ nb)
    (hf : ∀ i, i < n → Live (s.mem.cell blk (so + i)))
    {Q : Unit → St α → Prop} {E : St α → Prop}
    (hQ : ∀ s', Same s s' →
      (∀ b i, s'.mem.cell b i = if b = blk ∧ o ≤ i ∧ i < o + n then
        s.mem.cell blk (so + (i - o)) else s.mem.cell b i) → Q () s') :
    wp (backLoop cfg mv blk so o n) s Q E := by
  rcases Nat.eq_zero_or_pos n with rfl | hn
  · unfold backLoop
    rw [wp_pure]
    exact hQ s (Same.rfl' s) (fun b i => by rw [if_neg (by omega)])
  · obtain ⟨f, hf'⟩ := choose_live hn hf
    refine wp_mono (wp_backLoop_triv cfg (hc.resolve_right (by omega)) mv n so o s f hne hs hf' E)
      ?_ (fun _ h => h)
    rintro _ s' ⟨h1, h3⟩
    refine hQ s' h1 fun b i => ?_
    rw [h3]
    split
    · rw [hf' _ (by omega)]
    · rfl

/-- Data `d` in memory `m` represents the sequence `xs`. -/
structure Holds (m : Mem α) (d : Data) (xs : List α) : Prop where
  size : d.size = xs.length
  le : d.size ≤ d.cap
  blk : (d.blk = 0 ∧ d.cap = 0) ∨ (d.blk ≠ 0 ∧ m.size d.blk = some d.cap)
  cells : ∀ i (h : i < xs.length), m.cell d.blk i = .live xs[i]
  rest : cfg.triv = false → ∀ i, xs.length ≤ i → i < d.cap → m.cell d.blk i = .raw

theorem Holds.live {m : Mem α} {d : Data} {xs : List α} (h : Holds cfg m d xs) {i : Nat}
    (hi : i < d.size) : Live (m.cell d.blk i) :=
  ⟨_, h.cells i (by rw [← h.size]; exact hi)⟩

theorem Holds.alive {m : Mem α} {d : Data} {xs : List α} (h : Holds cfg m d xs)
    (hi : d.cap ≠ 0) : m.size d.blk = some d.cap :=
  (h.blk.resolve_left fun h' => hi h'.2).2

/-- Effect of a member function on the rest of memory: `b` is the block of `*this` before, `b'`
after. -/
structure Upd (m m' : Mem α) (b b' : Nat) : Prop where
  keep : ∀ x, m.size x ≠ none → x ≠ b → m'.size x = m.size x ∧ m'.cell x = m.cell x
  owned : ∀ x, m'.size x ≠ none → x = b' ∨ (m.size x ≠ none ∧ x ≠ b)
  new : b' = b ∨ m.size b' = none

theorem Upd.trans {m m' m'' : Mem α} {b b' b'' : Nat} (h : Upd m m' b b') (h' : Upd m' m'' b' b'') :
    Upd m m'' b b'' := by
  have key : ∀ x, m.size x ≠ none → x ≠ b → x ≠ b' := by
    intro x hx hb hb'
    rcases h.new with h1 | h1
    · exact hb (hb'.trans h1)
    · rw [hb'] at hx; exact hx h1
  constructor
  · intro x hx hb
    obtain ⟨h1, h2⟩ := h.keep x hx hb
    obtain ⟨h3, h4⟩ := h'.keep x (by rw [h1]; exact hx) (key x hx hb)
    exact ⟨h3.trans h1, h4.trans h2⟩
  · intro x hx
    rcases h'.owned x hx with h1 | ⟨h1, h2⟩
    · exact .inl h1
    · rcases h.owned x h1 with h3 | h3
      · exact absurd h3 h2
      · exact .inr h3
  · rcases h'.new with h1 | h1
    · rw [h1]; exact h.new
    · by_cases h2 : m.size b'' = none
      · exact .inr h2
      · left
        by_contra h3
        have := (h.keep b'' h2 h3).1
        rw [h1] at this
        exact h2 this.symm

/-- Postcondition of a member function: `*this` now holds `xs'` with capacity `c'`. -/
structure Post (s s' : St α) (xs' : List α) (c' : Nat) : Prop where
  wf : WF s'.mem
  holds : Holds cfg s'.mem s'.d xs'
  cap : s'.d.cap = c'
  upd : Upd s.mem s'.mem s.d.blk s'.d.blk
  ticks : s.mem.ticks = none → s'.mem.ticks = none

theorem Post.trans {s s' s'' : St α} {xs xs' : List α} {c c' : Nat} (h : Post cfg s s' xs c)
    (h' : Post cfg s' s'' xs' c') : Post cfg s s'' xs' c' :=
  ⟨h'.wf, h'.holds, h'.cap, h.upd.trans h'.upd, fun h0 => h'.ticks (h.ticks h0)⟩

theorem Same.wf {s s' : St α} (h : Same s s') (hw : WF s.mem) : WF s'.mem :=
  ⟨fun b hb => by rw [h.size]; exact hw.fresh b (by rw [← h.next]; exact hb),
    by rw [h.size]; exact hw.null, by rw [h.next]; exact hw.pos⟩

/-- A state change inside the array's own block. -/
theorem Same.upd {s s' : St α} (h : Same s s')
    (hc : ∀ b, b ≠ s.d.blk → s.mem.size b ≠ none → s'.mem.cell b = s.mem.cell b) :
    Upd s.mem s'.mem s.d.blk s'.d.blk := by
  constructor
  · intro x hx hb; exact ⟨by rw [h.size], hc x hb hx⟩
  · intro x hx
    rw [h.size] at hx
    by_cases h' : x = s'.d.blk
    · exact .inl h'
    · exact .inr ⟨hx, by rw [← h.d]; exact h'⟩
  · left; rw [h.d]

theorem Eff.post {s s' : St α} {xs : List α} (h : Eff s s' s.mem.cell) (hw : WF s.mem)
    (hh : Holds cfg s.mem s.d xs) : Post cfg s s' xs s.d.cap := by
  refine ⟨h.toSame.wf hw, ?_, by rw [h.d], h.toSame.upd fun b _ _ => by rw [h.cell], h.ticks⟩
  constructor
  · rw [h.d]; exact hh.size
  · rw [h.d]; exact hh.le
  · rw [h.d, h.size]; exact hh.blk
  · rw [h.d, h.cell]; exact hh.cells
  · rw [h.d, h.cell]; exact hh.rest

theorem Post.refl {s : St α} {xs : List α} (hw : WF s.mem) (hh : Holds cfg s.mem s.d xs) :
    Post cfg s s xs s.d.cap :=
  Eff.post cfg ⟨Same.rfl' s, rfl, rfl⟩ hw hh

/-- The argument `src` denotes the value `v`. -/
def SrcOk (m : Mem α) (src : Src α) (v : α) : Prop :=
  match src with
  | .val u => u = v
  | .ref b i => inBounds m b i = true ∧ m.cell b i = .live v

/-- The argument does not refer into block `b`. -/
def Foreign (b : Nat) : Src α → Prop
  | .val _ => True
  | .ref b' _ => b' ≠ b

theorem SrcOk.upd {m m' : Mem α} {src : Src α} {v : α} {b b' : Nat} (h : SrcOk m src v)
    (hu : Upd m m' b b') (hf : Foreign b src) : SrcOk m' src v := by
  cases src with
  | val u => exact h
  | ref x i =>
    obtain ⟨h1, h2⟩ := h
    have hx : m.size x ≠ none := by
      intro hc; simp [inBounds, hc] at h1
    obtain ⟨h3, h4⟩ := hu.keep x hx hf
    exact ⟨by simpa [inBounds, h3] using h1, by rw [h4]; exact h2⟩

theorem SrcOk.same {s s' : St α} {src : Src α} {v : α} (h : SrcOk s.mem src v)
    (hs : Same s s') (hc : ∀ b i, src = .ref b i → s'.mem.cell b i = s.mem.cell b i) :
    SrcOk s'.mem src v := by
  cases src with
  | val u => exact h
  | ref x i =>
    obtain ⟨h1, h2⟩ := h
    exact ⟨by simpa [inBounds, hs.size] using h1, by rw [hc x i rfl]; exact h2⟩

theorem wp_evalSrc {src : Src α} {v : α} {s : St α} {Q : α → St α → Prop} {E : St α → Prop}
    (h : SrcOk s.mem src v) (hQ : ∀ s', Eff s s' s.mem.cell → Q v s')
    (hE : ∀ s', Eff s s' s.mem.cell → s.mem.ticks ≠ none → E s') :
    wp (evalSrc cfg src) s Q E := by
  cases src with
  | val u =>
    unfold evalSrc
    rw [wp_bind]
    refine wp_tick (fun s' e => ?_) hE
    rw [wp_pure]
    have hu : u = v := h
    rw [hu]
    exact hQ s' e
  | ref b i =>
    exact wp_copyFrom cfg h.1 h.2 hQ (fun s' e h1 _ => hE s' e h1)

/-- A freshly allocated block. -/
structure Fresh (s s1 : St α) (n : Nat) : Prop where
  alloc : AllocEff s s1 n
  ne0 : s.mem.next ≠ 0
  none' : s.mem.size s.mem.next = none
  old : ∀ b, s.mem.size b ≠ none → b ≠ s.mem.next ∧ s1.mem.size b = s.mem.size b ∧
    s1.mem.cell b = s.mem.cell b

theorem AllocEff.fresh {s s1 : St α} {n : Nat} (h : AllocEff s s1 n) (hw : WF s.mem) :
    Fresh s s1 n := by
  have h0 : s.mem.size s.mem.next = none := hw.fresh _ (Nat.le_refl _)
  refine ⟨h, Nat.pos_iff_ne_zero.mp hw.pos, h0, fun b hb => ?_⟩
  have hne : b ≠ s.mem.next := by rintro rfl; exact hb h0
  exact ⟨hne, by rw [h.size]; simp [Arr.upd, hne], by rw [h.cell]; simp [Arr.upd, hne]⟩

theorem Fresh.size_new {s s1 : St α} {n : Nat} (h : Fresh s s1 n) :
    s1.mem.size s.mem.next = some n := by
  rw [h.alloc.size]; simp [Arr.upd]

theorem Fresh.cell_new {s s1 : St α} {n : Nat} (h : Fresh s s1 n) (i : Nat) :
    s1.mem.cell s.mem.next i = .raw := by
  rw [h.alloc.cell]; simp [Arr.upd]

/-- After allocating `nb := s.mem.next`, changing only `nb` and the own block, and releasing the
own block, exactly the new block replaces the old one. -/
theorem replace_post {s s1 s2 s3 : St α} {n : Nat} {xs xs' : List α} {d' : Data}
    (hw : WF s.mem) (hh : Holds cfg s.mem s.d xs) (hf : Fresh s s1 n) (h2 : Same s1 s2)
    (hk : ∀ b, b ≠ s.mem.next → b ≠ s.d.blk → s2.mem.cell b = s1.mem.cell b)
    (h3 : (s.d.blk = 0 ∧ s3 = s2) ∨ (s.d.blk ≠ 0 ∧ FreeEff s2 s3 s.d.blk))
    (hd : d'.blk = s.mem.next) (hsz : d'.size = xs'.length) (hcap : d'.cap = n)
    (hle : xs'.length ≤ n)
    (hc : ∀ i (h : i < xs'.length), s2.mem.cell s.mem.next i = .live xs'[i])
    (hr : cfg.triv = false → ∀ i, xs'.length ≤ i → i < n → s2.mem.cell s.mem.next i = .raw) :
    Post cfg s { s3 with d := d' } xs' n := by
  have hne : s.d.blk ≠ s.mem.next := by
    rcases hh.blk with h | h
    · rw [h.1]; exact hf.ne0.symm
    · exact (hf.old _ (by rw [h.2]; simp)).1
  have hcell : s3.mem.cell = s2.mem.cell := by
    rcases h3 with ⟨_, rfl⟩ | ⟨_, h⟩
    · rfl
    · exact h.cell
  have hsize : ∀ b, b ≠ s.d.blk → s3.mem.size b = s1.mem.size b := by
    intro b hb
    rcases h3 with ⟨_, rfl⟩ | ⟨_, h⟩
    · rw [h2.size]
    · rw [h.size, ← h2.size]; simp [Arr.upd, hb]
  have hself : s3.mem.size s.d.blk = none := by
    rcases h3 with ⟨h0, rfl⟩ | ⟨_, h⟩
    · rw [h2.size, hf.alloc.size, h0]
      simp only [Arr.upd]
      rw [if_neg hf.ne0.symm]; exact hw.null
    · rw [h.size]; simp [Arr.upd]
  have hnext : s3.mem.next = s.mem.next + 1 := by
    rcases h3 with ⟨_, rfl⟩ | ⟨_, h⟩
    · rw [h2.next, hf.alloc.next]
    · rw [h.next, h2.next, hf.alloc.next]
  have hticks : s.mem.ticks = none → s3.mem.ticks = none := by
    intro h0
    rcases h3 with ⟨_, rfl⟩ | ⟨_, h⟩
    · exact h2.ticks (hf.alloc.ticks h0)
    · exact h.ticks (h2.ticks (hf.alloc.ticks h0))
  refine ⟨⟨?_, ?_, ?_⟩, ⟨hsz, ?_, ?_, ?_, ?_⟩, hcap, ⟨?_, ?_, ?_⟩, hticks⟩
  · intro b hb
    simp only [hnext] at hb ⊢
    by_cases hbd : b = s.d.blk
    · rw [hbd]; exact hself
    · rw [hsize b hbd, hf.alloc.size]
      simp only [Arr.upd]
      rw [if_neg (by omega)]
      exact hw.fresh b (by omega)
  · by_cases hbd : 0 = s.d.blk
    · simp only [hbd]; exact hself
    · simp only
      rw [hsize 0 hbd, hf.alloc.size]
      simp only [Arr.upd]
      rw [if_neg hf.ne0.symm]
      exact hw.null
  · simp only [hnext]; omega
  · rw [hsz, hcap]; exact hle
  · right
    simp only [hd, hcap]
    exact ⟨hf.ne0, by rw [hsize _ hne.symm]; exact hf.size_new⟩
  · intro i hi
    simp only [hd, hcell]
    exact hc i hi
  · intro ht i h1 h2
    simp only [hd, hcell]
    rw [hcap] at h2
    exact hr ht i h1 h2
  · intro x hx hb
    simp only
    obtain ⟨g1, g2, g3⟩ := hf.old x hx
    exact ⟨by rw [hsize x hb, g2], by rw [hcell, hk x g1 hb, g3]⟩
  · intro x hx
    simp only [hd] at hx ⊢
    by_cases h' : x = s.mem.next
    · exact .inl h'
    · right
      have hxb : x ≠ s.d.blk := by rintro rfl; exact hx hself
      rw [hsize x hxb, hf.alloc.size] at hx
      simp only [Arr.upd, h', if_false] at hx
      exact ⟨hx, hxb⟩
  · right
    simp only [hd]; exact hf.none'

/-- Allocating a block, possibly writing to it, and giving it back leaves the array as it was. -/
theorem undo_post {s s1 s2 s3 : St α} {n : Nat} {xs : List α}
    (hw : WF s.mem) (hh : Holds cfg s.mem s.d xs) (hf : Fresh s s1 n) (h2 : Same s1 s2)
    (hk : ∀ b, b ≠ s.mem.next → s2.mem.cell b = s1.mem.cell b)
    (h3 : FreeEff s2 s3 s.mem.next) :
    Post cfg s s3 xs s.d.cap := by
  have hd : s3.d = s.d := by rw [h3.d, h2.d, hf.alloc.d]
  have hsize : s3.mem.size = s.mem.size := by
    funext b
    rw [h3.size, h2.size, hf.alloc.size]
    simp only [Arr.upd]
    split
    · rename_i h; rw [h]; exact hf.none'.symm
    · rfl
  have hcell : ∀ b, s.mem.size b ≠ none → s3.mem.cell b = s.mem.cell b := by
    intro b hb
    obtain ⟨g1, g2, g3⟩ := hf.old b hb
    rw [h3.cell, hk b g1, g3]
  have hblk : xs ≠ [] ∨ s.d.cap ≠ 0 → s.mem.size s.d.blk ≠ none := by
    intro h
    have : s.d.cap ≠ 0 := by
      rcases h with h | h
      · have h1 := hh.size
        have h2 := hh.le
        have : xs.length ≠ 0 := by simpa using h
        omega
      · exact h
    rw [hh.alive cfg this]; simp
  refine ⟨⟨?_, ?_, ?_⟩, ⟨?_, ?_, ?_, ?_, ?_⟩, by rw [hd], ⟨?_, ?_, ?_⟩,
    fun h0 => h3.ticks (h2.ticks (hf.alloc.ticks h0))⟩
  · intro b hb
    rw [hsize]
    rw [h3.next, h2.next, hf.alloc.next] at hb
    exact hw.fresh b (by omega)
  · rw [hsize]; exact hw.null
  · rw [h3.next, h2.next, hf.alloc.next]; omega
  · rw [hd]; exact hh.size
  · rw [hd]; exact hh.le
  · rw [hd, hsize]; exact hh.blk
  · intro i hi
    rw [hd, hcell _ (hblk (.inl (by rintro rfl; simp at hi)))]
    exact hh.cells i hi
  · intro ht i h1 h2
    rw [hd] at h2 ⊢
    rw [hcell _ (hblk (.inr (by omega)))]
    exact hh.rest ht i h1 h2
  · intro x hx _
    exact ⟨by rw [hsize], hcell x hx⟩
  · intro x hx
    rw [hsize] at hx
    by_cases h' : x = s3.d.blk
    · exact .inl h'
    · exact .inr ⟨hx, by rw [← hd]; exact h'⟩
  · left; rw [hd]

end Verif.Arr
