import Verif.Array.Model
import Mathlib.Tactic.Common

/-! Program logic for the `Array` model: weakest preconditions and the specifications of the
primitives and loops. -/

set_option autoImplicit false

namespace Verif.Arr

variable {α β γ σ : Type}

/-- `f` started in `s` has no undefined behaviour; it returns with `Q` or throws with `E`. -/
def wp (f : M σ β) (s : σ) (Q : β → σ → Prop) (E : σ → Prop) : Prop :=
  match f s with
  | .ok b s' => Q b s'
  | .throw s' => E s'
  | .ub => False

theorem wp_pure (b : β) (s : σ) (Q : β → σ → Prop) (E : σ → Prop) :
    wp (pure b : M σ β) s Q E ↔ Q b s := Iff.rfl

theorem wp_bind (f : M σ β) (g : β → M σ γ) (s : σ) (Q : γ → σ → Prop) (E : σ → Prop) :
    wp (f >>= g) s Q E ↔ wp f s (fun b s' => wp (g b) s' Q E) E := by
  show wp (M.bind f g) s Q E ↔ _
  unfold wp M.bind
  cases f s <;> rfl

theorem wp_mono {f : M σ β} {s : σ} {Q Q' : β → σ → Prop} {E E' : σ → Prop}
    (h : wp f s Q E) (hQ : ∀ b s', Q b s' → Q' b s') (hE : ∀ s', E s' → E' s') : wp f s Q' E' := by
  unfold wp at *
  cases hf : f s with
  | ok b s' => rw [hf] at h; exact hQ _ _ h
  | throw s' => rw [hf] at h; exact hE _ h
  | ub => rw [hf] at h; exact h

theorem wp_get (s : σ) (Q : σ → σ → Prop) (E : σ → Prop) : wp M.get s Q E ↔ Q s s := Iff.rfl

theorem wp_modify (u : σ → σ) (s : σ) (Q : Unit → σ → Prop) (E : σ → Prop) :
    wp (M.modify u) s Q E ↔ Q () (u s) := Iff.rfl

theorem wp_ub (s : σ) (Q : β → σ → Prop) (E : σ → Prop) : wp (M.ub : M σ β) s Q E ↔ False := Iff.rfl

theorem wp_tryRethrow (f : M σ β) (h : M σ Unit) (s : σ) (Q : β → σ → Prop) (E : σ → Prop) :
    wp (M.tryRethrow f h) s Q E ↔ wp f s Q (fun s' => wp h s' (fun _ => E) E) := by
  unfold wp M.tryRethrow
  cases f s with
  | ok => rfl
  | throw s' => simp only; cases h s' <;> rfl
  | ub => rfl

theorem wp_ite (c : Prop) [Decidable c] (f g : M σ β) (s : σ) (Q : β → σ → Prop) (E : σ → Prop) :
    wp (if c then f else g) s Q E ↔ if c then wp f s Q E else wp g s Q E := by
  split <;> rfl

theorem wp_onlyIf (c : Prop) [Decidable c] (f : A α Unit) (s : St α) (Q : Unit → St α → Prop)
    (E : St α → Prop) : wp (onlyIf c f) s Q E ↔ if c then wp f s Q E else Q () s := by
  unfold onlyIf; split <;> rfl

theorem wp_getD (s : St α) (Q : Data → St α → Prop) (E : St α → Prop) :
    wp getD s Q E ↔ Q s.d s := Iff.rfl

theorem wp_setD (d : Data) (s : St α) (Q : Unit → St α → Prop) (E : St α → Prop) :
    wp (setD d) s Q E ↔ Q () { s with d := d } := Iff.rfl

theorem wp_setMem (u : Mem α → Mem α) (s : St α) (Q : Unit → St α → Prop) (E : St α → Prop) :
    wp (setMem u) s Q E ↔ Q () { s with mem := u s.mem } := Iff.rfl

/-- `wp` from the result. -/
theorem wp_of_eq {f : M σ β} {s : σ} {b : β} {s' : σ} (h : f s = .ok b s') {Q : β → σ → Prop}
    {E : σ → Prop} : wp f s Q E ↔ Q b s' := by
  unfold wp; rw [h]

/-! ### Effects

The rules below describe the state after a primitive by a relation, so that states stay opaque in
proofs. -/

/-- Same blocks, same array data; cells, countdown and ghost counters may differ. -/
structure Same (s s' : St α) : Prop where
  size : s'.mem.size = s.mem.size
  next : s'.mem.next = s.mem.next
  d : s'.d = s.d
  allocs : s'.mem.allocs = s.mem.allocs
  ticks : s.mem.ticks = none → s'.mem.ticks = none

theorem Same.rfl' (s : St α) : Same s s := ⟨rfl, rfl, rfl, rfl, fun h => h⟩

theorem Same.trans {s s' s'' : St α} (h : Same s s') (h' : Same s' s'') : Same s s'' :=
  ⟨h'.size.trans h.size, h'.next.trans h.next, h'.d.trans h.d, h'.allocs.trans h.allocs,
    fun h0 => h'.ticks (h.ticks h0)⟩

/-- Only cell contents changed, to `c`. -/
structure Eff (s s' : St α) (c : Nat → Nat → Cell α) : Prop extends Same s s' where
  cell : s'.mem.cell = c
  moves : s'.mem.moves = s.mem.moves

/-- `tick` changes only the countdown. -/
theorem wp_tick {s : St α} {Q : Unit → St α → Prop} {E : St α → Prop}
    (hQ : ∀ s', Eff s s' s.mem.cell → Q () s')
    (hE : ∀ s', Eff s s' s.mem.cell → s.mem.ticks ≠ none → E s') :
    wp tick s Q E := by
  unfold wp tick
  rcases ht : s.mem.ticks with _ | _ | n
  · exact hQ s ⟨Same.rfl' s, rfl, rfl⟩
  · exact hE _ ⟨⟨rfl, rfl, rfl, rfl, fun _ => rfl⟩, rfl, rfl⟩ (by simp [ht])
  · exact hQ _ ⟨⟨rfl, rfl, rfl, rfl, fun h => by simp [ht] at h⟩, rfl, rfl⟩

variable (cfg : Elem α)

theorem wp_copyTick {s : St α} {Q : Unit → St α → Prop} {E : St α → Prop}
    (hQ : ∀ s', Eff s s' s.mem.cell → Q () s')
    (hE : ∀ s', Eff s s' s.mem.cell → s.mem.ticks ≠ none → cfg.triv = false → E s') :
    wp (copyTick cfg) s Q E := by
  unfold copyTick
  rw [wp_ite]
  split
  · exact (wp_pure _ _ _ _).mpr (hQ s ⟨Same.rfl' s, rfl, rfl⟩)
  · rename_i h; exact wp_tick hQ (fun s' h1 h2 => hE s' h1 h2 (by simpa using h))

/-- Well-formed memory: handed-out blocks are below `next`, block 0 is the null pointer. -/
structure WF (m : Mem α) : Prop where
  fresh : ∀ b, m.next ≤ b → m.size b = none
  null : m.size 0 = none
  pos : 0 < m.next

/-- A fresh block of `n` raw cells exists. -/
structure AllocEff (s s' : St α) (n : Nat) : Prop where
  size : s'.mem.size = upd s.mem.size s.mem.next (some n)
  cell : s'.mem.cell = upd s.mem.cell s.mem.next (fun _ => .raw)
  next : s'.mem.next = s.mem.next + 1
  d : s'.d = s.d
  allocs : s'.mem.allocs = s.mem.allocs + 1
  moves : s'.mem.moves = s.mem.moves
  ticks : s.mem.ticks = none → s'.mem.ticks = none

/-- `allocate` hands out a fresh block. -/
theorem wp_allocate {n : Nat} {s : St α} {Q : Nat → St α → Prop} {E : St α → Prop}
    (hQ : ∀ s', AllocEff s s' n → Q s.mem.next s')
    (hE : ∀ s', Eff s s' s.mem.cell → s.mem.ticks ≠ none → E s') :
    wp (allocate n) s Q E := by
  unfold allocate
  rw [wp_bind]
  refine wp_tick (fun s' h => ?_) hE
  simp only [wp_bind, wp_get, wp_setMem, wp_pure]
  have h1 := h.next
  rw [h1]
  exact hQ _ ⟨by simp [h.size], by simp [h.cell], by simp, h.d, by simp [h.allocs], h.moves,
    h.ticks⟩

theorem wp_read {b i : Nat} {s : St α} {Q : α → St α → Prop} {E : St α → Prop} {v : α}
    (hb : inBounds s.mem b i = true) (hc : s.mem.cell b i = .live v) (hQ : Q v s) :
    wp (read b i) s Q E := by
  simp only [wp, read, hb, if_true, hc]; exact hQ

theorem eff_set (s : St α) (b i : Nat) (c : Cell α) :
    Eff s { s with mem := { s.mem with cell := upd2 s.mem.cell b i c } } (upd2 s.mem.cell b i c) :=
  ⟨⟨rfl, rfl, rfl, rfl, fun h => h⟩, rfl, rfl⟩

theorem wp_construct {b i : Nat} {v : α} {s : St α} {Q : Unit → St α → Prop} {E : St α → Prop}
    (hb : inBounds s.mem b i = true) (hc : cfg.triv = true ∨ s.mem.cell b i = .raw)
    (hQ : ∀ s', Eff s s' (upd2 s.mem.cell b i (.live v)) → Q () s') :
    wp (construct cfg b i v) s Q E := by
  have : (inBounds s.mem b i && (cfg.triv || (s.mem.cell b i).isRaw)) = true := by
    rcases hc with h | h <;> simp [hb, h, Cell.isRaw]
  simp only [wp, construct, this, if_true]
  exact hQ _ (eff_set s b i _)

theorem wp_assign {b i : Nat} {v : α} {s : St α} {Q : Unit → St α → Prop} {E : St α → Prop}
    (hb : inBounds s.mem b i = true) (hc : cfg.triv = true ∨ ∃ u, s.mem.cell b i = .live u)
    (hQ : ∀ s', Eff s s' (upd2 s.mem.cell b i (.live v)) → Q () s') :
    wp (assign cfg b i v) s Q E := by
  have : (inBounds s.mem b i && (cfg.triv || !(s.mem.cell b i).isRaw)) = true := by
    rcases hc with h | ⟨u, h⟩ <;> simp [hb, h, Cell.isRaw]
  simp only [wp, assign, this, if_true]
  exact hQ _ (eff_set s b i _)

theorem wp_destroy {b i : Nat} {s : St α} {Q : Unit → St α → Prop} {E : St α → Prop}
    (hb : inBounds s.mem b i = true) (hc : cfg.triv = true ∨ ∃ u, s.mem.cell b i = .live u)
    (hQ : ∀ s', Eff s s' (upd2 s.mem.cell b i .raw) → Q () s') :
    wp (destroy cfg b i) s Q E := by
  have : (inBounds s.mem b i && (cfg.triv || !(s.mem.cell b i).isRaw)) = true := by
    rcases hc with h | ⟨u, h⟩ <;> simp [hb, h, Cell.isRaw]
  simp only [wp, destroy, this, if_true]
  exact hQ _ (eff_set s b i _)

/-- Block `b` is gone. -/
structure FreeEff (s s' : St α) (b : Nat) : Prop where
  size : s'.mem.size = upd s.mem.size b none
  cell : s'.mem.cell = s.mem.cell
  next : s'.mem.next = s.mem.next
  d : s'.d = s.d
  allocs : s'.mem.allocs = s.mem.allocs
  moves : s'.mem.moves = s.mem.moves
  ticks : s.mem.ticks = none → s'.mem.ticks = none

theorem wp_deallocate {b n : Nat} {s : St α} {Q : Unit → St α → Prop} {E : St α → Prop}
    (hs : s.mem.size b = some n)
    (hc : cfg.triv = true ∨ ∀ i, i < n → s.mem.cell b i = .raw)
    (hQ : ∀ s', FreeEff s s' b → Q () s') :
    wp (deallocate cfg b n) s Q E := by
  unfold deallocate
  rw [wp_bind, wp_get, wp_ite, if_pos, wp_setMem]
  · exact hQ _ ⟨rfl, rfl, rfl, rfl, rfl, rfl, fun h => h⟩
  · refine ⟨hs, hc.imp id fun h i hi => by rw [h i hi]; rfl⟩

theorem wp_copyFrom {b i : Nat} {s : St α} {Q : α → St α → Prop} {E : St α → Prop} {v : α}
    (hb : inBounds s.mem b i = true) (hc : s.mem.cell b i = .live v)
    (hQ : ∀ s', Eff s s' s.mem.cell → Q v s')
    (hE : ∀ s', Eff s s' s.mem.cell → s.mem.ticks ≠ none → cfg.triv = false → E s') :
    wp (copyFrom cfg b i) s Q E := by
  unfold copyFrom
  rw [wp_bind]
  refine wp_read hb hc ?_
  rw [wp_bind]
  exact wp_copyTick cfg (fun s' h => (wp_pure _ _ _ _).mpr (hQ s' h)) hE

theorem wp_moveFrom {b i : Nat} {s : St α} {Q : α → St α → Prop} {E : St α → Prop} {v : α}
    (hb : inBounds s.mem b i = true) (hc : s.mem.cell b i = .live v)
    (hQ : ∀ s', Eff s s' (upd2 s.mem.cell b i (.live (if cfg.triv then v else cfg.husk v))) →
      Q v s') :
    wp (moveFrom cfg b i) s Q E := by
  unfold moveFrom
  rw [wp_bind]
  refine wp_read hb hc ?_
  rw [wp_bind]
  exact hQ _ (eff_set s b i _)

theorem inBounds_iff {m : Mem α} {b i n : Nat} (h : m.size b = some n) :
    inBounds m b i = true ↔ i < n := by
  simp [inBounds, h]

theorem upd2_self {f : Nat → Nat → Cell α} {b i : Nat} {c : Cell α} (h : f b i = c) :
    upd2 f b i c = f := by
  funext b' j
  simp only [upd2]
  split
  · rename_i h'; rw [h'.1, h'.2, h]
  · rfl

/-- Fetching an element of a trivially copyable type changes nothing. -/
theorem wp_fetch_triv (ht : cfg.triv = true) {mv : Bool} {b i : Nat} {s : St α}
    {Q : α → St α → Prop} {E : St α → Prop} {v : α}
    (hb : inBounds s.mem b i = true) (hc : s.mem.cell b i = .live v)
    (hQ : ∀ s', Eff s s' s.mem.cell → Q v s') :
    wp (fetch cfg mv b i) s Q E := by
  unfold fetch
  cases mv with
  | true =>
    simp only [if_true]
    refine wp_moveFrom cfg hb hc fun s' h => ?_
    rw [if_pos ht, upd2_self hc] at h
    exact hQ s' h
  | false =>
    exact wp_copyFrom cfg hb hc hQ (fun _ _ _ h => by rw [ht] at h; cases h)

/-- Counting one relocation. -/
structure CountEff (s s' : St α) : Prop extends Same s s' where
  cell : s'.mem.cell = s.mem.cell
  moves : s'.mem.moves = s.mem.moves + 1

theorem wp_count {k : Nat} {s : St α} {Q : Unit → St α → Prop} {E : St α → Prop}
    (hQ : ∀ s', CountEff s s' → Q () s') :
    wp (setMem fun m => { m with moves := m.moves + 1, copies := m.copies + k }) s Q E := by
  rw [wp_setMem]
  exact hQ _ ⟨⟨rfl, rfl, rfl, rfl, fun h => h⟩, rfl, rfl⟩

/-- One step of a relocation loop for trivially copyable elements. -/
theorem wp_step_triv (ht : cfg.triv = true) {mv : Bool} {src so dst o : Nat} {s : St α}
    {k : A α Unit} {Q : Unit → St α → Prop} {E : St α → Prop} {v : α}
    (hb : inBounds s.mem src so = true) (hc : s.mem.cell src so = .live v)
    (hb' : inBounds s.mem dst o = true)
    (hQ : ∀ s', Same s s' → s'.mem.cell = upd2 s.mem.cell dst o (.live v) →
      s'.mem.moves = s.mem.moves + 1 → wp k s' Q E) :
    wp (do let v ← fetch cfg mv src so
           assign cfg dst o v
           setMem fun m => { m with moves := m.moves + 1, copies := m.copies + if mv then 0 else 1 }
           k) s Q E := by
  rw [wp_bind]
  refine wp_fetch_triv cfg ht hb hc fun s1 h1 => ?_
  rw [wp_bind]
  refine wp_assign cfg (by simpa [inBounds, h1.size] using hb') (.inl ht) fun s2 h2 => ?_
  rw [wp_bind]
  refine wp_count fun s3 h3 => ?_
  refine hQ s3 ((h1.toSame.trans h2.toSame).trans h3.toSame) ?_ ?_
  · rw [h3.cell, h2.cell, h1.cell]
  · rw [h3.moves, h2.moves, h1.moves]

/-- The forward loop from `src` to another block, or inside one block to lower offsets; trivially
copyable elements. -/
theorem wp_fwdLoop_triv (ht : cfg.triv = true) (mv : Bool) {src dst ns nd : Nat} (n : Nat) :
    ∀ (so o : Nat) (s : St α) (f : Nat → α), (src ≠ dst ∨ o ≤ so) →
    (n = 0 ∨ s.mem.size src = some ns ∧ s.mem.size dst = some nd ∧ so + n ≤ ns ∧ o + n ≤ nd) →
    (∀ i, i < n → s.mem.cell src (so + i) = .live (f i)) →
    ∀ (E : St α → Prop),
    wp (fwdLoop cfg mv src so dst o n) s (fun _ s' => Same s s' ∧
      s'.mem.moves = s.mem.moves + n ∧
      ∀ b i, s'.mem.cell b i = if b = dst ∧ o ≤ i ∧ i < o + n then .live (f (i - o))
        else s.mem.cell b i) E := by
  induction n with
  | zero =>
    intro so o s f _ _ _ E
    unfold fwdLoop
    rw [wp_pure]
    exact ⟨Same.rfl' s, rfl, fun b i => by rw [if_neg (by omega)]⟩
  | succ n ih =>
    intro so o s f hne hs hf E
    obtain ⟨hs', hd', h1, h2⟩ := hs.resolve_left (by omega)
    have h0 := hf 0 (by omega)
    rw [Nat.add_zero] at h0
    unfold fwdLoop
    refine wp_step_triv cfg ht ((inBounds_iff hs').mpr (by omega)) h0
      ((inBounds_iff hd').mpr (by omega)) fun s1 e1 e2 e3 => ?_
    refine wp_mono (ih (so + 1) (o + 1) s1 (fun i => f (i + 1)) (hne.imp id (by omega))
      (.inr ⟨by rw [e1.size, hs'], by rw [e1.size, hd'], by omega, by omega⟩)
      (fun i hi => ?_) E) ?_ (fun _ h => h)
    · rw [e2]
      simp only [upd2]
      rw [if_neg (by omega)]
      have := hf (i + 1) (by omega)
      rw [← this]; congr 1; omega
    · rintro _ s' ⟨g1, g2, g3⟩
      refine ⟨e1.trans g1, by omega, ?_⟩
      intro b i
      rw [g3, e2]
      simp only [upd2]
      by_cases hbd : b = dst
      · subst hbd
        by_cases hi0 : i = o
        · subst hi0
          rw [if_neg (by omega), if_pos ⟨rfl, rfl⟩, if_pos ⟨rfl, by omega, by omega⟩, Nat.sub_self]
        · by_cases hi1 : o + 1 ≤ i ∧ i < o + 1 + n
          · rw [if_pos ⟨rfl, hi1⟩, if_pos ⟨rfl, by omega, by omega⟩]
            congr 2; omega
          · rw [if_neg (by rintro ⟨_, h⟩; exact hi1 h), if_neg (by omega), if_neg (by omega)]
      · simp [hbd]

/-- `std::move_backward` inside one block to higher offsets; trivially copyable elements. -/
theorem wp_backLoop_triv (ht : cfg.triv = true) (mv : Bool) {blk nb : Nat} (n : Nat) :
    ∀ (so o : Nat) (s : St α) (f : Nat → α), so ≤ o →
    (n = 0 ∨ s.mem.size blk = some nb ∧ o + n ≤ nb) →
    (∀ i, i < n → s.mem.cell blk (so + i) = .live (f i)) →
    ∀ (E : St α → Prop),
    wp (backLoop cfg mv blk so o n) s (fun _ s' => Same s s' ∧
      ∀ b i, s'.mem.cell b i = if b = blk ∧ o ≤ i ∧ i < o + n then .live (f (i - o))
        else s.mem.cell b i) E := by
  induction n with
  | zero =>
    intro so o s f _ _ _ E
    unfold backLoop
    rw [wp_pure]
    exact ⟨Same.rfl' s, fun b i => by rw [if_neg (by omega)]⟩
  | succ n ih =>
    intro so o s f hne hs hf E
    obtain ⟨hs', h1⟩ := hs.resolve_left (by omega)
    unfold backLoop
    refine wp_step_triv cfg ht ((inBounds_iff hs').mpr (by omega)) (hf n (by omega))
      ((inBounds_iff hs').mpr (by omega)) fun s1 e1 e2 e3 => ?_
    refine wp_mono (ih so o s1 f hne
      (.inr ⟨by rw [e1.size, hs'], by omega⟩) (fun i hi => ?_) E) ?_ (fun _ h => h)
    · rw [e2]
      simp only [upd2]
      rw [if_neg (by omega)]
      exact hf i (by omega)
    · rintro _ s' ⟨g1, g3⟩
      refine ⟨e1.trans g1, ?_⟩
      intro b i
      rw [g3, e2]
      simp only [upd2]
      by_cases hbd : b = blk
      · subst hbd
        by_cases hi0 : i = o + n
        · subst hi0
          simp
        · by_cases hi1 : o ≤ i ∧ i < o + n
          · rw [if_pos ⟨rfl, hi1⟩, if_pos ⟨rfl, by omega, by omega⟩]
          · rw [if_neg (by rintro ⟨_, h⟩; exact hi1 h), if_neg (by omega), if_neg (by omega)]
      · simp [hbd]

/-- `std::move_backward` by one place inside one block of live objects, any element type: this is
what `insert` of one value does.  The target cells are alive, the first one is left moved-from. -/
theorem wp_backLoop_one {blk nb : Nat} (n : Nat) :
    ∀ (so : Nat) (s : St α) (f : Nat → α) (u : α),
    (n = 0 ∨ s.mem.size blk = some nb ∧ so + 1 + n ≤ nb) →
    (∀ i, i < n → s.mem.cell blk (so + i) = .live (f i)) → s.mem.cell blk (so + n) = .live u →
    ∀ (E : St α → Prop),
    wp (backLoop cfg true blk so (so + 1) n) s (fun _ s' => Same s s' ∧
      s'.mem.cell blk so = .live (if n = 0 then u else if cfg.triv then f 0 else cfg.husk (f 0)) ∧
      ∀ b i, (b ≠ blk ∨ i ≠ so) →
        s'.mem.cell b i = if b = blk ∧ so + 1 ≤ i ∧ i < so + 1 + n then .live (f (i - (so + 1)))
        else s.mem.cell b i) E := by
  induction n with
  | zero =>
    intro so s f u _ _ hu E
    unfold backLoop
    rw [wp_pure]
    exact ⟨Same.rfl' s, by simpa using hu, fun b i _ => by rw [if_neg (by omega)]⟩
  | succ n ih =>
    intro so s f u hs hf hu E
    obtain ⟨hs', h1⟩ := hs.resolve_left (by omega)
    unfold backLoop
    rw [wp_bind]
    simp only [fetch, if_true]
    refine wp_moveFrom cfg ((inBounds_iff hs').mpr (by omega)) (hf n (by omega)) fun s1 e1 => ?_
    rw [wp_bind]
    refine wp_assign cfg (by simp only [inBounds, e1.size, hs']; simp; omega)
      (.inr ⟨u, ?_⟩) fun s2 e2 => ?_
    · rw [e1.cell]
      simp only [upd2]
      rw [if_neg (by omega), ← hu]; congr 1; omega
    rw [wp_bind]
    refine wp_count fun s3 e3 => ?_
    have hsame : Same s s3 := (e1.toSame.trans e2.toSame).trans e3.toSame
    refine wp_mono (ih so s3 f (if cfg.triv then f n else cfg.husk (f n))
      (.inr ⟨by rw [hsame.size, hs'], by omega⟩) (fun i hi => ?_) ?_ E) ?_ (fun _ h => h)
    · rw [e3.cell, e2.cell, e1.cell]
      simp only [upd2]
      rw [if_neg (by omega), if_neg (by omega)]
      exact hf i (by omega)
    · rw [e3.cell, e2.cell, e1.cell]
      simp only [upd2]
      rw [if_neg (by omega)]
      simp
    · rintro _ s' ⟨g1, g2, g3⟩
      refine ⟨hsame.trans g1, ?_, ?_⟩
      · rw [g2]
        by_cases h0 : n = 0
        · subst h0; simp
        · simp [h0]
      intro b i hbi
      rw [g3 b i hbi, e3.cell, e2.cell, e1.cell]
      simp only [upd2]
      by_cases hbd : b = blk
      · subst hbd
        by_cases hi0 : i = so + 1 + n
        · subst hi0
          simp
        · by_cases hi1 : so + 1 ≤ i ∧ i < so + 1 + n
          · rw [if_pos ⟨rfl, hi1⟩, if_pos ⟨rfl, by omega, by omega⟩]
          · rw [if_neg (by rintro ⟨_, h⟩; exact hi1 h), if_neg (by omega), if_neg (by omega),
              if_neg (by omega)]
      · simp [hbd]

/-- Copying elements onto themselves (as `erase(it, it)` does) changes nothing, for every element
type. -/
theorem wp_fwdLoop_self {blk nb : Nat} (n : Nat) :
    ∀ (o : Nat) (s : St α) (f : Nat → α), (n = 0 ∨ s.mem.size blk = some nb ∧ o + n ≤ nb) →
    (∀ i, i < n → s.mem.cell blk (o + i) = .live (f i)) →
    wp (fwdLoop cfg false blk o blk o n) s
      (fun _ s' => Same s s' ∧ s'.mem.cell = s.mem.cell)
      (fun s' => Same s s' ∧ s'.mem.cell = s.mem.cell ∧ s.mem.ticks ≠ none) := by
  induction n with
  | zero =>
    intro o s f _ _
    unfold fwdLoop
    rw [wp_pure]
    exact ⟨Same.rfl' s, rfl⟩
  | succ n ih =>
    intro o s f hs hf
    obtain ⟨hs', h1⟩ := hs.resolve_left (by omega)
    unfold fwdLoop
    simp only [fetch, Bool.false_eq_true, if_false]
    rw [wp_bind]
    have hb : inBounds s.mem blk o = true := (inBounds_iff hs').mpr (by omega)
    have h0 := hf 0 (by omega)
    rw [Nat.add_zero] at h0
    refine wp_copyFrom cfg hb h0 (fun s1 e1 => ?_) (fun s1 e1 ht _ => ⟨e1.toSame, e1.cell, ht⟩)
    rw [wp_bind]
    refine wp_assign cfg (by simpa [inBounds, e1.size] using hb) (.inr ⟨_, by rw [e1.cell]; exact h0⟩)
      fun s2 e2 => ?_
    rw [wp_bind]
    refine wp_count fun s3 e3 => ?_
    have hsame : Same s s3 := (e1.toSame.trans e2.toSame).trans e3.toSame
    have hcell : s3.mem.cell = s.mem.cell := by
      rw [e3.cell, e2.cell, e1.cell, upd2_self h0]
    refine wp_mono (ih (o + 1) s3 (fun i => f (i + 1))
      (.inr ⟨by rw [hsame.size, hs'], by omega⟩) (fun i hi => ?_)) ?_ ?_
    · have := hf (i + 1) (by omega)
      rw [← this, hcell]; congr 1; omega
    · rintro _ s' ⟨g1, g3⟩
      exact ⟨hsame.trans g1, by rw [g3, hcell]⟩
    · rintro s' ⟨g1, g3, g4⟩
      exact ⟨hsame.trans g1, by rw [g3, hcell], fun h => g4 (hsame.ticks h)⟩

/-- The same for `std::move_backward` onto itself (insertion of an empty range). -/
theorem wp_backLoop_self {blk nb : Nat} (n : Nat) :
    ∀ (o : Nat) (s : St α) (f : Nat → α), (n = 0 ∨ s.mem.size blk = some nb ∧ o + n ≤ nb) →
    (∀ i, i < n → s.mem.cell blk (o + i) = .live (f i)) →
    wp (backLoop cfg false blk o o n) s
      (fun _ s' => Same s s' ∧ s'.mem.cell = s.mem.cell)
      (fun s' => Same s s' ∧ s'.mem.cell = s.mem.cell ∧ s.mem.ticks ≠ none) := by
  induction n with
  | zero =>
    intro o s f _ _
    unfold backLoop
    rw [wp_pure]
    exact ⟨Same.rfl' s, rfl⟩
  | succ n ih =>
    intro o s f hs hf
    obtain ⟨hs', h1⟩ := hs.resolve_left (by omega)
    unfold backLoop
    simp only [fetch, Bool.false_eq_true, if_false]
    rw [wp_bind]
    have hb : inBounds s.mem blk (o + n) = true := (inBounds_iff hs').mpr (by omega)
    have h0 := hf n (by omega)
    refine wp_copyFrom cfg hb h0 (fun s1 e1 => ?_) (fun s1 e1 ht _ => ⟨e1.toSame, e1.cell, ht⟩)
    rw [wp_bind]
    refine wp_assign cfg (by simpa [inBounds, e1.size] using hb) (.inr ⟨_, by rw [e1.cell]; exact h0⟩)
      fun s2 e2 => ?_
    rw [wp_bind]
    refine wp_count fun s3 e3 => ?_
    have hsame : Same s s3 := (e1.toSame.trans e2.toSame).trans e3.toSame
    have hcell : s3.mem.cell = s.mem.cell := by
      rw [e3.cell, e2.cell, e1.cell, upd2_self h0]
    refine wp_mono (ih o s3 f
      (.inr ⟨by rw [hsame.size, hs'], by omega⟩) (fun i hi => ?_)) ?_ ?_
    · rw [hcell]; exact hf i (by omega)
    · rintro _ s' ⟨g1, g3⟩
      exact ⟨hsame.trans g1, by rw [g3, hcell]⟩
    · rintro s' ⟨g1, g3, g4⟩
      exact ⟨hsame.trans g1, by rw [g3, hcell], fun h => g4 (hsame.ticks h)⟩

/-- The destroying loop. -/
theorem wp_destroyLoop {blk nb : Nat} (n : Nat) :
    ∀ (o : Nat) (s : St α), (n = 0 ∨ s.mem.size blk = some nb ∧ o + n ≤ nb) →
    (cfg.triv = true ∨ ∀ i, i < n → ∃ v, s.mem.cell blk (o + i) = .live v) →
    ∀ (E : St α → Prop),
    wp (destroyLoop cfg blk o n) s (fun _ s' => Same s s' ∧ s'.mem.moves = s.mem.moves ∧
      ∀ b i, s'.mem.cell b i = if b = blk ∧ o ≤ i ∧ i < o + n then .raw
        else s.mem.cell b i) E := by
  induction n with
  | zero =>
    intro o s _ _ E
    unfold destroyLoop
    rw [wp_pure]
    exact ⟨Same.rfl' s, rfl, fun b i => by rw [if_neg (by omega)]⟩
  | succ n ih =>
    intro o s hs hf E
    obtain ⟨hs', h1⟩ := hs.resolve_left (by omega)
    unfold destroyLoop
    rw [wp_bind]
    refine wp_destroy cfg ((inBounds_iff hs').mpr (by omega))
      (hf.imp id fun h => by simpa using h 0 (by omega)) fun s1 e1 => ?_
    refine wp_mono (ih (o + 1) s1 (.inr ⟨by rw [e1.size, hs'], by omega⟩) ?_ E) ?_ (fun _ h => h)
    · refine hf.imp id fun h i hi => ?_
      obtain ⟨v, hv⟩ := h (i + 1) (by omega)
      refine ⟨v, ?_⟩
      rw [e1.cell]
      simp only [upd2]
      rw [if_neg (by omega), ← hv]; congr 1; omega
    · rintro _ s' ⟨g1, g2, g3⟩
      refine ⟨e1.toSame.trans g1, by rw [g2, e1.moves], ?_⟩
      intro b i
      rw [g3, e1.cell]
      simp only [upd2]
      by_cases hbd : b = blk
      · subst hbd
        by_cases hi0 : i = o
        · subst hi0; simp
        · by_cases hi1 : o + 1 ≤ i ∧ i < o + 1 + n
          · rw [if_pos ⟨rfl, hi1⟩, if_pos ⟨rfl, by omega, by omega⟩]
          · rw [if_neg (by rintro ⟨_, h⟩; exact hi1 h), if_neg (by omega), if_neg (by omega)]
      · simp [hbd]

end Verif.Arr
