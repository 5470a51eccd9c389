import Verif.Array.Reach

/-! Helper lemmas for `Verif.Array.PointersProps`: which operations keep the block an array lives in
and which move it to a new one. -/

set_option autoImplicit false

namespace Verif.Arr

variable {α β γ : Type}

/-- If `f` returns or throws, `Q` resp. `E` holds (nothing is said if it is undefined). -/
def wlp (f : A α β) (s : St α) (Q : β → St α → Prop) (E : St α → Prop) : Prop :=
  match f s with
  | .ok b s' => Q b s'
  | .throw s' => E s'
  | .ub => True

theorem wlp_bind {f : A α β} {g : β → A α γ} {s : St α} {Q : γ → St α → Prop} {E : St α → Prop}
    (h : wlp f s (fun b s' => wlp (g b) s' Q E) E) : wlp (f >>= g) s Q E := by
  show wlp (M.bind f g) s Q E
  unfold wlp M.bind at *
  cases hf : f s <;> simp_all

theorem wlp_mono {f : A α β} {s : St α} {Q Q' : β → St α → Prop} {E E' : St α → Prop}
    (h : wlp f s Q E) (hQ : ∀ b s', Q b s' → Q' b s') (hE : ∀ s', E s' → E' s') : wlp f s Q' E' := by
  unfold wlp at *
  cases hf : f s <;> simp_all

/-- Every state `f` leads to from a state with `P` has `P`. -/
def Pres (P : St α → Prop) (f : A α β) : Prop := ∀ s, P s → wlp f s (fun _ s' => P s') P

section
variable {P : St α → Prop}

theorem Pres.pure (b : β) : Pres P (pure b : A α β) := fun _ h => h

theorem Pres.ub : Pres P (M.ub : A α β) := fun _ _ => trivial

theorem Pres.bind {f : A α β} {g : β → A α γ} (hf : Pres P f) (hg : ∀ b, Pres P (g b)) :
    Pres P (f >>= g) := fun s h => wlp_bind (wlp_mono (hf s h) (fun b s' h' => hg b s' h') fun _ h => h)

theorem Pres.ite {c : Prop} [Decidable c] {f g : A α β} (hf : Pres P f) (hg : Pres P g) :
    Pres P (if c then f else g) := by split <;> assumption

theorem Pres.onlyIf {c : Prop} [Decidable c] {f : A α Unit} (hf : Pres P f) : Pres P (onlyIf c f) :=
  Pres.ite hf (Pres.pure _)

theorem Pres.tryRethrow {f : A α β} {h : A α Unit} (hf : Pres P f) (hh : Pres P h) :
    Pres P (M.tryRethrow f h) := by
  intro s hs
  have h1 := hf s hs
  unfold wlp M.tryRethrow at *
  cases hr : f s with
  | ok b s' => rw [hr] at h1; exact h1
  | ub => trivial
  | throw s' =>
    rw [hr] at h1
    have h2 := hh s' h1
    simp only
    unfold wlp at h2
    cases hr2 : h s' <;> simp_all

end

/-- `P` looks only at the array data, the living blocks and the number of allocations. -/
def Coarse (P : St α → Prop) : Prop := ∀ s s' : St α, s'.d = s.d → s'.mem.size = s.mem.size →
  s'.mem.next = s.mem.next → s'.mem.allocs = s.mem.allocs → P s → P s'

section
variable {P : St α → Prop} (hP : Coarse P) (cfg : Elem α)
include hP

theorem pres_tick : Pres P (tick : A α Unit) := by
  intro s h
  unfold wlp tick
  rcases s.mem.ticks with _ | _ | n
  · exact h
  · exact hP s _ rfl rfl rfl rfl h
  · exact hP s _ rfl rfl rfl rfl h

omit hP in
theorem pres_read (b i : Nat) : Pres P (read b i : A α α) := by
  intro s h
  unfold wlp read
  split
  · rename_i h1
    split at h1
    · split at h1 <;> cases h1; exact h
    · cases h1
  · rename_i h1
    split at h1
    · split at h1 <;> cases h1
    · cases h1
  · trivial

theorem pres_setCell (b i : Nat) (c : Cell α) : Pres P (setCell b i c) :=
  fun s h => hP s _ rfl rfl rfl rfl h

theorem pres_guard (g : St α → Bool) (b i : Nat) (c : Cell α) :
    Pres P (fun s => if g s then setCell b i c s else .ub : A α Unit) := by
  intro s h
  show wlp (fun s => if g s then setCell b i c s else .ub) s _ _
  unfold wlp
  by_cases hg : g s
  · simp only [hg, if_true]; exact hP s _ rfl rfl rfl rfl h
  · simp only [hg]; trivial

theorem pres_construct (b i : Nat) (v : α) : Pres P (construct cfg b i v) := pres_guard hP _ _ _ _

theorem pres_assign (b i : Nat) (v : α) : Pres P (assign cfg b i v) := pres_guard hP _ _ _ _

theorem pres_destroy (b i : Nat) : Pres P (destroy cfg b i) := pres_guard hP _ _ _ _

theorem pres_copyFrom (b i : Nat) : Pres P (copyFrom cfg b i) :=
  (pres_read b i).bind fun _ => (Pres.ite (Pres.pure _) (pres_tick hP)).bind fun _ => Pres.pure _

theorem pres_moveFrom (b i : Nat) : Pres P (moveFrom cfg b i) :=
  (pres_read b i).bind fun _ => (pres_setCell hP _ _ _).bind fun _ => Pres.pure _

theorem pres_evalSrc (src : Src α) : Pres P (evalSrc cfg src) := by
  cases src with
  | val v => exact (pres_tick hP).bind fun _ => Pres.pure _
  | ref b i => exact pres_copyFrom hP cfg b i

theorem pres_fetch (mv : Bool) (b i : Nat) : Pres P (fetch cfg mv b i) :=
  Pres.ite (pres_moveFrom hP cfg b i) (pres_copyFrom hP cfg b i)

theorem pres_moves (mv : Bool) : Pres P (setMem fun m =>
    { m with moves := m.moves + 1, copies := m.copies + if mv then 0 else 1 } : A α Unit) :=
  fun s h => hP s _ rfl rfl rfl rfl h

theorem pres_fwdLoop (mv : Bool) : ∀ n src so dst o, Pres P (fwdLoop cfg mv src so dst o n)
  | 0, _, _, _, _ => Pres.pure _
  | n + 1, _, _, _, _ => (pres_fetch hP cfg mv _ _).bind fun _ =>
      (pres_assign hP cfg _ _ _).bind fun _ => (pres_moves hP _).bind fun _ => pres_fwdLoop mv n _ _ _ _

theorem pres_backLoop (mv : Bool) : ∀ n b so o, Pres P (backLoop cfg mv b so o n)
  | 0, _, _, _ => Pres.pure _
  | n + 1, _, _, _ => (pres_fetch hP cfg mv _ _).bind fun _ =>
      (pres_assign hP cfg _ _ _).bind fun _ => (pres_moves hP _).bind fun _ => pres_backLoop mv n _ _ _

theorem pres_destroyLoop : ∀ n b i, Pres P (destroyLoop cfg b i n)
  | 0, _, _ => Pres.pure _
  | n + 1, b, i => (pres_destroy hP cfg b i).bind fun _ => pres_destroyLoop n b (i + 1)

theorem pres_constructLoop (b : Nat) : ∀ srcs o, Pres P (constructLoop cfg b o srcs)
  | [], _ => Pres.pure _
  | s :: rest, o => (pres_evalSrc hP cfg s).bind fun _ =>
      (pres_construct hP cfg _ _ _).bind fun _ => pres_constructLoop b rest (o + 1)

theorem pres_copyLoop (b : Nat) : ∀ srcs o, Pres P (copyLoop cfg b o srcs)
  | [], _ => Pres.pure _
  | s :: rest, o => (Pres.tryRethrow ((pres_evalSrc hP cfg s).bind fun _ => pres_construct hP cfg _ _ _)
      Pres.ub).bind fun _ => pres_copyLoop b rest (o + 1)

end

/-! ### The block stays -/

/-- The array still lives in block `b` of capacity `c`; no block came or went. -/
def Kept (b c : Nat) (sz : Nat → Option Nat) (k : Nat) (s : St α) : Prop :=
  s.d.blk = b ∧ s.d.cap = c ∧ s.mem.size = sz ∧ s.mem.allocs = k

section
variable {b c k : Nat} {sz : Nat → Option Nat} (cfg : Elem α)

theorem kept_coarse : Coarse (Kept (α := α) b c sz k) := by
  intro s s' h1 h2 _ h4 ⟨g1, g2, g3, g4⟩
  exact ⟨by rw [h1, g1], by rw [h1, g2], by rw [h2, g3], by rw [h4, g4]⟩

theorem kept_getD {g : Data → A α β} (h : ∀ d, d.blk = b → d.cap = c → Pres (Kept b c sz k) (g d)) :
    Pres (Kept b c sz k) (getD >>= g) :=
  fun s hs => wlp_bind (f := getD) (h s.d hs.1 hs.2.1 s hs)

theorem kept_setD {d : Data} {n : Nat} (h1 : d.blk = b) (h2 : d.cap = c) :
    Pres (Kept (α := α) b c sz k) (setD { d with size := n }) := fun _ hs => ⟨h1, h2, hs.2.2.1, hs.2.2.2⟩

theorem kept_clear : Pres (Kept b c sz k) (clear cfg) :=
  kept_getD fun _ h1 h2 => (pres_destroyLoop kept_coarse cfg _ _ _).bind fun _ => kept_setD h1 h2

theorem kept_popBack : Pres (Kept b c sz k) (popBack cfg) :=
  kept_getD fun _ h1 h2 => Pres.ite Pres.ub ((kept_setD h1 h2).bind fun _ =>
    pres_destroy kept_coarse cfg _ _)

theorem kept_erase (pos : Nat) : Pres (Kept b c sz k) (erase cfg pos) :=
  kept_getD fun _ h1 h2 => (pres_destroy kept_coarse cfg _ _).bind fun _ =>
    (pres_fwdLoop kept_coarse cfg _ _ _ _ _ _).bind fun _ => (kept_setD h1 h2).bind fun _ => Pres.pure _

theorem kept_eraseRange (i j : Nat) : Pres (Kept b c sz k) (eraseRange cfg i j) :=
  kept_getD fun _ h1 h2 => (pres_destroyLoop kept_coarse cfg _ _ _).bind fun _ =>
    (pres_fwdLoop kept_coarse cfg _ _ _ _ _ _).bind fun _ => (kept_setD h1 h2).bind fun _ => Pres.pure _

theorem kept_writeAt (i : Nat) (v : α) : Pres (Kept b c sz k) (writeAt cfg i v) :=
  kept_getD fun _ _ _ => pres_assign kept_coarse cfg _ _ _

theorem kept_pushLoop : ∀ srcs, Pres (Kept b c sz k) (pushLoop cfg srcs)
  | [] => Pres.pure _
  | s :: rest => kept_getD fun _ h1 h2 => (pres_evalSrc kept_coarse cfg s).bind fun _ =>
      (pres_construct kept_coarse cfg _ _ _).bind fun _ => (kept_setD h1 h2).bind fun _ =>
      kept_pushLoop rest

/-- `getD` at the start of a member function: the data is known. -/
theorem wlp_getD {g : Data → A α β} {s : St α} {Q : β → St α → Prop} {E : St α → Prop}
    (h : wlp (g s.d) s Q E) : wlp (getD >>= g) s Q E := wlp_bind (f := getD) h

theorem wlp_skip {cnd : Prop} [Decidable cnd] (hc : ¬cnd) {f : A α Unit} {g : A α β} {s : St α}
    {Q : β → St α → Prop} {E : St α → Prop} (h : wlp g s Q E) :
    wlp (onlyIf cnd f >>= fun _ => g) s Q E := by
  refine wlp_bind ?_
  unfold onlyIf
  rw [if_neg hc]
  exact h

theorem kept_emplaceBack {s : St α} (hs : Kept b c sz k s) (hroom : s.d.size ≠ s.d.cap) (src : Src α) :
    wlp (emplaceBack cfg src) s (fun _ => Kept b c sz k) (Kept b c sz k) :=
  wlp_getD (wlp_skip hroom (kept_getD (fun _ h1 h2 => (pres_evalSrc kept_coarse cfg src).bind fun _ =>
    (pres_construct kept_coarse cfg _ _ _).bind fun _ => kept_setD h1 h2) s hs))

theorem kept_pushRange {s : St α} (hs : Kept b c sz k s) (srcs : List (Src α))
    (hroom : s.d.size + srcs.length ≤ s.d.cap) :
    wlp (pushRange cfg srcs) s (fun _ => Kept b c sz k) (Kept b c sz k) :=
  wlp_getD (wlp_skip (by omega) (kept_pushLoop cfg srcs s hs))

theorem kept_reserve {s : St α} (hs : Kept b c sz k s) (n : Nat) (hroom : n ≤ s.d.cap) :
    wlp (reserve cfg n) s (fun _ => Kept b c sz k) (Kept b c sz k) := by
  refine wlp_getD ?_
  unfold onlyIf
  rw [if_neg (by omega)]
  exact hs

theorem kept_resize {s : St α} (hs : Kept b c sz k s) :
    wlp (resize cfg s.d.cap) s (fun _ => Kept b c sz k) (Kept b c sz k) := by
  refine wlp_getD ?_
  rw [if_neg (by omega)]
  unfold onlyIf
  rw [if_neg (by omega)]
  exact hs

theorem kept_insert {s : St α} (hs : Kept b c sz k s) (hroom : s.d.size ≠ s.d.cap) (pos : Nat)
    (src : Src α) : wlp (insert cfg pos src) s (fun _ => Kept b c sz k) (Kept b c sz k) := by
  refine wlp_getD ?_
  split
  · exact wlp_bind (wlp_mono (kept_emplaceBack cfg hs hroom src)
      (fun _ s' h' => kept_getD (fun _ _ _ => Pres.pure _) s' h') fun _ h => h)
  · exact Pres.bind (pres_moveFrom kept_coarse cfg _ _) (fun _ =>
      (pres_construct kept_coarse cfg _ _ _).bind fun _ => (kept_setD hs.1 hs.2.1).bind fun _ =>
      (pres_backLoop kept_coarse cfg _ _ _ _ _).bind fun _ => (pres_evalSrc kept_coarse cfg _).bind fun _ =>
      (pres_assign kept_coarse cfg _ _ _).bind fun _ => Pres.pure _) s hs

theorem kept_insertRange {s : St α} (hs : Kept b c sz k s) (pos : Nat) (srcs : List (Src α))
    (hroom : s.d.size + srcs.length ≤ s.d.cap) :
    wlp (insertRange cfg pos srcs) s (fun _ => Kept b c sz k) (Kept b c sz k) := by
  refine wlp_getD ?_
  simp only
  rw [if_neg (by omega)]
  exact Pres.bind (pres_backLoop kept_coarse cfg _ _ _ _ _) (fun _ =>
    (kept_setD hs.1 hs.2.1).bind fun _ => (pres_constructLoop kept_coarse cfg _ _ _).bind fun _ =>
    Pres.pure _) s hs

end

/-! ### The block is replaced -/

/-- The next block to be handed out is not below `n`. -/
def Later (n : Nat) (s : St α) : Prop := n ≤ s.mem.next

/-- The array lives in a block that was handed out after `n`. -/
def Young (n : Nat) (s : St α) : Prop := n ≤ s.d.blk

section
variable {n : Nat} (cfg : Elem α)

theorem later_coarse : Coarse (Later (α := α) n) := fun _ _ _ _ h _ hs => by
  unfold Later at *; rw [h]; exact hs

theorem young_coarse : Coarse (Young (α := α) n) := fun _ _ h _ _ _ hs => by
  unfold Young at *; rw [h]; exact hs

theorem later_deallocate (b m : Nat) : Pres (Later n) (deallocate cfg b m) :=
  Pres.bind (f := M.get) (fun _ h => h) fun _ => Pres.ite (fun _ h => h) Pres.ub

theorem young_deallocate (b m : Nat) : Pres (Young n) (deallocate cfg b m) :=
  Pres.bind (f := M.get) (fun _ h => h) fun _ => Pres.ite (fun _ h => h) Pres.ub

theorem young_setD {d : Data} {m : Nat} (h : n ≤ d.blk) :
    Pres (Young (α := α) n) (setD { d with size := m }) := fun _ _ => h

theorem young_getD {g : Data → A α β} (h : ∀ d, n ≤ d.blk → Pres (Young n) (g d)) :
    Pres (Young n) (getD >>= g) := fun s hs => wlp_bind (f := getD) (h s.d hs s hs)

/-- From `Later` to `Young`, exceptions aside. -/
def Moves (n : Nat) (f : A α β) : Prop := ∀ s, Later n s → wlp f s (fun _ => Young n) fun _ => True

theorem Moves.bind {f : A α β} {g : β → A α γ} (hf : Pres (Later n) f) (hg : ∀ b, Moves n (g b)) :
    Moves n (f >>= g) := fun s h => wlp_bind (wlp_mono (hf s h) (fun b s' h' => hg b s' h')
      fun _ _ => trivial)

theorem Moves.then {f : A α β} {g : β → A α γ} (hf : Moves n f) (hg : ∀ b, Pres (Young n) (g b)) :
    Moves n (f >>= g) := fun s h => wlp_bind (wlp_mono (hf s h)
      (fun b s' h' => wlp_mono (hg b s' h') (fun _ _ h => h) fun _ _ => trivial) fun _ h => h)

theorem moves_setD {d : Data} (h : n ≤ d.blk) : Moves (α := α) n (setD d) := fun _ _ => h

theorem moves_allocate {m : Nat} {g : Nat → A α β} (h : ∀ b, n ≤ b → Moves n (g b)) :
    Moves n (allocate m >>= g) := by
  intro s hs
  refine wlp_bind ?_
  unfold allocate
  refine wlp_bind ?_
  refine wlp_mono (pres_tick (later_coarse (n := n)) s hs) (fun _ s' h' => ?_) fun _ _ => trivial
  have hget : ∀ {γ : Type} (g : St α → A α γ) (Q : γ → St α → Prop) (E : St α → Prop),
      wlp (g s') s' Q E → wlp (M.get >>= g) s' Q E := fun _ _ _ h => wlp_bind (f := M.get) h
  refine hget _ _ _ ?_
  refine wlp_bind (f := setMem _) ?_
  refine h _ h' _ ?_
  show n ≤ s'.mem.next + 1
  unfold Later at h'; omega

theorem later_getD : Pres (Later (α := α) n) getD := fun _ h => h

theorem moves_growStorage (m : Nat) : Moves n (growStorage cfg m) :=
  Moves.bind later_getD fun _ => moves_allocate fun _ hb =>
    Moves.bind (pres_fwdLoop later_coarse cfg _ _ _ _ _ _) fun _ =>
    Moves.bind (Pres.onlyIf (later_deallocate cfg _ _)) fun _ => moves_setD hb

theorem moves_shrinkStorage (m : Nat) : Moves n (shrinkStorage cfg m) :=
  Moves.bind later_getD fun _ => moves_allocate fun _ hb =>
    Moves.bind (pres_fwdLoop later_coarse cfg _ _ _ _ _ _) fun _ =>
    Moves.bind (pres_destroyLoop later_coarse cfg _ _ _) fun _ =>
    Moves.bind (later_deallocate cfg _ _) fun _ => moves_setD hb

theorem moves_reallocInsert (pos : Nat) (src : Src α) : Moves n (reallocInsert cfg pos src) :=
  Moves.bind later_getD fun _ => moves_allocate fun _ hb =>
    Moves.bind (Pres.tryRethrow
      ((pres_evalSrc later_coarse cfg _).bind fun _ => (pres_construct later_coarse cfg _ _ _).bind fun _ =>
        (pres_fwdLoop later_coarse cfg _ _ _ _ _ _).bind fun _ => pres_fwdLoop later_coarse cfg _ _ _ _ _ _)
      ((pres_destroy later_coarse cfg _ _).bind fun _ => later_deallocate cfg _ _)) fun _ =>
    Moves.bind (later_deallocate cfg _ _) fun _ => (moves_setD hb).then fun _ => Pres.pure _

theorem later_destructor (d : Data) : Pres (Later n) (destructor cfg d) :=
  (pres_destroyLoop later_coarse cfg _ _ _).bind fun _ => Pres.onlyIf (later_deallocate cfg _ _)

theorem young_destructor (d : Data) : Pres (Young n) (destructor cfg d) :=
  (pres_destroyLoop young_coarse cfg _ _ _).bind fun _ => Pres.onlyIf (young_deallocate cfg _ _)

theorem young_emplace (src : Src α) : Pres (Young n) (do
    let d ← getD
    let v ← evalSrc cfg src
    construct cfg d.blk d.size v
    setD { d with size := d.size + 1 }) :=
  young_getD fun _ h => (pres_evalSrc young_coarse cfg src).bind fun _ =>
    (pres_construct young_coarse cfg _ _ _).bind fun _ => young_setD h

theorem young_pushLoop : ∀ srcs, Pres (Young n) (pushLoop cfg srcs)
  | [] => Pres.pure _
  | s :: rest => young_getD fun _ h => (pres_evalSrc young_coarse cfg s).bind fun _ =>
      (pres_construct young_coarse cfg _ _ _).bind fun _ => (young_setD h).bind fun _ =>
      young_pushLoop rest

theorem wlp_take {cnd : Prop} [Decidable cnd] (hc : cnd) {f : A α Unit} {g : A α β} {s : St α}
    {Q : β → St α → Prop} {E : St α → Prop} (h : wlp (f >>= fun _ => g) s Q E) :
    wlp (onlyIf cnd f >>= fun _ => g) s Q E := by
  unfold onlyIf
  rw [if_pos hc]
  exact h

theorem moves_emplaceBack {s : St α} (hs : Later n s) (hfull : s.d.size = s.d.cap) (src : Src α) :
    wlp (emplaceBack cfg src) s (fun _ => Young n) fun _ => True :=
  wlp_getD (wlp_take hfull ((moves_growStorage cfg _).then (fun _ => young_emplace cfg src) s hs))

theorem moves_pushRange {s : St α} (hs : Later n s) (srcs : List (Src α))
    (hfull : s.d.cap < s.d.size + srcs.length) :
    wlp (pushRange cfg srcs) s (fun _ => Young n) fun _ => True :=
  wlp_getD (wlp_take (by omega) ((moves_growStorage cfg _).then (fun _ => young_pushLoop cfg srcs) s hs))

theorem moves_reserve {s : St α} (hs : Later n s) (m : Nat) (hfull : s.d.cap < m) :
    wlp (reserve cfg m) s (fun _ => Young n) fun _ => True := by
  refine wlp_getD ?_
  unfold onlyIf
  rw [if_pos hfull]
  exact moves_growStorage cfg m s hs

theorem moves_resize {s : St α} (hs : Later n s) (m : Nat) (hne : m ≠ s.d.cap) :
    wlp (resize cfg m) s (fun _ => Young n) fun _ => True := by
  refine wlp_getD ?_
  split
  · exact moves_growStorage cfg m s hs
  · unfold onlyIf
    rw [if_pos (by omega)]
    exact moves_shrinkStorage cfg m s hs

theorem moves_insert {s : St α} (hs : Later n s) (hfull : s.d.size = s.d.cap) (pos : Nat) (src : Src α) :
    wlp (insert cfg pos src) s (fun _ => Young n) fun _ => True := by
  refine wlp_getD ?_
  split
  · exact wlp_bind (wlp_mono (moves_emplaceBack cfg hs hfull src)
      (fun _ s' h' => wlp_mono (young_getD (fun _ _ => Pres.pure _) s' h') (fun _ _ h => h)
        fun _ _ => trivial) fun _ h => h)
  · exact moves_reallocInsert cfg pos src s hs

theorem moves_insertRange {s : St α} (hs : Later n s) (pos : Nat) (srcs : List (Src α))
    (hfull : s.d.cap < s.d.size + srcs.length) :
    wlp (insertRange cfg pos srcs) s (fun _ => Young n) fun _ => True := by
  refine wlp_getD ?_
  simp only
  rw [if_pos hfull]
  exact moves_allocate (fun _ hb => Moves.bind (Pres.tryRethrow
      ((pres_constructLoop later_coarse cfg _ _ _).bind fun _ =>
        (pres_fwdLoop later_coarse cfg _ _ _ _ _ _).bind fun _ => pres_fwdLoop later_coarse cfg _ _ _ _ _ _)
      (later_destructor cfg _)) fun _ =>
    (moves_setD hb).then fun _ => (young_destructor cfg _).bind fun _ => Pres.pure _) s hs

end

/-! ### From member functions to programs -/

/-- A member function run on array `a` of a program. -/
theorem onVar_wlp {w : World α} {a : Nat} {d : Data} (ha : w.vars a = some d) {f : A α Nat}
    {Q : Nat → St α → Prop} {E : St α → Prop} (h : wlp f ⟨w.mem, d⟩ Q E) {r : Nat} {w' : World α}
    (hx : onVar w a f = .ok r w') : ∃ s', w' = ⟨s'.mem, upd w.vars a (some s'.d)⟩ ∧ Q r s' := by
  unfold onVar at hx
  unfold wlp at h
  rw [ha] at hx
  simp only at hx
  cases hf : f ⟨w.mem, d⟩ with
  | ok b s' =>
    rw [hf] at hx h
    cases hx
    exact ⟨s', rfl, h⟩
  | throw s' => rw [hf] at hx; cases hx
  | ub => rw [hf] at hx; cases hx

theorem unit0_wlp {f : A α Unit} {s : St α} {P : St α → Prop} {E : St α → Prop}
    (h : wlp f s (fun _ => P) E) : wlp (unit0 f) s (fun _ => P) E :=
  wlp_bind (wlp_mono h (fun _ _ h => h) fun _ h => h)

theorem resolveAll_length {w : World α} : ∀ {args : List (Arg α)} {srcs : List (Src α)},
    resolveAll w args = some srcs → srcs.length = args.length
  | [], _, h => by cases h; rfl
  | a :: as, srcs, h => by
    simp only [resolveAll] at h
    cases h1 : resolve w a with
    | none => simp [h1] at h
    | some s =>
      cases h2 : resolveAll w as with
      | none => simp [h1, h2] at h
      | some ss =>
        simp only [h1, h2, Option.some.injEq] at h
        rw [← h, List.length_cons, List.length_cons, resolveAll_length h2]

end Verif.Arr
