import Verif.Array.Model
import Mathlib.Tactic.Common

/-! What the calls of `Array` cost: how often they ask the allocator, and how many elements they move and copy. The
counters are the ghost fields of `Mem` that `allocate` and the loops increment. -/

set_option autoImplicit false

namespace Verif.Arr

variable {α β γ : Type}

/-! ### Specification -/

/-- What a call spends: allocations, elements it assigns by moving, elements it assigns by copying. -/
structure Price where
  allocs : Nat
  moved : Nat
  copied : Nat
deriving DecidableEq

/-- The call spends nothing. -/
def Price.free : Price := ⟨0, 0, 0⟩

/-- The price of one call on an array of `n` elements and capacity `c`. -/
def price (n c : Nat) : Op α → Price
  | .ctor _ => .free
  | .ctorCap _ _ => ⟨1, 0, 0⟩
  | .ctorFill _ _ _ => ⟨1, 0, 0⟩
  | .ctorRange _ _ => ⟨1, 0, 0⟩
  | .ctorCopy _ _ => ⟨1, 0, 0⟩
  | .ctorMove _ _ => .free
  | .dtor _ => .free
  | .assignCopy _ _ => ⟨1, 0, 0⟩
  | .assignMove _ _ => .free
  | .assignList _ _ => ⟨1, 0, 0⟩
  | .swap _ _ => .free
  | .clear _ => .free
  | .reserve _ m => if m ≤ c then .free else ⟨1, n, 0⟩
  | .resize _ m => if m = c then .free else ⟨1, min n m, 0⟩
  | .pushBack _ _ => if n < c then .free else ⟨1, n, 0⟩
  | .pushRange _ args => if n + args.length ≤ c then .free else ⟨1, n, 0⟩
  | .insert _ pos _ => if n < c then ⟨0, n - 1 - pos, 0⟩ else ⟨1, n, 0⟩
  | .insertRange _ pos args => if n + args.length ≤ c then ⟨0, 0, n - pos⟩ else ⟨1, 0, n⟩
  | .popBack _ => .free
  | .erase _ pos => ⟨0, 0, n - 1 - pos⟩
  | .eraseRange _ _ j => ⟨0, 0, n - j⟩
  | .writeAt _ _ _ => .free

/-- The array a call is made on, if the call is made on an existing one. -/
def Op.receiver : Op α → Option Nat
  | .ctor _ | .ctorCap _ _ | .ctorFill _ _ _ | .ctorRange _ _ | .ctorCopy _ _ | .ctorMove _ _ => none
  | .dtor a | .assignCopy a _ | .assignMove a _ | .assignList a _ | .swap a _ | .clear a | .reserve a _
  | .resize a _ | .pushBack a _ | .pushRange a _ | .insert a _ _ | .insertRange a _ _ | .popBack a
  | .erase a _ | .eraseRange a _ _ | .writeAt a _ _ => some a

/-- The positions are positions of an array of `n` elements. -/
def inRange (n : Nat) : Op α → Prop
  | .insert _ pos _ | .insertRange _ pos _ => pos ≤ n
  | .eraseRange _ i j => i ≤ j ∧ j ≤ n
  | _ => True

/-! ### Counting -/

/-- From `s` to `s'` the price `p` was paid. -/
def Paid (m m' : Mem α) (p : Price) : Prop :=
  m'.allocs = m.allocs + p.allocs ∧ m'.moves = m.moves + (p.moved + p.copied) ∧ m'.copies = m.copies + p.copied

theorem Paid.add {m m' m'' : Mem α} {p q r : Price} (h : Paid m m' p) (h' : Paid m' m'' q)
    (e : r = ⟨p.allocs + q.allocs, p.moved + q.moved, p.copied + q.copied⟩) : Paid m m'' r := by
  subst e
  obtain ⟨a, b, c⟩ := h
  obtain ⟨a', b', c'⟩ := h'
  exact ⟨by simp only; omega, by simp only; omega, by simp only; omega⟩

/-- Whenever `f` returns, it has left the data of the array alone and paid `p`. -/
def Spends (f : A α β) (p : Price) : Prop :=
  ∀ s b s', f s = .ok b s' → s'.d = s.d ∧ Paid s.mem s'.mem p

theorem ok_bind {f : A α β} {g : β → A α γ} {s s'' : St α} {c : γ} (h : (f >>= g) s = .ok c s'') :
    ∃ b s', f s = .ok b s' ∧ g b s' = .ok c s'' := by
  change M.bind f g s = _ at h
  unfold M.bind at h
  cases hf : f s with
  | ok b s' => rw [hf] at h; exact ⟨b, s', rfl, h⟩
  | throw s' => rw [hf] at h; cases h
  | ub => rw [hf] at h; cases h

theorem ok_tryRethrow {f : A α β} {h : A α Unit} {s s' : St α} {b : β} (e : M.tryRethrow f h s = .ok b s') :
    f s = .ok b s' := by
  unfold M.tryRethrow at e
  cases hf : f s with
  | ok b s' => rw [hf] at e; exact e
  | throw s1 => rw [hf] at e; simp only at e; cases hh : h s1 <;> rw [hh] at e <;> cases e
  | ub => rw [hf] at e; cases e

theorem Spends.bind {f : A α β} {g : β → A α γ} {p q r : Price} (hf : Spends f p) (hg : ∀ b, Spends (g b) q)
    (e : r = ⟨p.allocs + q.allocs, p.moved + q.moved, p.copied + q.copied⟩) : Spends (f >>= g) r := by
  intro s c s'' h
  obtain ⟨b, s', h1, h2⟩ := ok_bind h
  obtain ⟨d1, p1⟩ := hf _ _ _ h1
  obtain ⟨d2, p2⟩ := hg b _ _ _ h2
  exact ⟨d2.trans d1, p1.add p2 e⟩

theorem Spends.pure (b : β) : Spends (α := α) (Pure.pure b) .free := by
  intro s b' s' h
  cases h
  exact ⟨rfl, rfl, rfl, rfl⟩

theorem Spends.ite {c : Prop} [Decidable c] {f g : A α β} {p : Price} (hf : Spends f p) (hg : Spends g p) :
    Spends (if c then f else g) p := by
  split
  · exact hf
  · exact hg

theorem Spends.ub {p : Price} : Spends (M.ub : A α β) p := fun _ _ _ h => by cases h

theorem Spends.tryRethrow {f : A α β} {h : A α Unit} {p : Price} (hf : Spends f p) :
    Spends (M.tryRethrow f h) p := fun _ _ _ e => hf _ _ _ (ok_tryRethrow e)

variable (cfg : Elem α)

theorem spends_tick : Spends (tick : A α Unit) .free := by
  intro s b s' h
  unfold tick at h
  split at h <;> cases h <;> exact ⟨rfl, rfl, rfl, rfl⟩

theorem spends_read (b i : Nat) : Spends (read b i : A α α) .free := by
  intro s v s' h
  unfold read at h
  split at h
  · split at h <;> cases h; exact ⟨rfl, rfl, rfl, rfl⟩
  · cases h

theorem spends_setCell (b i : Nat) (c : Cell α) : Spends (setCell b i c) .free := by
  intro s v s' h; cases h; exact ⟨rfl, rfl, rfl, rfl⟩

theorem spends_guard (g : St α → Bool) (b i : Nat) (c : Cell α) :
    Spends (fun s => if g s then setCell b i c s else .ub : A α Unit) .free := by
  intro s v s' h
  change (if g s then setCell b i c s else .ub) = _ at h
  split at h
  · exact spends_setCell b i c s v s' h
  · cases h

theorem spends_construct (b i : Nat) (v : α) : Spends (construct cfg b i v) .free := spends_guard _ _ _ _

theorem spends_assign (b i : Nat) (v : α) : Spends (assign cfg b i v) .free := spends_guard _ _ _ _

theorem spends_destroy (b i : Nat) : Spends (destroy cfg b i) .free := spends_guard _ _ _ _

theorem spends_copyFrom (b i : Nat) : Spends (copyFrom cfg b i) .free :=
  (spends_read b i).bind (fun _ => (Spends.ite (Spends.pure _) spends_tick).bind (fun _ => Spends.pure _) rfl) rfl

theorem spends_moveFrom (b i : Nat) : Spends (moveFrom cfg b i) .free :=
  (spends_read b i).bind (fun _ => (spends_setCell _ _ _).bind (fun _ => Spends.pure _) rfl) rfl

theorem spends_evalSrc (src : Src α) : Spends (evalSrc cfg src) .free := by
  cases src with
  | val v => exact spends_tick.bind (fun _ => Spends.pure _) rfl
  | ref b i => exact spends_copyFrom cfg b i

theorem spends_fetch (mv : Bool) (b i : Nat) : Spends (fetch cfg mv b i) .free :=
  Spends.ite (spends_moveFrom cfg b i) (spends_copyFrom cfg b i)

theorem spends_count (mv : Bool) : Spends (setMem fun m =>
    { m with moves := m.moves + 1, copies := m.copies + if mv then 0 else 1 } : A α Unit)
    (if mv then ⟨0, 1, 0⟩ else ⟨0, 0, 1⟩) := by
  intro s v s' h; cases h
  cases mv <;> exact ⟨rfl, rfl, rfl, rfl⟩

/-- A loop over `n` elements. -/
def loopPrice (mv : Bool) (n : Nat) : Price := if mv then ⟨0, n, 0⟩ else ⟨0, 0, n⟩

theorem spends_fwdLoop (mv : Bool) : ∀ n src so dst o, Spends (fwdLoop cfg mv src so dst o n) (loopPrice mv n)
  | 0, _, _, _, _ => by cases mv <;> exact Spends.pure _
  | n + 1, _, _, _, _ => (spends_fetch cfg mv _ _).bind (fun _ => (spends_assign cfg _ _ _).bind (fun _ =>
      (spends_count mv).bind (fun _ => spends_fwdLoop mv n _ _ _ _) rfl) rfl) (by
        cases mv <;> simp [loopPrice, Price.free] <;> omega)

theorem spends_backLoop (mv : Bool) : ∀ n b so o, Spends (backLoop cfg mv b so o n) (loopPrice mv n)
  | 0, _, _, _ => by cases mv <;> exact Spends.pure _
  | n + 1, _, _, _ => (spends_fetch cfg mv _ _).bind (fun _ => (spends_assign cfg _ _ _).bind (fun _ =>
      (spends_count mv).bind (fun _ => spends_backLoop mv n _ _ _) rfl) rfl) (by
        cases mv <;> simp [loopPrice, Price.free] <;> omega)

theorem spends_destroyLoop : ∀ n b i, Spends (destroyLoop cfg b i n) .free
  | 0, _, _ => Spends.pure _
  | n + 1, b, i => (spends_destroy cfg b i).bind (fun _ => spends_destroyLoop n b (i + 1)) rfl

theorem spends_constructLoop (b : Nat) : ∀ srcs o, Spends (constructLoop cfg b o srcs) .free
  | [], _ => Spends.pure _
  | s :: rest, o => (spends_evalSrc cfg s).bind (fun _ => (spends_construct cfg _ _ _).bind
      (fun _ => spends_constructLoop b rest (o + 1)) rfl) rfl

theorem spends_copyLoop (b : Nat) : ∀ srcs o, Spends (copyLoop cfg b o srcs) .free
  | [], _ => Spends.pure _
  | s :: rest, o => (Spends.tryRethrow ((spends_evalSrc cfg s).bind (fun _ => spends_construct cfg _ _ _)
      rfl)).bind (fun _ => spends_copyLoop b rest (o + 1)) rfl

theorem spends_fillLoop (b first : Nat) (v : α) : ∀ n curr, Spends (fillLoop cfg b first v curr n) .free
  | 0, _ => Spends.pure _
  | n + 1, curr => (Spends.tryRethrow (spends_tick.bind (fun _ => spends_construct cfg _ _ _) rfl)).bind
      (fun _ => spends_fillLoop b first v n (curr + 1)) rfl

theorem spends_allocate (n : Nat) : Spends (allocate n : A α Nat) ⟨1, 0, 0⟩ := by
  refine spends_tick.bind (q := ⟨1, 0, 0⟩) (fun _ => ?_) rfl
  intro s b s' h
  cases h
  exact ⟨rfl, rfl, rfl, rfl⟩

theorem spends_deallocate (b n : Nat) : Spends (deallocate cfg b n) .free := by
  intro s v s' h
  change (if _ then _ else _ : A α Unit) s = _ at h
  split at h
  · cases h; exact ⟨rfl, rfl, rfl, rfl⟩
  · cases h

theorem spends_onlyIf {c : Prop} [Decidable c] {f : A α Unit} (hf : Spends f .free) :
    Spends (onlyIf c f) .free := Spends.ite hf (Spends.pure _)

theorem spends_destructor (d : Data) : Spends (destructor cfg d) .free :=
  (spends_destroyLoop cfg _ _ _).bind (fun _ => spends_onlyIf (spends_deallocate cfg _ _)) rfl

/-! ### The member functions -/

/-- Whenever `f` is called on data `d` and returns, it has left data of which `Q` holds and paid `p`. -/
def CallPays (f : A α β) (d : Data) (Q : Data → Prop) (p : Price) : Prop :=
  ∀ s b s', s.d = d → f s = .ok b s' → Q s'.d ∧ Paid s.mem s'.mem p

theorem CallPays.of {f : A α β} {p : Price} (h : Spends f p) (d : Data) : CallPays f d (· = d) p := by
  intro s b s' hd e
  obtain ⟨h1, h2⟩ := h _ _ _ e
  exact ⟨h1.trans hd, h2⟩

theorem CallPays.bind {f : A α β} {g : β → A α γ} {d : Data} {Q R : Data → Prop} {p q r : Price}
    (hf : CallPays f d Q p) (hg : ∀ b d', Q d' → CallPays (g b) d' R q)
    (e : r = ⟨p.allocs + q.allocs, p.moved + q.moved, p.copied + q.copied⟩) : CallPays (f >>= g) d R r := by
  intro s c s'' hd h
  obtain ⟨b, s', h1, h2⟩ := ok_bind h
  obtain ⟨d1, p1⟩ := hf _ _ _ hd h1
  obtain ⟨d2, p2⟩ := hg b s'.d d1 _ _ _ rfl h2
  exact ⟨d2, p1.add p2 e⟩

theorem CallPays.seq {f : A α β} {g : β → A α γ} {d : Data} {R : Data → Prop} {p q r : Price}
    (hf : Spends f p) (hg : ∀ b, CallPays (g b) d R q)
    (e : r = ⟨p.allocs + q.allocs, p.moved + q.moved, p.copied + q.copied⟩) : CallPays (f >>= g) d R r :=
  (CallPays.of hf d).bind (fun b d' h => by subst h; exact hg b) e

theorem CallPays.getD {g : Data → A α γ} {d : Data} {R : Data → Prop} {p : Price}
    (h : CallPays (g d) d R p) : CallPays (Arr.getD >>= g) d R p := by
  intro s c s'' hd e
  obtain ⟨b, s', h1, h2⟩ := ok_bind e
  cases h1
  subst hd
  exact h _ _ _ rfl h2

theorem CallPays.setD (d d' : Data) : CallPays (α := α) (Arr.setD d') d (· = d') .free := by
  intro s b s' _ h
  cases h
  exact ⟨rfl, rfl, rfl, rfl⟩

theorem CallPays.mono {f : A α β} {d : Data} {Q R : Data → Prop} {p : Price} (h : CallPays f d Q p)
    (hq : ∀ d, Q d → R d) : CallPays f d R p := by
  intro s b s' hd e
  obtain ⟨h1, h2⟩ := h s b s' hd e
  exact ⟨hq _ h1, h2⟩

/-- Any data. -/
def any (_ : Data) : Prop := True

theorem pays_setD (d d' : Data) (b : β) : CallPays (α := α) (do Arr.setD d'; pure b) d any .free :=
  (CallPays.setD d d').bind (fun _ _ _ => (CallPays.of (Spends.pure _) _).mono fun _ _ => trivial) rfl

theorem pays_grow (d : Data) (n : Nat) :
    CallPays (growStorage cfg n) d (fun d' => d'.size = d.size ∧ d'.cap = n) ⟨1, d.size, 0⟩ := by
  refine .getD (.seq (spends_allocate n) (fun nb => .seq (spends_fwdLoop cfg true d.size _ _ _ _) (fun _ =>
    .seq (spends_onlyIf (spends_deallocate cfg _ _)) (fun _ => (CallPays.setD _ _).mono ?_) rfl) rfl) ?_)
  · rintro _ rfl; exact ⟨rfl, rfl⟩
  · simp [loopPrice, Price.free]

theorem pays_shrink (d : Data) (n : Nat) : CallPays (shrinkStorage cfg n) d any ⟨1, min d.size n, 0⟩ := by
  refine .getD (.seq (spends_allocate n) (fun nb => .seq (spends_fwdLoop cfg true _ _ _ _ _) (fun _ =>
    .seq (spends_destroyLoop cfg _ _ _) (fun _ => .seq (spends_deallocate cfg _ _) (fun _ =>
      (CallPays.setD _ _).mono fun _ _ => trivial) rfl) rfl) rfl) ?_)
  simp [loopPrice, Price.free]

theorem pays_onlyIf {c : Prop} [Decidable c] {f : A α Unit} {d : Data} {Q : Data → Prop} {p : Price}
    (hf : c → CallPays f d Q p) (hn : ¬ c → Q d) : CallPays (onlyIf c f) d Q (if c then p else .free) := by
  unfold onlyIf
  split
  · rename_i h; exact hf h
  · rename_i h; exact (CallPays.of (Spends.pure _) d).mono (by rintro _ rfl; exact hn h)

theorem pays_emplaceBack (d : Data) (src : Src α) :
    CallPays (emplaceBack cfg src) d any (if d.size = d.cap then ⟨1, d.size, 0⟩ else .free) := by
  refine .getD (.bind (pays_onlyIf (Q := any) (fun _ => (pays_grow cfg d _).mono fun _ _ => trivial)
    (fun _ => trivial)) (fun _ d' _ => .getD (.seq (spends_evalSrc cfg src) (fun _ =>
      .seq (spends_construct cfg _ _ _) (fun _ => (CallPays.setD _ _).mono fun _ _ => trivial) rfl) rfl)) ?_)
  split <;> rfl

theorem pays_reallocInsert (d : Data) {pos : Nat} (hp : pos ≤ d.size) (src : Src α) :
    CallPays (reallocInsert cfg pos src) d any ⟨1, d.size, 0⟩ := by
  refine .getD (.seq (spends_allocate _) (fun nb => .seq (Spends.tryRethrow ((spends_evalSrc cfg src).bind (fun _ =>
    (spends_construct cfg _ _ _).bind (fun _ => (spends_fwdLoop cfg true pos _ _ _ _).bind (fun _ =>
      spends_fwdLoop cfg true (d.size - pos) _ _ _ _) rfl) rfl) rfl)) (fun _ =>
    .seq (spends_deallocate cfg _ _) (fun _ => pays_setD _ _ _) rfl) rfl) ?_)
  have : d.size = pos + (d.size - pos) := by omega
  simp [loopPrice, Price.free, ← this]

theorem pays_insert (d : Data) {pos : Nat} (hp : pos ≤ d.size) (hc : d.size ≤ d.cap) (src : Src α) :
    CallPays (insert cfg pos src) d any
      (if d.size < d.cap then ⟨0, d.size - 1 - pos, 0⟩ else ⟨1, d.size, 0⟩) := by
  refine .getD ?_
  split
  · rename_i h
    refine .bind (pays_emplaceBack cfg d src) (fun _ d' _ => .getD ((CallPays.of (Spends.pure _) _).mono
      fun _ _ => trivial)) ?_
    by_cases h' : d.size = d.cap
    · simp [h', Price.free]
    · rw [if_pos (by omega), if_neg h', show d.size - 1 - pos = 0 by omega]; rfl
  · split
    · rename_i h1 h2
      rw [if_neg (by omega)]
      exact pays_reallocInsert cfg d hp src
    · rename_i h1 h2
      rw [if_pos (by omega)]
      refine .seq (spends_moveFrom cfg _ _) (fun _ => .seq (spends_construct cfg _ _ _) (fun _ =>
        .bind (CallPays.setD _ _) (fun _ d' _ => .seq (spends_backLoop cfg true _ _ _ _) (fun _ =>
        .seq (spends_evalSrc cfg src) (fun _ => .seq (spends_assign cfg _ _ _) (fun _ =>
          (CallPays.of (Spends.pure _) _).mono fun _ _ => trivial) rfl) rfl) rfl) rfl) rfl) ?_
      simp [loopPrice, Price.free]

theorem pays_insertRange (d : Data) {pos : Nat} (hp : pos ≤ d.size) (srcs : List (Src α)) :
    CallPays (insertRange cfg pos srcs) d any
      (if d.size + srcs.length ≤ d.cap then ⟨0, 0, d.size - pos⟩ else ⟨1, 0, d.size⟩) := by
  refine .getD ?_
  simp only
  by_cases h : d.size + srcs.length ≤ d.cap
  · rw [if_neg (by omega), if_pos h]
    refine .seq (spends_backLoop cfg false _ _ _ _) (fun _ => .bind (CallPays.setD _ _) (fun _ _ _ =>
      .seq (spends_constructLoop cfg _ _ _) (fun _ => (CallPays.of (Spends.pure _) _).mono fun _ _ => trivial)
      rfl) rfl) ?_
    simp [loopPrice, Price.free]
  · rw [if_pos (by omega), if_neg h]
    refine .seq (spends_allocate _) (fun nb => .seq (Spends.tryRethrow ((spends_constructLoop cfg _ _ _).bind
      (fun _ => (spends_fwdLoop cfg false pos _ _ _ _).bind (fun _ =>
        spends_fwdLoop cfg false (d.size - pos) _ _ _ _) rfl) rfl)) (fun _ =>
      .bind (CallPays.setD _ _) (fun _ _ _ => .seq (spends_destructor cfg _) (fun _ =>
        (CallPays.of (Spends.pure _) _).mono fun _ _ => trivial) rfl) rfl) rfl) ?_
    simp [loopPrice, Price.free]
    omega

theorem pays_pushLoop : ∀ (srcs : List (Src α)) (d : Data), CallPays (pushLoop cfg srcs) d any .free
  | [], d => (CallPays.of (Spends.pure _) d).mono fun _ _ => trivial
  | s :: rest, _ => .getD (.seq (spends_evalSrc cfg s) (fun _ => .seq (spends_construct cfg _ _ _) (fun _ =>
      .bind (CallPays.setD _ _) (fun _ d' _ => pays_pushLoop rest d') rfl) rfl) rfl)

theorem pays_pushRange (d : Data) (srcs : List (Src α)) : CallPays (pushRange cfg srcs) d any
    (if d.size + srcs.length ≤ d.cap then .free else ⟨1, d.size, 0⟩) := by
  refine .getD (.bind (pays_onlyIf (Q := any) (fun _ => (pays_grow cfg d _).mono fun _ _ => trivial)
    (fun _ => trivial)) (fun _ d' _ => pays_pushLoop cfg srcs d') ?_)
  by_cases h : d.size + srcs.length ≤ d.cap
  · rw [if_pos h, if_neg (by omega)]; rfl
  · rw [if_neg h, if_pos (by omega)]; rfl

theorem pays_popBack (d : Data) : CallPays (popBack cfg) d any .free := by
  refine .getD ?_
  split
  · exact (CallPays.of Spends.ub d).mono fun _ _ => trivial
  · exact .bind (CallPays.setD _ _) (fun _ _ _ => (CallPays.of (spends_destroy cfg _ _) _).mono fun _ _ => trivial) rfl

theorem pays_erase (d : Data) (pos : Nat) : CallPays (erase cfg pos) d any ⟨0, 0, d.size - 1 - pos⟩ := by
  refine .getD (.seq (spends_destroy cfg _ _) (fun _ => .seq (spends_fwdLoop cfg false _ _ _ _ _)
    (fun _ => pays_setD _ _ _) rfl) ?_)
  simp [loopPrice, Price.free]
  omega

theorem pays_eraseRange (d : Data) {i j : Nat} (h : i ≤ j) :
    CallPays (eraseRange cfg i j) d any ⟨0, 0, d.size - j⟩ := by
  refine .getD (.seq (spends_destroyLoop cfg _ _ _) (fun _ => .seq (spends_fwdLoop cfg false _ _ _ _ _)
    (fun _ => pays_setD _ _ _) rfl) ?_)
  simp [loopPrice, Price.free]
  omega

theorem pays_clear (d : Data) : CallPays (clear cfg) d any .free :=
  .getD (.seq (spends_destroyLoop cfg _ _ _) (fun _ => (CallPays.setD _ _).mono fun _ _ => trivial) rfl)

theorem pays_reserve (d : Data) (n : Nat) : CallPays (reserve cfg n) d any
    (if n ≤ d.cap then .free else ⟨1, d.size, 0⟩) := by
  have := (pays_onlyIf (c := d.cap < n) (Q := any) (fun _ => (pays_grow cfg d n).mono fun _ _ => trivial)
    (fun _ => trivial))
  refine .getD ?_
  by_cases h : n ≤ d.cap
  · rw [if_pos h]; rwa [if_neg (by omega)] at this
  · rw [if_neg h]; rwa [if_pos (by omega)] at this

theorem pays_resize (d : Data) (hc : d.size ≤ d.cap) (n : Nat) : CallPays (resize cfg n) d any
    (if n = d.cap then .free else ⟨1, min d.size n, 0⟩) := by
  refine .getD ?_
  split
  · rename_i h
    rw [if_neg (by omega), show min d.size n = d.size by omega]
    exact (pays_grow cfg d n).mono fun _ _ => trivial
  · rename_i h
    have := (pays_onlyIf (c := d.cap > n) (Q := any) (fun _ => pays_shrink cfg d n) (fun _ => trivial))
    by_cases h' : n = d.cap
    · rw [if_pos h']; rwa [if_neg (by omega)] at this
    · rw [if_neg h']; rwa [if_pos (by omega)] at this

theorem pays_ctorCap (d : Data) (n : Nat) : CallPays (ctorCap n : A α Unit) d any ⟨1, 0, 0⟩ :=
  .seq (spends_allocate n) (fun _ => (CallPays.setD _ _).mono fun _ _ => trivial) rfl

theorem pays_ctorFill (d : Data) (n : Nat) (v : α) : CallPays (ctorFill cfg n v) d any ⟨1, 0, 0⟩ :=
  .bind (pays_ctorCap d n) (fun _ _ _ => .getD (.seq (Spends.tryRethrow (spends_fillLoop cfg _ _ _ _ _))
    (fun _ => (CallPays.setD _ _).mono fun _ _ => trivial) rfl)) rfl

theorem pays_ctorRange (d : Data) (srcs : List (Src α)) : CallPays (ctorRange cfg srcs) d any ⟨1, 0, 0⟩ :=
  .bind (pays_ctorCap d _) (fun _ _ _ => .getD (.seq (Spends.tryRethrow (spends_copyLoop cfg _ _ _))
    (fun _ => (CallPays.setD _ _).mono fun _ _ => trivial) rfl)) rfl

theorem pays_tryRethrow {f : A α β} {h : A α Unit} {d : Data} {Q : Data → Prop} {p : Price} (hf : CallPays f d Q p) :
    CallPays (M.tryRethrow f h) d Q p := fun _ _ _ hd e => hf _ _ _ hd (ok_tryRethrow e)

theorem pays_assignVia (d : Data) {f : A α Unit} {p : Price} (hf : ∀ d, CallPays f d any p) :
    CallPays (assignVia cfg f) d any p :=
  .getD (.bind (pays_tryRethrow (.bind (CallPays.setD _ _) (fun _ _ _ => hf _) rfl)) (fun _ _ _ =>
    (CallPays.of (spends_destructor cfg _) _).mono fun _ _ => trivial) (by simp [Price.free]))

theorem pays_unit0 {f : A α Unit} {d : Data} {p : Price} (hf : CallPays f d any p) :
    CallPays (unit0 f) d any p :=
  .bind hf (fun _ _ _ => (CallPays.of (Spends.pure _) _).mono fun _ _ => trivial) (by simp [Price.free])

theorem onVar_pays {w w' : World α} {a r : Nat} {f : A α Nat} {d : Data} {p : Price} (ha : w.vars a = some d)
    (hf : CallPays f d any p) (h : onVar w a f = .ok r w') : Paid w.mem w'.mem p := by
  unfold onVar at h
  rw [ha] at h
  simp only at h
  cases hs : f ⟨w.mem, d⟩ with
  | ok b s =>
    rw [hs] at h; cases h
    exact (hf _ _ _ rfl hs).2
  | throw s => rw [hs] at h; cases h
  | ub => rw [hs] at h; cases h

theorem onNew_pays {w w' : World α} {a r : Nat} {f : A α Unit} {p : Price}
    (hf : CallPays f .null any p) (h : onNew w a f = .ok r w') : Paid w.mem w'.mem p := by
  unfold onNew at h
  cases ha : w.vars a with
  | some _ => rw [ha] at h; cases h
  | none =>
    rw [ha] at h
    simp only at h
    cases hs : f ⟨w.mem, .null⟩ with
    | ok b s =>
      rw [hs] at h; cases h
      exact (hf _ _ _ rfl hs).2
    | throw s => rw [hs] at h; cases h
    | ub => rw [hs] at h; cases h

theorem resolved_length {w : World α} : ∀ {args : List (Arg α)} {srcs : List (Src α)},
    resolveAll w args = some srcs → srcs.length = args.length
  | [], srcs, h => by cases h; rfl
  | a :: as, srcs, h => by
    unfold resolveAll at h
    split at h
    · rename_i s ss h1 h2
      cases h
      simp [resolved_length h2]
    · cases h

/-- C139: every call that returns has asked the allocator exactly as often, and has moved and copied exactly as many
elements by assignment, as the price list says, whatever the element type is and whatever the arrays hold. -/
theorem array_price {w w' : World α} {op : Op α} {r : Nat} (d : Data)
    (hd : ∀ a, op.receiver = some a → w.vars a = some d) (hc : d.size ≤ d.cap) (hr : inRange d.size op)
    (h : exec cfg w op = .ok r w') : Paid w.mem w'.mem (price d.size d.cap op) := by
  cases op with
  | ctor a => exact onNew_pays ((CallPays.of (Spends.pure ()) _).mono fun _ _ => trivial) h
  | ctorCap a n => exact onNew_pays (pays_ctorCap _ n) h
  | ctorFill a n v => exact onNew_pays (pays_ctorFill cfg _ n v) h
  | ctorRange a args =>
    simp only [exec] at h
    split at h
    · exact onNew_pays (pays_ctorRange cfg _ _) h
    · cases h
  | ctorCopy a b =>
    simp only [exec] at h
    split at h
    · exact onNew_pays (pays_ctorRange cfg _ _) h
    · cases h
  | ctorMove a b =>
    simp only [exec] at h
    split at h
    · cases h; exact ⟨rfl, rfl, rfl⟩
    · cases h
  | dtor a =>
    simp only [exec] at h
    split at h
    · rename_i r1 w1 h1
      cases h
      exact onVar_pays (w' := w1) (p := .free) (hd a rfl) (.getD (pays_unit0 ((CallPays.of (spends_destructor cfg _) _).mono
        fun _ _ => trivial))) h1
    · rename_i h1; exact absurd h (h1 _ _)
  | assignCopy a b =>
    simp only [exec] at h
    split at h
    · exact onVar_pays (hd a rfl) (pays_unit0 (pays_assignVia cfg _ fun _ => pays_ctorRange cfg _ _)) h
    · cases h
  | assignMove a b =>
    simp only [exec] at h
    split at h
    · cases h
    · split at h
      · cases h
      · have hv : ∀ (v : Nat → Option Data) (x : Data), upd v a (some x) a = some x := by intro v x; simp [upd]
        have := onVar_pays (hv _ _) (pays_unit0 ((CallPays.of (spends_destructor cfg _) _).mono
          fun _ _ => trivial)) h
        exact this
  | assignList a args =>
    simp only [exec] at h
    split at h
    · exact onVar_pays (hd a rfl) (pays_unit0 (pays_assignVia cfg _ fun _ => pays_ctorRange cfg _ _)) h
    · cases h
  | swap a b =>
    simp only [exec] at h
    split at h
    · cases h; exact ⟨rfl, rfl, rfl⟩
    · cases h
  | clear a => exact onVar_pays (hd a rfl) (pays_unit0 (pays_clear cfg _)) h
  | reserve a n => exact onVar_pays (hd a rfl) (pays_unit0 (pays_reserve cfg d n)) h
  | resize a n => exact onVar_pays (hd a rfl) (pays_unit0 (pays_resize cfg d hc n)) h
  | pushBack a arg =>
    simp only [exec] at h
    split at h
    · rename_i src _
      have := onVar_pays (hd a rfl) (pays_unit0 (pays_emplaceBack cfg d src)) h
      unfold price
      by_cases h' : d.size = d.cap
      · rw [if_neg (by omega)]; rwa [if_pos h'] at this
      · rw [if_pos (by omega)]; rwa [if_neg h'] at this
    · cases h
  | pushRange a args =>
    simp only [exec] at h
    split at h
    · rename_i srcs hs
      have := onVar_pays (hd a rfl) (pays_unit0 (pays_pushRange cfg d srcs)) h
      rwa [resolved_length hs] at this
    · cases h
  | insert a pos arg =>
    simp only [exec] at h
    split at h
    · exact onVar_pays (hd a rfl) (pays_insert cfg d hr hc _) h
    · cases h
  | insertRange a pos args =>
    simp only [exec] at h
    split at h
    · rename_i srcs hs
      have := onVar_pays (hd a rfl) (pays_insertRange cfg d hr srcs) h
      rwa [resolved_length hs] at this
    · cases h
  | popBack a => exact onVar_pays (hd a rfl) (pays_unit0 (pays_popBack cfg d)) h
  | erase a pos => exact onVar_pays (hd a rfl) (pays_erase cfg d pos) h
  | eraseRange a i j => exact onVar_pays (hd a rfl) (pays_eraseRange cfg d hr.1) h
  | writeAt a i v => exact onVar_pays (hd a rfl) (pays_unit0 (.getD ((CallPays.of (spends_assign cfg _ _ _) _).mono
      fun _ _ => trivial))) h

/-- Three numbers in a full array: an insertion in front moves all of them into a block obtained by one allocation;
erasing the first of the four then copies the other three, inside the block. -/
example : (match run (⟨true, id⟩ : Elem Nat) World.init [.ctorRange 0 [.val 7, .val 8, .val 9], .insert 0 0 (.val 6)] with
      | .ok _ w => (w.mem.allocs, w.mem.moves, w.mem.copies) | _ => (0, 0, 0)) = (2, 3, 0) ∧
    (match run (⟨true, id⟩ : Elem Nat) World.init
        [.ctorRange 0 [.val 7, .val 8, .val 9], .insert 0 0 (.val 6), .erase 0 0] with
      | .ok _ w => (w.mem.allocs, w.mem.moves, w.mem.copies) | _ => (0, 0, 0)) = (2, 6, 3) ∧
    price 3 3 (.insert 0 0 (.val 6) : Op Nat) = ⟨1, 3, 0⟩ ∧ price 4 6 (.erase 0 0 : Op Nat) = ⟨0, 0, 3⟩ := by
  decide +kernel

end Verif.Arr
