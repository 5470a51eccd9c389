import Verif.LinkedList.Props
import Mathlib.Data.List.Perm.Basic
import Mathlib.Data.List.Perm.Lattice

/-! What the calls of `LinkedList` cost: how often they ask the allocator, give nodes back, construct, destroy and
assign elements. The log records the first four; `tick` counts the constructions and assignments of elements. -/

set_option autoImplicit false

namespace Verif.LL

variable {α β γ : Type} {E : Env α}

/-! ### Specification -/

/-- What a call spends: nodes it makes (with an element each), nodes it gives back, elements it assigns to. -/
structure Bill where
  made : Nat
  freed : Nat
  assigned : Nat
deriving DecidableEq

/-- The number of elements of list `l`. -/
def count (σ : Nat → Option (List α)) (l : Nat) : Nat := ((σ l).getD []).length

/-- The number of elements of a client range. -/
def Src.count : Src α → Nat
  | .vals xs => xs.length
  | .sub _ i j => j - i

/-- Replacing `n` elements by `k` others: the first ones are assigned to. -/
def replaceBill (n k : Nat) : Bill := ⟨k - n, n - k, min n k⟩

/-- What each call spends. -/
def bill (σ : Nat → Option (List α)) : Op α → Bill
  | .newEmpty _ => ⟨0, 0, 0⟩
  | .newFill _ n _ => ⟨n, 0, 0⟩
  | .newRange _ r => ⟨r.count, 0, 0⟩
  | .newCopy _ m => ⟨count σ m, 0, 0⟩
  | .newMove _ _ => ⟨0, 0, 0⟩
  | .destruct l => ⟨0, count σ l, 0⟩
  | .copyAssign l m => replaceBill (count σ l) (count σ m)
  | .moveAssign l _ => ⟨0, count σ l, 0⟩
  | .assign l r => replaceBill (count σ l) (r.count)
  | .clear l => ⟨0, count σ l, 0⟩
  | .pushFront _ _ => ⟨1, 0, 0⟩
  | .popFront _ => ⟨0, 1, 0⟩
  | .insertAfter _ _ _ => ⟨1, 0, 0⟩
  | .insertRange _ _ r => ⟨r.count, 0, 0⟩
  | .eraseAfter _ _ => ⟨0, 1, 0⟩
  | .eraseRange _ k j => ⟨0, j - k, 0⟩
  | .reverse _ => ⟨0, 0, 0⟩

/-- Kinds of events. -/
def Ev.isAlloc : Ev → Bool
  | .alloc _ => true
  | _ => false
def Ev.isFree : Ev → Bool
  | .free _ => true
  | _ => false
def Ev.isCtor : Ev → Bool
  | .ctor _ => true
  | _ => false
def Ev.isDtor : Ev → Bool
  | .dtor _ => true
  | _ => false

/-- Between `s` and `s'` the bill `b` was paid. -/
def Paid (s s' : St α) (b : Bill) : Prop :=
  s'.log.countP Ev.isAlloc = s.log.countP Ev.isAlloc + b.made ∧
  s'.log.countP Ev.isCtor = s.log.countP Ev.isCtor + b.made ∧
  s'.log.countP Ev.isFree = s.log.countP Ev.isFree + b.freed ∧
  s'.log.countP Ev.isDtor = s.log.countP Ev.isDtor + b.freed ∧
  s'.tick = s.tick + b.made + b.assigned

/-! ### What functions can spend, by their shape -/

/-- Events were added: `n` nodes and elements made, `m` destroyed and freed. -/
def Emits (s s' : St α) (n m : Nat) : Prop :=
  ∃ D, s'.log = D ++ s.log ∧ D.countP Ev.isAlloc = n ∧ D.countP Ev.isCtor = n ∧ D.countP Ev.isFree = m ∧
    D.countP Ev.isDtor = m

theorem Emits.trans {s s' s'' : St α} {n m n' m' : Nat} (h : Emits s s' n m) (h' : Emits s' s'' n' m') :
    Emits s s'' (n + n') (m + m') := by
  obtain ⟨D, e, h1, h2, h3, h4⟩ := h
  obtain ⟨D', e', h1', h2', h3', h4'⟩ := h'
  refine ⟨D' ++ D, by rw [e', e, List.append_assoc], ?_, ?_, ?_, ?_⟩ <;> rw [List.countP_append] <;> omega

theorem Emits.none {s s' : St α} (h : s'.log = s.log) : Emits s s' 0 0 := ⟨[], h, rfl, rfl, rfl, rfl⟩

/-- Nodes were made, nothing else. -/
def MadeR (s s' : St α) : Prop := ∃ n, Emits s s' n 0 ∧ s'.tick = s.tick + n
/-- Nodes were freed, nothing else. -/
def FreedR (s s' : St α) : Prop := ∃ m, Emits s s' 0 m ∧ s'.tick = s.tick
/-- Nothing was made or freed. -/
def QuietR (s s' : St α) : Prop := s'.log = s.log ∧ s'.tick = s.tick

/-- Whenever `f` returns, `P` holds of the states before and after. -/
def Does (P : St α → St α → Prop) (f : M α β) : Prop := ∀ s b s', f s = .ok b s' → P s s'

/-- A relation that can be composed. -/
structure Comp (P : St α → St α → Prop) : Prop where
  refl : ∀ s, P s s
  trans : ∀ s s' s'', P s s' → P s' s'' → P s s''
  quiet : ∀ s s', QuietR s s' → P s s'

theorem comp_made : Comp (MadeR (α := α)) where
  refl s := ⟨0, .none rfl, rfl⟩
  trans s s' s'' := by
    rintro ⟨n, h, t⟩ ⟨n', h', t'⟩
    exact ⟨n + n', h.trans h', by omega⟩
  quiet s s' h := ⟨0, .none h.1, h.2⟩

theorem comp_freed : Comp (FreedR (α := α)) where
  refl s := ⟨0, .none rfl, rfl⟩
  trans s s' s'' := by
    rintro ⟨n, h, t⟩ ⟨n', h', t'⟩
    exact ⟨n + n', h.trans h', by omega⟩
  quiet s s' h := ⟨0, .none h.1, h.2⟩

theorem ok_bind {f : M α β} {g : β → M α γ} {s s'' : St α} {c : γ} (h : (f >>= g) s = .ok c s'') :
    ∃ b s', f s = .ok b s' ∧ g b s' = .ok c s'' := by
  change M.bind f g s = _ at h
  unfold M.bind at h
  cases hf : f s with
  | ok b s' => rw [hf] at h; exact ⟨b, s', rfl, h⟩
  | thrown s' => rw [hf] at h; cases h
  | ub => rw [hf] at h; cases h
  | hang => rw [hf] at h; cases h

theorem ok_tryRethrow {f : M α β} {h : M α Unit} {s s' : St α} {b : β} (e : M.tryRethrow f h s = .ok b s') :
    f s = .ok b s' := by
  unfold M.tryRethrow at e
  cases hf : f s with
  | ok b s' => rw [hf] at e; exact e
  | thrown s1 => rw [hf] at e; simp only at e; cases hh : h s1 <;> rw [hh] at e <;> cases e
  | ub => rw [hf] at e; cases e
  | hang => rw [hf] at e; cases e

variable {P : St α → St α → Prop}

theorem Does.bind (hP : Comp P) {f : M α β} {g : β → M α γ} (hf : Does P f) (hg : ∀ b, Does P (g b)) :
    Does P (f >>= g) := by
  intro s c s'' h
  obtain ⟨b, s', h1, h2⟩ := ok_bind h
  exact hP.trans _ _ _ (hf _ _ _ h1) (hg b _ _ _ h2)

theorem Does.pure (hP : Comp P) (b : β) : Does P (pure b : M α β) := by
  intro s b' s' h; cases h; exact hP.refl _

theorem Does.ite {c : Prop} [Decidable c] {f g : M α β} (hf : Does P f) (hg : Does P g) :
    Does P (if c then f else g) := by
  split <;> assumption

theorem Does.hang : Does P (M.hang : M α β) := fun _ _ _ h => by cases h

theorem Does.ub : Does P (M.ub : M α β) := fun _ _ _ h => by cases h

theorem next_ok {p q : Ptr} {s s' : St α} (h : next p s = .ok q s') : s' = s := by
  unfold next at h
  split at h
  · cases h
  · split at h <;> cases h; rfl
  · split at h <;> cases h; rfl

theorem does_next (hP : Comp P) (p : Ptr) : Does P (next p) := fun s _ s' h => by
  rw [next_ok h]; exact hP.refl _

theorem does_setNext (hP : Comp P) (p q : Ptr) : Does P (setNext p q) := by
  intro s b s' h
  apply hP.quiet
  unfold setNext at h
  split at h
  · cases h
  · split at h <;> cases h; exact ⟨rfl, rfl⟩
  · split at h <;> cases h; exact ⟨rfl, rfl⟩

theorem deref_ok {p : Ptr} {v : α} {s s' : St α} (h : deref p s = .ok v s') : s' = s := by
  unfold deref at h
  split at h
  · split at h <;> cases h; rfl
  · cases h

theorem does_modify_heads (hP : Comp P) (f : St α → St α) (h1 : ∀ s, (f s).log = s.log)
    (h2 : ∀ s, (f s).tick = s.tick) : Does P (M.modify f) := by
  intro s b s' h; cases h; exact hP.quiet _ _ ⟨h1 s, h2 s⟩

theorem front_ok {r : Range α} {v : α} {s s' : St α} (h : r.front s = .ok v s') : s' = s := by
  unfold Range.front at h
  split at h
  · cases h
  · cases h; rfl
  · exact deref_ok h

theorem advance_ok {r r' : Range α} {s s' : St α} (h : r.advance s = .ok r' s') : s' = s := by
  unfold Range.advance at h
  split at h
  · cases h
  · cases h; rfl
  · obtain ⟨b, s1, h1, h2⟩ := ok_bind h
    cases h2; exact next_ok h1

theorem does_front (hP : Comp P) (r : Range α) : Does P r.front := fun s _ s' h => by
  rw [front_ok h]; exact hP.refl _

theorem does_advanceR (hP : Comp P) (r : Range α) : Does P r.advance := fun s _ s' h => by
  rw [advance_ok h]; exact hP.refl _

theorem does_advance (hP : Comp P) : ∀ (k : Nat) (p : Ptr), Does P (advance k p)
  | 0, _ => Does.pure hP _
  | k + 1, _ => (does_next hP _).bind hP fun _ => does_advance hP k _

theorem does_range (hP : Comp P) (r : Src α) : Does P r.range := by
  cases r with
  | vals xs => exact Does.pure hP _
  | sub m i j => exact (does_advance hP _ _).bind hP fun _ => (does_advance hP _ _).bind hP fun _ => Does.pure hP _

theorem made_createNode (v : α) : Does MadeR (createNode E v) := by
  intro s p s' h
  unfold createNode at h
  obtain ⟨a, s1, h1, h⟩ := ok_bind h
  obtain ⟨u, s2, h2, h⟩ := ok_bind h
  cases h
  obtain ⟨u', s3, h3, h4⟩ := ok_bind (ok_tryRethrow h2)
  obtain ⟨u'', s4, h5, h6⟩ := ok_bind (g := fun _ => putNew a v) h4
  have e1 : s1.log = .alloc a :: s.log ∧ s1.tick = s.tick := by
    unfold allocate at h1
    simp only at h1
    split at h1 <;> cases h1
    exact ⟨rfl, rfl⟩
  have e3 : s3.log = s1.log ∧ s3.tick = s1.tick := by
    unfold constructNode at h3
    split at h3 <;> cases h3
    exact ⟨rfl, rfl⟩
  have e4 : s4.log = s3.log ∧ s4.tick = s3.tick + 1 := by
    unfold mayThrow at h5
    split at h5 <;> cases h5
    exact ⟨rfl, rfl⟩
  have e2 : s'.log = .ctor a :: s4.log ∧ s'.tick = s4.tick := by
    unfold putNew at h6
    split at h6 <;> cases h6
    exact ⟨rfl, rfl⟩
  refine ⟨1, ⟨[.ctor a, .alloc a], ?_, rfl, rfl, rfl, rfl⟩, ?_⟩
  · rw [e2.1, e4.1, e3.1, e1.1]; rfl
  · rw [e2.2, e4.2, e3.2, e1.2]

theorem freed_both (p : Ptr) (s : St α) {g : M α β} (hg : Does FreedR g) {b : β} {s' : St α}
    (h0 : (destroy p >>= fun _ => deallocate p >>= fun _ => g) s = .ok b s') : FreedR s s' := by
  obtain ⟨_, s1, h1, h⟩ := ok_bind h0
  obtain ⟨_, s2, h2, h3⟩ := ok_bind h
  clear h0 h
  refine comp_freed.trans _ s2 _ ?_ (hg _ _ _ h3)
  unfold destroy at h1
  split at h1
  case h_2 => cases h1
  rename_i a
  split at h1 <;> cases h1
  unfold deallocate at h2
  simp only at h2
  split at h2 <;> cases h2
  exact ⟨1, ⟨[.free a, .dtor a], rfl, rfl, rfl, rfl, rfl⟩, rfl⟩

theorem made_emplaceAfter (p : Ptr) (v : α) : Does MadeR (emplaceAfter E p v) :=
  (made_createNode v).bind comp_made fun _ => (does_next comp_made _).bind comp_made fun _ =>
    (does_setNext comp_made _ _).bind comp_made fun _ => (does_setNext comp_made _ _).bind comp_made fun _ =>
      Does.pure comp_made _

theorem made_insertRange : ∀ (f : Nat) (p : Ptr) (r : Range α), Does MadeR (insertRange E f p r)
  | 0, _, _ => Does.hang
  | f + 1, _, r => by
    unfold insertRange
    exact Does.ite ((does_front comp_made r).bind comp_made fun _ => (made_emplaceAfter _ _).bind comp_made fun _ =>
      (does_advanceR comp_made r).bind comp_made fun _ => made_insertRange f _ _) (Does.pure comp_made _)

theorem made_initLoop : ∀ (f : Nat) (p : Ptr) (r : Range α), Does MadeR (initLoop E f p r)
  | 0, _, _ => Does.hang
  | f + 1, _, r => by
    unfold initLoop
    exact Does.ite ((does_front comp_made r).bind comp_made fun _ => (made_createNode _).bind comp_made fun _ =>
      (does_setNext comp_made _ _).bind comp_made fun _ => (does_next comp_made _).bind comp_made fun _ =>
      (does_advanceR comp_made r).bind comp_made fun _ => made_initLoop f _ _) (Does.pure comp_made _)

theorem made_fillLoop : ∀ (n : Nat) (p : Ptr) (v : α), Does MadeR (fillLoop E n p v)
  | 0, _, _ => Does.pure comp_made _
  | n + 1, _, _ => by
    unfold fillLoop
    exact (made_createNode _).bind comp_made fun _ => (does_setNext comp_made _ _).bind comp_made fun _ =>
      (does_next comp_made _).bind comp_made fun _ => made_fillLoop n _ _

theorem does_construct (hP : Comp P) (l : Nat) {body : M α Unit} (h : Does P body) : Does P (construct l body) := by
  unfold construct
  refine Does.bind hP (fun s b s' e => by cases e; exact hP.refl _) fun _ => Does.ite (Does.bind hP
    (does_modify_heads hP _ (fun _ => rfl) (fun _ => rfl)) fun _ => fun s b s' e => h _ _ _ (ok_tryRethrow e)) Does.ub

theorem freed_eraseAfter (p : Ptr) : Does FreedR (eraseAfter p : M α Unit) := by
  refine (does_next comp_freed _).bind comp_freed fun tmp => (does_next comp_freed _).bind comp_freed fun _ =>
    (does_setNext comp_freed _ _).bind comp_freed fun _ => fun s b s' h => ?_
  refine freed_both tmp s (Does.pure comp_freed ()) (b := b) ?_
  obtain ⟨_, s1, h1, h2⟩ := ok_bind h
  show M.bind _ _ _ = _
  unfold M.bind
  rw [h1]
  show M.bind _ _ _ = _
  unfold M.bind
  simp only
  rw [h2]; rfl

theorem freed_eraseLoop : ∀ (f : Nat) (p q : Ptr), Does FreedR (eraseLoop f p q : M α Unit)
  | 0, _, _ => Does.hang
  | f + 1, p, q => by
    unfold eraseLoop
    exact Does.ite (Does.pure comp_freed _) ((does_next comp_freed _).bind comp_freed fun _ =>
      fun s b s' h => freed_both p s (freed_eraseLoop f _ q) h)

theorem freed_eraseAfterRange (f : Nat) (p q : Ptr) : Does FreedR (eraseAfterRange f p q : M α Unit) :=
  (does_next comp_freed _).bind comp_freed fun _ => (freed_eraseLoop _ _ _).bind comp_freed fun _ =>
    does_setNext comp_freed _ _

theorem comp_quiet : Comp (QuietR (α := α)) where
  refl _ := ⟨rfl, rfl⟩
  trans _ _ _ h h' := ⟨h'.1.trans h.1, h'.2.trans h.2⟩
  quiet _ _ h := h

theorem quiet_reverseLoop : ∀ (f l : Nat) (p : Ptr), Does QuietR (reverseLoop f l p : M α Unit)
  | 0, _, _ => Does.hang
  | f + 1, l, p => by
    have hP := comp_quiet (α := α)
    unfold reverseLoop
    exact (does_next hP _).bind hP fun _ => Does.ite (Does.pure hP _) ((does_next hP _).bind hP fun _ =>
      (does_setNext hP _ _).bind hP fun _ => (does_next hP _).bind hP fun _ =>
      (does_setNext hP _ _).bind hP fun _ => (does_next hP _).bind hP fun _ =>
      (does_setNext hP _ _).bind hP fun _ => quiet_reverseLoop f l p)

/-! ### Counting nodes -/

/-- The addresses of the nodes allocated by the events `D`. -/
def allocated : List Ev → List Nat
  | [] => []
  | .alloc a :: D => a :: allocated D
  | _ :: D => allocated D

/-- The addresses of the nodes freed by the events `D`. -/
def released : List Ev → List Nat
  | [] => []
  | .free a :: D => a :: released D
  | _ :: D => released D

theorem allocated_length (D : List Ev) : (allocated D).length = D.countP Ev.isAlloc := by
  induction D with
  | nil => rfl
  | cons e D ih => cases e <;> simp [allocated, List.countP_cons, Ev.isAlloc, ih]

theorem released_length (D : List Ev) : (released D).length = D.countP Ev.isFree := by
  induction D with
  | nil => rfl
  | cons e D ih => cases e <;> simp [released, List.countP_cons, Ev.isFree, ih]

theorem allocated_count (D : List Ev) (a : Nat) : (allocated D).count a = D.count (.alloc a) := by
  induction D with
  | nil => rfl
  | cons e D ih => cases e <;> simp [allocated, List.count_cons, ih]

theorem released_count (D : List Ev) (a : Nat) : (released D).count a = D.count (.free a) := by
  induction D with
  | nil => rfl
  | cons e D ih => cases e <;> simp [released, List.count_cons, ih]

theorem length_of_members {xs ys : List Nat} (hx : ∀ a, xs.count a ≤ 1) (hy : ys.Nodup)
    (h : ∀ a, 0 < xs.count a ↔ a ∈ ys) : xs.length = ys.length := by
  have hn : xs.Nodup := List.nodup_iff_count_le_one.2 hx
  refine ((List.perm_ext_iff_of_nodup hn hy).2 fun a => ?_).length_eq
  rw [← h a, List.count_pos_iff]

/-- If nothing was freed, exactly the nodes that became alive were allocated. -/
theorem made_count {s s' : St α} {n : Nat} (h : Emits s s' n 0) (hl : Ledger s) (hl' : Ledger s') :
    (∀ a, s.nodes a ≠ none → s'.nodes a ≠ none) ∧
    ∀ ns : List Nat, ns.Nodup → (∀ a, a ∈ ns ↔ s.nodes a = none ∧ s'.nodes a ≠ none) → n = ns.length := by
  obtain ⟨D, e, h1, -, h3, -⟩ := h
  have hf : ∀ a, D.count (.free a) = 0 := by
    intro a
    rw [List.count_eq_zero]
    intro hm
    rw [List.countP_eq_zero] at h3
    exact h3 _ hm rfl
  have key : ∀ a, D.count (.alloc a) + (if s.nodes a = none then 0 else 1) = if s'.nodes a = none then 0 else 1 := by
    intro a
    have h5 := (hl a).1
    have h6 := (hl' a).1
    rw [e, List.count_append, List.count_append, hf a] at h6
    omega
  refine ⟨fun a ha hn => ?_, fun ns hn hm => ?_⟩
  · have := key a
    rw [if_neg ha, if_pos hn] at this; omega
  · rw [← h1, ← allocated_length]
    refine length_of_members (fun a => ?_) hn fun a => ?_
    · rw [allocated_count]; have := key a; split at this <;> split at this <;> omega
    · rw [allocated_count, hm a]
      have := key a
      by_cases e1 : s.nodes a = none <;> by_cases e2 : s'.nodes a = none
      · rw [if_pos e1, if_pos e2] at this; constructor
        · intro; omega
        · rintro ⟨-, h⟩; exact absurd e2 h
      · rw [if_pos e1, if_neg e2] at this; exact ⟨fun _ => ⟨e1, e2⟩, fun _ => by omega⟩
      · rw [if_neg e1, if_pos e2] at this; omega
      · rw [if_neg e1, if_neg e2] at this; constructor
        · intro; omega
        · rintro ⟨h, -⟩; exact absurd h e1

/-- If nothing was allocated, exactly the nodes that ceased to exist were freed. -/
theorem freed_count {s s' : St α} {m : Nat} (h : Emits s s' 0 m) (hl : Ledger s) (hl' : Ledger s') :
    (∀ a, s'.nodes a ≠ none → s.nodes a ≠ none) ∧
    ∀ ns : List Nat, ns.Nodup → (∀ a, a ∈ ns ↔ s.nodes a ≠ none ∧ s'.nodes a = none) → m = ns.length := by
  obtain ⟨D, e, h1, -, h3, -⟩ := h
  have hf : ∀ a, D.count (.alloc a) = 0 := by
    intro a
    rw [List.count_eq_zero]
    intro hm
    rw [List.countP_eq_zero] at h1
    exact h1 _ hm rfl
  have key : ∀ a, D.count (.free a) + (if s'.nodes a = none then 0 else 1) = if s.nodes a = none then 0 else 1 := by
    intro a
    have h5 := (hl a).1
    have h6 := (hl' a).1
    rw [e, List.count_append, List.count_append, hf a] at h6
    omega
  refine ⟨fun a ha hn => ?_, fun ns hn hm => ?_⟩
  · have := key a
    rw [if_neg ha, if_pos hn] at this; omega
  · rw [← h3, ← released_length]
    refine length_of_members (fun a => ?_) hn fun a => ?_
    · rw [released_count]; have := key a; split at this <;> split at this <;> omega
    · rw [released_count, hm a]
      have := key a
      by_cases e1 : s.nodes a = none <;> by_cases e2 : s'.nodes a = none
      · rw [if_pos e1, if_pos e2] at this; constructor
        · intro; omega
        · rintro ⟨h, -⟩; exact absurd e1 h
      · rw [if_pos e1, if_neg e2] at this; omega
      · rw [if_neg e1, if_pos e2] at this; exact ⟨fun _ => ⟨e1, e2⟩, fun _ => by omega⟩
      · rw [if_neg e1, if_neg e2] at this; constructor
        · intro; omega
        · rintro ⟨-, h⟩; exact absurd h e2

/-! ### Which nodes come and go -/

variable {s s' : St α} {L L' : Nat → Option (Els α)} {K : List Nat}

theorem Inv.alive_iff (h : Inv s L K) (a : Nat) :
    s.nodes a ≠ none ↔ (∃ l xs, L l = some xs ∧ a ∈ ids xs) ∨ a ∈ K := by
  refine ⟨h.cover a, ?_⟩
  rintro (⟨l, xs, hl, ha⟩ | ha)
  · exact h.live hl a ha
  · exact (h.leak a ha).1

theorem born_iff (h : Inv s L K) {l : Nat} {o : Option (Els α)} (h' : Inv s' (put L l o) K) (a : Nat) :
    (s.nodes a = none ∧ s'.nodes a ≠ none) ↔ a ∈ ids (o.getD []) ∧ a ∉ ids ((L l).getD []) := by
  have hl : put L l o l = o := by simp [put]
  constructor
  · rintro ⟨h1, h2⟩
    have dead : ∀ m xs, L m = some xs → a ∉ ids xs := fun m xs hm ha => h.live hm a ha h1
    refine ⟨?_, fun hc => ?_⟩
    · rcases (h'.alive_iff a).1 h2 with ⟨m, xs, hm, ha⟩ | hk
      · by_cases e : m = l
        · subst e; rw [hl] at hm; rw [hm]; exact ha
        · exact absurd ha (dead m xs (by simpa [put, e] using hm))
      · exact absurd h1 (h.leak a hk).1
    · cases hL : L l with
      | none => rw [hL] at hc; simp at hc
      | some xs => rw [hL] at hc; exact dead l xs hL hc
  · rintro ⟨h1, h2⟩
    cases o with
    | none => simp at h1
    | some xs =>
      have h1 : a ∈ ids xs := h1
      refine ⟨?_, h'.live hl a h1⟩
      by_contra hc
      rcases (h.alive_iff a).1 hc with ⟨m, ys, hm, ha⟩ | hk
      · by_cases e : m = l
        · subst e; rw [hm] at h2; exact h2 ha
        · exact h'.disj l m xs ys (Ne.symm e) hl (by simpa [put, e] using hm) a h1 ha
      · exact (h'.leak a hk).2 l xs hl h1

theorem put_back (L : Nat → Option (Els α)) (l : Nat) (o : Option (Els α)) : put (put L l o) l (L l) = L := by
  funext m; unfold put; by_cases e : m = l <;> simp [e]

theorem died_iff (h : Inv s L K) {l : Nat} {o : Option (Els α)} (h' : Inv s' (put L l o) K) (a : Nat) :
    (s.nodes a ≠ none ∧ s'.nodes a = none) ↔ a ∈ ids ((L l).getD []) ∧ a ∉ ids (o.getD []) := by
  have := born_iff h' (l := l) (o := L l) (by rw [put_back]; exact h) a
  rw [show put L l o l = o by simp [put]] at this
  rw [← this]; exact and_comm

theorem getD_nodup (h : Inv s L K) (l : Nat) : (ids ((L l).getD [])).Nodup := by
  cases hL : L l with
  | none => simp
  | some xs => exact h.nodup l xs hL

theorem middle {A N B : List Nat} (h : (A ++ N ++ B).Nodup) (a : Nat) :
    (a ∈ A ++ N ++ B ∧ a ∉ A ++ B) ↔ a ∈ N := by
  rw [List.append_assoc, List.nodup_append, List.nodup_append] at h
  obtain ⟨-, ⟨-, -, h2⟩, h1⟩ := h
  simp only [List.mem_append, not_or]
  constructor
  · rintro ⟨h3, h4, h5⟩; tauto
  · intro ha
    exact ⟨.inl (.inr ha), fun hA => h1 a hA a (by simp [ha]) rfl, fun hB => h2 a ha a hB rfl⟩

theorem nodup_mid {A N B : List Nat} (h : (A ++ N ++ B).Nodup) : N.Nodup := by
  rw [List.append_assoc, List.nodup_append, List.nodup_append] at h
  exact h.2.1.1

theorem made_by (h : Inv s L K) {l : Nat} {o : Option (Els α)} (h' : Inv s' (put L l o) K) (hg : Ledger s)
    (hg' : Ledger s') {n : Nat} (hn : Emits s s' n 0) {A N B : List Nat} (e' : ids (o.getD []) = A ++ N ++ B)
    (e : ids ((L l).getD []) = A ++ B) : n = N.length := by
  have hd := getD_nodup h' l
  rw [show put L l o l = o by simp [put], e'] at hd
  refine (made_count hn hg hg').2 N (nodup_mid hd) fun a => ?_
  rw [born_iff h h', e, e', middle hd]

theorem freed_by (h : Inv s L K) {l : Nat} {o : Option (Els α)} (h' : Inv s' (put L l o) K) (hg : Ledger s)
    (hg' : Ledger s') {n : Nat} (hn : Emits s s' 0 n) {A N B : List Nat} (e : ids ((L l).getD []) = A ++ N ++ B)
    (e' : ids (o.getD []) = A ++ B) : n = N.length := by
  have hd := getD_nodup h l
  rw [e] at hd
  refine (freed_count hn hg hg').2 N (nodup_mid hd) fun a => ?_
  rw [died_iff h h', e, e', middle hd]

/-! ### How many elements `assign` assigns to -/

/-- The `next` field of a node. -/
def link (s : St α) (p : Ptr) : Option Ptr :=
  match p with
  | some (.node a) => match s.nodes a with
    | some (.node q _) => some q
    | _ => none
  | _ => none

/-- Following the links from `p` leads to `q` for the first time after `n` steps. -/
inductive Hops (f : Ptr → Option Ptr) (q : Ptr) : Ptr → Nat → Prop
  | nil : Hops f q q 0
  | cons {p p' : Ptr} {n : Nat} : p ≠ q → f p = some p' → Hops f q p' n → Hops f q p (n + 1)

/-- The range has `n` elements. -/
inductive Long (f : Ptr → Option Ptr) : Range α → Nat → Prop
  | ext (xs : List α) : Long f (.ext xs) xs.length
  | nodes {p q : Ptr} {n : Nat} : Hops f q p n → Long f (.nodes p q) n

theorem Long.more {f : Ptr → Option Ptr} {r : Range α} {n : Nat} (h : Long f r n) : r.more = true ↔ 0 < n := by
  cases h with
  | ext xs => cases xs <;> simp [Range.more]
  | nodes h => cases h <;> simp_all [Range.more]

theorem next_link {p q : Ptr} {n : Nat} {t : Ptr} (h : Hops (link s) t p (n + 1)) (e : next p s = .ok q s') :
    s' = s ∧ Hops (link s) t q n := by
  obtain rfl := next_ok e
  refine ⟨rfl, ?_⟩
  cases h with
  | @cons _ p' _ hne hf hh =>
    unfold link at hf
    split at hf
    · rename_i a
      split at hf <;> cases hf
      rename_i q' v hn
      unfold next at e
      simp only [hn] at e
      cases e
      exact hh
    · cases hf

theorem Long.advance {r r' : Range α} {n : Nat} (h : Long (link s) r (n + 1)) (e : r.advance s = .ok r' s') :
    s' = s ∧ Long (link s) r' n := by
  generalize hk : n + 1 = k at h
  cases h with
  | ext xs =>
    cases xs with
    | nil => cases hk
    | cons x xs =>
      cases e
      simp at hk; subst hk
      exact ⟨rfl, .ext xs⟩
  | nodes h =>
    subst hk
    obtain ⟨p', s1, h1, h2⟩ := ok_bind e
    cases h2
    obtain ⟨e1, h3⟩ := next_link h h1
    exact ⟨e1, .nodes h3⟩

theorem assignTo_ok {p : Ptr} {v : α} {u : Unit} (h : assignTo E p v s = .ok u s') :
    link s' = link s ∧ s'.tick = s.tick + 1 ∧ s'.log = s.log := by
  unfold assignTo at h
  obtain ⟨_, s1, h1, g⟩ := ok_bind h
  obtain ⟨_, s2, h2, h3⟩ := ok_bind g
  clear h g
  obtain rfl := deref_ok h1
  have e2 : s2.nodes = s1.nodes ∧ s2.tick = s1.tick + 1 ∧ s2.log = s1.log := by
    unfold mayThrow at h2
    split at h2 <;> cases h2
    exact ⟨rfl, rfl, rfl⟩
  unfold putVal at h3
  split at h3
  case h_2 => cases h3
  rename_i a
  split at h3 <;> cases h3
  rename_i q w hn
  refine ⟨?_, e2.2.1, e2.2.2⟩
  funext p
  unfold link
  match p with
  | none => rfl
  | some (.head _) => rfl
  | some (.node b) =>
    simp only
    rw [← e2.1]
    rcases upd_cases s2.nodes a (some (.node q (some v))) b with ⟨rfl, e⟩ | ⟨_, e⟩
    · rw [e, hn]
    · rw [e]

theorem assignLoop_count : ∀ (fuel : Nat) (prev curr : Ptr) (r : Range α) (s s' : St α) (x : Ptr × Ptr × Range α)
    (n k : Nat), assignLoop E fuel prev curr r s = .ok x s' → Hops (link s) none curr n → Long (link s) r k →
    s'.log = s.log ∧ s'.tick = s.tick + min n k
  | 0, _, _, _, _, _, _, _, _ => fun h => by cases h
  | fuel + 1, prev, curr, r, s, s', x, n, k => fun h hn hk => by
    unfold assignLoop at h
    split at h
    · rename_i hc
      obtain ⟨hc, hm⟩ := hc
      obtain ⟨n, rfl⟩ : ∃ n', n = n' + 1 := by
        cases hn with
        | nil => exact absurd rfl hc
        | cons => exact ⟨_, rfl⟩
      obtain ⟨k, rfl⟩ : ∃ k', k = k' + 1 := ⟨k - 1, by have := hk.more.1 hm; omega⟩
      obtain ⟨v, s1, h1, g1⟩ := ok_bind h
      clear h
      obtain rfl := front_ok h1
      obtain ⟨_, s2, h2, g2⟩ := ok_bind g1
      obtain ⟨e1, e2, e3⟩ := assignTo_ok h2
      obtain ⟨_, s3, h3, g3⟩ := ok_bind g2
      clear g1 g2
      obtain rfl := next_ok h3
      obtain ⟨c', s4, h4, g4⟩ := ok_bind g3
      clear g3
      obtain ⟨rfl, hn'⟩ := next_link (by rw [e1]; exact hn) h4
      obtain ⟨r', s5, h5, g5⟩ := ok_bind g4
      clear g4
      obtain ⟨rfl, hk'⟩ := Long.advance (by rw [e1]; exact hk) h5
      obtain ⟨e4, e5⟩ := assignLoop_count fuel _ _ _ _ _ _ _ _ g5 hn' hk'
      exact ⟨e4.trans e3, by omega⟩
    · rename_i hc
      cases h
      refine ⟨rfl, ?_⟩
      have : n = 0 ∨ k = 0 := by
        by_contra hcon
        apply hc
        refine ⟨?_, hk.more.2 (by omega)⟩
        intro e
        subst e
        cases hn with
        | nil => omega
        | cons h _ _ => exact h rfl
      rcases this with rfl | rfl <;> simp

theorem seg_hops {p q : Ptr} {xs : Els α} (h : Seg s.nodes p xs q) (hq : ∀ a ∈ ids xs, q ≠ some (.node a)) :
    Hops (link s) q p xs.length := by
  induction xs generalizing p with
  | nil => obtain rfl : p = q := h; exact .nil
  | cons x xs ih =>
    obtain ⟨rfl, n, h2, h3⟩ := h
    refine .cons (Ne.symm (hq _ (by simp))) ?_ (ih h3 fun a ha => hq a (by simp [ha]))
    unfold link; simp only [h2]

theorem readable_long {r : Range α} {vs : List α} {F : List Nat} (h : Readable s.nodes r vs F) :
    Long (link s) r vs.length := by
  cases h with
  | ext => exact .ext _
  | @nodes p q zs h hq => rw [vals_length]; exact .nodes (seg_hops h hq)

theorem begin_hops (h : Inv s L K) {l : Nat} {xs : Els α} (hl : L l = some xs) {p : Ptr}
    (e : begin l s = .ok p s') : s' = s ∧ Hops (link s) none p xs.length := by
  have h1 := h.next_head hl
  have e1 : next (some (.head l)) s = .ok p s' := e
  rw [h1] at e1
  cases e1
  refine ⟨rfl, ?_⟩
  obtain ⟨q, hq, hs⟩ := h.seg l xs hl
  rw [← hs.ptr_eq]
  exact seg_hops hs (by simp)

theorem assign_shape (h : Inv s L K) {l : Nat} {xs : Els α} (hl : L l = some xs) {r : Range α} {k : Nat}
    (hk : Long (link s) r k) {fuel : Nat} {u : Unit} (e : assign E fuel l r s = .ok u s') :
    (∃ n, Emits s s' n 0 ∧ s'.tick = s.tick + min xs.length k + n) ∨
    ∃ m, Emits s s' 0 m ∧ s'.tick = s.tick + min xs.length k := by
  unfold assign at e
  obtain ⟨b, s1, h1, g⟩ := ok_bind e
  clear e
  obtain ⟨rfl, hb⟩ := begin_hops h hl h1
  obtain ⟨⟨prev, curr, r'⟩, s2, h2, e⟩ := ok_bind g
  clear g
  obtain ⟨e1, e2⟩ := assignLoop_count _ _ _ _ _ _ _ _ _ h2 hb hk
  simp only at e
  split at e
  · obtain ⟨_, s3, h3, g⟩ := ok_bind e
    cases g
    obtain ⟨n, h4, h5⟩ := made_insertRange _ _ _ _ _ _ h3
    refine .inl ⟨n, ?_, by rw [h5, e2]⟩
    have := (Emits.none e1).trans h4
    simpa using this
  · split at e
    · obtain ⟨m, h4, h5⟩ := freed_eraseAfterRange _ _ _ _ _ _ e
      refine .inr ⟨m, ?_, by rw [h5, e2]⟩
      have := (Emits.none e1).trans h4
      simpa using this
    · cases e
      exact .inl ⟨0, .none e1, by rw [e2]; rfl⟩

/-- Counting after `assign`: the first nodes are kept. -/
theorem assign_paid (h : Inv s L K) {l : Nat} {xs zs : Els α} (hl : L l = some xs) {k : Nat} (hz : zs.length = k)
    (hp : (ids zs).take xs.length = (ids xs).take k) (h' : Inv s' (put L l (some zs)) K) (hg : Ledger s)
    (hg' : Ledger s')
    (hs : (∃ n, Emits s s' n 0 ∧ s'.tick = s.tick + min xs.length k + n) ∨
      ∃ m, Emits s s' 0 m ∧ s'.tick = s.tick + min xs.length k) : Paid s s' (replaceBill xs.length k) := by
  have paid : ∀ n m, Emits s s' n m → n = k - xs.length → m = xs.length - k →
      s'.tick = s.tick + min xs.length k + n → Paid s s' (replaceBill xs.length k) := by
    rintro n m ⟨D, e, h1, h2, h3, h4⟩ rfl rfl ht
    refine ⟨?_, ?_, ?_, ?_, ?_⟩ <;> simp only [replaceBill, e, List.countP_append]
    · omega
    · omega
    · omega
    · omega
    · omega
  have hlz : (ids zs).length = k := by rw [ids_length, hz]
  rcases Nat.le_total xs.length k with hle | hle
  · -- the old nodes are the first of the new ones
    have e1 : ids zs = ids xs ++ (ids zs).drop xs.length ++ [] := by
      rw [List.append_nil]
      conv_lhs => rw [← List.take_append_drop xs.length (ids zs), hp]
      rw [List.take_of_length_le (by rw [ids_length]; exact hle)]
    rcases hs with ⟨n, hn, ht⟩ | ⟨m, hm, ht⟩
    · have := made_by h h' hg hg' hn (A := ids xs) (B := []) e1 (by rw [hl]; simp)
      rw [List.length_drop, hlz] at this
      exact paid n 0 hn this (by omega) ht
    · have hall := (freed_count hm hg hg').1
      have hm0 := freed_by h h' hg hg' hm (A := ids xs) (N := []) (B := []) (by rw [hl]; simp)
      have hx : k = xs.length := by
        by_contra hne
        have hd : (ids zs).drop xs.length ≠ [] := by
          intro e
          have := congrArg List.length e
          rw [List.length_drop, hlz] at this
          simp at this; omega
        obtain ⟨a, ha⟩ := List.exists_mem_of_ne_nil _ hd
        have hnd := h'.nodup l zs (by simp [put])
        rw [e1] at hnd
        have hb := (middle hnd a).2 ha
        rw [← e1] at hb
        have := (born_iff h h' a).2 ⟨hb.1, by rw [hl]; simpa using hb.2⟩
        exact hall a this.2 this.1
      have : m = 0 := hm0 (by
        have : (ids zs).drop xs.length = [] := List.drop_eq_nil_of_le (by omega)
        show ids zs = _
        rw [e1, this]; simp)
      subst this
      exact paid 0 0 hm (by omega) (by omega) ht
  · have e1 : ids xs = ids zs ++ (ids xs).drop k ++ [] := by
      rw [List.append_nil]
      conv_lhs => rw [← List.take_append_drop k (ids xs), ← hp]
      rw [List.take_of_length_le (by omega)]
    have hlx : (ids xs).length = xs.length := ids_length xs
    rcases hs with ⟨n, hn, ht⟩ | ⟨m, hm, ht⟩
    · have hall := (made_count hn hg hg').1
      have hm0 := made_by h h' hg hg' hn (A := ids zs) (N := []) (B := []) (by simp)
      have hx : k = xs.length := by
        by_contra hne
        have hd : (ids xs).drop k ≠ [] := by
          intro e
          have := congrArg List.length e
          rw [List.length_drop, hlx] at this
          simp at this; omega
        obtain ⟨a, ha⟩ := List.exists_mem_of_ne_nil _ hd
        have hnd := h.nodup l xs hl
        rw [e1] at hnd
        have hb := (middle hnd a).2 ha
        rw [← e1] at hb
        have := (died_iff h h' a).2 ⟨by rw [hl]; exact hb.1, by simpa using hb.2⟩
        exact hall a this.1 this.2
      have : n = 0 := hm0 (by
        have : (ids xs).drop k = [] := List.drop_eq_nil_of_le (by omega)
        rw [hl]
        show ids xs = _
        rw [e1, this]; simp)
      subst this
      exact paid 0 0 hn (by omega) (by omega) ht
    · have := freed_by h h' hg hg' hm (A := ids zs) (B := []) (by rw [hl]; exact e1) (by simp)
      rw [List.length_drop, hlx] at this
      exact paid 0 m hm (by omega) this ht

/-! ### Every call -/

theorem paid_made {n : Nat} (hn : Emits s s' n 0) (ht : s'.tick = s.tick + n) {k : Nat} (e : n = k) :
    Paid s s' ⟨k, 0, 0⟩ := by
  subst e
  obtain ⟨D, e, h1, h2, h3, h4⟩ := hn
  refine ⟨?_, ?_, ?_, ?_, ?_⟩ <;> simp only [e, List.countP_append] <;> omega

theorem paid_freed {m : Nat} (hn : Emits s s' 0 m) (ht : s'.tick = s.tick) {k : Nat} (e : m = k) :
    Paid s s' ⟨0, k, 0⟩ := by
  subst e
  obtain ⟨D, e, h1, h2, h3, h4⟩ := hn
  refine ⟨?_, ?_, ?_, ?_, ?_⟩ <;> simp only [e, List.countP_append] <;> omega

theorem paid_quiet (h : QuietR s s') : Paid s s' ⟨0, 0, 0⟩ := paid_made (.none h.1) h.2 rfl

theorem read_count {σ : Nat → Option (List α)} {r : Src α} {vs : List α} (h : r.read σ = some vs) :
    vs.length = r.count := by
  cases r with
  | vals xs => cases h; rfl
  | sub m i j =>
    simp only [Src.read, Option.bind_eq_some_iff] at h
    obtain ⟨xs, -, h⟩ := h
    split at h <;> cases h
    rename_i hij
    simp only [List.length_drop, List.length_take, Src.count]
    omega

theorem count_values (L : Nat → Option (Els α)) (l : Nat) : count (values L) l = ((L l).getD []).length := by
  unfold count values
  cases L l <;> simp

/-- The nodes that a move assignment gives back are those of the list it is made to. -/
theorem move_died (h : Inv s L K) {l m : Nat} {xs ys : Els α} (hl : L l = some xs) (hm : L m = some ys) (hne : l ≠ m)
    (h' : Inv s' (put (put L l (some ys)) m (some [])) K) (a : Nat) :
    (s.nodes a ≠ none ∧ s'.nodes a = none) ↔ a ∈ ids xs := by
  have el : put (put L l (some ys)) m (some []) l = some ys := by simp [put, hne]
  have eo : ∀ j, j ≠ l → j ≠ m → put (put L l (some ys)) m (some []) j = L j := fun j h1 h2 => by
    simp [put, h1, h2]
  constructor
  · rintro ⟨h1, h2⟩
    rcases (h.alive_iff a).1 h1 with ⟨j, zs, hj, ha⟩ | hk
    · by_cases e : j = l
      · subst e; rw [hl] at hj; cases hj; exact ha
      · by_cases e2 : j = m
        · subst e2; rw [hm] at hj; cases hj; exact absurd h2 (h'.live el a ha)
        · exact absurd h2 (h'.live ((eo j e e2).trans hj) a ha)
    · exact absurd h2 (h'.leak a hk).1
  · intro ha
    refine ⟨h.live hl a ha, ?_⟩
    by_contra hc
    rcases (h'.alive_iff a).1 hc with ⟨j, zs, hj, ha'⟩ | hk
    · by_cases e2 : j = m
      · subst e2; simp [put] at hj; subst hj; simp at ha'
      · by_cases e : j = l
        · subst e; rw [el] at hj; cases hj; exact h.disj j m xs ys hne hl hm a ha ha'
        · rw [eo j e e2] at hj
          exact h.disj l j xs zs (Ne.symm e) hl hj a ha ha'
    · exact (h.leak a hk).2 l xs hl ha

theorem paid_of (h : Inv s L K) (hg : Ledger s) (hg' : Ledger s') {op : Op α} {σ' : Nat → Option (List α)}
    (ha : after (values L) op = some σ') (h' : Inv s' L' K) (hi : afterIts L op L') {fuel : Nat}
    (hx : exec E fuel op s = .ok () s') : Paid s s' (bill (values L) op) := by
  have hM := comp_made (α := α)
  have hF := comp_freed (α := α)
  have hQ := comp_quiet (α := α)
  have fresh : ∀ l, values L l = none → L l = none := fun l e => by
    unfold values at e; simpa using e
  -- a constructor
  have build : ∀ (l k : Nat) (ns : Els α), L l = none → MadeR s s' → L' = put L l (some ns) → ns.length = k →
      Paid s s' ⟨k, 0, 0⟩ := by
    rintro l k ns hl ⟨n, hn, ht⟩ rfl rfl
    refine paid_made hn ht ?_
    have := made_by h h' hg hg' hn (A := []) (N := ids ns) (B := []) (by simp) (by simp [hl])
    simpa using this
  -- an insertion
  have insert : ∀ (l k j : Nat) (xs ns : Els α), L l = some xs → MadeR s s' →
      L' = put L l (some (xs.take j ++ ns ++ xs.drop j)) → ns.length = k → Paid s s' ⟨k, 0, 0⟩ := by
    rintro l k j xs ns hl ⟨n, hn, ht⟩ rfl rfl
    refine paid_made hn ht ?_
    have := made_by h h' hg hg' hn (A := ids (xs.take j)) (N := ids ns) (B := ids (xs.drop j)) (by simp)
      (by rw [hl]; simp only [Option.getD_some]; rw [← ids_append, List.take_append_drop])
    simpa using this
  -- a removal
  have remove : ∀ (l k : Nat) (A N B : Els α) (o : Option (Els α)), L l = some (A ++ N ++ B) → FreedR s s' →
      L' = put L l o → o.getD [] = A ++ B → N.length = k → Paid s s' ⟨0, k, 0⟩ := by
    rintro l k A N B o hl ⟨n, hn, ht⟩ rfl ho rfl
    refine paid_freed hn ht ?_
    have := freed_by h h' hg hg' hn (A := ids A) (N := ids N) (B := ids B) (by rw [hl]; simp) (by rw [ho]; simp)
    simpa using this
  have have_list : ∀ {l : Nat} {β : Type} {f : List α → Option β} {b : β}, (values L l).bind f = some b →
      ∃ xs, L l = some xs ∧ f (vals xs) = some b := by
    intro l β f b e
    unfold values at e
    cases hl : L l with
    | none => rw [hl] at e; cases e
    | some xs => rw [hl] at e; exact ⟨xs, rfl, e⟩
  cases op with
  | newEmpty l => exact paid_quiet (does_construct hQ l (Does.pure hQ _) _ _ _ hx)
  | newFill l n v =>
    obtain ⟨ns, e1, e2⟩ := hi
    simp only [after] at ha
    split at ha <;> cases ha
    rename_i hl
    exact build l n ns (fresh l hl) (does_construct hM l (made_fillLoop _ _ _) _ _ _ hx) e2
      (by have := congrArg List.length e1; simpa using this)
  | newRange l r =>
    obtain ⟨ns, e1, e2⟩ := hi
    simp only [after, Option.bind_eq_some_iff] at ha
    obtain ⟨vs, hv, ha⟩ := ha
    split at ha <;> cases ha
    rename_i hl
    refine build l _ ns (fresh l hl) (((does_range hM r).bind hM fun _ =>
      does_construct hM l (made_initLoop _ _ _)) _ _ _ hx) e2 ?_
    have := read_count e1.symm
    simpa using this
  | newCopy l m =>
    obtain ⟨ns, ys, e0, e1, e2⟩ := hi
    obtain ⟨ys', -, ha⟩ := have_list ha
    split at ha <;> cases ha
    rename_i hl
    refine build l _ ns (fresh l hl) (does_construct hM l ((does_next hM _).bind hM fun _ =>
      made_initLoop _ _ _) _ _ _ hx) e2 ?_
    rw [count_values, e0]
    have := congrArg List.length e1
    simpa using this
  | newMove l m =>
    exact paid_quiet (does_construct hQ l ((does_next hQ _).bind hQ fun _ =>
      (does_setNext hQ _ _).bind hQ fun _ => does_setNext hQ _ _) _ _ _ hx)
  | destruct l =>
    obtain ⟨xs, hl, -⟩ := have_list ha
    refine remove l _ [] xs [] none (by simpa using hl) (((freed_eraseAfterRange _ _ _).bind hF fun _ =>
      does_modify_heads hF (fun s => { s with heads := upd s.heads l none }) (fun _ => rfl) fun _ => rfl) _ _ _ hx)
      hi rfl ?_
    rw [count_values, hl]; rfl
  | copyAssign l m =>
    obtain ⟨xs, ys, zs, e1, e2, e3, e4, rfl⟩ := hi
    obtain ⟨b, s1, h1, h2⟩ := ok_bind hx
    obtain ⟨rfl, h3⟩ := begin_hops h e2 h1
    have := assign_paid h e1 (k := ys.length) (zs := zs) (by have := congrArg List.length e3; simpa using this) e4 h'
      hg hg' (assign_shape h e1 (.nodes h3) h2)
    simpa only [bill, count_values, e1, e2, Option.getD_some] using this
  | moveAssign l m =>
    obtain ⟨ys, e1, rfl⟩ := hi
    obtain ⟨xs, hl, ha1⟩ := have_list ha
    obtain ⟨ys', hm, ha2⟩ := have_list ha1
    clear ha ha1
    split at ha2 <;> cases ha2
    rename_i hne
    obtain ⟨n, hn, ht⟩ := ((freed_eraseAfterRange _ _ _).bind hF fun _ => (does_next hF _).bind hF fun _ =>
      (does_next hF _).bind hF fun _ => (does_setNext hF _ _).bind hF fun _ => does_setNext hF _ _) _ _ _ hx
    refine paid_freed hn ht ?_
    rw [count_values, hl]
    have := (freed_count hn hg hg').2 (ids xs) (h.nodup l xs hl) fun a => by
      rw [move_died h hl e1 hne h' a]
    simpa using this
  | assign l r =>
    obtain ⟨xs, vs, zs, e1, e2, e3, e4, rfl⟩ := hi
    obtain ⟨rg, s1, h1, h2⟩ := ok_bind hx
    obtain ⟨rg', F, h3, h4, -⟩ := range_readable h e2
    rw [h3] at h1
    cases h1
    have := assign_paid h e1 (k := vs.length) (zs := zs) (by have := congrArg List.length e3; simpa using this) e4 h'
      hg hg' (assign_shape h e1 (readable_long h4) h2)
    simpa only [bill, count_values, e1, read_count e2, Option.getD_some] using this
  | clear l =>
    obtain ⟨xs, hl, -⟩ := have_list ha
    refine remove l _ [] xs [] (some []) (by simpa using hl) (freed_eraseAfterRange _ _ _ _ _ _ hx) hi rfl ?_
    rw [count_values, hl]; rfl
  | pushFront l v =>
    obtain ⟨xs, p, e1, e2⟩ := hi
    exact insert l 1 0 xs [(p, v)] e1 (((made_emplaceAfter _ _).bind hM fun _ => Does.pure hM _) _ _ _ hx)
      (by simpa using e2) rfl
  | popFront l =>
    obtain ⟨xs, e1, e2⟩ := hi
    obtain ⟨xs', hl, ha⟩ := have_list ha
    rw [e1] at hl; cases hl
    split at ha <;> cases ha
    rename_i hpos
    refine remove l 1 [] (xs.take 1) (xs.drop 1) _ (by rw [e1]; congr 1; exact (List.take_append_drop 1 xs).symm)
      (freed_eraseAfter _ _ _ _ hx) e2 rfl ?_
    rw [vals_length] at hpos
    rw [List.length_take]; omega
  | insertAfter l k v =>
    obtain ⟨xs, p, e1, e2⟩ := hi
    exact insert l 1 k xs [(p, v)] e1 (((does_advance hM _ _).bind hM fun _ =>
      (made_emplaceAfter _ _).bind hM fun _ => Does.pure hM _) _ _ _ hx) (by simpa using e2) rfl
  | insertRange l k r =>
    obtain ⟨xs, ns, e1, e2, e3⟩ := hi
    refine insert l _ k xs ns e1 (((does_advance hM _ _).bind hM fun _ => (does_range hM r).bind hM fun _ =>
      (made_insertRange _ _ _).bind hM fun _ => Does.pure hM _) _ _ _ hx) e3 ?_
    have := read_count e2.symm
    simpa using this
  | eraseAfter l k =>
    obtain ⟨xs, e1, e2⟩ := hi
    obtain ⟨xs', hl, ha⟩ := have_list ha
    rw [e1] at hl; cases hl
    split at ha <;> cases ha
    rename_i hk
    rw [vals_length] at hk
    refine remove l 1 (xs.take k) ((xs.drop k).take 1) (xs.drop (k + 1)) _ ?_ (((does_advance hF _ _).bind hF fun _ =>
      freed_eraseAfter _) _ _ _ hx) e2 rfl ?_
    · rw [e1, List.append_assoc, ← List.drop_drop, List.take_append_drop, List.take_append_drop]
    · rw [List.length_take, List.length_drop]; omega
  | eraseRange l k j =>
    obtain ⟨xs, e1, e2⟩ := hi
    obtain ⟨xs', hl, ha⟩ := have_list ha
    rw [e1] at hl; cases hl
    split at ha <;> cases ha
    rename_i hk
    rw [vals_length] at hk
    refine remove l _ (xs.take k) ((xs.drop k).take (j - k)) (xs.drop j) _ ?_ (((does_advance hF _ _).bind hF fun _ =>
      (does_advance hF _ _).bind hF fun _ => freed_eraseAfterRange _ _ _) _ _ _ hx) e2 rfl ?_
    · have : xs.drop j = (xs.drop k).drop (j - k) := by rw [List.drop_drop]; congr 1; omega
      rw [e1, List.append_assoc, this, List.take_append_drop, List.take_append_drop]
    · rw [List.length_take, List.length_drop]; omega
  | reverse l =>
    exact paid_quiet (((does_next hQ _).bind hQ fun _ => Does.ite (Does.pure hQ _) (quiet_reverseLoop _ _ _)) _ _ _ hx)

/-- Whatever has happened before, a call that returns asks the allocator for exactly as many nodes, gives back
exactly as many, and constructs, destroys and assigns exactly as many elements as its bill says. -/
theorem linkedList_costs {h : List (Op α × Outcome)} {σ σ' : Nat → Option (List α)} {op : Op α} (hr : Reach E h s)
    (hs : Sees s σ) (ha : after σ op = some σ') (hx : Runs E op s (.ok () s')) : Paid s s' (bill σ op) := by
  obtain ⟨L, K, h1, h2, -⟩ := reach_inv hr
  have := h1.sees.unique hs
  subst this
  have hg := (runs_good hx).2 h2
  rcases step_runs E h1 ha with ⟨s2, hx2, L', h4, h5⟩ | ⟨s2, hx2, -⟩
  · have := hx.unique hx2
    cases this
    obtain ⟨n, hn⟩ := hx
    exact paid_of h1 h2 hg ha h4 h5 (hn n (Nat.le_refl _))
  · have := hx.unique hx2
    cases this

/-- The counters of a state: allocations, constructions, deallocations, destructions, and element operations. -/
def meter (s : St Nat) : List Nat :=
  [s.log.countP Ev.isAlloc, s.log.countP Ev.isCtor, s.log.countP Ev.isFree, s.log.countP Ev.isDtor, s.tick]

/-- The hypotheses are met by `demo`, a reachable state where the lists 0 and 1 have four and five elements.
Assigning list 0 to list 1 assigns to four elements and frees one node; the other way round it makes one node and
assigns to four; moving list 1 into list 0 frees four nodes, and reversing costs nothing. -/
example : (∃ h, Reach goodEnv h demo) ∧ (∃ σ, Sees demo σ) ∧
    meter demo = [10, 10, 1, 1, 10] ∧
    ((play [.copyAssign 1 0] demo).map meter) = some [10, 10, 2, 2, 14] ∧
    ((play [.copyAssign 0 1] demo).map meter) = some [11, 11, 1, 1, 15] ∧
    ((play [.moveAssign 0 1] demo).map meter) = some [10, 10, 5, 5, 10] ∧
    ((play [.reverse 1] demo).map meter) = some [10, 10, 1, 1, 10] := by
  obtain ⟨h, hr, -⟩ := demo_reach
  obtain ⟨σ, hs, -⟩ := linkedList_history hr
  exact ⟨⟨h, hr⟩, ⟨σ, hs⟩, by decide +kernel⟩

end Verif.LL
