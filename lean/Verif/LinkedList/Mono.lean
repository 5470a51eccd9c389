import Verif.LinkedList.Spec

/-!
Facts about every function of the model by its shape alone: more fuel does not change a result, exceptions
come only from the environment, and the ledger of allocations and constructions is kept.
-/

set_option autoImplicit false

namespace Verif.LL

variable {α β γ : Type}

/-- More fuel does not change the result. -/
def Mono (F : Nat → M α β) : Prop := ∀ f s, F f s ≠ .hang → F (f + 1) s = F f s

theorem Mono.const (f : M α β) : Mono fun _ => f := fun _ _ _ => rfl

theorem Mono.bind {F : Nat → M α β} {G : Nat → β → M α γ} (hF : Mono F) (hG : ∀ b, Mono fun f => G f b) :
    Mono fun f => F f >>= G f := by
  intro f s h
  show M.bind _ _ _ = M.bind _ _ _
  have h' : M.bind (F f) (G f) s ≠ .hang := h
  have e : F (f + 1) s = F f s := by
    refine hF f s fun e => h' ?_
    unfold M.bind; rw [e]
  unfold M.bind at h' ⊢
  rw [e]
  cases hf : F f s with
  | ok b s' => rw [hf] at h'; exact hG b f s' h'
  | _ => rfl

theorem Mono.tryRethrow {F : Nat → M α β} {H : M α Unit} (hF : Mono F) :
    Mono fun f => M.tryRethrow (F f) H := by
  intro f s h
  have h' : M.tryRethrow (F f) H s ≠ .hang := h
  have e : F (f + 1) s = F f s := by
    refine hF f s fun e => h' ?_
    unfold M.tryRethrow; rw [e]
  show M.tryRethrow _ _ _ = _
  unfold M.tryRethrow
  rw [e]

theorem Mono.ite {c : Prop} [Decidable c] {F G : Nat → M α β} (hF : Mono F) (hG : Mono G) :
    Mono fun f => if c then F f else G f := by
  split <;> assumption

/-- Bodies of loops: binding the recursive call. -/
theorem bind_congr_fuel {F : M α β} {G G' : β → M α γ} {s : St α}
    (hG : ∀ b s', G b s' ≠ .hang → G' b s' = G b s') (h : (F >>= G) s ≠ .hang) :
    (F >>= G') s = (F >>= G) s := by
  have h' : M.bind F G s ≠ .hang := h
  show M.bind _ _ _ = M.bind _ _ _
  unfold M.bind at h' ⊢
  cases hf : F s with
  | ok b s' => rw [hf] at h'; exact hG b s' h'
  | _ => rfl

theorem insertRange_mono (E : Env α) : ∀ f pos (r : Range α) s, insertRange E f pos r s ≠ .hang →
    insertRange E (f + 1) pos r s = insertRange E f pos r s := by
  intro f
  induction f with
  | zero => intro pos r s h; exact absurd rfl h
  | succ f ih =>
    intro pos r s h
    rw [insertRange] at h
    rw [insertRange, insertRange]
    split
    · rename_i hm
      rw [if_pos hm] at h
      exact bind_congr_fuel (fun _ s1 => bind_congr_fuel fun _ s2 => bind_congr_fuel fun _ s3 => ih _ _ s3) h
    · rfl

theorem eraseLoop_mono : ∀ f p q (s : St α), eraseLoop f p q s ≠ .hang →
    eraseLoop (f + 1) p q s = eraseLoop f p q s := by
  intro f
  induction f with
  | zero => intro p q s h; exact absurd rfl h
  | succ f ih =>
    intro p q s h
    rw [eraseLoop] at h
    rw [eraseLoop, eraseLoop]
    split
    · rfl
    · rename_i hm
      rw [if_neg hm] at h
      exact bind_congr_fuel (fun _ s1 => bind_congr_fuel fun _ s2 => bind_congr_fuel fun _ s3 => ih _ _ s3) h

theorem assignLoop_mono (E : Env α) : ∀ f p q (r : Range α) s, assignLoop E f p q r s ≠ .hang →
    assignLoop E (f + 1) p q r s = assignLoop E f p q r s := by
  intro f
  induction f with
  | zero => intro p q r s h; exact absurd rfl h
  | succ f ih =>
    intro p q r s h
    rw [assignLoop] at h
    rw [assignLoop, assignLoop]
    split
    · rename_i hm
      rw [if_pos hm] at h
      exact bind_congr_fuel (fun _ s1 => bind_congr_fuel fun _ s2 => bind_congr_fuel fun _ s3 =>
        bind_congr_fuel fun _ s4 => bind_congr_fuel fun _ s5 => ih _ _ _ s5) h
    · rfl

theorem reverseLoop_mono : ∀ f l p (s : St α), reverseLoop f l p s ≠ .hang →
    reverseLoop (f + 1) l p s = reverseLoop f l p s := by
  intro f
  induction f with
  | zero => intro l p s h; exact absurd rfl h
  | succ f ih =>
    intro l p s h
    rw [reverseLoop] at h
    rw [reverseLoop, reverseLoop]
    refine bind_congr_fuel (fun tmp s1 h => ?_) h
    split
    · rfl
    · rename_i hm
      rw [if_neg hm] at h
      exact bind_congr_fuel (fun _ s1 => bind_congr_fuel fun _ s2 => bind_congr_fuel fun _ s3 =>
        bind_congr_fuel fun _ s4 => bind_congr_fuel fun _ s5 => bind_congr_fuel fun _ s6 => ih _ _ s6) h

theorem initLoop_mono (E : Env α) : ∀ f p (r : Range α) s, initLoop E f p r s ≠ .hang →
    initLoop E (f + 1) p r s = initLoop E f p r s := by
  intro f
  induction f with
  | zero => intro p r s h; exact absurd rfl h
  | succ f ih =>
    intro p r s h
    rw [initLoop] at h
    rw [initLoop, initLoop]
    split
    · rename_i hm
      rw [if_pos hm] at h
      exact bind_congr_fuel (fun _ s1 => bind_congr_fuel fun _ s2 => bind_congr_fuel fun _ s3 =>
        bind_congr_fuel fun _ s4 => bind_congr_fuel fun _ s5 => ih _ _ s5) h
    · rfl

theorem eraseAfterRange_mono (p q : Ptr) : Mono (α := α) fun f => eraseAfterRange f p q := by
  unfold eraseAfterRange
  exact (Mono.const _).bind fun _ => Mono.bind (fun f s => eraseLoop_mono f _ _ s) fun _ => Mono.const _

theorem assign_mono (E : Env α) (l : Nat) (r : Range α) : Mono fun f => assign E f l r := by
  unfold assign
  refine (Mono.const _).bind fun _ => Mono.bind (fun f s => assignLoop_mono E f _ _ _ s) ?_
  rintro ⟨prev, curr, r'⟩
  exact Mono.ite (Mono.bind (fun f s => insertRange_mono E f _ _ s) fun _ => Mono.const _)
    (Mono.ite (eraseAfterRange_mono _ _) (Mono.const _))

theorem construct_mono {F : Nat → M α Unit} (l : Nat) (h : Mono F) : Mono fun f => construct l (F f) := by
  unfold construct
  exact (Mono.const _).bind fun _ =>
    Mono.ite ((Mono.const _).bind fun _ => Mono.tryRethrow h) (Mono.const _)

theorem exec_mono (E : Env α) (op : Op α) : Mono fun f => exec E f op := by
  cases op <;> simp only [exec]
  case newRange l r =>
    exact (Mono.const _).bind fun r => construct_mono l fun f s => initLoop_mono E f _ r s
  case newCopy l m =>
    exact construct_mono l ((Mono.const _).bind fun _ => fun f s => initLoop_mono E f _ _ s)
  case destruct l =>
    exact Mono.bind (eraseAfterRange_mono _ _) fun _ => Mono.const _
  case copyAssign l m => exact (Mono.const _).bind fun _ => assign_mono E l _
  case moveAssign l m => exact Mono.bind (eraseAfterRange_mono _ _) fun _ => Mono.const _
  case assign l r => exact (Mono.const _).bind fun r => assign_mono E l r
  case clear l => exact eraseAfterRange_mono _ _
  case insertRange l k r =>
    exact (Mono.const _).bind fun _ => (Mono.const _).bind fun _ =>
      Mono.bind (fun f s => insertRange_mono E f _ _ s) fun _ => Mono.const _
  case eraseRange l k j =>
    exact (Mono.const _).bind fun _ => (Mono.const _).bind fun _ => eraseAfterRange_mono _ _
  case reverse l =>
    unfold reverse
    exact (Mono.const _).bind fun _ => Mono.ite (Mono.const _) fun f s => reverseLoop_mono f _ _ s
  all_goals exact Mono.const _

theorem Mono.le {F : Nat → M α β} (h : Mono F) {f f' : Nat} (hf : f ≤ f') {s : St α} (hs : F f s ≠ .hang) :
    F f' s = F f s := by
  induction hf with
  | refl => rfl
  | step _ ih => rw [h _ s (by rw [ih]; exact hs), ih]

/-! ### Exceptions and the ledger -/

/-- The number of objects in the storage of node `a`. -/
def holds (s : St α) (a : Nat) : Nat :=
  match s.nodes a with
  | some (.node _ (some _)) => 1
  | _ => 0

/-- At every address there were as many deallocations as allocations, not counting an allocated node, and as
many destructions as constructions, not counting a living object. -/
def Ledger (s : St α) : Prop := ∀ a,
  s.log.count (.alloc a) = s.log.count (.free a) + (if s.nodes a = none then 0 else 1) ∧
  s.log.count (.ctor a) = s.log.count (.dtor a) + holds s a

/-- The condition of `Good` on a result. -/
def GoodRes (s : St α) (r : Res (St α) β) : Prop :=
  match r with
  | .ok _ s' => s'.fails = s.fails ∧ (Ledger s → Ledger s')
  | .thrown s' => s.fails < s'.fails ∧ (Ledger s → Ledger s')
  | _ => True

/-- The ledger is kept; exceptions, and only they, are counted by `fails`. -/
def Good (f : M α β) : Prop := ∀ s, GoodRes s (f s)

theorem Good.pure (b : β) : Good (pure b : M α β) := fun _ => ⟨rfl, id⟩

theorem Good.ub : Good (M.ub : M α β) := fun _ => trivial

theorem Good.hang : Good (M.hang : M α β) := fun _ => trivial

theorem Good.bind {f : M α β} {g : β → M α γ} (hf : Good f) (hg : ∀ b, Good (g b)) : Good (f >>= g) := by
  intro s
  show GoodRes s (M.bind f g s)
  unfold M.bind
  have h1 := hf s
  cases h : f s with
  | ok b s' =>
    rw [h] at h1
    simp only
    have h2 := hg b s'
    cases h' : g b s' with
    | ok c s'' => rw [h'] at h2; exact ⟨h2.1.trans h1.1, h2.2 ∘ h1.2⟩
    | thrown s'' => rw [h'] at h2; exact ⟨h1.1 ▸ h2.1, h2.2 ∘ h1.2⟩
    | _ => trivial
  | thrown s' => rw [h] at h1; exact h1
  | _ => trivial

theorem Good.ite {c : Prop} [Decidable c] {f g : M α β} (hf : Good f) (hg : Good g) :
    Good (if c then f else g) := by
  split <;> assumption

/-- A program that changes only heads, or nodes' `next` fields and the like. -/
theorem Good.of_same {f : M α β}
    (h : ∀ s, match f s with
      | .ok _ s' => s'.fails = s.fails ∧ s'.log = s.log ∧
          ∀ a, (s'.nodes a = none ↔ s.nodes a = none) ∧ holds s' a = holds s a
      | .thrown _ => False
      | _ => True) : Good f := by
  intro s
  have h1 := h s
  cases hf : f s with
  | ok b s' =>
    rw [hf] at h1
    refine ⟨h1.1, fun hl a => ?_⟩
    have := hl a
    rw [h1.2.1, (h1.2.2 a).2]
    refine ⟨?_, this.2⟩
    rw [this.1]
    congr 1
    by_cases e : s.nodes a = none
    · rw [if_pos e, if_pos ((h1.2.2 a).1.2 e)]
    · rw [if_neg e, if_neg fun e' => e ((h1.2.2 a).1.1 e')]
  | thrown s' => rw [hf] at h1; exact absurd h1 id
  | _ => trivial

theorem next_good (p : Ptr) : Good (next p : M α Ptr) := by
  refine Good.of_same fun s => ?_
  unfold next
  split
  · rename_i h; split at h <;> (try split at h) <;> cases h
    · exact ⟨rfl, rfl, fun _ => ⟨Iff.rfl, rfl⟩⟩
    · exact ⟨rfl, rfl, fun _ => ⟨Iff.rfl, rfl⟩⟩
  · rename_i h; split at h <;> (try split at h) <;> cases h
  · trivial

theorem deref_good (p : Ptr) : Good (deref p : M α α) := by
  refine Good.of_same fun s => ?_
  unfold deref
  split
  · rename_i h; split at h <;> (try split at h) <;> cases h
    exact ⟨rfl, rfl, fun _ => ⟨Iff.rfl, rfl⟩⟩
  · rename_i h; split at h <;> (try split at h) <;> cases h
  · trivial

theorem upd_cases {β : Type} (f : Nat → β) (i : Nat) (b : β) (j : Nat) :
    (j = i ∧ upd f i b j = b) ∨ (j ≠ i ∧ upd f i b j = f j) := by
  unfold upd; split
  · exact .inl ⟨by assumption, rfl⟩
  · exact .inr ⟨by assumption, rfl⟩

theorem setNext_good (p q : Ptr) : Good (setNext p q : M α Unit) := by
  refine Good.of_same fun s => ?_
  unfold setNext
  match p with
  | none => trivial
  | some (.head l) =>
    cases hl : s.heads l with
    | none => simp only [hl]
    | some r => simp only [hl]; exact ⟨trivial, trivial, fun _ => ⟨trivial, rfl⟩⟩
  | some (.node a) =>
    match hn : s.nodes a with
    | none => simp only [hn]
    | some .raw => simp only [hn]
    | some (.node r v) =>
      simp only [hn]
      refine ⟨trivial, trivial, fun b => ?_⟩
      unfold holds
      rcases upd_cases s.nodes a (some (.node q v)) b with ⟨rfl, e⟩ | ⟨_, e⟩
      · simp only [e, hn]; cases v <;> simp
      · simp only [e]; exact ⟨trivial, trivial⟩

theorem putVal_good (p : Ptr) (v : α) : Good (putVal p v) := by
  refine Good.of_same fun s => ?_
  unfold putVal
  match p with
  | none => trivial
  | some (.head l) => trivial
  | some (.node a) =>
    match hn : s.nodes a with
    | none => simp only [hn]
    | some .raw => simp only [hn]
    | some (.node r none) => simp only [hn]
    | some (.node r (some w)) =>
      simp only [hn]
      refine ⟨trivial, trivial, fun b => ?_⟩
      unfold holds
      rcases upd_cases s.nodes a (some (.node r (some v))) b with ⟨rfl, e⟩ | ⟨_, e⟩
      · simp only [e, hn]; simp
      · simp only [e]; exact ⟨trivial, trivial⟩

theorem mayThrow_good (E : Env α) : Good (mayThrow E) := by
  intro s
  unfold mayThrow
  by_cases h : E.throws s.tick = true
  · rw [if_pos h]; exact ⟨Nat.lt_succ_self _, id⟩
  · rw [if_neg h]; exact ⟨rfl, id⟩

theorem assignTo_good (E : Env α) (p : Ptr) (v : α) : Good (assignTo E p v) :=
  (deref_good p).bind fun _ => (mayThrow_good E).bind fun _ => putVal_good p v

/-- Destroying and deallocating a node. -/
theorem free_good (p : Ptr) : Good (do destroy p; deallocate p : M α Unit) := by
  intro s
  show GoodRes s (M.bind (destroy p) (fun _ => deallocate p) s)
  unfold M.bind destroy deallocate
  match p with
  | none => trivial
  | some (.head l) => trivial
  | some (.node a) =>
    cases hn : s.nodes a with
    | none => simp only [hn]; trivial
    | some c =>
      match c with
      | .raw => simp only [hn]; trivial
      | .node q none => simp only [hn]; trivial
      | .node q (some v) =>
        simp only [hn]
        have e : upd s.nodes a (some (.node q (none : Option α))) a = some (.node q none) := by simp [upd]
        simp only [e]
        refine ⟨rfl, fun hl b => ?_⟩
        have := hl b
        unfold holds at this ⊢
        simp only [List.count_cons]
        by_cases hb : b = a
        · subst hb
          rw [hn] at this
          simp [upd] at this ⊢
          omega
        · have hab : a ≠ b := Ne.symm hb
          simpa [hab, hb, upd] using this

theorem free_then_good (p : Ptr) {g : M α β} (hg : Good g) :
    Good (destroy p >>= fun _ => deallocate p >>= fun _ => g) := by
  have : (destroy p >>= fun _ => deallocate p >>= fun _ => g) =
      ((do destroy p; deallocate p) >>= fun _ => g) := by
    funext s
    show M.bind _ _ _ = M.bind (M.bind _ _) _ _
    unfold M.bind
    cases destroy p s <;> rfl
  rw [this]
  exact (free_good p).bind fun _ => hg

theorem createNode_good (E : Env α) (v : α) : Good (createNode E v) := by
  intro s
  unfold createNode
  show GoodRes s (M.bind _ _ s)
  unfold M.bind allocate
  cases hn : s.nodes (E.pick s) with
  | some c => simp only [hn]; exact ⟨Nat.lt_succ_self _, id⟩
  | none =>
    simp only [hn]
    generalize E.pick s = a at hn
    have e1 : upd s.nodes a (some (.raw : Cell α)) a = some .raw := by simp [upd]
    have e2 : upd (upd s.nodes a (some (.raw : Cell α))) a (some (.node none none)) a =
        some (.node none none) := by simp [upd]
    by_cases ht : E.throws s.tick = true
    · have hres : (do constructNode a; constructVal E a v : M α Unit)
          { s with nodes := upd s.nodes a (some .raw), log := .alloc a :: s.log } =
          .thrown ⟨s.heads, upd (upd s.nodes a (some (.raw : Cell α))) a (some (.node none none)),
            s.tick + 1, s.fails + 1, .alloc a :: s.log⟩ := by
        show M.bind _ _ _ = _
        unfold M.bind constructNode
        simp only [e1]
        show M.bind _ _ _ = _
        unfold M.bind mayThrow
        simp only [ht, if_true]
      show GoodRes s (M.bind (M.tryRethrow _ _) _ _)
      unfold M.bind M.tryRethrow
      rw [hres]
      unfold deallocate
      simp only [e2]
      refine ⟨Nat.lt_succ_self _, fun hl b => ?_⟩
      have := hl b
      unfold holds at this ⊢
      simp only [List.count_cons]
      by_cases hb : b = a
      · subst hb
        rw [hn] at this
        simp [upd] at this ⊢
        omega
      · have hab : a ≠ b := Ne.symm hb
        simpa [hab, hb, upd] using this
    · have hres : (do constructNode a; constructVal E a v : M α Unit)
          { s with nodes := upd s.nodes a (some .raw), log := .alloc a :: s.log } =
          .ok () ⟨s.heads, upd (upd (upd s.nodes a (some (.raw : Cell α))) a (some (.node none none))) a
            (some (.node none (some v))), s.tick + 1, s.fails, .ctor a :: .alloc a :: s.log⟩ := by
        show M.bind _ _ _ = _
        unfold M.bind constructNode
        simp only [e1]
        show M.bind _ _ _ = _
        unfold M.bind mayThrow
        simp only [ht]
        show putNew a v _ = _
        unfold putNew
        simp only [e2]
      show GoodRes s (M.bind (M.tryRethrow _ _) _ _)
      unfold M.bind M.tryRethrow
      rw [hres]
      refine ⟨rfl, fun hl b => ?_⟩
      have := hl b
      unfold holds at this ⊢
      simp only [List.count_cons]
      by_cases hb : b = a
      · subst hb
        rw [hn] at this
        simp [upd] at this ⊢
        omega
      · have hab : a ≠ b := Ne.symm hb
        simpa [hab, hb, upd] using this

theorem emplaceAfter_good (E : Env α) (pos : Ptr) (v : α) : Good (emplaceAfter E pos v) :=
  (createNode_good E v).bind fun _ => (next_good _).bind fun _ => (setNext_good _ _).bind fun _ =>
    (setNext_good _ _).bind fun _ => Good.pure _

theorem front_good (r : Range α) : Good r.front := by
  match r with
  | .ext [] => exact Good.ub
  | .ext (x :: _) => exact Good.pure _
  | .nodes p _ => exact deref_good p

theorem advanceR_good (r : Range α) : Good r.advance := by
  match r with
  | .ext [] => exact Good.ub
  | .ext (x :: _) => exact Good.pure _
  | .nodes p _ => exact (next_good p).bind fun _ => Good.pure _

theorem insertRange_good (E : Env α) (f : Nat) (pos : Ptr) (r : Range α) : Good (insertRange E f pos r) := by
  induction f generalizing pos r with
  | zero => exact Good.hang
  | succ f ih =>
    unfold insertRange
    exact Good.ite ((front_good r).bind fun _ => (emplaceAfter_good E _ _).bind fun _ =>
      (advanceR_good r).bind fun _ => ih _ _) (Good.pure _)

theorem eraseAfter_good (pos : Ptr) : Good (eraseAfter pos : M α Unit) :=
  (next_good _).bind fun _ => (next_good _).bind fun _ => (setNext_good _ _).bind fun _ => free_good _

theorem eraseLoop_good (f : Nat) (p q : Ptr) : Good (eraseLoop f p q : M α Unit) := by
  induction f generalizing p with
  | zero => exact Good.hang
  | succ f ih =>
    unfold eraseLoop
    exact Good.ite (Good.pure _) ((next_good _).bind fun _ => free_then_good _ (ih _))

theorem eraseAfterRange_good (f : Nat) (p q : Ptr) : Good (eraseAfterRange f p q : M α Unit) :=
  (next_good _).bind fun _ => (eraseLoop_good _ _ _).bind fun _ => setNext_good _ _

theorem assignLoop_good (E : Env α) (f : Nat) (p q : Ptr) (r : Range α) : Good (assignLoop E f p q r) := by
  induction f generalizing p q r with
  | zero => exact Good.hang
  | succ f ih =>
    unfold assignLoop
    exact Good.ite ((front_good r).bind fun _ => (assignTo_good E _ _).bind fun _ =>
      (next_good _).bind fun _ => (next_good _).bind fun _ => (advanceR_good r).bind fun _ => ih _ _ _)
      (Good.pure _)

theorem assign_good (E : Env α) (f l : Nat) (r : Range α) : Good (assign E f l r) := by
  unfold assign
  refine Good.bind (next_good _) fun _ => (assignLoop_good E _ _ _ _).bind ?_
  rintro ⟨prev, curr, r'⟩
  exact Good.ite ((insertRange_good E _ _ _).bind fun _ => Good.pure _)
    (Good.ite (eraseAfterRange_good _ _ _) (Good.pure _))

theorem reverseLoop_good (f l : Nat) (p : Ptr) : Good (reverseLoop f l p : M α Unit) := by
  induction f with
  | zero => exact Good.hang
  | succ f ih =>
    unfold reverseLoop
    exact (next_good _).bind fun _ => Good.ite (Good.pure _) ((next_good _).bind fun _ =>
      (setNext_good _ _).bind fun _ => (next_good _).bind fun _ => (setNext_good _ _).bind fun _ =>
      (next_good _).bind fun _ => (setNext_good _ _).bind fun _ => ih)

theorem initLoop_good (E : Env α) (f : Nat) (p : Ptr) (r : Range α) : Good (initLoop E f p r) := by
  induction f generalizing p r with
  | zero => exact Good.hang
  | succ f ih =>
    unfold initLoop
    exact Good.ite ((front_good r).bind fun _ => (createNode_good E _).bind fun _ =>
      (setNext_good _ _).bind fun _ => (next_good _).bind fun _ => (advanceR_good r).bind fun _ => ih _ _)
      (Good.pure _)

theorem fillLoop_good (E : Env α) (n : Nat) (p : Ptr) (v : α) : Good (fillLoop E n p v) := by
  induction n generalizing p with
  | zero => exact Good.pure _
  | succ f ih =>
    unfold fillLoop
    exact (createNode_good E _).bind fun _ => (setNext_good _ _).bind fun _ => (next_good _).bind fun _ => ih _

theorem construct_good (l : Nat) {body : M α Unit} (h : Good body) : Good (construct l body) := by
  unfold construct
  refine Good.bind (fun _ => ⟨rfl, id⟩) fun _ => Good.ite (Good.bind (fun _ => ⟨rfl, id⟩) fun _ => ?_) Good.ub
  intro s
  unfold M.tryRethrow
  have := h s
  cases hb : body s with
  | ok b s' => rw [hb] at this; exact this
  | thrown s' => rw [hb] at this; exact this
  | _ => trivial

theorem advance_good (k : Nat) (p : Ptr) : Good (advance k p : M α Ptr) := by
  induction k generalizing p with
  | zero => exact Good.pure _
  | succ k ih => exact (next_good _).bind fun _ => ih _

theorem range_good (r : Src α) : Good r.range := by
  cases r with
  | vals xs => exact Good.pure _
  | sub m i j => exact (advance_good _ _).bind fun _ => (advance_good _ _).bind fun _ => Good.pure _

theorem exec_good (E : Env α) (fuel : Nat) (op : Op α) : Good (exec E fuel op) := by
  cases op <;> simp only [exec]
  case newEmpty l => exact construct_good l (Good.pure _)
  case newFill l n v => exact construct_good l (fillLoop_good E _ _ _)
  case newRange l r => exact (range_good r).bind fun _ => construct_good l (initLoop_good E _ _ _)
  case newCopy l m => exact construct_good l (Good.bind (next_good _) fun _ => initLoop_good E _ _ _)
  case newMove l m =>
    exact construct_good l ((next_good _).bind fun _ => (setNext_good _ _).bind fun _ => setNext_good _ _)
  case destruct l => exact Good.bind (eraseAfterRange_good _ _ _) fun _ => fun _ => ⟨rfl, id⟩
  case copyAssign l m => exact Good.bind (next_good _) fun _ => assign_good E _ _ _
  case moveAssign l m =>
    exact Good.bind (eraseAfterRange_good _ _ _) fun _ => (next_good _).bind fun _ => (next_good _).bind fun _ =>
      (setNext_good _ _).bind fun _ => setNext_good _ _
  case assign l r => exact (range_good r).bind fun _ => assign_good E _ _ _
  case clear l => exact eraseAfterRange_good _ _ _
  case pushFront l v => exact (emplaceAfter_good E _ _).bind fun _ => Good.pure _
  case popFront l => exact eraseAfter_good _
  case insertAfter l k v =>
    exact (advance_good _ _).bind fun _ => (emplaceAfter_good E _ _).bind fun _ => Good.pure _
  case insertRange l k r =>
    exact (advance_good _ _).bind fun _ => (range_good r).bind fun _ =>
      (insertRange_good E _ _ _).bind fun _ => Good.pure _
  case eraseAfter l k => exact (advance_good _ _).bind fun _ => eraseAfter_good _
  case eraseRange l k j =>
    exact (advance_good _ _).bind fun _ => (advance_good _ _).bind fun _ => eraseAfterRange_good _ _ _
  case reverse l =>
    exact Good.bind (next_good _) fun _ => Good.ite (Good.pure _) (reverseLoop_good _ _ _)

end Verif.LL
