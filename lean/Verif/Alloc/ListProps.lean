import Verif.Alloc.Props
import Mathlib.Data.List.Basic
import Mathlib.Data.List.Nodup

/-! # Nodes of lists go back to the allocator they came from -/

set_option autoImplicit false

namespace Verif.Alloc

/-- Every node alive is in exactly one list, once, and comes from an allocator equal to that list's. -/
structure LInv (w : LW) : Prop where
  own : ∀ x o b, w.objs x = some o → b ∈ o.nodes → w.owner b = some o.alloc
  nodup : ∀ x o, w.objs x = some o → o.nodes.Nodup
  disj : ∀ x y o p b, w.objs x = some o → w.objs y = some p → b ∈ o.nodes → b ∈ p.nodes → x = y
  fresh : ∀ b, w.next ≤ b → w.owner b = none
  all : ∀ b, w.owner b ≠ none → ∃ x o, w.objs x = some o ∧ b ∈ o.nodes

theorem LInv.empty : LInv LW.empty := by
  constructor <;> intros <;> simp_all [LW.empty]

/-- A list that is not empty is moved only into a list whose allocator is equal to its own. -/
def LFine (w : LW) : LOp → Prop
  | .ctorMove _ y b => ∀ p, w.objs y = some p → p.nodes ≠ [] → b = p.alloc
  | .assignMove x y => ∀ o p, w.objs x = some o → w.objs y = some p → p.nodes ≠ [] → o.alloc = p.alloc
  | _ => True

/-- Every call of the program, in the state in which it runs, is as `LFine` says. -/
def LFineAll : LW → List LOp → Prop
  | _, [] => True
  | w, op :: ops => LFine w op ∧ ∀ w', lexec w op = .ok w' → LFineAll w' ops

def LGood : Res LW → Prop
  | .ok w => LInv w
  | .wrong => False
  | .misuse => True

theorem lget_cases (x : Nat) (w : LW) : (∃ o, w.objs x = some o ∧ lget x w = .ok o) ∨ lget x w = .misuse := by
  unfold lget
  cases h : w.objs x with
  | none => exact .inr rfl
  | some o => exact .inl ⟨o, rfl, rfl⟩

theorem labsent_cases (x : Nat) (w : LW) : (w.objs x = none ∧ labsent x w = .ok ()) ∨ labsent x w = .misuse := by
  unfold labsent
  cases h : w.objs x with
  | none => exact .inl ⟨rfl, rfl⟩
  | some o => exact .inr rfl

theorem lfree_ok (a : Nat) : ∀ (ns : List Nat) (w : LW), ns.Nodup → (∀ n ∈ ns, w.owner n = some a) →
    lfree a ns w = .ok { w with owner := fun b => if b ∈ ns then none else w.owner b }
  | [], w, _, _ => by simp [lfree]
  | n :: ns, w, hn, ho => by
    unfold lfree
    rw [if_pos (ho n (by simp)), lfree_ok a ns _ (List.nodup_cons.1 hn).2]
    · congr 2
      funext b
      by_cases h1 : b ∈ ns <;> by_cases h2 : b = n <;> simp [h1, h2, upd]
    · intro m hm
      have : m ≠ n := fun e => (List.nodup_cons.1 hn).1 (e ▸ hm)
      simp only [upd, if_neg this]
      exact ho m (by simp [hm])

theorem lalloc_eq (a : Nat) : ∀ (k : Nat) (w : LW), lalloc a k w =
    (List.range' w.next k, { w with owner := fun b => if b ∈ List.range' w.next k then some a else w.owner b,
                                    next := w.next + k })
  | 0, w => by simp [lalloc]
  | k + 1, w => by
    unfold lalloc
    rw [lalloc_eq a k]
    simp only [List.range'_succ, Prod.mk.injEq, true_and, List.mem_cons]
    congr 1
    · funext b
      by_cases h1 : b ∈ List.range' (w.next + 1) k <;> by_cases h2 : b = w.next <;> simp [h1, h2, upd]
    · omega

/-- One list gets other nodes; the other lists and their nodes are as they were. -/
theorem linv_set {w : LW} (h : LInv w) (x : Nat) (o' : LObj) (ow : Nat → Option Nat) (nx : Nat)
    (h1 : ∀ b ∈ o'.nodes, ow b = some o'.alloc) (h2 : o'.nodes.Nodup)
    (h3 : ∀ y p b, y ≠ x → w.objs y = some p → b ∈ p.nodes → ow b = w.owner b ∧ b ∉ o'.nodes)
    (h4 : ∀ b, nx ≤ b → ow b = none)
    (h5 : ∀ b, ow b ≠ none → b ∈ o'.nodes ∨ (w.owner b ≠ none ∧ ∀ o, w.objs x = some o → b ∉ o.nodes)) :
    LInv (lput x (some o') ⟨ow, nx, w.objs⟩) := by
  have hx : ∀ y p, (lput x (some o') ⟨ow, nx, w.objs⟩).objs y = some p → (y = x ∧ p = o') ∨ (y ≠ x ∧ w.objs y = some p) := by
    intro y p e
    simp only [lput, upd] at e
    split at e
    · rename_i hy; cases e; exact .inl ⟨hy, rfl⟩
    · rename_i hy; exact .inr ⟨hy, e⟩
  constructor
  · intro y p b e hb
    rcases hx y p e with ⟨-, rfl⟩ | ⟨hy, e⟩
    · exact h1 b hb
    · exact (h3 y p b hy e hb).1.trans (h.own y p b e hb)
  · intro y p e
    rcases hx y p e with ⟨-, rfl⟩ | ⟨hy, e⟩
    · exact h2
    · exact h.nodup y p e
  · intro y z p q b e f hp hq
    rcases hx y p e with ⟨ey, ep⟩ | ⟨hy, e1⟩ <;> rcases hx z q f with ⟨ez, eq⟩ | ⟨hz, f1⟩
    · rw [ey, ez]
    · exact absurd (ep ▸ hp) (h3 z q b hz f1 hq).2
    · exact absurd (eq ▸ hq) (h3 y p b hy e1 hp).2
    · exact h.disj y z p q b e1 f1 hp hq
  · exact h4
  · intro b hb
    rcases h5 b hb with hb | ⟨hb, hn⟩
    · exact ⟨x, o', by simp [lput, upd], hb⟩
    · obtain ⟨y, p, e, hp⟩ := h.all b hb
      have hy : y ≠ x := by rintro rfl; exact hn p e hp
      exact ⟨y, p, by simp [lput, upd, hy, e], hp⟩

theorem kept_mem {i k b : Nat} {l : List Nat} (hl : l.Nodup) :
    (b ∈ l.take i ++ l.drop (i + k) ↔ b ∈ l ∧ b ∉ (l.drop i).take k) ∧ (l.take i ++ l.drop (i + k)).Nodup := by
  have e : l = l.take i ++ ((l.drop i).take k ++ l.drop (i + k)) := by
    have : l.drop (i + k) = (l.drop i).drop k := by rw [List.drop_drop]
    rw [this, List.take_append_drop, List.take_append_drop]
  generalize l.take i = p at *
  generalize (l.drop i).take k = q at *
  generalize l.drop (i + k) = r at *
  subst e
  simp only [List.nodup_append, List.mem_append] at hl ⊢
  obtain ⟨h1, ⟨h2, h3, h4⟩, h5⟩ := hl
  refine ⟨⟨fun h => ⟨by tauto, fun hq => ?_⟩, fun h => by tauto⟩, h1, h3, fun a ha c hc => h5 a ha c (.inr hc)⟩
  rcases h with h | h
  · exact h5 b h b (.inl hq) rfl
  · exact h4 b hq b h rfl

/-- Deallocation of nodes of a list. -/
theorem ldrop_ok {w : LW} (h : LInv w) {x : Nat} {o : LObj} (ho : w.objs x = some o) (i k : Nat) :
    ∃ ow, ldrop i k o w = .ok ({ o with nodes := o.nodes.take i ++ o.nodes.drop (i + k) }, ⟨ow, w.next, w.objs⟩) ∧
      LInv (lput x (some { o with nodes := o.nodes.take i ++ o.nodes.drop (i + k) }) ⟨ow, w.next, w.objs⟩) := by
  have hn := h.nodup x o ho
  have hsub : ∀ b, b ∈ (o.nodes.drop i).take k → b ∈ o.nodes := fun b hb =>
    List.mem_of_mem_drop (List.mem_of_mem_take hb)
  refine ⟨fun b => if b ∈ (o.nodes.drop i).take k then none else w.owner b, ?_, ?_⟩
  · unfold ldrop
    rw [lfree_ok o.alloc _ w ((hn.sublist (List.drop_sublist _ _)).sublist (List.take_sublist _ _))
      fun n hn => h.own x o n ho (hsub n hn)]
    rfl
  · refine linv_set h x _ _ _ (fun b hb => ?_) (kept_mem (b := 0) hn).2 (fun y p b hy hp hb => ?_) (fun b hb => ?_)
      fun b hb => ?_
    · obtain ⟨h1, h2⟩ := (kept_mem hn).1.1 hb
      simp only [if_neg h2]
      exact h.own x o b ho h1
    · have hb' : b ∉ o.nodes := fun hb' => hy (h.disj y x p o b hp ho hb hb')
      exact ⟨if_neg fun hq => hb' (hsub b hq), fun hq => hb' ((kept_mem hn).1.1 hq).1⟩
    · simp only [h.fresh b hb, ite_self]
    · by_cases hq : b ∈ (o.nodes.drop i).take k
      · simp [hq] at hb
      · rw [if_neg hq] at hb
        by_cases hm : b ∈ o.nodes
        · exact .inl ((kept_mem hn).1.2 ⟨hm, hq⟩)
        · exact .inr ⟨hb, fun o' e => by rw [ho] at e; cases e; exact hm⟩

/-- New nodes for a list. -/
theorem lnew_ok {w : LW} (h : LInv w) {x : Nat} {o : LObj} (ho : w.objs x = some o ∨ (w.objs x = none ∧ o.nodes = []))
    (i k : Nat) : LInv (lput x (some (lnew i k o w).1) (lnew i k o w).2) := by
  have hown : ∀ b ∈ o.nodes, w.owner b = some o.alloc := by
    intro b hb
    rcases ho with ho | ⟨-, ho⟩
    · exact h.own x o b ho hb
    · rw [ho] at hb; cases hb
  have hnod : o.nodes.Nodup := by
    rcases ho with ho | ⟨-, ho⟩
    · exact h.nodup x o ho
    · rw [ho]; exact List.nodup_nil
  have hlt : ∀ b, w.owner b ≠ none → b < w.next := fun b hb => by
    by_contra hc; exact hb (h.fresh b (by omega))
  have hold : ∀ b ∈ o.nodes, b < w.next := fun b hb => hlt b (by rw [hown b hb]; simp)
  have hr : ∀ b, b ∈ List.range' w.next k ↔ w.next ≤ b ∧ b < w.next + k := fun b => by simp [List.mem_range'_1]
  have hmem : ∀ b, b ∈ o.nodes.take i ++ List.range' w.next k ++ o.nodes.drop i ↔
      b ∈ o.nodes ∨ b ∈ List.range' w.next k := by
    intro b
    have : b ∈ o.nodes ↔ b ∈ o.nodes.take i ∨ b ∈ o.nodes.drop i := by
      rw [← List.mem_append, List.take_append_drop]
    simp only [List.mem_append, this]
    tauto
  unfold lnew
  rw [lalloc_eq]
  refine linv_set h x _ _ _ (fun b hb => ?_) ?_ (fun y p b hy hp hb => ?_) (fun b hb => ?_) fun b hb => ?_
  · by_cases hq : b ∈ List.range' w.next k
    · simp only [if_pos hq]
    · simp only [if_neg hq]
      exact hown b (((hmem b).1 hb).resolve_right hq)
  · have hd := hnod
    rw [← List.take_append_drop i o.nodes, List.nodup_append] at hd
    simp only [List.nodup_append, List.mem_append]
    refine ⟨⟨hd.1, List.nodup_range', fun a ha c hc => ?_⟩, hd.2.1, fun a ha c hc => ?_⟩
    · have := hold a (List.mem_of_mem_take ha); have := (hr c).1 hc; omega
    · rcases ha with ha | ha
      · exact hd.2.2 a ha c hc
      · have := hold c (List.mem_of_mem_drop hc); have := (hr a).1 ha; omega
  · have hb1 : b < w.next := hlt b (by rw [h.own y p b hp hb]; simp)
    have hb2 : b ∉ List.range' w.next k := fun hq => by have := (hr b).1 hq; omega
    refine ⟨if_neg hb2, fun hq => ?_⟩
    have hq := ((hmem b).1 hq).resolve_right hb2
    rcases ho with ho | ⟨-, ho⟩
    · exact hy (h.disj y x p o b hp ho hb hq)
    · rw [ho] at hq; cases hq
  · have hb2 : b ∉ List.range' w.next k := fun hq => by have := (hr b).1 hq; omega
    simp only [if_neg hb2]
    exact h.fresh b (by omega)
  · by_cases hq : b ∈ List.range' w.next k
    · exact .inl ((hmem b).2 (.inr hq))
    · rw [if_neg hq] at hb
      by_cases hm : b ∈ o.nodes
      · exact .inl ((hmem b).2 (.inl hm))
      · refine .inr ⟨hb, fun o' e => ?_⟩
        rcases ho with ho | ⟨ho, -⟩
        · rw [ho] at e; cases e; exact hm
        · rw [ho] at e; cases e

/-- All nodes of list `y` go to list `x`, whose own nodes are gone. -/
theorem lmove_ok {w : LW} (h : LInv w) {x y a : Nat} {p : LObj} (hxy : x ≠ y) (hp : w.objs y = some p)
    (hx : ∀ o, w.objs x = some o → o.nodes = []) (ha : p.nodes ≠ [] → a = p.alloc) :
    LInv (lput y (some { p with nodes := [] }) (lput x (some ⟨a, p.nodes⟩) w)) := by
  have key : ∀ z q, (lput y (some { p with nodes := [] }) (lput x (some ⟨a, p.nodes⟩) w)).objs z = some q →
      (z = x ∧ q = ⟨a, p.nodes⟩) ∨ (z = y ∧ q.nodes = []) ∨ (z ≠ x ∧ z ≠ y ∧ w.objs z = some q) := by
    intro z q e
    simp only [lput, upd] at e
    split at e
    · rename_i hz; cases e; exact .inr (.inl ⟨hz, rfl⟩)
    · split at e
      · rename_i hz; cases e; exact .inl ⟨hz, rfl⟩
      · exact .inr (.inr ⟨by assumption, by assumption, e⟩)
  have hpa : ∀ b ∈ p.nodes, a = p.alloc := fun b hb => ha (by rintro e; rw [e] at hb; cases hb)
  constructor
  · intro z q b e hb
    rcases key z q e with ⟨-, rfl⟩ | ⟨-, e⟩ | ⟨-, -, e⟩
    · exact (h.own y p b hp hb).trans (by rw [hpa b hb])
    · rw [e] at hb; cases hb
    · exact h.own z q b e hb
  · intro z q e
    rcases key z q e with ⟨-, rfl⟩ | ⟨-, e⟩ | ⟨-, -, e⟩
    · exact h.nodup y p hp
    · rw [e]; exact List.nodup_nil
    · exact h.nodup z q e
  · intro z z' q q' b e e' hb hb'
    rcases key z q e with ⟨h1, h2⟩ | ⟨-, h1⟩ | ⟨h1, h2, h3⟩
    · rw [h2] at hb
      rcases key z' q' e' with ⟨h1', -⟩ | ⟨-, h1'⟩ | ⟨-, h2', h3'⟩
      · rw [h1, h1']
      · rw [h1'] at hb'; cases hb'
      · exact absurd (h.disj y z' p q' b hp h3' hb hb').symm h2'
    · rw [h1] at hb; cases hb
    · rcases key z' q' e' with ⟨-, h2'⟩ | ⟨-, h1'⟩ | ⟨h1', h2', h3'⟩
      · rw [h2'] at hb'
        exact absurd (h.disj z y q p b h3 hp hb hb') h2
      · rw [h1'] at hb'; cases hb'
      · exact h.disj z z' q q' b h3 h3' hb hb'
  · exact h.fresh
  · intro b hb
    obtain ⟨z, q, e, hq⟩ := h.all b hb
    by_cases hz : z = y
    · subst hz; rw [hp] at e; cases e
      exact ⟨x, ⟨a, p.nodes⟩, by simp [lput, upd, hxy], hq⟩
    · have hzx : z ≠ x := by rintro rfl; rw [hx q e] at hq; cases hq
      exact ⟨z, q, by simp [lput, upd, hz, hzx, e], hq⟩

theorem linv_none {w : LW} (h : LInv w) {x : Nat} {o : LObj} (ho : w.objs x = some o) (he : o.nodes = []) :
    LInv (lput x none w) := by
  have key : ∀ z q, (lput x none w).objs z = some q → w.objs z = some q := by
    intro z q e
    simp only [lput, upd] at e
    split at e
    · cases e
    · exact e
  refine ⟨fun z q b e => h.own z q b (key z q e), fun z q e => h.nodup z q (key z q e),
    fun z z' q q' b e e' => h.disj z z' q q' b (key z q e) (key z' q' e'), h.fresh, fun b hb => ?_⟩
  obtain ⟨z, q, e, hq⟩ := h.all b hb
  have : z ≠ x := by rintro rfl; rw [ho] at e; cases e; rw [he] at hq; cases hq
  exact ⟨z, q, by simp [lput, upd, this, e], hq⟩

theorem clear_nodes (l : List Nat) : l.take 0 ++ l.drop (0 + l.length) = [] := by simp

theorem lput_lput (x : Nat) (o p : Option LObj) (w : LW) : lput x o (lput x p w) = lput x o w := by
  unfold lput
  congr 1
  funext j
  simp only [upd]
  split <;> rfl

theorem lput_comm {x y : Nat} (h : x ≠ y) (o p : Option LObj) (w : LW) : lput x o (lput y p w) = lput y p (lput x o w) := by
  unfold lput
  congr 1
  funext j
  simp only [upd]
  split
  · rename_i e; subst e; rw [if_neg h]
  · rfl

theorem lget_lput {x y : Nat} (o : LObj) (w : LW) : lget y (lput x (some o) w) = if y = x then .ok o else lget y w := by
  unfold lget lput upd
  by_cases h : y = x <;> simp [h]

theorem assignMove_eq {w : LW} (h : LInv w) {x y : Nat} {o p : LObj} (ho : w.objs x = some o) (hp : w.objs y = some p)
    (hxy : x ≠ y) : ∃ ow,
    lexec w (.assignMove x y) = .ok (lput y (some { p with nodes := [] }) (lput x (some { o with nodes := p.nodes })
      ⟨ow, w.next, w.objs⟩)) ∧
    LInv (lput x (some { o with nodes := [] }) ⟨ow, w.next, w.objs⟩) ∧ ∀ b ∈ p.nodes, ow b = w.owner b := by
  obtain ⟨ow, e, h1⟩ := ldrop_ok h ho 0 o.nodes.length
  rw [clear_nodes] at e h1
  refine ⟨ow, ?_, h1, fun b hb => ?_⟩
  · show (lget x w >>= fun o => ldrop 0 o.nodes.length o w >>= fun r =>
      lget y (lput x (some r.1) r.2) >>= fun p => lget y (lput x (some { r.1 with nodes := p.nodes }) (lput x (some r.1) r.2)) >>=
        fun p' => pure (lput y (some { p' with nodes := r.1.nodes }) (lput x (some { r.1 with nodes := p.nodes }) (lput x (some r.1) r.2)))) = _
    have e1 : lget x w = .ok o := by unfold lget; rw [ho]
    rw [e1, ok_bind, e, ok_bind]
    simp only [lget_lput, if_neg hxy.symm, lput_lput]
    have e2 : lget y (⟨ow, w.next, w.objs⟩ : LW) = .ok p := by unfold lget; simp only [hp]
    rw [e2, ok_bind, ok_bind]
    rfl
  · have := h1.own y p b (by simp [lput, upd, hxy.symm, hp]) hb
    rw [h.own y p b hp hb]
    exact this

theorem lexec_good {w : LW} (h : LInv w) {op : LOp} (hop : LFine w op) : LGood (lexec w op) := by
  cases op with
  | ctor x b k =>
    show LGood (labsent x w >>= fun _ => pure (lput x (some (lnew 0 k ⟨b, []⟩ w).1) (lnew 0 k ⟨b, []⟩ w).2))
    rcases labsent_cases x w with ⟨hx, e⟩ | e
    · rw [e, ok_bind]; exact lnew_ok h (.inr ⟨hx, rfl⟩) 0 k
    · rw [e, misuse_bind]; trivial
  | ctorMove x y b =>
    show LGood (labsent x w >>= fun _ => lget y w >>= fun p =>
      pure (lput x (some ⟨b, p.nodes⟩) (lput y (some { p with nodes := [] }) w)))
    rcases labsent_cases x w with ⟨hx, e⟩ | e
    · rw [e, ok_bind]
      rcases lget_cases y w with ⟨p, hp, e⟩ | e
      · rw [e, ok_bind]
        have hxy : x ≠ y := by rintro rfl; rw [hx] at hp; cases hp
        rw [lput_comm hxy]
        exact lmove_ok h hxy hp (fun o e => by rw [hx] at e; cases e) (hop p hp)
      · rw [e, misuse_bind]; trivial
    · rw [e, misuse_bind]; trivial
  | dtor x =>
    show LGood (lget x w >>= fun o => ldrop 0 o.nodes.length o w >>= fun r => pure (lput x none r.2))
    rcases lget_cases x w with ⟨o, ho, e⟩ | e
    · rw [e, ok_bind]
      obtain ⟨ow, e, h1⟩ := ldrop_ok h ho 0 o.nodes.length
      rw [e, ok_bind]
      rw [clear_nodes] at h1
      have := linv_none h1 (x := x) (o := { o with nodes := [] }) (by simp [lput, upd]) rfl
      rw [lput_lput] at this
      exact this
    · rw [e, misuse_bind]; trivial
  | assignMove x y =>
    rcases lget_cases x w with ⟨o, ho, e⟩ | e
    · by_cases hxy : x = y
      · subst hxy
        obtain ⟨ow, e1, h1⟩ := ldrop_ok h ho 0 o.nodes.length
        rw [clear_nodes] at e1 h1
        show LGood (lget x w >>= fun o => ldrop 0 o.nodes.length o w >>= fun r =>
          lget x (lput x (some r.1) r.2) >>= fun p => lget x (lput x (some { r.1 with nodes := p.nodes }) (lput x (some r.1) r.2)) >>=
            fun p' => pure (lput x (some { p' with nodes := r.1.nodes }) (lput x (some { r.1 with nodes := p.nodes }) (lput x (some r.1) r.2))))
        rw [e, ok_bind, e1, ok_bind]
        simp only [lget_lput, if_true, lput_lput]
        exact h1
      · rcases lget_cases y w with ⟨p, hp, e'⟩ | e'
        · obtain ⟨ow, e1, h1, -⟩ := assignMove_eq h ho hp hxy
          rw [e1]
          have := lmove_ok h1 hxy (p := p) (a := o.alloc) (by simp [lput, upd, Ne.symm hxy, hp])
            (fun q e => by simp [lput, upd] at e; rw [← e]) (hop o p ho hp)
          rw [lput_lput] at this
          exact this
        · obtain ⟨ow, e1, h1⟩ := ldrop_ok h ho 0 o.nodes.length
          show LGood (lget x w >>= fun o => ldrop 0 o.nodes.length o w >>= fun r =>
            lget y (lput x (some r.1) r.2) >>= fun p => lget y (lput x (some { r.1 with nodes := p.nodes }) (lput x (some r.1) r.2)) >>=
              fun p' => pure (lput y (some { p' with nodes := r.1.nodes }) (lput x (some { r.1 with nodes := p.nodes }) (lput x (some r.1) r.2))))
          rw [e, ok_bind, e1, ok_bind]
          simp only [lget_lput, if_neg (Ne.symm hxy)]
          have e2 : lget y (⟨ow, w.next, w.objs⟩ : LW) = .misuse := e'
          rw [e2, misuse_bind]; trivial
    · show LGood (lget x w >>= _)
      rw [e, misuse_bind]; trivial
  | insert x i k =>
    show LGood (lget x w >>= fun o => pure (lput x (some (lnew i k o w).1) (lnew i k o w).2))
    rcases lget_cases x w with ⟨o, ho, e⟩ | e
    · rw [e, ok_bind]; exact lnew_ok h (.inl ho) i k
    · rw [e, misuse_bind]; trivial
  | erase x i k =>
    show LGood (lget x w >>= fun o => ldrop i k o w >>= fun r => pure (lput x (some r.1) r.2))
    rcases lget_cases x w with ⟨o, ho, e⟩ | e
    · obtain ⟨ow, e1, h1⟩ := ldrop_ok h ho i k
      rw [e, ok_bind, e1, ok_bind]; exact h1
    · rw [e, misuse_bind]; trivial
  | assign x k =>
    show LGood (lget x w >>= fun o => if o.nodes.length < k then
        pure (lput x (some (lnew o.nodes.length (k - o.nodes.length) o w).1) (lnew o.nodes.length (k - o.nodes.length) o w).2)
      else ldrop k (o.nodes.length - k) o w >>= fun r => pure (lput x (some r.1) r.2))
    rcases lget_cases x w with ⟨o, ho, e⟩ | e
    · rw [e, ok_bind]
      split
      · exact lnew_ok h (.inl ho) _ _
      · obtain ⟨ow, e1, h1⟩ := ldrop_ok h ho k (o.nodes.length - k)
        rw [e1, ok_bind]; exact h1
    · rw [e, misuse_bind]; trivial
  | reverse x =>
    show LGood (lget x w >>= fun o => pure (lput x (some { o with nodes := o.nodes.reverse }) w))
    rcases lget_cases x w with ⟨o, ho, e⟩ | e
    · rw [e, ok_bind]
      refine linv_set h x _ w.owner w.next (fun b hb => h.own x o b ho (List.mem_reverse.1 hb))
        (List.nodup_reverse.2 (h.nodup x o ho)) (fun y p b hy hp hb => ⟨rfl, fun hq => hy (h.disj y x p o b hp ho hb (List.mem_reverse.1 hq))⟩)
        h.fresh fun b hb => ?_
      by_cases hm : b ∈ o.nodes
      · exact .inl (List.mem_reverse.2 hm)
      · exact .inr ⟨hb, fun o' e => by rw [ho] at e; cases e; exact hm⟩
    · rw [e, misuse_bind]; trivial

theorem lrun_good : ∀ (ops : List LOp) {w : LW}, LInv w → LFineAll w ops → LGood (lrun w ops)
  | [], _, h, _ => h
  | op :: ops, w, h, hf => by
    show LGood (lexec w op >>= fun w => lrun w ops)
    have h1 := lexec_good h hf.1
    cases e : lexec w op with
    | ok w' => rw [e] at h1; rw [ok_bind]; exact lrun_good ops h1 (hf.2 w' e)
    | wrong => rw [e] at h1; exact h1.elim
    | misuse => trivial

/-- C125. No program of lists gives a node to an allocator unequal to the one that made it, or twice to an allocator; when the
program has ended every node alive is in exactly one list, once, whose allocator made it, and when all lists are gone no node
is left; provided that no list that is not empty is moved into a list with an unequal allocator. -/
theorem allocators_list_partial (ops : List LOp) (hf : LFineAll LW.empty ops) :
    lrun LW.empty ops ≠ .wrong ∧
    ∀ w, lrun LW.empty ops = .ok w →
      (∀ b a, w.owner b = some a → ∃ x o, w.objs x = some o ∧ b ∈ o.nodes ∧ o.alloc = a) ∧
      (∀ x o, w.objs x = some o → o.nodes.Nodup ∧ ∀ b ∈ o.nodes, w.owner b = some o.alloc) ∧
      (∀ x y o p b, w.objs x = some o → w.objs y = some p → b ∈ o.nodes → b ∈ p.nodes → x = y) ∧
      ((∀ x, w.objs x = none) → ∀ b, w.owner b = none) := by
  have h := lrun_good ops LInv.empty hf
  refine ⟨fun e => by rw [e] at h; exact h, fun w e => ?_⟩
  rw [e] at h
  have h : LInv w := h
  refine ⟨fun b a hb => ?_, fun x o ho => ⟨h.nodup x o ho, fun b => h.own x o b ho⟩, h.disj, fun hn b => ?_⟩
  · obtain ⟨x, o, h1, h2⟩ := h.all b (by rw [hb]; simp)
    refine ⟨x, o, h1, h2, ?_⟩
    have := h.own x o b h1 h2
    rw [hb] at this
    exact (Option.some.inj this).symm
  · by_contra hb
    obtain ⟨x, o, h1, -⟩ := h.all b hb
    rw [hn x] at h1
    cases h1

theorem ldtor_wrong {w : LW} {x a b : Nat} {ns : List Nat} (hx : w.objs x = some ⟨b, ns⟩) (hne : ns ≠ [])
    (hown : ∀ n ∈ ns, w.owner n = some a) (hab : a ≠ b) : lexec w (.dtor x) = .wrong := by
  have e1 : lget x w = .ok ⟨b, ns⟩ := by unfold lget; rw [hx]
  show (lget x w >>= fun o => ldrop 0 o.nodes.length o w >>= fun r => pure (lput x none r.2)) = _
  rw [e1, ok_bind]
  have e2 : ldrop 0 ns.length ⟨b, ns⟩ w = .wrong := by
    unfold ldrop
    cases ns with
    | nil => exact absurd rfl hne
    | cons n ns =>
      have : lfree b (n :: ns) w = .wrong := by
        unfold lfree
        rw [if_neg]
        rw [hown n (by simp)]
        exact fun e => hab (Option.some.inj e)
      simp only [List.drop_zero, List.take_length]
      rw [this]; rfl
  show ldrop 0 ns.length ⟨b, ns⟩ w >>= _ = _
  rw [e2]; rfl

/-- C125. Disagreement, and the proviso above is needed in every state: moving a list does not move its allocator, so after any
program, if a list that is not empty is moved into a list with an unequal allocator, the destructor of the latter gives the nodes
to the wrong allocator. -/
theorem allocators_list_wrong (ops : List LOp) (hf : LFineAll LW.empty ops) (w : LW) (hw : lrun LW.empty ops = .ok w)
    (x y : Nat) (p : LObj) (hp : w.objs y = some p) (hne : p.nodes ≠ []) :
    (∀ b, w.objs x = none → b ≠ p.alloc → lrun w [.ctorMove x y b, .dtor x] = .wrong) ∧
    (∀ o, w.objs x = some o → o.alloc ≠ p.alloc → lrun w [.assignMove x y, .dtor x] = .wrong) := by
  have h := lrun_good ops LInv.empty hf
  rw [hw] at h
  have h : LInv w := h
  constructor
  · intro b hx hb
    have hxy : x ≠ y := by rintro rfl; rw [hx] at hp; cases hp
    have e1 : lexec w (.ctorMove x y b) = .ok (lput x (some ⟨b, p.nodes⟩) (lput y (some { p with nodes := [] }) w)) := by
      show (labsent x w >>= fun _ => lget y w >>= fun p =>
        pure (lput x (some ⟨b, p.nodes⟩) (lput y (some { p with nodes := [] }) w))) = _
      have e1 : labsent x w = .ok () := by unfold labsent; rw [hx]
      have e2 : lget y w = .ok p := by unfold lget; rw [hp]
      rw [e1, ok_bind, e2, ok_bind]; rfl
    show (lexec w (.ctorMove x y b) >>= fun w => lexec w (.dtor x) >>= fun w => .ok w) = _
    rw [e1, ok_bind, ldtor_wrong (w := lput x (some ⟨b, p.nodes⟩) (lput y (some { p with nodes := [] }) w)) (a := p.alloc)
      (b := b) (ns := p.nodes) (by simp [lput, upd]) hne (fun n hn => h.own y p n hp hn) (Ne.symm hb)]
    rfl
  · intro o ho hb
    have hxy : x ≠ y := by rintro rfl; rw [hp] at ho; cases ho; exact hb rfl
    obtain ⟨ow, e1, -, h2⟩ := assignMove_eq h ho hp hxy
    show (lexec w (.assignMove x y) >>= fun w => lexec w (.dtor x) >>= fun w => .ok w) = _
    rw [e1, ok_bind, ldtor_wrong (w := lput y (some { p with nodes := [] }) (lput x (some { o with nodes := p.nodes })
      ⟨ow, w.next, w.objs⟩)) (a := p.alloc) (b := o.alloc) (ns := p.nodes) (by simp [lput, upd, hxy]) hne
      (fun n hn => (h2 n hn).trans (h.own y p n hp hn)) (Ne.symm hb)]
    rfl

/-! ### The hypotheses can be met -/

/-- Lists 0, 1 with allocator 3, list 2 with allocator 4. -/
def ldemo : List LOp :=
  [.ctor 0 3 3, .ctor 2 4 2, .ctorMove 1 0 3, .insert 1 2 2, .assign 1 4, .erase 1 0 1, .reverse 1, .assignMove 0 1, .dtor 1,
    .dtor 0]

example : (match lrun LW.empty ldemo with
    | .ok w => (w.next, (List.range 8).map w.owner, w.objs 2)
    | _ => (0, [], none)) = (7, [none, none, none, some 4, some 4, none, none, none], some ⟨4, [3, 4]⟩) := by
  decide +kernel

example : LFineAll LW.empty ldemo := by
  refine ⟨trivial, fun w h => ?_⟩; cases h
  refine ⟨trivial, fun w h => ?_⟩; cases h
  refine ⟨fun p h _ => ?_, fun w h => ?_⟩
  · cases h; rfl
  cases h
  refine ⟨trivial, fun w h => ?_⟩; cases h
  refine ⟨trivial, fun w h => ?_⟩; cases h
  refine ⟨trivial, fun w h => ?_⟩; cases h
  refine ⟨trivial, fun w h => ?_⟩; cases h
  refine ⟨fun o p h1 h2 _ => ?_, fun w h => ?_⟩
  · cases h1; cases h2; rfl
  cases h
  refine ⟨trivial, fun w h => ?_⟩; cases h
  refine ⟨trivial, fun w h => ?_⟩; cases h
  trivial

end Verif.Alloc
