import Verif.Container.Shared
import Mathlib.Tactic.Choose

/-! # Properties: constant calls from several threads -/

set_option autoImplicit false

namespace Verif.Shared

variable {ρ τ : Type}

/-! ### Specification -/

/-- An object as its user sees it: an array or heap with its elements and capacity, a list, a view, a vector, matrix or
tuple with its components, a delegate with what its callable returns (`none`: the delegate is empty). -/
inductive Obj
  | array (xs : List Nat) (cap : Nat)
  | list (xs : List Nat)
  | view (xs : List Nat)
  | cells (xs : List Nat)
  | delegate (r : Option Nat)

/-- What a call returns if only the shared objects `W` count; `none` if the call is not allowed, as the front of an empty
array, or the object is not of the right type. Loops must be given more rounds than there are elements. -/
def Op.value (W : Nat → Option Obj) : Op → Option (List Nat)
  | .arrSize o => match W o with | some (.array xs _) => some [xs.length] | _ => none
  | .arrEmpty o => match W o with | some (.array xs _) => some [if xs = [] then 1 else 0] | _ => none
  | .arrCapacity o => match W o with | some (.array _ cap) => some [cap] | _ => none
  | .arrGet o i => match W o with | some (.array xs _) => xs[i]?.map ([·]) | _ => none
  | .arrFront o => match W o with | some (.array xs _) => xs.head?.map ([·]) | _ => none
  | .arrBack o => match W o with | some (.array xs _) => xs.getLast?.map ([·]) | _ => none
  | .arrVisit fuel o => match W o with | some (.array xs _) => if xs.length < fuel then some xs else none | _ => none
  | .listEmpty o => match W o with | some (.list xs) => some [if xs = [] then 1 else 0] | _ => none
  | .listFront o => match W o with | some (.list xs) => xs.head?.map ([·]) | _ => none
  | .listVisit fuel o => match W o with | some (.list xs) => if xs.length < fuel then some xs else none | _ => none
  | .viewSize o => match W o with | some (.view xs) => some [xs.length] | _ => none
  | .viewEmpty o => match W o with | some (.view xs) => some [if xs = [] then 1 else 0] | _ => none
  | .viewGet o i => match W o with | some (.view xs) => xs[i]?.map ([·]) | _ => none
  | .viewFront o => match W o with | some (.view xs) => xs.head?.map ([·]) | _ => none
  | .viewBack o => match W o with | some (.view xs) => xs.getLast?.map ([·]) | _ => none
  | .viewVisit fuel o => match W o with | some (.view xs) => if xs.length < fuel then some xs else none | _ => none
  | .cellGet o i => match W o with | some (.cells xs) => xs[i]?.map ([·]) | _ => none
  | .call o => match W o with | some (.delegate r) => some r.toList | _ => none

/-- A client whose own cells `P` have the contents `m` behaves and ends with `r`: its calls are allowed and it uses only its
own cells besides. -/
inductive Client.Gives (P : Nat → Prop) (W : Nat → Option Obj) : Mem → Client ρ → ρ → Prop
  | done (m : Mem) (r : ρ) : Gives P W m (.done r) r
  | own {m : Mem} {a : Nat} {k : Nat → Client ρ} {r : ρ} : P a → Gives P W m (k (m a)) r → Gives P W m (.own a k) r
  | put {m : Mem} {a v : Nat} {k : Client ρ} {r : ρ} : P a → Gives P W (upd m a v) k r → Gives P W m (.put a v k) r
  | call {m : Mem} {op : Op} {k : List Nat → Client ρ} {l : List Nat} {r : ρ} : op.value W = some l →
      Gives P W m (k l) r → Gives P W m (.call op k) r

/-- A program, running alone on the memory `m`, reads only cells in `S`, writes none and ends with `r`. -/
inductive Reads (S : Nat → Prop) (m : Mem) : Prog ρ → ρ → Prop
  | ret (r : ρ) : Reads S m (.ret r) r
  | read {a : Nat} {k : Nat → Prog ρ} {r : ρ} : S a → Reads S m (k (m a)) r → Reads S m (.read a k) r

/-- A program, running alone on the memory `m`, writes the cell `a` after it has read some cells. -/
inductive Writes (m : Mem) (a : Nat) : Prog ρ → Prop
  | now (v : Nat) (k : Prog ρ) : Writes m a (.write a v k)
  | later {b : Nat} {k : Nat → Prog ρ} : Writes m a (k (m b)) → Writes m a (.read b k)

/-- The elements of a list from the node `p` on. -/
def Nodes (S : Nat → Prop) (m : Mem) : Nat → List Nat → Prop
  | p, [] => p = 0
  | p, x :: xs => p ≠ 0 ∧ S p ∧ S (p + 1) ∧ m (p + 1) = x ∧ Nodes S m (m p) xs

/-- The elements in the cells from `b` on. -/
def Cells (S : Nat → Prop) (m : Mem) (b : Nat) (xs : List Nat) : Prop := ∀ i x, xs[i]? = some x → S (b + i) ∧ m (b + i) = x

/-- The object at `o` in the memory `m`; all its cells are in `S`. The callable of a delegate only reads. -/
def Rep (S : Nat → Prop) (m : Mem) (code : Nat → Nat → Prog Nat) (isLocal : Nat → Bool) (o : Nat) : Obj → Prop
  | .array xs cap => S o ∧ S (o + 1) ∧ S (o + 2) ∧ m (o + 1) = m o + xs.length ∧ m (o + 2) = m o + cap ∧ Cells S m (m o) xs
  | .list xs => S o ∧ Nodes S m (m o) xs
  | .view xs => S o ∧ S (o + 1) ∧ m (o + 1) = xs.length ∧ Cells S m (m o) xs
  | .cells xs => Cells S m o xs
  | .delegate none => S (o + 2) ∧ m (o + 2) = 0
  | .delegate (some r) => S o ∧ S (o + 1) ∧ S (o + 2) ∧ m (o + 2) ≠ 0 ∧
      Reads S m (code (m (o + 1)) (if isLocal (m (o + 1)) then o else m o)) r

/-! ### Threads that do not interfere -/

/-- A program, running alone on the memory `m`, reads only cells in `S` and `P`, writes only cells in `P`, and ends with `r`
and the memory `m'`. -/
inductive Resp (S P : Nat → Prop) : Mem → Prog ρ → Mem → ρ → Prop
  | ret (m : Mem) (r : ρ) : Resp S P m (.ret r) m r
  | read {m m' : Mem} {a : Nat} {k : Nat → Prog ρ} {r : ρ} : S a ∨ P a → Resp S P m (k (m a)) m' r →
      Resp S P m (.read a k) m' r
  | write {m m' : Mem} {a v : Nat} {k : Prog ρ} {r : ρ} : P a → Resp S P (upd m a v) k m' r →
      Resp S P m (.write a v k) m' r

theorem Resp.bind {S P : Nat → Prop} {m m1 m2 : Mem} {p : Prog ρ} {f : ρ → Prog τ} {r : ρ} {s : τ}
    (h1 : Resp S P m p m1 r) (h2 : Resp S P m1 (f r) m2 s) : Resp S P m (p.bind f) m2 s := by
  induction h1 with
  | ret => exact h2
  | read ha _ ih => exact .read ha (ih h2)
  | write ha _ ih => exact .write ha (ih h2)

theorem Reads.resp {S P : Nat → Prop} {m : Mem} {p : Prog ρ} {r : ρ} (h : Reads S m p r) : Resp S P m p m r := by
  induction h with
  | ret r => exact .ret m r
  | read ha _ ih => exact .read (Or.inl ha) ih

theorem Reads.bind {S : Nat → Prop} {m : Mem} {p : Prog ρ} {f : ρ → Prog τ} {r : ρ} {s : τ}
    (h1 : Reads S m p r) (h2 : Reads S m (f r) s) : Reads S m (p.bind f) s := by
  induction h1 with
  | ret => exact h2
  | read ha _ ih => exact .read ha (ih h2)

theorem alone_trans {m m1 m2 : Mem} {p p1 p2 : Prog ρ} (h1 : Alone m p m1 p1) (h2 : Alone m1 p1 m2 p2) :
    Alone m p m2 p2 := by
  induction h2 with
  | refl => exact h1
  | step _ ih => exact .step (ih h1)

theorem Resp.alone {S P : Nat → Prop} {m m' : Mem} {p : Prog ρ} {r : ρ} (h : Resp S P m p m' r) :
    Alone m p m' (.ret r) := by
  induction h with
  | ret m r => exact .refl _ _
  | @read m m' a k r _ _ ih => exact alone_trans (Alone.step (Alone.refl m (.read a k))) ih
  | @write m m' a v k r _ _ ih => exact alone_trans (Alone.step (Alone.refl m (.write a v k))) ih

/-- What holds in every state that threads reach which keep to their cells. -/
def Inv {T : Type} (S : Nat → Prop) (P : T → Nat → Prop) (σ : Mem) (fin : T → Mem) (res : T → ρ) (c : Cfg T ρ) : Prop :=
  (∀ a, S a → c.m a = σ a) ∧
  ∀ t, ∃ μ, Resp S (P t) μ (c.ts t) (fin t) (res t) ∧ ∀ a, S a ∨ P t a → μ a = c.m a

theorem inv_reach {T : Type} [DecidableEq T] {S : Nat → Prop} {P : T → Nat → Prop} {σ : Mem} {fin : T → Mem} {res : T → ρ}
    (hS : ∀ t a, P t a → ¬ S a) (hP : ∀ t u a, t ≠ u → P t a → ¬ P u a) {c d : Cfg T ρ} (h : Reach c d)
    (hc : Inv S P σ fin res c) : Inv S P σ fin res d := by
  induction h with
  | refl => exact hc
  | @step d t _ ih =>
    obtain ⟨h1, h2⟩ := ih
    obtain ⟨μ, hr, hμ⟩ := h2 t
    generalize hp : d.ts t = p at hr
    cases hr with
    | ret r =>
      refine ⟨h1, fun u => ?_⟩
      by_cases hu : u = t
      · subst hu
        exact ⟨fin u, by simpa [Prog.step] using Resp.ret _ _, hμ⟩
      · simp only [if_neg hu]; exact h2 u
    | @read _ _ a k _ ha hk =>
      refine ⟨h1, fun u => ?_⟩
      by_cases hu : u = t
      · subst hu
        refine ⟨μ, ?_, hμ⟩
        simp only [if_true, Prog.step]
        rw [← hμ a ha]; exact hk
      · simp only [if_neg hu]; exact h2 u
    | @write _ _ a v k _ ha hk =>
      refine ⟨fun b hb => ?_, fun u => ?_⟩
      · simp only [Prog.step, upd]
        rw [if_neg (fun e : b = a => hS t a ha (e ▸ hb)), h1 b hb]
      · by_cases hu : u = t
        · subst hu
          refine ⟨upd μ a v, by simpa [Prog.step] using hk, fun b hb => ?_⟩
          simp only [Prog.step, upd]
          split
          · rfl
          · exact hμ b hb
        · simp only [if_neg hu]
          obtain ⟨μ', hr', hμ'⟩ := h2 u
          refine ⟨μ', hr', fun b hb => ?_⟩
          simp only [Prog.step, upd]
          rw [if_neg, hμ' b hb]
          rintro rfl
          exact hb.elim (hS t b ha) (hP t u b (Ne.symm hu) ha)

theorem Resp.next {S P : Nat → Prop} {m m' : Mem} {p : Prog ρ} {r : ρ} (h : Resp S P m p m' r) {a : Nat} {w : Bool}
    (hn : p.next = some (a, w)) : (S a ∨ P a) ∧ (w = true → P a) := by
  cases h with
  | ret => cases hn
  | read ha _ =>
    simp only [Prog.next, Option.some.injEq, Prod.mk.injEq] at hn
    obtain ⟨rfl, rfl⟩ := hn
    exact ⟨ha, fun h => nomatch h⟩
  | write ha _ =>
    simp only [Prog.next, Option.some.injEq, Prod.mk.injEq] at hn
    obtain ⟨rfl, rfl⟩ := hn
    exact ⟨Or.inr ha, fun _ => ha⟩

theorem inv_conclude {T : Type} {S : Nat → Prop} {P : T → Nat → Prop} {σ : Mem} {fin : T → Mem} {res : T → ρ}
    (hS : ∀ t a, P t a → ¬ S a) (hP : ∀ t u a, t ≠ u → P t a → ¬ P u a) {c : Cfg T ρ} (h : Inv S P σ fin res c) :
    ¬ Race c ∧ (∀ t, c.ts t ≠ .ub) ∧
    (∀ t r, c.ts t = .ret r → r = res t ∧ ∀ a, P t a → c.m a = fin t a) ∧ ∀ a, S a → c.m a = σ a := by
  obtain ⟨h1, h2⟩ := h
  refine ⟨?_, fun t ht => ?_, fun t r ht => ?_, h1⟩
  · rintro ⟨t, u, a, w, hne, ht, hu⟩
    obtain ⟨μ, hr, -⟩ := h2 t
    obtain ⟨μ', hr', -⟩ := h2 u
    have h3 := (hr.next ht).2 rfl
    exact (hr'.next hu).1.elim (hS t a h3) (hP t u a hne h3)
  · obtain ⟨μ, hr, -⟩ := h2 t
    rw [ht] at hr
    cases hr
  · obtain ⟨μ, hr, hμ⟩ := h2 t
    rw [ht] at hr
    cases hr
    exact ⟨rfl, fun a ha => (hμ a (Or.inr ha)).symm⟩

/-! ### The constant calls only read -/

section Calls

variable {S : Nat → Prop} {m : Mem} {code : Nat → Nat → Prog Nat} {isLocal : Nat → Bool}

theorem Cells.get {b : Nat} {xs : List Nat} (h : Cells S m b xs) {i : Nat} (hi : i < xs.length) :
    S (b + i) ∧ m (b + i) = xs[i] := h i _ (List.getElem?_eq_getElem hi)

theorem reads_load {a : Nat} (h : S a) : Reads S m (load a) (m a) := .read h (.ret _)

theorem bind_eq (p : Prog ρ) (f : ρ → Prog τ) : p >>= f = p.bind f := rfl

theorem pure_eq (r : ρ) : (pure r : Prog ρ) = .ret r := rfl

theorem reads_visit (xs : List Nat) : ∀ (fuel b : Nat), Cells S m b xs → xs.length < fuel →
    Reads S m (visitFrom (b + xs.length) fuel b) xs := by
  induction xs with
  | nil =>
    intro fuel b _ hf
    obtain ⟨f, rfl⟩ : ∃ f, fuel = f + 1 := ⟨fuel - 1, by simp at hf; omega⟩
    simp only [visitFrom, List.length_nil, Nat.add_zero, if_true]
    exact .ret _
  | cons x xs ih =>
    intro fuel b hc hf
    obtain ⟨f, rfl⟩ : ∃ f, fuel = f + 1 := ⟨fuel - 1, by simp at hf; omega⟩
    simp only [List.length_cons] at hf ⊢
    simp only [visitFrom, bind_eq, pure_eq, load, Prog.bind]
    rw [if_neg (by omega)]
    have h0 := hc 0 x rfl
    have h1 : Cells S m (b + 1) xs := fun i y hy => by
      have := hc (i + 1) y hy
      rw [show b + 1 + i = b + (i + 1) by omega]; exact this
    refine .read h0.1 ?_
    have := ih f (b + 1) h1 (by omega)
    rw [show b + 1 + xs.length = b + (xs.length + 1) by omega] at this
    refine Reads.bind (r := xs) this ?_
    rw [show m b = x from h0.2]
    exact .ret _

theorem reads_list (xs : List Nat) : ∀ (fuel p : Nat), Nodes S m p xs → xs.length < fuel →
    Reads S m (listFrom fuel p) xs := by
  induction xs with
  | nil =>
    intro fuel p hn hf
    obtain ⟨f, rfl⟩ : ∃ f, fuel = f + 1 := ⟨fuel - 1, by simp at hf; omega⟩
    simp only [listFrom]
    rw [if_pos (show p = 0 from hn)]
    exact .ret _
  | cons x xs ih =>
    rintro fuel p ⟨h0, h1, h2, h3, h4⟩ hf
    obtain ⟨f, rfl⟩ : ∃ f, fuel = f + 1 := ⟨fuel - 1, by simp at hf; omega⟩
    simp only [listFrom, listStar, bind_eq, pure_eq, load]
    rw [if_neg h0, if_neg h0]
    simp only [Prog.bind]
    refine .read h2 (.read h1 ?_)
    refine Reads.bind (ih f _ h4 (by simp at hf; omega)) ?_
    rw [h3]
    exact .ret _

theorem reads_op {W : Nat → Option Obj} (hW : ∀ o x, W o = some x → Rep S m code isLocal o x) (op : Op) {l : List Nat}
    (h : op.value W = some l) : Reads S m (op.prog code isLocal) l := by
  have nil_iff : ∀ xs : List Nat, (xs = []) ↔ xs.length = 0 := fun xs => List.length_eq_zero_iff.symm
  cases op with
  | arrSize o =>
    simp only [Op.value] at h
    simp only [Op.prog, Shared.arrSize, Shared.arrBegin, Shared.arrEnd, load, bind_eq, pure_eq, Prog.bind]
    split at h
    · rename_i xs cap hw
      obtain ⟨h1, h2, h3, h4, h5, h6⟩ := hW _ _ hw
      cases h
      refine .read h2 (.read h1 ?_)
      rw [h4, Nat.add_sub_cancel_left]
      exact .ret _
    · cases h
  | arrEmpty o =>
    simp only [Op.value] at h
    simp only [Op.prog, Shared.arrEmpty, Shared.arrSize, Shared.arrBegin, Shared.arrEnd, load, bind_eq, pure_eq, Prog.bind]
    split at h
    · rename_i xs cap hw
      obtain ⟨h1, h2, h3, h4, h5, h6⟩ := hW _ _ hw
      cases h
      refine .read h2 (.read h1 ?_)
      rw [h4, Nat.add_sub_cancel_left]
      simp only [nil_iff]
      exact .ret _
    · cases h
  | arrCapacity o =>
    simp only [Op.value] at h
    simp only [Op.prog, Shared.arrCapacity, load, bind_eq, pure_eq, Prog.bind]
    split at h
    · rename_i xs cap hw
      obtain ⟨h1, h2, h3, h4, h5, h6⟩ := hW _ _ hw
      cases h
      refine .read h3 (.read h1 ?_)
      rw [h5, Nat.add_sub_cancel_left]
      exact .ret _
    · cases h
  | arrGet o i =>
    simp only [Op.value] at h
    simp only [Op.prog, Shared.arrGet, Shared.arrBegin, load, bind_eq, pure_eq, Prog.bind]
    split at h
    · rename_i xs cap hw
      obtain ⟨h1, h2, h3, h4, h5, h6⟩ := hW _ _ hw
      rw [Option.map_eq_some_iff] at h
      obtain ⟨x, hx, rfl⟩ := h
      have := h6 i x hx
      refine .read h1 (.read this.1 ?_)
      rw [this.2]
      exact .ret _
    · cases h
  | arrFront o =>
    simp only [Op.value] at h
    simp only [Op.prog, Shared.arrFront, Shared.arrBegin, load, bind_eq, pure_eq, Prog.bind]
    split at h
    · rename_i xs cap hw
      obtain ⟨h1, h2, h3, h4, h5, h6⟩ := hW _ _ hw
      rw [Option.map_eq_some_iff] at h
      obtain ⟨x, hx, rfl⟩ := h
      have := h6 0 x (by rw [← hx, List.head?_eq_getElem?])
      refine .read h1 (.read this.1 ?_)
      rw [show m (m o) = x from this.2]
      exact .ret _
    · cases h
  | arrBack o =>
    simp only [Op.value] at h
    simp only [Op.prog, Shared.arrBack, Shared.arrEnd, load, bind_eq, pure_eq, Prog.bind]
    split at h
    · rename_i xs cap hw
      obtain ⟨h1, h2, h3, h4, h5, h6⟩ := hW _ _ hw
      rw [Option.map_eq_some_iff] at h
      obtain ⟨x, hx, rfl⟩ := h
      have hne : xs ≠ [] := by rintro rfl; cases hx
      have hl := List.length_pos_iff.2 hne
      have := h6 (xs.length - 1) x (by rw [← hx, List.getLast?_eq_getElem?])
      refine .read h2 ?_
      rw [h4, show m o + xs.length - 1 = m o + (xs.length - 1) by omega]
      refine .read this.1 ?_
      rw [this.2]
      exact .ret _
    · cases h
  | arrVisit fuel o =>
    simp only [Op.value] at h
    simp only [Op.prog, Shared.arrVisit, Shared.arrBegin, Shared.arrEnd, load, bind_eq, Prog.bind]
    split at h
    · rename_i xs cap hw
      obtain ⟨h1, h2, h3, h4, h5, h6⟩ := hW _ _ hw
      split at h
      · rename_i hf
        cases h
        refine .read h1 (.read h2 ?_)
        rw [h4]
        exact reads_visit _ _ _ h6 hf
      · cases h
    · cases h
  | listEmpty o =>
    simp only [Op.value] at h
    simp only [Op.prog, Shared.listEmpty, Shared.listBegin, load, bind_eq, pure_eq, Prog.bind]
    split at h
    · rename_i xs hw
      obtain ⟨h1, h2⟩ := hW _ _ hw
      cases h
      refine .read h1 ?_
      have : m o = 0 ↔ xs = [] := by
        cases xs with
        | nil => exact ⟨fun _ => rfl, fun _ => h2⟩
        | cons x xs => exact ⟨fun h => absurd h h2.1, fun h => nomatch h⟩
      simp only [this]
      exact .ret _
    · cases h
  | listFront o =>
    simp only [Op.value] at h
    simp only [Op.prog, Shared.listFront, Shared.listBegin, load, bind_eq, pure_eq, Prog.bind]
    split at h
    · rename_i xs hw
      obtain ⟨h1, h2⟩ := hW _ _ hw
      rw [Option.map_eq_some_iff] at h
      obtain ⟨x, hx, rfl⟩ := h
      cases xs with
      | nil => cases hx
      | cons y ys =>
        cases hx
        refine .read h1 ?_
        simp only [listStar]
        rw [if_neg h2.1]
        refine .read h2.2.2.1 ?_
        rw [h2.2.2.2.1]
        exact .ret _
    · cases h
  | listVisit fuel o =>
    simp only [Op.value] at h
    simp only [Op.prog, Shared.listVisit, Shared.listBegin, load, bind_eq, Prog.bind]
    split at h
    · rename_i xs hw
      obtain ⟨h1, h2⟩ := hW _ _ hw
      split at h
      · rename_i hf
        cases h
        exact .read h1 (reads_list _ _ _ h2 hf)
      · cases h
    · cases h
  | viewSize o =>
    simp only [Op.value] at h
    simp only [Op.prog, Shared.viewSize, load, bind_eq, pure_eq, Prog.bind]
    split at h
    · rename_i xs hw
      obtain ⟨h1, h2, h3, h4⟩ := hW _ _ hw
      cases h
      refine .read h2 ?_
      rw [h3]
      exact .ret _
    · cases h
  | viewEmpty o =>
    simp only [Op.value] at h
    simp only [Op.prog, Shared.viewEmpty, Shared.viewSize, load, bind_eq, pure_eq, Prog.bind]
    split at h
    · rename_i xs hw
      obtain ⟨h1, h2, h3, h4⟩ := hW _ _ hw
      cases h
      refine .read h2 ?_
      rw [h3]
      simp only [nil_iff]
      exact .ret _
    · cases h
  | viewGet o i =>
    simp only [Op.value] at h
    simp only [Op.prog, Shared.viewGet, Shared.viewBegin, load, bind_eq, pure_eq, Prog.bind]
    split at h
    · rename_i xs hw
      obtain ⟨h1, h2, h3, h4⟩ := hW _ _ hw
      rw [Option.map_eq_some_iff] at h
      obtain ⟨x, hx, rfl⟩ := h
      have := h4 i x hx
      refine .read h1 (.read this.1 ?_)
      rw [this.2]
      exact .ret _
    · cases h
  | viewFront o =>
    simp only [Op.value] at h
    simp only [Op.prog, Shared.viewFront, Shared.viewBegin, load, bind_eq, pure_eq, Prog.bind]
    split at h
    · rename_i xs hw
      obtain ⟨h1, h2, h3, h4⟩ := hW _ _ hw
      rw [Option.map_eq_some_iff] at h
      obtain ⟨x, hx, rfl⟩ := h
      have := h4 0 x (by rw [← hx, List.head?_eq_getElem?])
      refine .read h1 (.read this.1 ?_)
      rw [show m (m o) = x from this.2]
      exact .ret _
    · cases h
  | viewBack o =>
    simp only [Op.value] at h
    simp only [Op.prog, Shared.viewBack, Shared.viewEnd, Shared.viewSize, load, bind_eq, pure_eq, Prog.bind]
    split at h
    · rename_i xs hw
      obtain ⟨h1, h2, h3, h4⟩ := hW _ _ hw
      rw [Option.map_eq_some_iff] at h
      obtain ⟨x, hx, rfl⟩ := h
      have hne : xs ≠ [] := by rintro rfl; cases hx
      have hl := List.length_pos_iff.2 hne
      have := h4 (xs.length - 1) x (by rw [← hx, List.getLast?_eq_getElem?])
      refine .read h1 (.read h2 ?_)
      simp only [h3]
      rw [show m o + xs.length - 1 = m o + (xs.length - 1) by omega]
      refine .read this.1 ?_
      rw [this.2]
      exact .ret _
    · cases h
  | viewVisit fuel o =>
    simp only [Op.value] at h
    simp only [Op.prog, Shared.viewVisit, Shared.viewBegin, Shared.viewEnd, Shared.viewSize, load, bind_eq, pure_eq, Prog.bind]
    split at h
    · rename_i xs hw
      obtain ⟨h1, h2, h3, h4⟩ := hW _ _ hw
      split at h
      · rename_i hf
        cases h
        refine .read h1 (.read h1 (.read h2 ?_))
        simp only [h3]
        exact reads_visit _ _ _ h4 hf
      · cases h
    · cases h
  | cellGet o i =>
    simp only [Op.value] at h
    simp only [Op.prog, Shared.cellGet, load, bind_eq, pure_eq, Prog.bind]
    split at h
    · rename_i xs hw
      have h1 := hW _ _ hw
      rw [Option.map_eq_some_iff] at h
      obtain ⟨x, hx, rfl⟩ := h
      have := h1 i x hx
      refine .read this.1 ?_
      rw [this.2]
      exact .ret _
    · cases h
  | call o =>
    simp only [Op.value] at h
    split at h
    · rename_i r hw
      cases h
      cases r with
      | none =>
        obtain ⟨h1, h2⟩ := hW _ _ hw
        refine Reads.bind (r := none) (.read h1 ?_) (.ret _)
        simp only [Prog.bind]
        rw [if_pos h2]
        exact .ret _
      | some r =>
        obtain ⟨h1, h2, h3, h4, h5⟩ := hW _ _ hw
        refine Reads.bind (r := some r) (.read h3 ?_) (.ret _)
        simp only [Prog.bind]
        rw [if_neg h4]
        refine .read h2 ?_
        simp only [Prog.bind]
        by_cases hl : isLocal (m (o + 1)) = true
        · rw [if_pos hl] at h5 ⊢
          exact Reads.bind h5 (.ret _)
        · rw [if_neg hl] at h5 ⊢
          refine .read h1 ?_
          simp only [Prog.bind]
          exact Reads.bind h5 (.ret _)
    · cases h

theorem Reads.congr {μ : Mem} (h : ∀ a, S a → μ a = m a) {p : Prog ρ} {r : ρ} (hr : Reads S m p r) : Reads S μ p r := by
  induction hr with
  | ret r => exact .ret r
  | read ha _ ih => exact .read ha (by rw [h _ ha]; exact ih)

theorem Nodes.congr {μ : Mem} (h : ∀ a, S a → μ a = m a) (xs : List Nat) : ∀ p, Nodes S m p xs → Nodes S μ p xs := by
  induction xs with
  | nil => exact fun _ h => h
  | cons x xs ih =>
    rintro p ⟨h0, h1, h2, h3, h4⟩
    exact ⟨h0, h1, h2, by rw [h _ h2, h3], by rw [h _ h1]; exact ih _ h4⟩

theorem Cells.congr {μ : Mem} (h : ∀ a, S a → μ a = m a) {b : Nat} {xs : List Nat} (hc : Cells S m b xs) : Cells S μ b xs :=
  fun i x hx => ⟨(hc i x hx).1, by rw [h _ (hc i x hx).1, (hc i x hx).2]⟩

theorem Rep.congr {μ : Mem} (h : ∀ a, S a → μ a = m a) {o : Nat} {x : Obj} (hr : Rep S m code isLocal o x) :
    Rep S μ code isLocal o x := by
  match x, hr with
  | .array xs cap, ⟨h1, h2, h3, h4, h5, h6⟩ =>
    refine ⟨h1, h2, h3, ?_, ?_, ?_⟩
    · rw [h _ h1, h _ h2, h4]
    · rw [h _ h1, h _ h3, h5]
    · rw [h _ h1]; exact h6.congr h
  | .list xs, ⟨h1, h2⟩ => exact ⟨h1, by rw [h _ h1]; exact h2.congr h⟩
  | .view xs, ⟨h1, h2, h3, h4⟩ => exact ⟨h1, h2, by rw [h _ h2, h3], by rw [h _ h1]; exact h4.congr h⟩
  | .cells xs, h1 => exact Cells.congr h h1
  | .delegate none, ⟨h1, h2⟩ => exact ⟨h1, by rw [h _ h1, h2]⟩
  | .delegate (some r), ⟨h1, h2, h3, h4, h5⟩ =>
    refine ⟨h1, h2, h3, by rw [h _ h3]; exact h4, ?_⟩
    rw [h _ h1, h _ h2]; exact h5.congr h

/-- A client that keeps to its own cells and the shared objects. -/
theorem client_resp {W : Nat → Option Obj} {P : Nat → Prop} (hS : ∀ a, P a → ¬ S a) {σ : Mem}
    (hW : ∀ o x, W o = some x → Rep S σ code isLocal o x) {cl : Client ρ} {r : ρ}
    {μ : Mem} (hμ : ∀ a, S a → μ a = σ a) (h : cl.Gives P W μ r) :
    ∃ μ', Resp S P μ (cl.prog code isLocal) μ' r := by
  induction h with
  | done m r => exact ⟨m, .ret _ _⟩
  | own ha _ ih =>
    obtain ⟨μ', h'⟩ := ih hμ
    exact ⟨μ', .read (Or.inr ha) h'⟩
  | @put m a v k r ha _ ih =>
    obtain ⟨μ', h'⟩ := ih (fun b hb => by
      unfold upd
      rw [if_neg (fun e : b = a => hS a ha (e ▸ hb)), hμ b hb])
    exact ⟨μ', .write ha h'⟩
  | call hv _ ih =>
    obtain ⟨μ', h'⟩ := ih hμ
    exact ⟨μ', Resp.bind (reads_op (fun o x hx => (hW o x hx).congr hμ) _ hv).resp h'⟩

end Calls

/-! ### Theorems -/

/-- Any number of threads call constant member functions of the same arrays, heaps, lists, views, vectors, matrices,
tuples and delegates, without synchronisation, each with cells of its own besides. In every state they reach there is no data
race, nothing undefined has happened, the shared objects are unchanged, and a thread that has finished has the result it
gets alone. Partial: the callable of a shared delegate must not write. -/
theorem shared_constant_partial {T : Type} [DecidableEq T] (code : Nat → Nat → Prog Nat) (isLocal : Nat → Bool)
    (W : Nat → Option Obj) (S : Nat → Prop) (P : T → Nat → Prop) (σ : Mem)
    (hW : ∀ o x, W o = some x → Rep S σ code isLocal o x)
    (hS : ∀ t a, P t a → ¬ S a) (hP : ∀ t u a, t ≠ u → P t a → ¬ P u a)
    (cl : T → Client ρ) (res : T → ρ) (hcl : ∀ t, (cl t).Gives (P t) W σ (res t))
    (c : Cfg T ρ) (hc : Reach ⟨σ, fun t => (cl t).prog code isLocal⟩ c) :
    ¬ Race c ∧ (∀ t, c.ts t ≠ .ub) ∧ (∀ t r, c.ts t = .ret r → r = res t) ∧ (∀ a, S a → c.m a = σ a) ∧
    ∀ t, ∃ m', Alone σ ((cl t).prog code isLocal) m' (.ret (res t)) := by
  have h0 : ∀ t, ∃ μ', Resp S (P t) σ ((cl t).prog code isLocal) μ' (res t) := fun t =>
    client_resp (hS t) hW (fun _ _ => rfl) (hcl t)
  choose fin hfin using h0
  have h1 : Inv S P σ fin res ⟨σ, fun t => (cl t).prog code isLocal⟩ :=
    ⟨fun _ _ => rfl, fun t => ⟨σ, hfin t, fun _ _ => rfl⟩⟩
  obtain ⟨h2, h3, h4, h5⟩ := inv_conclude hS hP (inv_reach hS hP hc h1)
  exact ⟨h2, h3, fun t r ht => (h4 t r ht).1, h5, fun t => ⟨_, (hfin t).alone⟩⟩

/-- The value of the element `i` after assignments `ws` of values to elements, if it was `x` before. -/
def after (i : Nat) : List (Nat × Nat) → Nat → Nat
  | [], x => x
  | (j, v) :: ws, x => after i ws (if j = i then v else x)

theorem sets_resp {S P : Nat → Prop} (o : Nat) (ws : List (Nat × Nat)) : ∀ (m : Mem), S o → (∀ a, P a → ¬ S a) →
    (∀ w ∈ ws, P (m o + w.1)) → ∃ m', Resp S P m (sets o ws) m' () ∧ ∀ i, m' (m o + i) = after i ws (m (m o + i)) := by
  induction ws with
  | nil => exact fun m _ _ _ => ⟨m, .ret _ _, fun _ => rfl⟩
  | cons w ws ih =>
    intro m ho hS hw
    have h1 : P (m o + w.1) := hw w List.mem_cons_self
    have h2 : upd m (m o + w.1) w.2 o = m o := by
      unfold upd
      rw [if_neg (fun e : o = m o + w.1 => hS _ h1 (e ▸ ho))]
    obtain ⟨m', h3, h4⟩ := ih (upd m (m o + w.1) w.2) ho hS (fun x hx => by
      rw [h2]; exact hw x (List.mem_cons_of_mem _ hx))
    rw [h2] at h4
    refine ⟨m', .read (Or.inl ho) (.write h1 h3), fun i => ?_⟩
    rw [h4 i]
    simp only [after, upd, Nat.add_left_cancel_iff]
    congr 1
    by_cases h : i = w.1
    · rw [if_pos h, if_pos h.symm]
    · rw [if_neg h, if_neg (Ne.symm h)]

/-- Any number of threads assign to elements of the same array, each to elements that no other thread touches: no data race,
and a thread that has finished finds in its elements what it assigned last, or the old value. -/
theorem shared_elements {T : Type} [DecidableEq T] (σ : Mem) (o n : Nat) (owner : Nat → T)
    (ho : ∀ i, i < n → σ o + i ≠ o)
    (ws : T → List (Nat × Nat)) (hws : ∀ t, ∀ w ∈ ws t, w.1 < n ∧ owner w.1 = t)
    (c : Cfg T Unit) (hc : Reach ⟨σ, fun t => sets o (ws t)⟩ c) :
    ¬ Race c ∧ (∀ t, c.ts t ≠ .ub) ∧
    ∀ t, c.ts t = .ret () → ∀ i, i < n → owner i = t → c.m (σ o + i) = after i (ws t) (σ (σ o + i)) := by
  let S : Nat → Prop := fun a => a = o
  let P : T → Nat → Prop := fun t a => ∃ i, i < n ∧ owner i = t ∧ a = σ o + i
  have hS : ∀ t a, P t a → ¬ S a := by
    rintro t a ⟨i, hi, _, rfl⟩ h
    exact ho i hi h
  have hP : ∀ t u a, t ≠ u → P t a → ¬ P u a := by
    rintro t u a hne ⟨i, hi, h1, rfl⟩ ⟨j, hj, h2, h3⟩
    exact hne (by rw [← h1, ← h2, Nat.add_left_cancel h3])
  have h0 : ∀ t, ∃ m', Resp S (P t) σ (sets o (ws t)) m' () ∧ ∀ i, m' (σ o + i) = after i (ws t) (σ (σ o + i)) := fun t =>
    sets_resp o (ws t) σ rfl (hS t) fun w hw => ⟨w.1, (hws t w hw).1, (hws t w hw).2, rfl⟩
  choose fin hfin using h0
  have h1 : Inv S P σ fin (fun _ => ()) ⟨σ, fun t => sets o (ws t)⟩ :=
    ⟨fun _ _ => rfl, fun t => ⟨σ, (hfin t).1, fun _ _ => rfl⟩⟩
  obtain ⟨h2, h3, h4, h5⟩ := inv_conclude hS hP (inv_reach hS hP hc h1)
  exact ⟨h2, h3, fun t ht i hi hi' => by rw [(h4 t () ht).2 _ ⟨i, hi, hi', rfl⟩, (hfin t).2 i]⟩

theorem reach_trans {T : Type} [DecidableEq T] {c d e : Cfg T ρ} (h1 : Reach c d) (h2 : Reach d e) : Reach c e := by
  induction h2 with
  | refl => exact h1
  | step t _ ih => exact .step t ih

/-- A thread runs up to its first write; nothing else changes. -/
theorem reach_write {T : Type} [DecidableEq T] (t : T) (a : Nat) : ∀ (p : Prog ρ) (c : Cfg T ρ), c.ts t = p → Writes c.m a p →
    ∃ d, Reach c d ∧ d.m = c.m ∧ (∀ u, u ≠ t → d.ts u = c.ts u) ∧ ∃ v k, d.ts t = .write a v k := by
  intro p
  induction p with
  | ret => intro c _ h; cases h
  | ub => intro c _ h; cases h
  | write b v k _ =>
    intro c hp h
    cases h
    exact ⟨c, .refl c, rfl, fun _ _ => rfl, v, k, hp⟩
  | read b k ih =>
    intro c hp h
    cases h with
    | later h =>
      have h1 := Reach.step t (Reach.refl c)
      rw [hp] at h1
      simp only [Prog.step] at h1
      obtain ⟨d, h2, h3, h4, h5⟩ := ih (c.m b) ⟨c.m, fun u => if u = t then k (c.m b) else c.ts u⟩ (if_pos rfl) h
      refine ⟨d, reach_trans h1 h2, h3, fun u hu => ?_, h5⟩
      rw [h4 u hu]
      exact if_neg hu

theorem Writes.bind {m : Mem} {a : Nat} {p : Prog ρ} {f : ρ → Prog τ} (h : Writes m a p) : Writes m a (p.bind f) := by
  induction h with
  | now v k => exact .now v _
  | later _ ih => exact .later ih

/-- The exception, exactly: the call operator of a delegate is constant, but two threads that call the same delegate race
whenever the callable in it writes anything at all, for instance counts its calls. -/
theorem shared_delegate_wrong (code : Nat → Nat → Prog Nat) (isLocal : Nat → Bool) (σ : Mem) (o a : Nat)
    (hm : σ (o + 2) ≠ 0) (hw : Writes σ a (code (σ (o + 1)) (if isLocal (σ (o + 1)) then o else σ o))) :
    ∃ c : Cfg Bool (List Nat), Reach ⟨σ, fun _ => (Op.call o).prog code isLocal⟩ c ∧ Race c := by
  have h0 : Writes σ a ((Op.call o).prog code isLocal) := by
    refine Writes.bind (.later ?_)
    simp only [Prog.bind]
    rw [if_neg hm]
    refine .later ?_
    simp only [Prog.bind]
    by_cases hl : isLocal (σ (o + 1)) = true
    · rw [if_pos hl] at hw ⊢
      exact hw.bind
    · rw [if_neg hl] at hw ⊢
      exact .later hw.bind
  obtain ⟨d, h1, h2, h3, v, k, h4⟩ := reach_write true a _ ⟨σ, fun _ => (Op.call o).prog code isLocal⟩ rfl h0
  obtain ⟨e, h5, h6, h7, v', k', h8⟩ := reach_write false a _ d (h3 false (by decide)) (by rw [h2]; exact h0)
  refine ⟨e, reach_trans h1 h5, true, false, a, true, by decide, ?_, ?_⟩
  · rw [h7 true (by decide), h4]; rfl
  · rw [h8]; rfl

/-! ### Cases -/

/-- A memory with an array of the elements 5, 7 at cell 1, a list of the elements 8, 9 at cell 30, a view of the array at
cell 40, a vector at cell 50 and a delegate at cell 60. -/
def exMem : Mem := fun a =>
  ([(1, 10), (2, 12), (3, 14), (10, 5), (11, 7), (30, 32), (32, 34), (33, 8), (34, 0), (35, 9), (40, 10), (41, 2), (50, 3),
    (51, 4), (60, 6), (61, 1), (62, 1), (90, 2)].lookup a).getD 0

/-- The callable returns its captured value plus the first component of the vector. -/
def exCode : Nat → Nat → Prog Nat := fun _ p => do
  let x ← load p
  let y ← load 50
  pure (x + y)

def exW : Nat → Option Obj := fun o =>
  if o = 1 then some (.array [5, 7] 4) else if o = 30 then some (.list [8, 9]) else if o = 40 then some (.view [5, 7])
  else if o = 50 then some (.cells [3, 4]) else if o = 60 then some (.delegate (some 9)) else none

def exS : Nat → Prop := fun a => a < 70

instance (a : Nat) : Decidable (exS a) := inferInstanceAs (Decidable (a < 70))

theorem exRep : ∀ o x, exW o = some x → Rep exS exMem exCode (fun _ => true) o x := by
  have cells2 : ∀ b x y, exS (b + 1) → exMem b = x → exMem (b + 1) = y → Cells exS exMem b [x, y] := by
    rintro b x y hb hx hy i v hv
    match i, hv with
    | 0, hv => cases hv; exact ⟨Nat.lt_of_succ_lt hb, hx⟩
    | 1, hv => cases hv; exact ⟨hb, hy⟩
  intro o x h
  unfold exW at h
  split at h
  · subst o; cases h
    exact ⟨by decide, by decide, by decide, by decide, by decide, cells2 10 5 7 (by decide) (by decide) (by decide)⟩
  split at h
  · subst o; cases h
    exact ⟨by decide, by decide, by decide, by decide, by decide, by decide, by decide, by decide, by decide,
      show exMem (exMem (exMem 30)) = 0 by decide⟩
  split at h
  · subst o; cases h
    exact ⟨by decide, by decide, by decide, cells2 10 5 7 (by decide) (by decide) (by decide)⟩
  split at h
  · subst o; cases h
    exact cells2 50 3 4 (by decide) (by decide) (by decide)
  split at h
  · subst o; cases h
    exact ⟨by decide, by decide, by decide, by decide, .read (by decide) (.read (by decide) (.ret _))⟩
  · cases h

/-- Infinitely many threads, all of which add up the elements of the array, the front of the list, the back of the view and
what the delegate returns. -/
example (c : Cfg Nat Nat) (hc : Reach ⟨exMem, fun _ => Client.prog exCode (fun _ => true)
    (.call (.arrVisit 3 1) fun l => .call (.listFront 30) fun a => .call (.viewBack 40) fun b => .call (.call 60) fun d =>
      .done (l.sum + a.sum + b.sum + d.sum))⟩ c) :
    ¬ Race c ∧ ∀ t r, c.ts t = .ret r → r = 36 := by
  have := shared_constant_partial exCode (fun _ => true) exW exS (fun _ _ => False) exMem exRep (fun _ _ h => h.elim)
    (fun _ _ _ _ h => h.elim) (fun _ => (.call (.arrVisit 3 1) fun l => .call (.listFront 30) fun a => .call (.viewBack 40)
      fun b => .call (.call 60) fun d => .done (l.sum + a.sum + b.sum + d.sum))) (fun _ => 36)
    (fun _ => .call (l := [5, 7]) rfl (.call (l := [8]) rfl (.call (l := [7]) rfl (.call (l := [9]) rfl (.done _ _))))) c hc
  exact ⟨this.1, this.2.2.1⟩

/-- Each of the threads has a counter of its own in the cell `100 + t`. -/
example (c : Cfg Nat Nat) (hc : Reach ⟨exMem, fun t => Client.prog exCode (fun _ => true)
    (.call (.arrGet 1 1) fun l => .put (100 + t) l.sum (.own (100 + t) fun x => .done (x + 1)))⟩ c) :
    ¬ Race c ∧ ∀ t r, c.ts t = .ret r → r = 8 := by
  have := shared_constant_partial exCode (fun _ => true) exW exS (fun t a => a = 100 + t) exMem exRep
    (by rintro t a rfl h; unfold exS at h; omega) (by rintro t u a h h1 h2; omega)
    (fun t => (.call (.arrGet 1 1) fun l => .put (100 + t) l.sum (.own (100 + t) fun x => .done (x + 1)))) (fun _ => 8)
    (fun t => .call (l := [7]) rfl (.put rfl (.own rfl (by
      have : upd exMem (100 + t) [7].sum (100 + t) = 7 := by simp [upd]
      rw [this]; exact .done _ _)))) c hc
  exact ⟨this.1, this.2.2.1⟩

/-- Two threads write the two elements of the array. -/
example (c : Cfg Bool Unit) (hc : Reach ⟨exMem, fun t => sets 1 (if t then [(0, 1), (0, 2)] else [(1, 3)])⟩ c) : ¬ Race c ∧
    (c.ts true = .ret () → c.m 10 = 2) ∧ (c.ts false = .ret () → c.m 11 = 3) := by
  have := shared_elements exMem 1 2 (fun i => decide (i = 0)) (by
      intro i _; rw [show exMem 1 = 10 by decide]; omega) (fun t => if t then [(0, 1), (0, 2)] else [(1, 3)])
    (by intro t; cases t <;> decide) c hc
  exact ⟨this.1, fun h => this.2.2 true h 0 (by decide) rfl, fun h => this.2.2 false h 1 (by decide) rfl⟩

/-- A callable that counts its calls, shared by two threads. -/
example : ∃ c : Cfg Bool (List Nat), Reach ⟨exMem, fun _ => (Op.call 60).prog (fun _ p => do
    let n ← load p
    store p (n + 1)
    pure n) (fun _ => true)⟩ c ∧ Race c :=
  shared_delegate_wrong _ _ exMem 60 60 (by decide) (.later (.now _ _))

end Verif.Shared
