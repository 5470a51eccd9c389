import Verif.Functional.Undo
import Verif.Functional.ScopedProps

/-! # Transactions with `ScopedDelegate` (C181) -/

set_option autoImplicit false

namespace Verif.Scoped

/-! ### Specification -/

variable {σ : Type}

/-- All steps succeed, and these are they. -/
def AllSucceed (steps : List Step) (ns : List Nat) : Prop := steps = ns.map .succeeds

/-- Steps that succeed are undone by their undo; steps that throw change nothing. -/
def Undoable (act undo : Nat → σ → σ) (steps : List Step) : Prop :=
  (∀ n, .succeeds n ∈ steps → ∀ s, undo n (act n s) = s) ∧ ∀ n, .throws n ∈ steps → ∀ s, act n s = s

/-- The data after a trace. -/
def after (act undo : Nat → σ → σ) (s : σ) (t : List Ev) : σ := (t.foldl (effect act undo) (s, false)).1

/-! ### Lemmas -/

/-- The undos of some objects, one after the other. -/
def undoAll (undo : Nat → σ → σ) (objs : List Obj) (s : σ) : σ := objs.foldl (fun s o => undo o.m_callable.tag s) s

theorem fold_ran (act undo : Nat → σ → σ) : ∀ (objs : List Obj) (s : σ) (c : Bool),
    (objs.map fun o => Ev.ran o.id o.m_callable.tag).foldl (effect act undo) (s, c) = (if c then s else undoAll undo objs s, c)
  | [], s, c => by cases c <;> rfl
  | o :: objs, s, c => by
    rw [List.map_cons, List.foldl_cons]
    cases c
    · have := fold_ran act undo objs (undo o.m_callable.tag s) false
      simpa [effect, undoAll] using this
    · have := fold_ran act undo objs s true
      simpa [effect] using this

theorem unwind_quiet : ∀ (objs : List Obj), (∀ o ∈ objs, o.m_callable.throws = false) →
    unwind objs = (objs.map fun o => Ev.ran o.id o.m_callable.tag, false)
  | [], _ => rfl
  | o :: objs, h => by
    rw [unwind, destruct, h o (by simp), unwind_quiet objs fun x hx => h x (by simp [hx])]
    rfl

theorem leave_quiet {objs : List Obj} (h : ∀ o ∈ objs, o.m_callable.throws = false) (k : Nat) (e : Exit) :
    leave objs k e = ⟨objs.map fun o => Ev.ran o.id o.m_callable.tag, k, e⟩ := by
  rw [leave, unwind_quiet objs h]

theorem transactionFrom_run (act undo : Nat → σ → σ) : ∀ (steps : List Step) (k : Nat) (objs : List Obj) (s : σ),
    (∀ o ∈ objs, o.m_callable.throws = false) → Undoable act undo steps →
    let o := exec (transactionFrom steps) k objs
    let r := o.trace.foldl (effect act undo) (s, false)
    (∀ ns, AllSucceed steps ns → o.exit = .normal ∧ r = (ns.foldl (fun s n => act n s) s, true)) ∧
    ((¬∃ ns, AllSucceed steps ns) → r = (undoAll undo objs s, false) ∧
      ((o.exit = .exn ∧ ∃ n, .throws n ∈ steps) ∨ (o.exit = .returned ∧ .returns ∈ steps)))
  | [], k, objs, s, ho, _ => by
    simp only [transactionFrom, exec, if_neg, Bool.false_eq_true, not_false_eq_true, Out.before, leave_quiet ho]
    refine ⟨fun ns hn => ?_, fun hn => absurd ⟨[], rfl⟩ hn⟩
    have : ns = [] := List.map_eq_nil_iff.mp hn.symm
    subst this
    refine ⟨by trivial, ?_⟩
    rw [List.singleton_append, List.foldl_cons]
    have := fold_ran act undo objs s true
    simpa [effect] using this
  | .succeeds n :: steps, k, objs, s, ho, hu => by
    have hu' : Undoable act undo steps :=
      ⟨fun i hi => hu.1 i (List.mem_cons_of_mem _ hi), fun i hi => hu.2 i (List.mem_cons_of_mem _ hi)⟩
    have ho' : ∀ o ∈ construct k ⟨n, false⟩ :: objs, o.m_callable.throws = false := by
      intro o h
      rcases List.mem_cons.mp h with rfl | h
      · rfl
      · exact ho o h
    obtain ⟨g1, g2⟩ := transactionFrom_run act undo steps (k + 1) (construct k ⟨n, false⟩ :: objs) (act n s) ho' hu'
    simp only [transactionFrom, exec, if_neg, Bool.false_eq_true, not_false_eq_true, Out.before, List.singleton_append,
      List.foldl_cons, effect]
    refine ⟨fun ns hn => ?_, fun hn => ?_⟩
    · cases ns with
      | nil => simp [AllSucceed] at hn
      | cons i ns =>
        simp only [AllSucceed, List.map_cons, List.cons.injEq, Step.succeeds.injEq] at hn
        obtain ⟨rfl, hn⟩ := hn
        exact g1 ns hn
    · have hn' : ¬∃ ns, AllSucceed steps ns := by
        rintro ⟨ns, e⟩
        exact hn ⟨n :: ns, by rw [AllSucceed, List.map_cons, ← e]⟩
      obtain ⟨k1, k2⟩ := g2 hn'
      refine ⟨?_, ?_⟩
      · rw [k1]
        simp only [undoAll, List.foldl_cons, construct]
        rw [hu.1 n (by simp) s]
      · rcases k2 with ⟨e, i, hi⟩ | ⟨e, hi⟩
        · exact Or.inl ⟨e, i, List.mem_cons_of_mem _ hi⟩
        · exact Or.inr ⟨e, List.mem_cons_of_mem _ hi⟩
  | .throws n :: steps, k, objs, s, ho, hu => by
    simp only [transactionFrom, exec, if_true, Out.before, leave_quiet ho, List.singleton_append, List.foldl_cons, effect]
    refine ⟨fun ns hn => ?_, fun _ => ⟨?_, Or.inl ⟨by trivial, n, by simp⟩⟩⟩
    · cases ns <;> simp [AllSucceed] at hn
    · rw [hu.2 n (by simp) s, fold_ran]; rfl
  | .returns :: steps, k, objs, s, ho, hu => by
    simp only [transactionFrom, exec, leave_quiet ho]
    refine ⟨fun ns hn => ?_, fun _ => ⟨?_, Or.inr ⟨by trivial, by simp⟩⟩⟩
    · cases ns <;> simp [AllSucceed] at hn
    · rw [fold_ran]; rfl

/-! ### C181 -/

/-- C181. A transaction of any number of steps is made as a whole or not at all: if all steps succeed, all of them are made and nothing is
undone; if one throws or the function returns early, the data are what they were before, and the exception goes on to the
caller. -/
theorem transaction_atomic (act undo : Nat → σ → σ) (steps : List Step) (k : Nat) (s : σ) (hu : Undoable act undo steps) :
    let o := exec (transaction steps) k []
    (∀ ns, AllSucceed steps ns → o.exit = .normal ∧ after act undo s o.trace = ns.foldl (fun s n => act n s) s) ∧
    ((¬∃ ns, AllSucceed steps ns) → after act undo s o.trace = s ∧
      ((o.exit = .exn ∧ ∃ n, .throws n ∈ steps) ∨ (o.exit = .returned ∧ .returns ∈ steps))) := by
  obtain ⟨h1, h2⟩ := transactionFrom_run act undo steps k [] s (by simp) hu
  simp only [transaction, exec, if_neg, Bool.false_eq_true, not_false_eq_true, Out.before, after, List.singleton_append,
    List.foldl_cons, effect]
  refine ⟨fun ns hn => ?_, fun hn => ?_⟩
  · obtain ⟨e1, e2⟩ := h1 ns hn
    exact ⟨e1, by rw [e2]⟩
  · obtain ⟨e1, e2⟩ := h2 hn
    exact ⟨by rw [e1]; rfl, e2⟩

theorem foldl_flag (act undo : Nat → σ → σ) (steps : List Step) (k : Nat) (s : σ) (c : Bool) :
    (exec (transaction steps) k []).trace.foldl (effect act undo) (s, c) =
      (exec (transaction steps) k []).trace.foldl (effect act undo) (s, false) := by
  simp only [transaction, exec, if_neg, Bool.false_eq_true, not_false_eq_true, Out.before, List.singleton_append,
    List.foldl_cons, effect]

theorem session_run (act undo : Nat → σ → σ) : ∀ (ts : List (List Step)) (k : Nat) (s : σ) (c : Bool),
    (∀ steps ∈ ts, Undoable act undo steps ∧ .returns ∉ steps) → (exec (session ts) k []).exit = .normal ∧
    ∀ made : List (List Nat), List.Forall₂ (fun steps ns => AllSucceed steps ns ∨ ((¬∃ l, AllSucceed steps l) ∧ ns = [])) ts made →
      ((exec (session ts) k []).trace.foldl (effect act undo) (s, c)).1 = made.flatten.foldl (fun s n => act n s) s
  | [], k, s, c, _ => by
    refine ⟨rfl, fun made hm => ?_⟩
    cases hm
    rfl
  | steps :: ts, k, s, c, h => by
    obtain ⟨hu, hr⟩ := h steps (by simp)
    obtain ⟨h1, h2⟩ := transaction_atomic act undo steps k s hu
    have ih := fun k s c => session_run act undo ts k s c fun x hx => h x (by simp [hx])
    by_cases hs : ∃ ns, AllSucceed steps ns
    · obtain ⟨ns, hn⟩ := hs
      obtain ⟨e1, e2⟩ := h1 ns hn
      simp only [session, exec, e1, Out.before]
      refine ⟨(ih _ s c).1, fun made hm => ?_⟩
      cases hm with
      | cons g hm =>
        rename_i ms mss
        have hms : ms = ns := by
          rcases g with g | g
          · have e := g.symm.trans hn
            have inj : Function.Injective Step.succeeds := fun a b e => by cases e; rfl
            exact List.map_injective_iff.mpr inj e
          · exact absurd ⟨ns, hn⟩ g.1
        subst hms
        rw [List.foldl_append, foldl_flag, List.flatten_cons, List.foldl_append, ← e2]
        exact (ih _ (after act undo s (exec (transaction steps) k []).trace) _).2 _ hm
    · obtain ⟨e1, e2⟩ := h2 hs
      have e2 : (exec (transaction steps) k []).exit = .exn := by
        rcases e2 with e2 | e2
        · exact e2.1
        · exact absurd e2.2 hr
      simp only [session, exec, e2, Out.before, leave, unwind, List.append_nil]
      refine ⟨(ih _ s c).1, fun made hm => ?_⟩
      cases hm with
      | cons g hm =>
        rename_i ms mss
        have hms : ms = [] := by
          rcases g with g | g
          · exact absurd ⟨ms, g⟩ hs
          · exact g.2
        subst hms
        rw [List.foldl_append, foldl_flag, List.flatten_cons, List.nil_append]
        obtain ⟨⟨x, d⟩, hx⟩ : ∃ x, x = (exec (transaction steps) k []).trace.foldl (effect act undo) (s, false) := ⟨_, rfl⟩
        unfold after at e1
        rw [← hx] at e1 ⊢
        simp only at e1
        subst e1
        exact (ih _ _ _).2 mss hm

/-- C181. A sequence of transactions, each in a `try` of its own: the data are afterwards what the steps of the transactions that were
completed make of them, in order, whatever became of the others, and the program goes on. -/
theorem session_result (act undo : Nat → σ → σ) (ts : List (List Step)) (k : Nat) (s : σ)
    (h : ∀ steps ∈ ts, Undoable act undo steps ∧ .returns ∉ steps) :
    (exec (session ts) k []).exit = .normal ∧
    ∀ made : List (List Nat), List.Forall₂ (fun steps ns => AllSucceed steps ns ∨ ((¬∃ l, AllSucceed steps l) ∧ ns = [])) ts made →
      after act undo s (exec (session ts) k []).trace = made.flatten.foldl (fun s n => act n s) s :=
  session_run act undo ts k s false h

/-- Three additions, of which the third throws, then one that succeeds. -/
example : Undoable (σ := Int) (fun n s => if n = 3 then s else s + n) (fun n s => if n = 3 then s else s - n)
      [.succeeds 1, .succeeds 2, .throws 3] ∧
    after (σ := Int) (fun n s => if n = 3 then s else s + n) (fun n s => if n = 3 then s else s - n) 10
      (exec (session [[.succeeds 1, .succeeds 2, .throws 3], [.succeeds 5]]) 0 []).trace = 15 := by
  refine ⟨⟨?_, ?_⟩, by decide +kernel⟩
  · intro n hn s
    simp only [List.mem_cons, Step.succeeds.injEq, reduceCtorEq, List.not_mem_nil, or_false] at hn
    rcases hn with rfl | rfl <;> simp
  · intro n hn s
    simp only [List.mem_cons, Step.throws.injEq, reduceCtorEq, List.not_mem_nil, or_false, false_or] at hn
    subst hn; simp

end Verif.Scoped
