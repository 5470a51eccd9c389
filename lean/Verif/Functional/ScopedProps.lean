import Verif.Functional.Scoped
import Mathlib.Tactic.Linarith

/-! # Properties of `ScopedDelegate` -/

set_option autoImplicit false

namespace Verif.Scoped

/-- No callable given to a scoped delegate throws ("The function called must not throw", SD 7). -/
def Prog.NoThrow : Prog → Prop
  | .done => True
  | .act _ _ r => r.NoThrow
  | .decl f r => f.throws = false ∧ r.NoThrow
  | .block b r => b.NoThrow ∧ r.NoThrow
  | .tryCatch b h r => b.NoThrow ∧ h.NoThrow ∧ r.NoThrow
  | .ret => True

/-! ### Specification -/

/-- Brackets: each construction is matched by the run of the same callable, properly nested. -/
inductive Balanced : List Ev → Prop
  | nil : Balanced []
  | act (n : Nat) {t : List Ev} : Balanced t → Balanced (.act n :: t)
  | scope (i f : Nat) {s t : List Ev} : Balanced s → Balanced t → Balanced (.made i f :: s ++ .ran i f :: t)

theorem Balanced.append {s t : List Ev} (hs : Balanced s) (ht : Balanced t) : Balanced (s ++ t) := by
  induction hs with
  | nil => exact ht
  | act n _ ih => exact .act n ih
  | scope i f h1 _ _ ih2 =>
    have := Balanced.scope i f h1 ih2
    simpa using this

/-! ### Lemmas -/

theorem unwind_noThrow {objs : List Obj} (h : ∀ o ∈ objs, o.m_callable.throws = false) :
    unwind objs = (objs.map fun o => Ev.ran o.id o.m_callable.tag, false) := by
  induction objs with
  | nil => rfl
  | cons o os ih =>
    have h1 := h o (by simp)
    simp [unwind, destruct, h1, ih fun o' h' => h o' (by simp [h'])]

theorem leave_noThrow {objs : List Obj} (h : ∀ o ∈ objs, o.m_callable.throws = false) (n : Nat) (e : Exit) :
    leave objs n e = ⟨objs.map fun o => Ev.ran o.id o.m_callable.tag, n, e⟩ := by
  simp [leave, unwind_noThrow h]

/-- The objects of a scope run at its end, the last first, whatever else happens in it. -/
theorem exec_objs (p : Prog) (hp : p.NoThrow) (n : Nat) {objs : List Obj}
    (h : ∀ o ∈ objs, o.m_callable.throws = false) :
    exec p n objs = ⟨(exec p n []).trace ++ objs.map (fun o => Ev.ran o.id o.m_callable.tag), (exec p n []).next,
      (exec p n []).exit⟩ ∧ (exec p n []).exit ≠ .terminated := by
  have e0 : ∀ o ∈ ([] : List Obj), o.m_callable.throws = false := by simp
  induction p generalizing n objs with
  | done => simp [exec, leave_noThrow h, leave_noThrow e0]
  | act a throws rest ih =>
    cases throws with
    | true => simp [exec, leave_noThrow h, leave_noThrow e0, Out.before]
    | false =>
      obtain ⟨h1, h2⟩ := ih hp n h
      simp only [exec, Out.before, Bool.false_eq_true, if_false]
      refine ⟨?_, h2⟩
      rw [h1]
      simp
  | decl f rest ih =>
    have hf : ∀ o ∈ construct n f :: objs, o.m_callable.throws = false := by
      intro o ho
      rcases List.mem_cons.1 ho with rfl | ho
      · exact hp.1
      · exact h o ho
    have hf0 : ∀ o ∈ [construct n f], o.m_callable.throws = false := by
      intro o ho
      rcases List.mem_cons.1 ho with rfl | ho
      · exact hp.1
      · simp at ho
    obtain ⟨h1, h2⟩ := ih hp.2 (n + 1) hf
    obtain ⟨h3, -⟩ := ih hp.2 (n + 1) hf0
    simp only [exec, Out.before]
    rw [h1, h3]
    exact ⟨by simp, h2⟩
  | block body rest ihb ihr =>
    obtain ⟨-, hb⟩ := ihb hp.1 n e0
    simp only [exec]
    cases hx : (exec body n []).exit with
    | normal =>
      obtain ⟨h1, h2⟩ := ihr hp.2 (exec body n []).next h
      simp only [Out.before]
      refine ⟨?_, h2⟩
      rw [h1]; simp
    | terminated => exact absurd hx hb
    | returned => simp [leave_noThrow h, leave_noThrow e0, Out.before]
    | exn => simp [leave_noThrow h, leave_noThrow e0, Out.before]
  | tryCatch body handler rest ihb ihh ihr =>
    obtain ⟨-, hb⟩ := ihb hp.1 n e0
    simp only [exec]
    cases hx : (exec body n []).exit with
    | normal =>
      obtain ⟨h1, h2⟩ := ihr hp.2.2 (exec body n []).next h
      simp only [Out.before]
      refine ⟨?_, h2⟩
      rw [h1]; simp
    | terminated => exact absurd hx hb
    | returned => simp [leave_noThrow h, leave_noThrow e0, Out.before]
    | exn =>
      obtain ⟨-, hh⟩ := ihh hp.2.1 (exec body n []).next e0
      simp only
      cases hy : (exec handler (exec body n []).next []).exit with
      | normal =>
        obtain ⟨h1, h2⟩ := ihr hp.2.2 (exec handler (exec body n []).next []).next h
        simp only [Out.before]
        refine ⟨?_, h2⟩
        rw [h1]; simp
      | terminated => exact absurd hy hh
      | returned => simp [leave_noThrow h, leave_noThrow e0, Out.before]
      | exn => simp [leave_noThrow h, leave_noThrow e0, Out.before]
  | ret => simp [exec, leave_noThrow h, leave_noThrow e0]

/-! ### Properties -/

/-- C47. A delegate declared in a scope runs after everything else that happens in the scope, and nothing of the scope
comes after it, however the scope is left; it does not change how the scope is left. -/
theorem scoped_runs_at_scope_end (f : Callable) (rest : Prog) (hf : f.throws = false) (hr : rest.NoThrow) (n : Nat) :
    exec (.decl f rest) n [] =
      ⟨.made n f.tag :: (exec rest (n + 1) []).trace ++ [.ran n f.tag], (exec rest (n + 1) []).next,
        (exec rest (n + 1) []).exit⟩ := by
  have := (exec_objs rest hr (n + 1) (objs := [construct n f]) (by simpa [construct] using hf)).1
  simp only [exec, Out.before]
  rw [this]
  simp [construct]

/-- What an execution of a whole scope does. -/
theorem exec_cases (p : Prog) (hp : p.NoThrow) (n : Nat) {P : Nat → List Ev → Nat → Prop}
    (hnil : ∀ n, P n [] n)
    (hact : ∀ n a t k, P n t k → P n (.act a :: t) k)
    (hscope : ∀ n f t k, P (n + 1) t k → P n (.made n f :: t ++ [.ran n f]) k)
    (happ : ∀ n s k t l, P n s k → P k t l → P n (s ++ t) l) :
    P n (exec p n []).trace (exec p n []).next := by
  have e0 : ∀ o ∈ ([] : List Obj), o.m_callable.throws = false := by simp
  induction p generalizing n with
  | done => simpa [exec, leave_noThrow e0] using hnil n
  | act a throws rest ih =>
    cases throws with
    | true => simpa [exec, leave_noThrow e0, Out.before] using hact n a [] n (hnil n)
    | false => simpa [exec, Out.before] using hact n a _ _ (ih hp n)
  | decl f rest ih =>
    rw [scoped_runs_at_scope_end f rest hp.1 hp.2 n]
    exact hscope n f.tag _ _ (ih hp.2 (n + 1))
  | block body rest ihb ihr =>
    have hb := (exec_objs body hp.1 n e0).2
    simp only [exec]
    cases hx : (exec body n []).exit with
    | normal => exact happ _ _ _ _ _ (ihb hp.1 n) (ihr hp.2 _)
    | terminated => exact absurd hx hb
    | returned => simpa [leave_noThrow e0, Out.before] using ihb hp.1 n
    | exn => simpa [leave_noThrow e0, Out.before] using ihb hp.1 n
  | tryCatch body handler rest ihb ihh ihr =>
    have hb := (exec_objs body hp.1 n e0).2
    simp only [exec]
    cases hx : (exec body n []).exit with
    | normal => exact happ _ _ _ _ _ (ihb hp.1 n) (ihr hp.2.2 _)
    | terminated => exact absurd hx hb
    | returned => simpa [leave_noThrow e0, Out.before] using ihb hp.1 n
    | exn =>
      have hh := (exec_objs handler hp.2.1 (exec body n []).next e0).2
      have hbh := happ _ _ _ _ _ (ihb hp.1 n) (ihh hp.2.1 (exec body n []).next)
      simp only
      cases hy : (exec handler (exec body n []).next []).exit with
      | normal => exact happ _ _ _ _ _ hbh (ihr hp.2.2 _)
      | terminated => exact absurd hy hh
      | returned => simpa [leave_noThrow e0, Out.before] using hbh
      | exn => simpa [leave_noThrow e0, Out.before] using hbh
  | ret => simpa [exec, leave_noThrow e0] using hnil n

/-- C47. Constructions and runs are properly nested: delegates run in reverse order of construction. -/
theorem scoped_nested (p : Prog) (hp : p.NoThrow) (n : Nat) : Balanced (exec p n []).trace := by
  refine exec_cases p hp n (P := fun _ t _ => Balanced t) (fun _ => .nil) (fun _ a _ _ h => .act a h) ?_ ?_
  · intro n f t _ h
    exact .scope n f h .nil
  · intro _ s _ t _ h1 h2
    exact h1.append h2

/-- C47. Each delegate constructed is run exactly once: the constructions are numbered `n`, `n + 1`, …; each number
occurs in exactly one construction and exactly one run, with the same callable. -/
theorem scoped_runs_once (p : Prog) (hp : p.NoThrow) (n : Nat) :
    let o := exec p n []
    n ≤ o.next ∧
    (∀ i, n ≤ i → i < o.next → ∃ f, o.trace.count (.made i f) = 1 ∧ o.trace.count (.ran i f) = 1 ∧
      ∀ g, g ≠ f → o.trace.count (.made i g) = 0 ∧ o.trace.count (.ran i g) = 0) ∧
    (∀ i, i < n ∨ o.next ≤ i → ∀ g, o.trace.count (.made i g) = 0 ∧ o.trace.count (.ran i g) = 0) := by
  refine exec_cases p hp n (P := fun n t k => n ≤ k ∧
    (∀ i, n ≤ i → i < k → ∃ f, t.count (.made i f) = 1 ∧ t.count (.ran i f) = 1 ∧
      ∀ g, g ≠ f → t.count (.made i g) = 0 ∧ t.count (.ran i g) = 0) ∧
    (∀ i, i < n ∨ k ≤ i → ∀ g, t.count (.made i g) = 0 ∧ t.count (.ran i g) = 0)) ?_ ?_ ?_ ?_
  · intro n; exact ⟨le_refl n, fun i h1 h2 => by omega, fun i _ g => by simp⟩
  · intro n a t k h
    simpa [List.count_cons] using h
  · intro n f t k ⟨h1, h2, h3⟩
    refine ⟨by omega, fun i h4 h5 => ?_, fun i h4 g => ?_⟩
    · by_cases hi : i = n
      · subst hi
        have h6 := h3 i (by omega)
        refine ⟨f, ?_, ?_, fun g hg => ?_⟩
        · simp [List.count_append, (h6 f).1]
        · simp [List.count_append, (h6 f).2]
        · simp [List.count_append, (h6 g).1, (h6 g).2, Ne.symm hg]
      · obtain ⟨g, h6, h7, h8⟩ := h2 i (by omega) h5
        refine ⟨g, ?_, ?_, fun g' hg => ?_⟩
        · simp [List.count_append, h6, Ne.symm hi]
        · simp [List.count_append, h7, Ne.symm hi]
        · simp [List.count_append, (h8 g' hg).1, (h8 g' hg).2, Ne.symm hi]
    · have hi : n ≠ i := by omega
      have := h3 i (by omega) g
      simp [List.count_append, this.1, this.2, hi]
  · intro n s k t l ⟨h1, h2, h3⟩ ⟨h4, h5, h6⟩
    refine ⟨by omega, fun i h7 h8 => ?_, fun i h7 g => ?_⟩
    · by_cases hi : i < k
      · obtain ⟨f, h9, h10, h11⟩ := h2 i h7 hi
        have h12 := h6 i (by omega)
        refine ⟨f, ?_, ?_, fun g hg => ?_⟩
        · simp [List.count_append, h9, (h12 f).1]
        · simp [List.count_append, h10, (h12 f).2]
        · simp only [List.count_append, (h11 g hg).1, (h11 g hg).2, (h12 g).1, (h12 g).2]; simp
      · obtain ⟨f, h9, h10, h11⟩ := h5 i (by omega) h8
        have h12 := h3 i (by omega)
        refine ⟨f, ?_, ?_, fun g hg => ?_⟩
        · simp [List.count_append, h9, (h12 f).1]
        · simp [List.count_append, h10, (h12 f).2]
        · simp only [List.count_append, (h11 g hg).1, (h11 g hg).2, (h12 g).1, (h12 g).2]; simp
    · have h8 := h3 i (by omega) g
      have h9 := h6 i (by omega) g
      simp [List.count_append, h8.1, h8.2, h9.1, h9.2]

/-- The number of delegates constructed is the number of construction events. -/
theorem scoped_counts (p : Prog) (hp : p.NoThrow) (n : Nat) :
    let o := exec p n []
    o.trace.countP (fun e => match e with | .made .. => true | _ => false) = o.next - n ∧
    o.trace.countP (fun e => match e with | .ran .. => true | _ => false) = o.next - n := by
  have := exec_cases p hp n (P := fun n t k => n ≤ k ∧
    t.countP (fun e => match e with | .made .. => true | _ => false) = k - n ∧
    t.countP (fun e => match e with | .ran .. => true | _ => false) = k - n) ?_ ?_ ?_ ?_
  · exact this.2
  · intro n; simp
  · intro n a t k h; simpa [List.countP_cons] using h
  · intro n f t k ⟨h1, h2, h3⟩
    refine ⟨by omega, ?_, ?_⟩
    · simp only [List.cons_append, List.countP_cons, List.countP_append, h2]; simp; omega
    · simp only [List.cons_append, List.countP_cons, List.countP_append, h3]; simp; omega
  · intro n s k t l ⟨h1, h2, h3⟩ ⟨h4, h5, h6⟩
    refine ⟨by omega, ?_, ?_⟩
    · rw [List.countP_append, h2, h5]; omega
    · rw [List.countP_append, h3, h6]; omega

/-- Leaving a scope whose objects were constructed in front of everything that happened. -/
def Out.leaving (o : Out) (objs : List Obj) : Out :=
  if o.exit = .terminated then o else (leave objs o.next o.exit).before o.trace

theorem leave_before (objs : List Obj) (n : Nat) (e : Exit) : (leave [] n e).leaving objs =
    if e = .terminated then ⟨[], n, .terminated⟩ else leave objs n e := by
  cases e <;> simp [leave, unwind, Out.leaving, Out.before]

theorem before_leaving (t : List Ev) (o : Out) (objs : List Obj) :
    (o.before t).leaving objs = (o.leaving objs).before t := by
  unfold Out.leaving
  by_cases h : o.exit = .terminated
  · simp [Out.before, h]
  · simp [Out.before, h]

theorem unwind_append (a b : List Obj) : unwind (a ++ b) =
    if (unwind a).2 then unwind a else ((unwind a).1 ++ (unwind b).1, (unwind b).2) := by
  induction a with
  | nil => simp [unwind]
  | cons o os ih =>
    obtain ⟨id, tag, throws⟩ := o
    cases throws with
    | true => rfl
    | false =>
      have e : ∀ l : List Obj, unwind (⟨id, tag, false⟩ :: l) = ([Ev.ran id tag] ++ (unwind l).1, (unwind l).2) :=
        fun l => rfl
      rw [List.cons_append, e, e, ih]
      cases h1 : (unwind os).2 <;> simp [h1]

theorem leave_append (a b : List Obj) (n : Nat) (e : Exit) (he : e ≠ .terminated) :
    leave (a ++ b) n e = (leave a n e).leaving b := by
  unfold leave
  rw [unwind_append]
  obtain ⟨t1, b1⟩ := unwind a
  cases b1 with
  | true => rfl
  | false =>
    simp only [Bool.false_eq_true, if_false, Out.leaving, if_neg he, leave]
    obtain ⟨t2, b2⟩ := unwind b
    cases b2 <;> rfl

/-- `exec_objs` without the requirement. -/
theorem exec_objs_any (p : Prog) (n : Nat) (objs : List Obj) : exec p n objs = (exec p n []).leaving objs := by
  induction p generalizing n objs with
  | done => simp [exec, leave_before]
  | act a throws rest ih =>
    cases throws with
    | true => simp [exec, before_leaving, leave_before]
    | false => simp only [exec, before_leaving, Bool.false_eq_true, if_false]; rw [ih n objs]
  | decl f rest ih =>
    simp only [exec, before_leaving]
    rw [ih (n + 1) (construct n f :: objs), ih (n + 1) [construct n f]]
    congr 1
    unfold Out.leaving
    by_cases h : (exec rest (n + 1) []).exit = .terminated
    · simp [h]
    · rw [if_neg h, if_neg h]
      have := leave_append [construct n f] objs (exec rest (n + 1) []).next _ h
      rw [List.singleton_append] at this
      rw [this]
      have h2 := before_leaving (exec rest (n + 1) []).trace
        (leave [construct n f] (exec rest (n + 1) []).next (exec rest (n + 1) []).exit) objs
      rw [← h2]; rfl
  | block body rest ihb ihr =>
    simp only [exec]
    cases hx : (exec body n []).exit with
    | normal => simp only [before_leaving]; rw [ihr _ objs]
    | terminated => simp [Out.leaving, hx]
    | returned => simp [before_leaving, leave_before]
    | exn => simp [before_leaving, leave_before]
  | tryCatch body handler rest ihb ihh ihr =>
    simp only [exec]
    cases hx : (exec body n []).exit with
    | normal => simp only [before_leaving]; rw [ihr _ objs]
    | terminated => simp [Out.leaving, hx]
    | returned => simp [before_leaving, leave_before]
    | exn =>
      simp only
      cases hy : (exec handler (exec body n []).next []).exit with
      | normal => simp only [before_leaving]; rw [ihr _ objs]
      | terminated => simp [Out.leaving, Out.before, hy]
      | returned => simp [before_leaving, leave_before]
      | exn => simp [before_leaving, leave_before]
  | ret => simp [exec, leave_before]

/-- C47. The documented requirement is needed: if the callable of a delegate throws, then leaving its scope, whichever
way, calls it as the last thing before the program ends, unless it had ended before. -/
theorem scoped_throwing_terminates (f : Callable) (hf : f.throws = true) (rest : Prog) (n : Nat) :
    (exec (.decl f rest) n []).exit = .terminated ∧
    ((exec rest (n + 1) []).exit ≠ .terminated →
      (exec (.decl f rest) n []).trace = .made n f.tag :: (exec rest (n + 1) []).trace ++ [.ran n f.tag]) ∧
    ((exec rest (n + 1) []).exit = .terminated →
      (exec (.decl f rest) n []).trace = .made n f.tag :: (exec rest (n + 1) []).trace) := by
  simp only [exec]
  rw [exec_objs_any]
  unfold Out.leaving
  by_cases h : (exec rest (n + 1) []).exit = .terminated
  · simp [h, Out.before]
  · simp [h, Out.before, leave, unwind, destruct, construct, hf]

/-- C47. Once a callable has thrown, no delegate around it runs: a scope in which the program ends ends it, with
nothing after it. -/
theorem scoped_terminated_runs_nothing (f : Callable) (rest : Prog) (n : Nat)
    (h : (exec rest (n + 1) []).exit = .terminated) :
    exec (.decl f rest) n [] = ⟨.made n f.tag :: (exec rest (n + 1) []).trace, (exec rest (n + 1) []).next, .terminated⟩ := by
  simp only [exec]
  rw [exec_objs_any]
  simp [Out.leaving, h, Out.before]

/-- The delegate constructed before the throwing one is not run. -/
example : exec (.decl ⟨1, false⟩ (.decl ⟨2, true⟩ .done)) 0 [] =
    ⟨[.made 0 1, .made 1 2, .ran 1 2], 2, .terminated⟩ := by
  decide

/-! ### Cases -/

section Examples

/-- Two nested scopes, the inner one left by an exception, which is caught. -/
def demo : Prog :=
  .decl ⟨1, false⟩ (.tryCatch (.decl ⟨2, false⟩ (.decl ⟨3, false⟩ (.act 7 true .done))) (.act 8 false .done)
    (.decl ⟨4, false⟩ .ret))

example : demo.NoThrow := by simp [demo, Prog.NoThrow]
example : exec demo 0 [] = ⟨[.made 0 1, .made 1 2, .made 2 3, .act 7, .ran 2 3, .ran 1 2, .act 8, .made 3 4, .ran 3 4,
    .ran 0 1], 4, .returned⟩ := by decide

end Examples

end Verif.Scoped
