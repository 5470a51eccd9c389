import Verif.Functional.DelegateThrow
import Verif.Functional.DelegateProps

/-! # Exceptions of the callables stored in delegates -/

set_option autoImplicit false

namespace Verif.Delegate

variable {s : St}

theorem stepT_false (op : Op) (s : St) : stepT op false s = (step op s).toT := by
  cases op with
  | fn i ty isNull =>
    cases hd : s.dels i <;> cases isNull <;> simp only [stepT, step, hd] <;> rfl
  | assignFn i ty isNull =>
    cases hd : s.dels i with
    | none => simp only [stepT, step, hd]; rfl
    | some this =>
      have e : D.ofFnT ty isNull false s = some (D.ofFn ty isNull s) := by cases isNull <;> rfl
      simp only [stepT, step, hd, e]
      generalize D.ofFn ty isNull s = q
      obtain ⟨t, d⟩ := q
      simp only []
      generalize (D.swap d this).1.dtor (t.set i (some (D.swap d this).2)) = r
      cases r <;> rfl
  | call i =>
    cases hd : s.dels i with
    | none => simp only [stepT, step, hd]; rfl
    | some d =>
      simp only [stepT, step, hd, D.callT, D.call, Bool.false_eq_true, if_false]
      cases hm : d.manager with
      | none => rfl
      | some m =>
        cases hc : d.callable with
        | none => rfl
        | some ty =>
          simp only []
          cases invoke ty d.storage s <;> rfl
  | _ => rfl

/-- An operation that runs no user code does not depend on whether user code throws. -/
theorem stepT_noUser {a : Spec} (h : Good s a) {op : Op} (hl : legal a op) (hu : ¬ runsUser a op) (throws : Bool) :
    stepT op throws s = stepT op false s := by
  cases op with
  | fn i ty isNull =>
    cases isNull with
    | false => exact absurd rfl hu
    | true => rfl
  | assignFn i ty isNull =>
    cases isNull with
    | false => exact absurd rfl hu
    | true => rfl
  | call i =>
    obtain ⟨d, x, hd, hx, hr⟩ := h.get (i := i) hl
    cases x with
    | some o => exact absurd ⟨o, hx⟩ hu
    | none =>
      have hm : d.manager = none := hr
      simp [stepT, hd, D.callT, hm]
  | _ => rfl

/-- What an operation does whose user code throws. -/
theorem stepT_user {a : Spec} (h : Good s a) {op : Op} (hl : legal a op) (hu : runsUser a op) :
    (∃ i ty, op = .fn i ty false ∧ stepT op true s = .threw s) ∨
    (∃ i ty, op = .assignFn i ty false ∧ stepT op true s = .terminated) ∨
    (∃ i o, op = .call i ∧ a i = some (some o) ∧ step op s = .ok { s with calls := o :: s.calls } ∧
      stepT op true s = .threw { s with calls := o :: s.calls }) := by
  cases op with
  | fn i ty isNull =>
    have hn : isNull = false := hu
    subst hn
    exact .inl ⟨i, ty, rfl, by simp [stepT, h.none hl, D.ofFnT, createFunctorT]⟩
  | assignFn i ty isNull =>
    have hn : isNull = false := hu
    subst hn
    obtain ⟨d, x, hd, -⟩ := h.get (i := i) hl
    exact .inr (.inl ⟨i, ty, rfl, by simp [stepT, hd, D.ofFnT, createFunctorT]⟩)
  | call i =>
    obtain ⟨o, ho⟩ := hu
    refine .inr (.inr ⟨i, o, rfl, ho, ?_⟩)
    obtain ⟨d, x, hd, hx, hr⟩ := h.get (i := i) hl
    rcases step_good h hl with ⟨s', h1, -, h2, -⟩ | ⟨-, h2⟩
    · simp only [step, hd, D.call] at h1
      cases hm : d.manager with
      | none => rw [hm] at h1; cases h1
      | some m =>
        cases hc : d.callable with
        | none => rw [hm, hc] at h1; cases h1
        | some ty =>
          cases hi : invoke ty d.storage s with
          | none => simp only [hm, hc, hi] at h1; cases h1
          | some t =>
            have e : t = { s with calls := o :: s.calls } := by
              simp only [hm, hc, hi, Res.ok.injEq] at h1
              subst h1
              simp only [invoked, ho] at h2
              unfold invoke at hi
              split at hi
              · split at hi
                · cases hi
                  simp only at h2
                  rw [h2]
                · cases hi
              · cases hi
            subst e
            constructor
            · simp only [step, hd, D.call, hm, hc, hi]
            · simp only [stepT, hd, D.callT, hm, hc, hi, if_true]
    · simp [callsEmpty, ho] at h2
  | _ => exact hu.elim

/-- A client that catches exceptions brings about no other states. -/
theorem reach_of_reachT {a : Spec} (h : ReachT s a) : Reach s a := by
  induction h with
  | init => exact .init
  | @step s a op throws s' _ hl hs ih =>
    by_cases hu : runsUser a op ∧ throws = true
    · obtain ⟨hu, rfl⟩ := hu
      rcases stepT_user (reach_good ih) hl hu with ⟨_, _, _, h1⟩ | ⟨_, _, _, h1⟩ | ⟨_, _, _, _, _, h1⟩ <;>
        rw [h1] at hs <;> cases hs
    · have e : stepT op throws s = (step op s).toT := by
        rw [← stepT_false]
        cases throws with
        | false => rfl
        | true => exact stepT_noUser (reach_good ih) hl (fun h => hu ⟨h, rfl⟩) true
      rw [e] at hs
      cases h1 : step op s <;> rw [h1] at hs <;> cases hs
      exact .step ih hl h1
  | @noCallable s a op throws s' _ hl hs ih =>
    by_cases hu : runsUser a op ∧ throws = true
    · obtain ⟨hu, rfl⟩ := hu
      rcases stepT_user (reach_good ih) hl hu with ⟨_, _, _, h1⟩ | ⟨_, _, _, h1⟩ | ⟨_, _, _, _, _, h1⟩ <;>
        rw [h1] at hs <;> cases hs
    · have e : stepT op throws s = (step op s).toT := by
        rw [← stepT_false]
        cases throws with
        | false => rfl
        | true => exact stepT_noUser (reach_good ih) hl (fun h => hu ⟨h, rfl⟩) true
      rw [e] at hs
      cases h1 : step op s <;> rw [h1] at hs <;> cases hs
      exact .caught ih hl h1
  | @caught s a op throws s' _ hl hs ih =>
    by_cases hu : runsUser a op ∧ throws = true
    · obtain ⟨hu, rfl⟩ := hu
      rcases stepT_user (reach_good ih) hl hu with ⟨_, _, _, h1⟩ | ⟨_, _, _, h1⟩ | ⟨i, o, e, _, h2, h1⟩
      · rw [h1] at hs; cases hs; exact ih
      · rw [h1] at hs; cases hs
      · rw [h1] at hs; cases hs
        have := Reach.step ih hl h2
        subst e
        exact this
    · have e : stepT op throws s = (step op s).toT := by
        rw [← stepT_false]
        cases throws with
        | false => rfl
        | true => exact stepT_noUser (reach_good ih) hl (fun h => hu ⟨h, rfl⟩) true
      rw [e] at hs
      cases h1 : step op s <;> rw [h1] at hs <;> cases hs

/-! ### C110 -/

/-- C110, what holds. The full claim is "if a callable throws while it is being stored or called, the exception
reaches the caller and every delegate is as before"; it holds for `Delegate d(fn)` and `d(args...)`, but not for
`d = fn`. An operation ends with the exception of the user code exactly if it runs user code that throws. Then no
delegate and no stored callable has changed, nothing was allocated or freed that is still recorded, and a call has
called the callable the delegate holds, once. Otherwise it does what it does without exceptions. -/
theorem delegate_throw_partial {a : Spec} (h : ReachT s a) {op : Op} (hl : legal a op) (throws : Bool)
    (hop : ∀ i ty, op = .assignFn i ty false → throws = false) :
    (runsUser a op ∧ throws = true ∧ ∃ s', stepT op throws s = .threw s' ∧ s'.dels = s.dels ∧ s'.objTy = s.objTy ∧
      s'.dtors = s.dtors ∧ s'.blkObj = s.blkObj ∧ s'.frees = s.frees ∧
      (∀ i ty isNull, op = .fn i ty isNull → s'.calls = s.calls) ∧
      (∀ i, op = .call i → ∃ o, a i = some (some o) ∧ s'.calls = o :: s.calls)) ∨
    (¬ (runsUser a op ∧ throws = true) ∧
      ((∃ s', step op s = .ok s' ∧ stepT op throws s = .ok s') ∨
        (step op s = .badCall s ∧ stepT op throws s = .badCall s))) := by
  have hg := reach_good (reach_of_reachT h)
  by_cases hu : runsUser a op ∧ throws = true
  · left
    refine ⟨hu.1, hu.2, ?_⟩
    obtain ⟨hu, rfl⟩ := hu
    rcases stepT_user hg hl hu with ⟨i, ty, e, h1⟩ | ⟨i, ty, e, h1⟩ | ⟨i, o, e, ho, -, h1⟩
    · refine ⟨s, h1, rfl, rfl, rfl, rfl, rfl, fun _ _ _ _ => rfl, fun j e2 => ?_⟩
      rw [e] at e2; cases e2
    · cases hop i ty e
    · refine ⟨_, h1, rfl, rfl, rfl, rfl, rfl, fun _ _ _ e2 => ?_, fun j e2 => ?_⟩
      · rw [e] at e2; cases e2
      · rw [e] at e2; cases e2; exact ⟨o, ho, rfl⟩
  · right
    refine ⟨hu, ?_⟩
    have e : stepT op throws s = (step op s).toT := by
      rw [← stepT_false]
      cases throws with
      | false => rfl
      | true => exact stepT_noUser hg hl (fun h => hu ⟨h, rfl⟩) true
    rcases step_good hg hl with ⟨s', h1, -⟩ | ⟨h1, -⟩
    · exact .inl ⟨s', h1, by rw [e, h1]; rfl⟩
    · exact .inr ⟨h1, by rw [e, h1]; rfl⟩

/-- C110. After any history with exceptions that were caught, a delegate holds what the operations that succeeded
gave it, calls it if asked, and every callable stored is destroyed exactly once, when no delegate holds it any more. -/
theorem delegate_after_exceptions {a : Spec} (h : ReachT s a) :
    (∀ i o, a i = some (some o) → stepT (.call i) false s = .ok { s with calls := o :: s.calls }) ∧
    (∀ i, a i = some none → stepT (.call i) false s = .badCall s) ∧
    (∀ o ty, s.objTy o = some ty →
      (s.dtors o = 0 ∧ ∃ i, a i = some (some o) ∧ ∀ j, a j = some (some o) → j = i) ∨
      (s.dtors o = 1 ∧ ∀ i, a i ≠ some (some o))) ∧
    ((∀ i, a i = none) → ∀ b o, s.blkObj b = some o → s.frees b = 1) := by
  have hr := reach_of_reachT h
  refine ⟨fun i o ho => ?_, fun i hi => ?_, fun o ty ho => delegate_destroys_once hr ho,
    fun hall => (delegate_no_leak hr hall).2⟩
  · obtain ⟨_, _, _, h1⟩ := delegate_calls hr ho
    rw [stepT_false, h1.1]; rfl
  · obtain ⟨_, _, _, h1⟩ := delegate_calls hr hi
    rw [stepT_false, h1]; rfl

/-- C110 is false: whenever storing `fn` throws in `d = fn`, the program ends, since the operator is `noexcept`. -/
theorem delegate_throw_wrong {a : Spec} (h : ReachT s a) {i : Nat} (hi : a i ≠ none) (ty : Ty) :
    legal a (.assignFn i ty false) ∧ stepT (.assignFn i ty false) true s = .terminated := by
  refine ⟨hi, ?_⟩
  obtain ⟨d, x, hd, -⟩ := (reach_good (reach_of_reachT h)).get (i := i) hi
  simp [stepT, hd, D.ofFnT, createFunctorT]

/-- A history with exceptions: a delegate holds a callable of 32 bytes, another construction throws, then the call of
the first throws. -/
example : ∃ s a, ReachT s a ∧ a 0 = some (some 0) ∧ a 1 = none ∧ s.calls = [0] ∧ s.blkObj 1 = some 0 := by
  refine ⟨_, _, ReachT.caught (op := .call 0) (throws := true)
    (ReachT.caught (op := .fn 1 ⟨8, 64, 8⟩ false) (throws := true)
      (ReachT.step (op := .fn 0 ⟨7, 32, 8⟩ false) (throws := false) ReachT.init rfl rfl) ?_ rfl) ?_ rfl, ?_, ?_, ?_, ?_⟩
  · rfl
  · intro h; cases h
  all_goals rfl

end Verif.Delegate
