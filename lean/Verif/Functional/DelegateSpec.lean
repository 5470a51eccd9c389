import Verif.Functional.Delegate

/-! # What a user of `Delegate` expects -/

set_option autoImplicit false

namespace Verif.Delegate

/-- For every delegate variable: does it exist, and which callable does it hold. -/
abbrev Spec := Nat → Option (Option Nat)

def Spec.init : Spec := fun _ => none

/-- What the client has to observe: delegates are created once and used while they exist. -/
def legal (a : Spec) : Op → Prop
  | .default i => a i = none
  | .fn i _ _ => a i = none
  | .move i j => a i = none ∧ a j ≠ none
  | .dtor i => a i ≠ none
  | .assignMove i j => a i ≠ none ∧ a j ≠ none
  | .assignNull i => a i ≠ none
  | .assignFn i _ _ => a i ≠ none
  | .swap i j => a i ≠ none ∧ a j ≠ none
  | .call i => a i ≠ none

/-- Which callable every delegate holds afterwards. `new` is the callable constructed by the step, if any. -/
def spec (new : Nat) (a : Spec) : Op → Spec
  | .default i => Function.update a i (some none)
  | .fn i _ isNull => Function.update a i (some (if isNull then none else some new))
  | .move i j => Function.update (Function.update a i (a j)) j (some none)
  | .dtor i => Function.update a i none
  | .assignMove i j => if i = j then a else Function.update (Function.update a i (a j)) j (some none)
  | .assignNull i => Function.update a i (some none)
  | .assignFn i _ isNull => Function.update a i (some (if isNull then none else some new))
  | .swap i j => Function.update (Function.update a i (a j)) j (a i)
  | .call _ => a

/-- The states a client can bring about, with what is expected of them. Exceptions from calls to empty delegates
may be caught. -/
inductive Reach : St → Spec → Prop
  | init : Reach .init .init
  | step {s a op s'} : Reach s a → legal a op → step op s = .ok s' → Reach s' (spec s.next a op)
  | caught {s a op s'} : Reach s a → legal a op → step op s = .badCall s' → Reach s' a

end Verif.Delegate
