import Verif.Functional.DelegateSpec

/-!
# Delegates used by the callables that run through them

DG stands for `include/xme/core/functional/delegate.hpp`. While a callable runs, it may use any delegate, also the
one it was called through. The state is that of `Verif.Functional.Delegate` together with the calls in progress. The
simplifications listed there apply; the callable is left by returning or by an exception, which is the same here.
-/

set_option autoImplicit false

namespace Verif.Delegate

/-- A call in progress: the callable and the address at which it reads its captured values, that is its `this`
pointer. The target of `std::invoke` in DG 62. -/
structure Frame where
  obj : Nat
  addr : Ptr
  deriving DecidableEq

/-- The frame of a call of delegate `i`: `handle` is the address of the storage, or the pointer kept in it. DG
61-71, 177-182. -/
def frameOf (s : St) (i : Nat) : Option Frame :=
  match s.dels i with
  | some d =>
    match d.callable with
    | some ty =>
      match handleOf ty s d.storage with
      | some o =>
        if ty.isLocal then some ⟨o, .storage i⟩
        else
          match d.storage with
          | .ptr b => some ⟨o, .block b⟩
          | _ => none
      | none => none
    | none => none
  | none => none

/-- The running callable can read its captured values: at its address there still is that callable, not destroyed,
in memory not freed. Part of the model, not of the code. -/
def St.usable (s : St) (f : Frame) : Prop :=
  s.objAt f.addr = some f.obj ∧ s.dtors f.obj = 0 ∧
    match f.addr with
    | .block b => s.frees b = 0
    | _ => True

/-- The states a client can bring about whose callables themselves use delegates, with what is expected of the
delegates and the calls in progress, latest first. DG 117-188. -/
inductive Nested : St → Spec → List Frame → Prop
  | init : Nested .init .init []
  /-- a call of delegate `i` begins -/
  | enter {s a fr i s' f} : Nested s a fr → legal a (.call i) → step (.call i) s = .ok s' → frameOf s i = some f →
      Nested s' a (f :: fr)
  /-- the delegate was empty, the exception is caught -/
  | failed {s a fr i s'} : Nested s a fr → legal a (.call i) → step (.call i) s = .badCall s' → Nested s' a fr
  /-- any other operation -/
  | op {s a fr op s'} : Nested s a fr → legal a op → (∀ i, op ≠ .call i) → step op s = .ok s' →
      Nested s' (spec s.next a op) fr
  /-- the latest call ends -/
  | leave {s a f fr} : Nested s a (f :: fr) → Nested s a fr

/-! ### What the user has to avoid. Specification, not part of the code -/

/-- The operation is about delegate `i`, other than calling it. -/
def touches (i : Nat) : Op → Prop
  | .default j => j = i
  | .fn j _ _ => j = i
  | .move j k => j = i ∨ k = i
  | .dtor j => j = i
  | .assignMove j k => j = i ∨ k = i
  | .assignNull j => j = i
  | .assignFn j _ _ => j = i
  | .swap j k => j = i ∨ k = i
  | .call _ => False

/-- The operation ends or overwrites the delegate that holds the callable `o`. -/
def discards (a : Spec) (o : Nat) : Op → Prop
  | .dtor j => a j = some (some o)
  | .assignMove j k => a j = some (some o) ∧ j ≠ k
  | .assignNull j => a j = some (some o)
  | .assignFn j _ _ => a j = some (some o)
  | _ => False

/-- What happens while a callable runs: operations for which `ok` holds, and calls. The frames are those above the
one of the callable. -/
inductive During (ok : Spec → Op → Prop) : St → Spec → St → Spec → Prop
  | refl {s a} : During ok s a s a
  | call {s a s1 a1 i s2} : During ok s a s1 a1 → legal a1 (.call i) →
      (step (.call i) s1 = .ok s2 ∨ step (.call i) s1 = .badCall s2) → During ok s a s2 a1
  | op {s a s1 a1 op s2} : During ok s a s1 a1 → legal a1 op → (∀ i, op ≠ .call i) → ok a1 op →
      step op s1 = .ok s2 → During ok s a s2 (spec s1.next a1 op)

end Verif.Delegate
