import Verif.Functional.DelegateSpec

/-!
# Model of `Delegate` with callables that throw

DG stands for `include/xme/core/functional/delegate.hpp`. `Verif.Functional.Delegate` takes the construction of a
stored callable and its calls to succeed. Here each operation may meet an exception in the user code it runs: the
allocation of the block or the constructor of the callable (DG 76, 79), or the call of the callable (DG 62). When the
constructor throws, the new-expression of DG 79 returns its block; the delegate being constructed then never existed
and its destructor does not run. Destructors of callables do not throw.
-/

set_option autoImplicit false

namespace Verif.Delegate

/-- How an operation ends when user code may throw; `terminated` is an exception that leaves a `noexcept` function.
Part of the model, not of the code. -/
inductive ResT where
  | ok (s : St)
  /-- the exception of DG 179 -/
  | badCall (s : St)
  /-- the exception of the user code -/
  | threw (s : St)
  | terminated
  | ub

/-- An operation that runs no user code that throws. Part of the model, not of the code. -/
def Res.toT : Res St → ResT
  | .ok s => .ok s
  | .badCall s => .badCall s
  | .ub => .ub

/-- `create_functor`, DG 73-81; nothing comes into being if the allocation or the constructor throws. -/
def createFunctorT (ty : Ty) (throws : Bool) (s : St) : Option (St × Sto) :=
  if throws then none else some (createFunctor ty s)

/-- `Delegate(Fn&&)`, DG 135-143, not `noexcept`; none if it is left by an exception. -/
def D.ofFnT (ty : Ty) (isNull throws : Bool) (s : St) : Option (St × D) :=
  if isNull then some (s, .default)
  else
    match createFunctorT ty throws s with
    | some (s, f) => some (s, ⟨f, some ty, some ty⟩)
    | none => none

/-- `operator()`, DG 177-182, not `noexcept`, with DG 61-63. -/
def D.callT (d : D) (throws : Bool) (s : St) : ResT :=
  match d.manager with
  | none => .badCall s
  | some _ =>
    match d.callable with
    | none => .ub
    | some ty =>
      match invoke ty d.storage s with
      | some s => if throws then .threw s else .ok s
      | none => .ub

/-- One step; `throws` says whether the user code it runs throws. DG 117-196. `operator=(Fn&&)` is `noexcept` (DG
172), the construction and the call are not (DG 136, 177); the other operations run no user code but destructors. -/
def stepT (op : Op) (throws : Bool) (s : St) : ResT :=
  match op with
  | .fn i ty isNull =>
    match s.dels i with
    | none =>
      match D.ofFnT ty isNull throws s with
      | some (s, d) => .ok (s.set i (some d))
      | none => .threw s
    | some _ => .ub
  | .assignFn i ty isNull =>
    match s.dels i with
    | some this =>
      match D.ofFnT ty isNull throws s with
      | some (s, tmp) =>
        let (tmp, this) := D.swap tmp this
        let s := s.set i (some this)
        match tmp.dtor s with
        | some s => .ok s
        | none => .ub
      | none => .terminated
    | none => .ub
  | .call i =>
    match s.dels i with
    | some d => d.callT throws s
    | none => .ub
  | op => (step op s).toT

/-! ### What a user expects -/

/-- The operation runs user code that may throw: it stores a callable, or calls one. -/
def runsUser (a : Spec) : Op → Prop
  | .fn _ _ isNull => isNull = false
  | .assignFn _ _ isNull => isNull = false
  | .call i => ∃ o, a i = some (some o)
  | _ => False

/-- The states a client can bring about that catches exceptions: after one, every delegate is expected to hold what
it held before. -/
inductive ReachT : St → Spec → Prop
  | init : ReachT .init .init
  | step {s a op throws s'} : ReachT s a → legal a op → stepT op throws s = .ok s' → ReachT s' (spec s.next a op)
  | noCallable {s a op throws s'} : ReachT s a → legal a op → stepT op throws s = .badCall s' → ReachT s' a
  | caught {s a op throws s'} : ReachT s a → legal a op → stepT op throws s = .threw s' → ReachT s' a

end Verif.Delegate
