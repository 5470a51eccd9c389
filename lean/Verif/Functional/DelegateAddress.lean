import Verif.Functional.DelegateSpec

/-!
# Where the callables of delegates lie

DG stands for `include/xme/core/functional/delegate.hpp`. `Delegate.lean` takes the callable in the storage of a
delegate to move along when the bytes of the storage are copied (DG 130, 185). No constructor or destructor of the
callable runs then. Here the places are recorded: where each callable was constructed, and where it is when it is
called. For a callable that keeps a pointer to itself or to a part of itself only the first of the two will do.
-/

set_option autoImplicit false

namespace Verif.Delegate

/-- Where a callable can lie: in `m_storage` of a delegate variable (DG 199), in that of the temporary of an
assignment (DG 173), or in a block (DG 79). -/
inductive Place where
  | storage (i : Nat)
  | temporary
  | block (b : Nat)
  deriving DecidableEq

/-- Where `create_functor` constructs the callable, given the delegate that is being initialised: DG 73-81. The block
is the one `createFunctor` allocates. -/
def constructedAt (ty : Ty) (s : St) (self : Place) : Place :=
  if ty.isLocal then self else .block (s.next + 1)

/-- The place of construction of every callable, after a step: DG 135-143 for `Delegate d(fn)`, DG 171-175 for
`d = fn`; no other operation constructs a callable (DG 127-133, 157-169, 184-188). -/
def places (op : Op) (s : St) (h : Nat → Option Place) : Nat → Option Place :=
  match op with
  | .fn i ty false => Function.update h s.next (some (constructedAt ty s (.storage i)))
  | .assignFn _ ty false => Function.update h s.next (some (constructedAt ty s .temporary))
  | _ => h

/-- The place the callable of delegate `i` is called at: DG 65-71, 181. -/
def calledAt (s : St) (i : Nat) : Option Place :=
  match s.dels i with
  | some d =>
    match d.storage with
    | .inl _ => some (.storage i)
    | .ptr b => some (.block b)
    | .blank => none
  | none => none

/-- The states a client can bring about, with what is expected of them and the places of construction. Part of the
model, not of the code. -/
inductive ReachP : St → Spec → (Nat → Option Place) → Prop
  | init : ReachP .init .init (fun _ => none)
  | step {s a h op s'} : ReachP s a h → legal a op → step op s = .ok s' → ReachP s' (spec s.next a op) (places op s h)
  | caught {s a h op s'} : ReachP s a h → legal a op → step op s = .badCall s' → ReachP s' a h

end Verif.Delegate
