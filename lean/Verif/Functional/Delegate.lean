import Mathlib.Logic.Function.Basic

/-!
# Model of `Delegate`

DG stands for `include/xme/core/functional/delegate.hpp`. The state records every callable ever stored (an object
with an identity, its type and how often it was destroyed), every heap block ever allocated for one, and all live
delegates. A delegate is its three members. `m_callable` and `m_manager` are pointers to static functions of
`FunctorManager<Fn>` and are represented by the type `Fn`; different types have different functions.

Simplifications.
* Moving or swapping a delegate copies the bytes of its storage (DG 130, 185). The object stored in those bytes is
  taken to have moved along, with its identity; this is what happens for trivially relocatable types, others are not
  modelled.
* Copying a delegate (DG 119-125, 152-155) is left out: it passes a `const AnyData` for an `AnyData&` and does not
  compile. So is the construction from an lvalue callable, which forms a pointer to a reference.
* The constructor of the stored callable does not throw.
-/

set_option autoImplicit false

namespace Verif.Delegate

/-- A callable type. The template argument of DG 54. -/
structure Ty where
  id : Nat
  size : Nat
  align : Nat
  deriving DecidableEq

/-- `is_local_storage`, DG 58-59; `sizeof(AnyCallable)` is 16 and its alignment 8. -/
def Ty.isLocal (t : Ty) : Bool := decide (t.size ≤ 16) && decide (t.align ≤ 8)

/-- What the bytes of `m_storage` are: nothing of interest, the callable with this identity, or a pointer to a
block (DG 46, 76, 79). -/
inductive Sto where
  | blank
  | inl (obj : Nat)
  | ptr (blk : Nat)
  deriving DecidableEq

/-- A delegate, DG 199-201. -/
structure D where
  storage : Sto
  callable : Option Ty
  manager : Option Ty
  deriving DecidableEq

/-- DG 117, 199-201 -/
def D.default : D := ⟨.blank, none, none⟩

/-- The delegates of a program, the callables stored and the blocks allocated: DG 199-201 and what DG 73-91
create and delete. -/
structure St where
  /-- the live delegates -/
  dels : Nat → Option D
  /-- the type of every callable ever stored -/
  objTy : Nat → Option Ty
  /-- how often its destructor ran -/
  dtors : Nat → Nat
  /-- the callable constructed in every block ever allocated -/
  blkObj : Nat → Option Nat
  /-- how often the block was freed -/
  frees : Nat → Nat
  /-- the next unused identity -/
  next : Nat
  /-- the callables invoked so far, latest first -/
  calls : List Nat

/-- Before the first delegate is made. Part of the model, not of the code. -/
def St.init : St := ⟨fun _ => none, fun _ => none, fun _ => 0, fun _ => none, fun _ => 0, 0, []⟩

/-- How a call ends; `badCall` is the exception of DG 179. Part of the model, not of the code. -/
inductive Res (β : Type) where
  | ok (b : β)
  | badCall (b : β)
  | ub

/-- The constructor of the callable runs, giving the object `s.next`. DG 76, 79. -/
def construct (ty : Ty) (s : St) : St :=
  { s with objTy := Function.update s.objTy s.next (some ty), next := s.next + 1 }

/-- Its destructor runs. Destroying what is not a live object of the type is undefined. DG 86, 89. -/
def destroyObj (ty : Ty) (o : Nat) (s : St) : Option St :=
  if s.objTy o = some ty ∧ s.dtors o = 0 then
    some { s with dtors := Function.update s.dtors o (s.dtors o + 1) }
  else none

/-- `create_functor`, DG 73-81 -/
def createFunctor (ty : Ty) (s : St) : St × Sto :=
  if ty.isLocal then (construct ty s, .inl s.next)
  else
    let s' := construct ty s
    ({ s' with blkObj := Function.update s'.blkObj s'.next (some s.next), next := s'.next + 1 }, .ptr s'.next)

/-- `FunctorManager::handle`, DG 65-71: the object designated. -/
def handleOf (ty : Ty) (s : St) (f : Sto) : Option Nat :=
  if ty.isLocal then
    match f with
    | .inl o => some o
    | _ => none
  else
    match f with
    | .ptr b => if s.frees b = 0 then s.blkObj b else none
    | _ => none

/-- `invoke`, DG 61-63: calling an object that is not a live object of the type is undefined. -/
def invoke (ty : Ty) (f : Sto) (s : St) : Option St :=
  match handleOf ty s f with
  | some o => if s.objTy o = some ty ∧ s.dtors o = 0 then some { s with calls := o :: s.calls } else none
  | none => none

/-- `destroy_functor`, DG 83-91 -/
def destroyFunctor (ty : Ty) (f : Sto) (s : St) : Option St :=
  if ty.isLocal then
    match f with
    | .inl o => destroyObj ty o s
    | _ => none
  else
    match f with
    | .ptr b =>
      match s.blkObj b with
      | some o =>
        if s.frees b = 0 then
          (destroyObj ty o s).map fun s => { s with frees := Function.update s.frees b (s.frees b + 1) }
        else none
      | none => none
    | _ => none

/-- `Delegate(Fn&&)`, DG 135-143; `isNull` is `is_empty_function(fn)` (DG 104-114). -/
def D.ofFn (ty : Ty) (isNull : Bool) (s : St) : St × D :=
  if isNull then (s, .default)
  else
    let (s, f) := createFunctor ty s
    (s, ⟨f, some ty, some ty⟩)

/-- `Delegate(Delegate&& other)`, DG 127-133: the new delegate and `other` afterwards. -/
def D.move (other : D) : D × D :=
  match other.manager with
  | some m => (⟨other.storage, other.callable, some m⟩, { other with manager := none })
  | none => (⟨.blank, other.callable, none⟩, other)

/-- `~Delegate`, DG 145-148 -/
def D.dtor (d : D) (s : St) : Option St :=
  match d.manager with
  | some ty => destroyFunctor ty d.storage s
  | none => some s

/-- `swap`, DG 184-188: `this` and `other` afterwards. -/
def D.swap (this other : D) : D × D :=
  (⟨other.storage, other.callable, other.manager⟩, ⟨this.storage, this.callable, this.manager⟩)

/-- `operator=(std::nullptr_t)`, DG 162-169 -/
def D.assignNull (d : D) (s : St) : Option (St × D) :=
  match d.manager with
  | some ty => (destroyFunctor ty d.storage s).map fun s => (s, { d with manager := none, callable := none })
  | none => some (s, d)

/-- `operator bool`, DG 150 -/
def D.toBool (d : D) : Bool := d.manager.isSome

/-- `operator()`, DG 177-182 -/
def D.call (d : D) (s : St) : Res St :=
  match d.manager with
  | none => .badCall s
  | some _ =>
    match d.callable with
    | none => .ub
    | some ty =>
      match invoke ty d.storage s with
      | some s => .ok s
      | none => .ub

/-- A pointer: to the storage of a delegate, to a block, or null. The result of DG 190-196. -/
inductive Ptr where
  | storage (i : Nat)
  | block (b : Nat)
  | null
  deriving DecidableEq

/-- `handle<ty>()` of delegate `i`, DG 190-196 -/
def D.handle (d : D) (i : Nat) (ty : Ty) : Ptr := if d.manager = some ty then .storage i else .null

/-- The callable that lies at an address. Part of the model, not of the code. -/
def St.objAt (s : St) : Ptr → Option Nat
  | .storage i =>
    match s.dels i with
    | some d =>
      match d.storage with
      | .inl o => some o
      | _ => none
    | none => none
  | .block b => s.blkObj b
  | .null => none

/-! ### What a client can do -/

/-- The public operations: DG 117-188. -/
inductive Op where
  /-- `Delegate d;` -/
  | default (i : Nat)
  /-- `Delegate d(fn);` -/
  | fn (i : Nat) (ty : Ty) (isNull : Bool)
  /-- `Delegate d(std::move(other));` -/
  | move (i j : Nat)
  /-- the end of `d` -/
  | dtor (i : Nat)
  /-- `d = std::move(other);` -/
  | assignMove (i j : Nat)
  /-- `d = nullptr;` -/
  | assignNull (i : Nat)
  /-- `d = fn;` -/
  | assignFn (i : Nat) (ty : Ty) (isNull : Bool)
  /-- `d.swap(other);` -/
  | swap (i j : Nat)
  /-- `d(args...)` -/
  | call (i : Nat)

/-- One delegate changes. Part of the model, not of the code. -/
def St.set (s : St) (i : Nat) (d : Option D) : St := { s with dels := Function.update s.dels i d }

/-- One step; `ub` also when the client uses a delegate that does not exist, or creates one that does. DG
117-196, as noted at each case. -/
def step (op : Op) (s : St) : Res St :=
  match op with
  | .default i =>
    match s.dels i with
    | none => .ok (s.set i (some .default))
    | some _ => .ub
  | .fn i ty isNull =>
    match s.dels i with
    | none =>
      let (s, d) := D.ofFn ty isNull s
      .ok (s.set i (some d))
    | some _ => .ub
  | .move i j =>
    match s.dels i, s.dels j with
    | none, some other =>
      let (d, other) := D.move other
      .ok ((s.set i (some d)).set j (some other))
    | _, _ => .ub
  | .dtor i =>
    match s.dels i with
    | some d =>
      match d.dtor s with
      | some s => .ok (s.set i none)
      | none => .ub
    | none => .ub
  | .assignMove i j =>
    -- DG 157-160: `other` is read and changed before `*this` is
    match s.dels i, s.dels j with
    | some _, some other =>
      let (tmp, other) := D.move other
      let s := s.set j (some other)
      match s.dels i with
      | some this =>
        let (tmp, this) := D.swap tmp this
        let s := s.set i (some this)
        match tmp.dtor s with
        | some s => .ok s
        | none => .ub
      | none => .ub
    | _, _ => .ub
  | .assignNull i =>
    match s.dels i with
    | some d =>
      match d.assignNull s with
      | some (s, d) => .ok (s.set i (some d))
      | none => .ub
    | none => .ub
  | .assignFn i ty isNull =>
    -- DG 171-175
    match s.dels i with
    | some this =>
      let (s, tmp) := D.ofFn ty isNull s
      let (tmp, this) := D.swap tmp this
      let s := s.set i (some this)
      match tmp.dtor s with
      | some s => .ok s
      | none => .ub
    | none => .ub
  | .swap i j =>
    match s.dels i, s.dels j with
    | some this, some other =>
      let (this, other) := D.swap this other
      .ok ((s.set i (some this)).set j (some other))
    | _, _ => .ub
  | .call i =>
    match s.dels i with
    | some d => d.call s
    | none => .ub

end Verif.Delegate
