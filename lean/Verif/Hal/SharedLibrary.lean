import Mathlib.Logic.Function.Basic

/-!
# Model of `SharedLibrary`

SL stands for `include/xme/hal/shared_library.hpp`, on Linux. Each successful `dlopen` gives a handle of its own, which
must be given to `dlclose` once (for a library opened twice the system counts; the handles here are the counts).
Whether `dlopen` succeeds is given with the call. `dlsym` and the names are in `Symbols.lean`.
-/

set_option autoImplicit false

namespace Verif.Lib

/-- The objects of a program and what they told the system. SL 66. -/
structure St where
  /-- `m_library` of the objects that exist, SL 66 -/
  objs : Nat → Option (Option Nat)
  /-- number of successful `dlopen` calls -/
  next : Nat
  /-- how often each handle was given to `dlclose` -/
  closes : Nat → Nat
  /-- how often a null pointer was -/
  nullCloses : Nat

/-- Before the first object is made. Part of the model, not of the code. -/
def St.init : St := ⟨fun _ => none, 0, fun _ => 0, 0⟩

/-- The public operations: SL 13-52. -/
inductive Op
  | new (i : Nat)
  | newOpen (i : Nat) (ok : Bool)
  | newMove (i j : Nat)
  | moveAssign (i j : Nat)
  | open_ (i : Nat) (ok : Bool)
  | close (i : Nat)
  | destroy (i : Nat)

/-- One object changes. Part of the model, not of the code. -/
def St.set (s : St) (i : Nat) (l : Option (Option Nat)) : St := { s with objs := Function.update s.objs i l }

/-- `dlopen` Called at SL 43. -/
def dlopen (ok : Bool) (s : St) : St × Option Nat :=
  if ok then ({ s with next := s.next + 1 }, some s.next) else (s, none)

/-- `dlclose` Called at SL 50. -/
def dlclose (l : Option Nat) (s : St) : St :=
  match l with
  | some h => { s with closes := Function.update s.closes h (s.closes h + 1) }
  | none => { s with nullCloses := s.nullCloses + 1 }

/-- `is_open`, SL 36-38 -/
def isOpen (l : Option Nat) : Bool := l.isSome

/-- `open`, SL 40-45 -/
def doOpen (i : Nat) (ok : Bool) (s : St) : St :=
  let r := dlopen ok s
  r.1.set i (some r.2)

/-- `close`, SL 47-52 -/
def doClose (l : Option Nat) (s : St) : St := dlclose l s

/-- One operation; `none` if it cannot be written: an object is made where there is one or used where there is
none. SL 13-52, as noted at each case. -/
def step (op : Op) (s : St) : Option St :=
  match op with
  -- SL 13
  | .new i => match s.objs i with
    | none => some (s.set i (some none))
    | some _ => none
  -- SL 28
  | .newOpen i ok => match s.objs i with
    | none => some (doOpen i ok (s.set i (some none)))
    | some _ => none
  -- SL 17-19
  | .newMove i j => match s.objs i, s.objs j with
    | none, some l => some ((s.set i (some l)).set j (some none))
    | _, _ => none
  -- SL 23-26
  | .moveAssign i j => match s.objs i, s.objs j with
    | some l, some l' => some ((s.set i (some l')).set j (some l))
    | _, _ => none
  | .open_ i ok => match s.objs i with
    | some _ => some (doOpen i ok s)
    | none => none
  | .close i => match s.objs i with
    | some l => some (doClose l s)
    | none => none
  -- SL 30-33
  | .destroy i => match s.objs i with
    | some l => some ((if isOpen l then doClose l s else s).set i none)
    | none => none

/-- A program. Part of the model, not of the code. -/
def run : List Op → St → Option St
  | [], s => some s
  | op :: ops, s => (step op s).bind (run ops)

end Verif.Lib
