import Verif.Hal.Env
import Verif.Hal.SharedLibrary

/-!
# Names in `SharedLibrary`

SL stands for `include/xme/hal/shared_library.hpp`, on Linux. `SharedLibrary.lean` says which handles are opened and
closed; here it is said which library a handle stands for and what `proc_address` finds in it. Names are string views, of
which the system gets `data()`. `dlopen` and `dlsym` are modelled by their descriptions: what can be loaded and the symbols
in it, those of dependencies included, are given and do not change. A null handle is `RTLD_DEFAULT`, for which `dlsym`
searches the global symbols.
-/

set_option autoImplicit false

namespace Verif.Lib

open Verif.Env (Str SV)

/-- The system: the symbols of every library that can be loaded, by its name, and the global symbols. Part of the model,
not of the code. -/
structure Sys where
  libs : Str → Option (Str → Option Nat)
  global : Str → Option Nat

/-- The objects with their handles, and the names the handles were opened with. SL 66. -/
structure NSt where
  lib : St
  names : Nat → Str

/-- Before the first object is made. Part of the model, not of the code. -/
def NSt.init : NSt := ⟨.init, fun _ => []⟩

/-- `dlopen(name)` gave the next handle if it succeeded. Called at SL 43. -/
def NSt.opened (s : NSt) (l : St) (ok : Bool) (n : Str) : NSt :=
  ⟨l, if ok then Function.update s.names s.lib.next n else s.names⟩

/-- The operations with their names: SL 13-52. -/
inductive NOp
  | new (i : Nat)
  | newOpen (i : Nat) (name : SV)
  | newMove (i j : Nat)
  | moveAssign (i j : Nat)
  | open_ (i : Nat) (name : SV)
  | close (i : Nat)
  | destroy (i : Nat)

/-- One operation; `none` if it cannot be written or is undefined. SL 13-52. -/
def nstep (S : Sys) (op : NOp) (s : NSt) : Option NSt :=
  match op with
  -- SL 13
  | .new i => (step (.new i) s.lib).map fun l => ⟨l, s.names⟩
  -- SL 28
  | .newOpen i name => do
    let n ← name.data
    let l ← step (.newOpen i (S.libs n).isSome) s.lib
    pure (s.opened l (S.libs n).isSome n)
  -- SL 17-19
  | .newMove i j => (step (.newMove i j) s.lib).map fun l => ⟨l, s.names⟩
  -- SL 23-26
  | .moveAssign i j => (step (.moveAssign i j) s.lib).map fun l => ⟨l, s.names⟩
  -- SL 40-45
  | .open_ i name => do
    let n ← name.data
    let l ← step (.open_ i (S.libs n).isSome) s.lib
    pure (s.opened l (S.libs n).isSome n)
  -- SL 47-52
  | .close i => (step (.close i) s.lib).map fun l => ⟨l, s.names⟩
  -- SL 30-33
  | .destroy i => (step (.destroy i) s.lib).map fun l => ⟨l, s.names⟩

/-- How a look-up ends: the address, where `none` is a null pointer; undefined behaviour; a call that does not compile.
Part of the model, not of the code. -/
inductive Found
  | addr (a : Option Nat)
  | ub
  | illFormed
  deriving DecidableEq

/-- `dlsym(handle, name)`: a closed handle must not be used. Called at SL 59. -/
def dlsym (S : Sys) (s : NSt) (h : Option Nat) (name : Str) : Found :=
  match h with
  | none => .addr (S.global name)
  | some x =>
    if s.lib.closes x = 0 then
      match S.libs (s.names x) with
      | some syms => .addr (syms name)
      | none => .ub
    else .ub

/-- `proc_address<T>(function)`, SL 54-61, of an object that holds `h`: the result of type `T` is returned as a `void*`,
to which pointers to functions do not convert. -/
def procAddress (S : Sys) (s : NSt) (isFunctionPointer : Bool) (h : Option Nat) (function : SV) : Found :=
  if isFunctionPointer then .illFormed
  else match function.data with
    | some n => dlsym S s h n
    | none => .ub

end Verif.Lib
