import Verif.Hal.SharedLibrary

/-!
# Plugins

Client code: a list of `SharedLibrary` objects. SL stands for `include/xme/hal/shared_library.hpp`. Object 0 is a local variable
and object `k + 1` the element with index `k` of the list; that the list itself may move its elements to other places, which leaves their
handles in order, is not modelled.
-/

set_option autoImplicit false

namespace Verif.Lib

/-- What the client does. Part of the model, not of the code. -/
inductive Cmd
  /-- the system finds the library or does not -/
  | load (found : Bool)
  | unload (k : Nat)

/-- `SharedLibrary lib(name); if(lib.is_open()) plugins.push_back(std::move(lib));`, and `lib` ends. Calls SL 17-19, 28-38. -/
def load (n : Nat) (found : Bool) (s : St) : Option (Nat × St) :=
  (step (.newOpen 0 found) s).bind fun s =>
    match s.objs 0 with
    | some l =>
      if isOpen l then (run [.newMove (n + 1) 0, .destroy 0] s).map fun s => (n + 1, s)
      else (run [.destroy 0] s).map fun s => (n, s)
    | none => none

/-- `plugins[k] = std::move(plugins.back()); plugins.pop_back();`. Calls SL 23-33. -/
def unload (n k : Nat) (s : St) : Option (Nat × St) :=
  (run [.moveAssign (k + 1) n, .destroy n] s).map fun s => (n - 1, s)

/-- Some of these; `n` is the size of the list. Part of the model, not of the code. -/
def host : List Cmd → Nat → St → Option (Nat × St)
  | [], n, s => some (n, s)
  | .load found :: cs, n, s => (load n found s).bind fun r => host cs r.1 r.2
  | .unload k :: cs, n, s => if k < n then (unload n k s).bind fun r => host cs r.1 r.2 else host cs n s

/-- The list ends: its elements are destroyed, the first one first. Calls SL 30-33. -/
def endList (n : Nat) (s : St) : Option St := run ((List.range n).map fun k => .destroy (k + 1)) s

end Verif.Lib
