import Mathlib.Data.List.Basic

/-!
# Model of `ScopedDelegate`

SD stands for `include/xme/core/functional/scoped_delegate.hpp`. A scoped delegate holds a copy of the callable it was
given (SD 11, 13) and its destructor calls it (SD 15). It cannot be copied or moved: both assignments are deleted (SD
17, 19), which deletes the copy constructor and leaves no move constructor. So what can be done with one is to declare
it in a scope. A program is the path an execution takes through nested scopes; loops and branches appear as what they
did. The language rule modelled is that the objects of a scope are destroyed in reverse order of construction when it
is left, whichever way that happens, and that an exception leaving a `noexcept` destructor ends the program.
-/

set_option autoImplicit false

namespace Verif.Scoped

/-- What the callable does when called: `tag` tells callables apart. SD 8. -/
structure Callable where
  tag : Nat
  throws : Bool
  deriving DecidableEq

/-- A scoped delegate, SD 21-23; `id` numbers them in order of construction. -/
structure Obj where
  id : Nat
  m_callable : Callable
  deriving DecidableEq

/-- What can be observed. Part of the model, not of the code. -/
inductive Ev
  | made (id tag : Nat)
  | ran (id tag : Nat)
  | act (n : Nat)
  deriving DecidableEq

/-- The rest of a scope. A client of SD 8-24; not part of the code. -/
inductive Prog
  /-- its end -/
  | done
  /-- any other statement, which may throw -/
  | act (n : Nat) (throws : Bool) (rest : Prog)
  /-- `ScopedDelegate x(f);` -/
  | decl (f : Callable) (rest : Prog)
  /-- `{ body }` -/
  | block (body rest : Prog)
  /-- `try { body } catch(...) { handler }` -/
  | tryCatch (body handler rest : Prog)
  /-- `return;` (also `break`, `continue` and `goto` as far as they leave all scopes shown) -/
  | ret
  deriving DecidableEq

/-- How a scope is left. Part of the model, not of the code. -/
inductive Exit
  | normal | returned | exn | terminated
  deriving DecidableEq

/-- What happened until a scope was left. Part of the model, not of the code. -/
structure Out where
  trace : List Ev
  next : Nat
  exit : Exit
  deriving DecidableEq

/-- SD 11 and 13: the callable is copied or moved into the object. -/
def construct (id : Nat) (f : Callable) : Obj := ⟨id, f⟩

/-- SD 15: `~ScopedDelegate() noexcept { m_callable(); }`; true if the program was ended. -/
def destruct (o : Obj) : List Ev × Bool := ([.ran o.id o.m_callable.tag], o.m_callable.throws)

/-- Leaving a scope: its objects, the last constructed first. The C++ rule for automatic objects; each runs SD
15. -/
def unwind : List Obj → List Ev × Bool
  | [] => ([], false)
  | o :: os =>
    match destruct o with
    | (t, true) => (t, true)
    | (t, false) => (t ++ (unwind os).1, (unwind os).2)

/-- Leaving a scope with `e`. Part of the model, not of the code. -/
def leave (objs : List Obj) (next : Nat) (e : Exit) : Out :=
  match unwind objs with
  | (t, true) => ⟨t, next, .terminated⟩
  | (t, false) => ⟨t, next, e⟩

/-- The same with events before it. Part of the model, not of the code. -/
def Out.before (t : List Ev) (o : Out) : Out := ⟨t ++ o.trace, o.next, o.exit⟩

/-- Execution of the rest of a scope; `objs` are its objects so far. C++ semantics of the client; it runs SD
11-15. -/
def exec : Prog → Nat → List Obj → Out
  | .done, n, objs => leave objs n .normal
  | .act a throws rest, n, objs =>
    if throws then (leave objs n .exn).before [.act a] else (exec rest n objs).before [.act a]
  | .decl f rest, n, objs => (exec rest (n + 1) (construct n f :: objs)).before [.made n f.tag]
  | .block body rest, n, objs =>
    let b := exec body n []
    match b.exit with
    | .normal => (exec rest b.next objs).before b.trace
    | .terminated => b
    | e => (leave objs b.next e).before b.trace
  | .tryCatch body handler rest, n, objs =>
    let b := exec body n []
    match b.exit with
    | .normal => (exec rest b.next objs).before b.trace
    | .terminated => b
    | .returned => (leave objs b.next .returned).before b.trace
    | .exn =>
      let h := exec handler b.next []
      match h.exit with
      | .normal => (exec rest h.next objs).before (b.trace ++ h.trace)
      | .terminated => h.before b.trace
      | e => (leave objs h.next e).before (b.trace ++ h.trace)
  | .ret, n, objs => leave objs n .returned

end Verif.Scoped
