import Verif.Functional.Bind

/-!
# Model of binding arguments whose copies throw

BD stands for `include/xme/core/functional/bind.hpp`. `Verif.Functional.Bind` takes copying and moving a callable or a
bound argument to succeed; here either may throw. The members of a binder are its callable and its bound arguments
(BD 65-68, 127-130), initialised in this order; the tuple is initialised element by element (BD 23, 85). The language
rules modelled: if the initialisation of a member throws, the members made before it are destroyed, the last first,
and the exception leaves the constructor; an exception that leaves a `noexcept` function ends the program. The binder
that `bind_front` and `bind_back` return is the one they construct (BD 141, 164), with no copy. The stored types are the
decayed types of the arguments; arguments that decay to something else (arrays, functions) are not modelled: copying
the pointer they become does not throw.
-/

set_option autoImplicit false

namespace Verif.Bind

/-- Which constructors of a type are declared not to throw: from `const X&` and from `X&&`. What
`std::is_nothrow_constructible_v` asks for in BD 21-22 and 83-84. -/
structure Traits where
  nothrowCopy : Bool
  nothrowMove : Bool
  deriving DecidableEq

/-- The initialisation of one member: its type, the expression it is initialised with (`std::forward<...>(...)` of BD
23 and 85), and whether this initialisation throws. -/
structure Init where
  t : Traits
  q : Q
  throws : Bool
  deriving DecidableEq

/-- The move constructor takes rvalues that are not const, the copy constructor takes the others. The C++ rule for BD 23
and 85. -/
def Init.moves (m : Init) : Bool := m.q.rvalue && !m.q.const

/-- A constructor declared not to throw does not throw. The C++ rule for BD 23 and 85. -/
def Init.Legal (m : Init) : Prop :=
  m.throws = true → (if m.q.rvalue = true ∧ m.q.const = false then m.t.nothrowMove else m.t.nothrowCopy) = false

/-- `std::is_nothrow_constructible_v<Args, BoundArgs>` (BD 84), and `<F, Fn>` (BD 21, 83): the stored type from the
argument. -/
def nothrowStored (m : Init) : Bool := if m.moves then m.t.nothrowMove else m.t.nothrowCopy

/-- `std::is_nothrow_constructible_v<BoundArgs, Args>`, BD 22: the type deduced for the argument (`X&`, `const X&`, `X` or
`const X`) from an rvalue of the stored type `X`. An `X&` cannot be made from it; a `const X&` is bound to it, which
does not throw. -/
def nothrowDeduced (m : Init) : Bool :=
  if m.q.rvalue then m.t.nothrowMove else m.q.const

/-- What can be observed: member `k` comes into being or is destroyed. Part of the model, not of the code. -/
inductive BEv
  | made (k : Nat)
  | destroyed (k : Nat)
  deriving DecidableEq

/-- How a call ends. Part of the model, not of the code. -/
inductive BRes
  | ok (t : List BEv)
  | threw (t : List BEv)
  | terminated
  deriving DecidableEq

/-- The members are initialised in order; `k` are there already. The C++ rule for BD 23 and 85. -/
def initAll : List Init → Nat → BRes
  | [], k => .ok ((List.range k).map .made)
  | m :: ms, k =>
    if m.throws then .threw ((List.range k).map .made ++ ((List.range k).map .destroyed).reverse)
    else initAll ms (k + 1)

/-- A function with the exception specification `ne`. The C++ rule. -/
def underNoexcept (ne : Bool) : BRes → BRes
  | .threw t => if ne then .terminated else .threw t
  | r => r

/-- `bind_front(f, args...)`: BD 134-143 with the constructor BD 19-23. -/
def bindFrontT (f : Init) (args : List Init) : BRes :=
  underNoexcept (nothrowStored f && args.all nothrowDeduced) (initAll (f :: args) 0)

/-- `bind_back(f, args...)`: BD 157-166 with the constructor BD 81-85. -/
def bindBackT (f : Init) (args : List Init) : BRes :=
  underNoexcept (nothrowStored f && args.all nothrowStored) (initAll (f :: args) 0)

/-- The copy and move constructors of both binders, BD 15-17 and 77-79, `noexcept = default`: every member is
initialised from the same member of the other binder, a const lvalue or an rvalue. -/
def binderCopyT (f : Init) (args : List Init) : BRes := underNoexcept true (initAll (f :: args) 0)

end Verif.Bind
