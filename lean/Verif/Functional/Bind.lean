import Verif.Tuple.Model

/-!
# Model of `bind_front` and `bind_back`

BD stands for `include/xme/core/functional/bind.hpp`. The bound arguments live in a `Tuple` (BD 66-68, 128-130), whose
model is `Verif.Tup`: a list of places. A callable is given references (place, constness, value category) and its own
constness and value category; what it does with them is arbitrary (`γ` may be a function of the memory). The types of
the arguments and `noexcept` are not modelled. The C++23 forms `bindFront<f>`, `bindBack<f>` (BD 145-154, 168-178) are
not modelled: they call `forwardLike`, which does not exist.
-/

set_option autoImplicit false

namespace Verif.Bind

open Verif.Tup (Loc Mem Tuple)

variable {α γ : Type}

/-- Constness and value category of an expression. The deduced `T` of BD 55-62 and 117-125. -/
structure Q where
  rvalue : Bool
  const : Bool
  deriving DecidableEq

/-- A reference to an object: an argument `get<I>(...)` or `std::forward<...>(args)` of BD 61 and 124. -/
structure Ref where
  loc : Loc
  q : Q
  deriving DecidableEq

/-- A callable object: what an invocation of it, as an expression of the given category, with the given
arguments does. BD 66, 128. -/
abbrev Fn (γ : Type) := Q → List Ref → γ

/-- `m_callable` and `m_bound_args`, BD 65-68 and 127-130. -/
structure Binder (γ : Type) where
  callable : Fn γ
  bound : Tuple

/-- The overloads of `get` for `Tuple`, `tuple.hpp` 57-70: `&`, `const &` and `&&`; a `const &&` tuple goes to
`const &`. -/
def getQ (q : Q) : Q :=
  if q.rvalue && !q.const then ⟨true, false⟩ else ⟨false, q.const⟩

/-- `get<I>(std::forward<T>(self).m_bound_args)...`, BD 61 and 124 -/
def boundArgs (self : Binder γ) (q : Q) : List Nat → Option (List Ref)
  | [] => some []
  | i :: is => do
    let l ← Verif.Tup.get i self.bound
    let rest ← boundArgs self q is
    pure (⟨l, getQ q⟩ :: rest)

/-- `BindFront::call`, BD 54-63 -/
def callFront (self : Binder γ) (q : Q) (is : List Nat) (args : List Ref) : Option γ := do
  let bs ← boundArgs self q is
  pure (self.callable q (bs ++ args))

/-- `BindBack::call`, BD 116-125 -/
def callBack (self : Binder γ) (q : Q) (is : List Nat) (args : List Ref) : Option γ := do
  let bs ← boundArgs self q is
  pure (self.callable q (args ++ bs))

/-- The four `operator()` of `BindFront`, BD 29-52: `*this` keeps its constness and category. -/
def Binder.front (self : Binder γ) (q : Q) (args : List Ref) : Option γ :=
  callFront self q (List.range self.bound.length) args

/-- The four `operator()` of `BindBack`, BD 91-114. -/
def Binder.back (self : Binder γ) (q : Q) (args : List Ref) : Option γ :=
  callBack self q (List.range self.bound.length) args

/-- `bind_front` and `bind_back`, BD 134-143 and 157-166, with the constructors BD 19-23 and 81-85: the arguments are
copied (or moved) into the new tuple, whose places are `places`. A move leaves the source as it was as far as this
model goes. -/
def bind (f : Fn γ) (places : Tuple) (args : List Ref) (m : Mem α) : Option (Binder γ × Mem α) := do
  let m ← Verif.Tup.construct places (args.map fun r => m r.loc) m
  pure (⟨f, places⟩, m)

end Verif.Bind
