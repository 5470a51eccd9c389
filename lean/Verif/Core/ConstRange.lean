import Mathlib.Logic.Basic

/-!
# Ranges made constant

CI stands for `include/xme/core/iterators/const_iterator.hpp`. The iterator is any input iterator, which may yield each element only
once, whose operations may have effects and throw; the sentinel is of any type that `std::sentinel_for` accepts.

Simplifications: copying an iterator neither throws nor has effects; the reference type of the iterator is a reference, so that making
it constant does not convert.
-/

set_option autoImplicit false

namespace Verif.ConstRange

/-- How a call ends, and the state of the program then. Part of the model, not of the code. -/
inductive Out (σ β : Type) where
  | ok (b : β) (s : σ)
  | threw (s : σ)
  | terminated (s : σ)
  deriving DecidableEq

/-- Computations with effects. Part of the model, not of the code. -/
def M (σ β : Type) : Type := σ → Out σ β

variable {σ β γ I J α : Type}

/-- Sequencing. Part of the model, not of the code. -/
def M.bind (m : M σ β) (f : β → M σ γ) : M σ γ := fun s =>
  match m s with
  | .ok b s => f b s
  | .threw s => .threw s
  | .terminated s => .terminated s

instance : Monad (M σ) where
  pure b := fun s => .ok b s
  bind := M.bind

/-- A function declared `noexcept`: CI 47-136. -/
def noexc (m : M σ β) : M σ β := fun s =>
  match m s with
  | .threw s => .terminated s
  | o => o

/-- What a program calls of an iterator of type `I` and its sentinel of type `J`. Part of the model, not of the code. -/
structure Range (σ I J α : Type) where
  /-- `*first` -/
  star : I → M σ α
  /-- `++first`: the new iterator -/
  inc : I → M σ I
  /-- `first == last` -/
  eq : I → J → M σ Bool
  /-- `last == first` -/
  eqRev : J → I → M σ Bool

/-- What CI asks of the two types. CI 205, 213. -/
structure Kinds where
  /-- `CConstantIterator` of the iterator -/
  firstConst : Bool
  /-- `std::input_iterator` of the sentinel -/
  lastIter : Bool
  /-- `CConstantIterator` of the sentinel, if it is an iterator -/
  lastConst : Bool

/-- An iterator or sentinel, in a `ConstIterator` or not: CI 199-200. -/
inductive Made (X : Type) where
  | plain (x : X)
  | wrapped (m_current : X)

/-- `make_const_iterator`, CI 203-209. -/
def makeConstIterator {X : Type} (constant : Bool) (it : X) : Made X := if constant then .plain it else .wrapped it

/-- `make_const_sentinel`, CI 211-217. -/
def makeConstSentinel {X : Type} (iterator constant : Bool) (it : X) : Made X :=
  if iterator then makeConstIterator constant it else .plain it

/-- `*first`; for a wrapper CI 54. -/
def star (R : Range σ I J α) : Made I → M σ α
  | .plain it => R.star it
  | .wrapped it => noexc (R.star it)

/-- `++first`; for a wrapper CI 56-59. -/
def inc (R : Range σ I J α) : Made I → M σ (Made I)
  | .plain it => do
    let it ← R.inc it
    pure (.plain it)
  | .wrapped it => noexc do
    let it ← R.inc it
    pure (.wrapped it)

/-- `first == last`; with wrappers CI 133-136. If only `last` is one, the call is rewritten to `last == first`; if both are, CI 133-136
calls itself with the sides exchanged. -/
def eq (R : Range σ I J α) : Made I → Made J → M σ Bool
  | .plain it, .plain l => R.eq it l
  | .wrapped it, .plain l => noexc (R.eq it l)
  | .plain it, .wrapped l => noexc (R.eqRev l it)
  | .wrapped it, .wrapped l => noexc (noexc (R.eqRev l it))

/-- `for(; first != last; ++first) visit(*first);`. A client's loop over CI 54-136. -/
def loop (R : Range σ I J α) (visit : α → M σ Unit) (last : Made J) : Nat → Made I → M σ Unit
  | 0, _ => fun s => .terminated s
  | fuel + 1, first => do
    let e ← eq R first last
    if e then pure ()
    else do
      let x ← star R first
      visit x
      let first ← inc R first
      loop R visit last fuel first

/-- The loop over the range made constant. Calls CI 203-217. -/
def constLoop (R : Range σ I J α) (k : Kinds) (visit : α → M σ Unit) (fuel : Nat) (first : I) (last : J) : M σ Unit :=
  loop R visit (makeConstSentinel k.lastIter k.lastConst last) fuel (makeConstIterator k.firstConst first)

end Verif.ConstRange
