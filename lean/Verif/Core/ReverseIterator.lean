import Mathlib.Data.List.Basic
import Mathlib.Order.Defs.LinearOrder

/-!
# Model of `ReverseIterator`

RI stands for `include/xme/core/iterators/reverse_iterator.hpp`. The underlying iterator `It` is a pointer (or any
random-access iterator) into a sequence of `n` elements: a position from 0 to `n`; leaving that range is undefined
behaviour (`none`). A bidirectional iterator is the same with steps of one only. `operator->` is modelled by the
position it designates.
-/

set_option autoImplicit false

namespace Verif.RevIt

variable {α : Type}

/-- Arithmetic of the underlying iterator. RI 34-120. -/
def move (n : Nat) (p : Nat) (k : Int) : Option Nat :=
  let q := (p : Int) + k
  if 0 ≤ q ∧ q ≤ n then some q.toNat else none

/-- Dereferencing the underlying iterator. RI 44-46. -/
def deref (xs : List α) (p : Nat) : Option α := xs[p]?

/-- RI 138-139, constructed by RI 28. -/
structure It where
  m_current : Nat
  deriving DecidableEq

/-- `operator->`, RI 33-40: the position pointed to. -/
def It.arrow (n : Nat) (it : It) : Option Nat := move n it.m_current (-1)

/-- `operator*`, RI 41-48 -/
def It.star (xs : List α) (it : It) : Option α := (move xs.length it.m_current (-1)).bind (deref xs)

/-- `operator++`, RI 50-53 -/
def It.inc (n : Nat) (it : It) : Option It := (move n it.m_current (-1)).map It.mk

/-- `operator++(int)`, RI 55-59: the returned and the changed iterator. -/
def It.postInc (n : Nat) (it : It) : Option (It × It) := (it.inc n).map fun i => (it, i)

/-- `operator--`, RI 61-64 -/
def It.dec (n : Nat) (it : It) : Option It := (move n it.m_current 1).map It.mk

/-- `operator--(int)`, RI 66-70 -/
def It.postDec (n : Nat) (it : It) : Option (It × It) := (it.dec n).map fun i => (it, i)

/-- `operator+` both ways round and `operator+=`, RI 72-82 and 102-107 -/
def It.add (n : Nat) (it : It) (k : Int) : Option It := (move n it.m_current (-k)).map It.mk

/-- `operator-` of a number and `operator-=`, RI 84-88 and 109-114 -/
def It.sub (n : Nat) (it : It) (k : Int) : Option It := (move n it.m_current k).map It.mk

/-- `operator-` of a number and an iterator, in this order, RI 90-94. Adding to the underlying iterator is symmetric. -/
def It.rsub (n : Nat) (k : Int) (it : It) : Option It := (move n it.m_current k).map It.mk

/-- `operator-` of two iterators, RI 96-100 -/
def It.diff (lhs rhs : It) : Int := (rhs.m_current : Int) - lhs.m_current

/-- `operator[]`, RI 116-120 -/
def It.index (xs : List α) (it : It) (k : Int) : Option α := (it.add xs.length k).bind fun i => i.star xs

/-- The defaulted `operator==`, RI 122 -/
def It.eq (lhs rhs : It) : Bool := lhs.m_current == rhs.m_current

/-- The defaulted `operator<=>`, RI 124 -/
def It.cmp (lhs rhs : It) : Ordering := compare lhs.m_current rhs.m_current

/-- `operator==` of iterators of different types, RI 126-130 -/
def It.eqMixed (n : Nat) (lhs rhs : It) : Option Bool := do
  let l ← lhs.arrow n
  let r ← rhs.arrow n
  pure (l == r)

/-- `operator<=>` of iterators of different types, RI 132-136 -/
def It.cmpMixed (n : Nat) (lhs rhs : It) : Option Ordering := do
  let l ← lhs.arrow n
  let r ← rhs.arrow n
  pure (compare l r)

/-- A loop over `[first, last)`: `for(; first != last; ++first) visit(*first)`. A client's loop over RI 33-136.
-/
def traverse (xs : List α) : Nat → It → It → Option (List α)
  | 0, _, _ => none
  | fuel + 1, first, last =>
    if first.eq last then some [] else do
      let x ← first.star xs
      let first ← first.inc xs.length
      let r ← traverse xs fuel first last
      pure (x :: r)

end Verif.RevIt
