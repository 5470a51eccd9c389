import Verif.Core.ReverseIterator

/-!
# Model of `ConstIterator`

CI stands for `include/xme/core/iterators/const_iterator.hpp`.  The underlying iterator is a random-access iterator
into a sequence of `n` elements as in `Verif.Core.ReverseIterator`: a position from 0 to `n`, `none` where it would
leave that range.  Not modelled: CI 40-41, the conversion from a wrapper of another iterator type, which initialises
`m_current` with the wrapper and therefore does not compile.
-/

set_option autoImplicit false

namespace Verif.ConstIt

open Verif.RevIt (move deref)

variable {α : Type}

/-- CI 199-201. -/
structure It where
  m_current : Nat
  deriving DecidableEq

/-- The constructors from the underlying iterator (CI 38) and from anything that converts to it (CI 43-45), and
`make_const_iterator` (CI 203-209) for an iterator that is not constant already. -/
def It.of (p : Nat) : It := ⟨p⟩

/-- `operator->`, CI 47-52: the position pointed to. -/
def It.arrow (it : It) : Nat := it.m_current

/-- `operator*`, CI 54. -/
def It.star (xs : List α) (it : It) : Option α := deref xs it.m_current

/-- `operator++`, CI 56-59. -/
def It.inc (n : Nat) (it : It) : Option It := (move n it.m_current 1).map It.of

/-- `operator++(int)`, CI 61-67: the returned and the changed iterator. -/
def It.postInc (n : Nat) (it : It) : Option (It × It) := (it.inc n).map fun i => (it, i)

/-- `operator--`, CI 69-74. -/
def It.dec (n : Nat) (it : It) : Option It := (move n it.m_current (-1)).map It.of

/-- `operator--(int)`, CI 76-82. -/
def It.postDec (n : Nat) (it : It) : Option (It × It) := (it.dec n).map fun i => (it, i)

/-- `operator+` both ways round and `operator+=`, CI 84-95 and 115-120. -/
def It.add (n : Nat) (it : It) (k : Int) : Option It := (move n it.m_current k).map It.of

/-- `operator-` of a number and `operator-=`, CI 97-101 and 122-127. -/
def It.sub (n : Nat) (it : It) (k : Int) : Option It := (move n it.m_current (-k)).map It.of

/-- `it - sent`, `sent` an underlying iterator: CI 103-106. -/
def It.diffUnder (it : It) (sent : Nat) : Int := (it.m_current : Int) - sent

/-- `sent - it`, `sent` an underlying iterator: CI 108-113. -/
def underDiff (sent : Nat) (it : It) : Int := (sent : Int) - it.m_current

/-- `operator-` of two wrappers: CI 103-106, where `m_current - sent` is CI 108-113 in turn. -/
def It.diff (lhs rhs : It) : Int := underDiff lhs.m_current rhs

/-- `operator[]`, CI 129-131. -/
def It.index (xs : List α) (it : It) (k : Int) : Option α := (move xs.length it.m_current k).bind (deref xs)

/-- `it == sent`, `sent` an underlying iterator: CI 133-136. -/
def It.eqUnder (it : It) (sent : Nat) : Bool := it.m_current == sent

/-- `operator==` of two wrappers: CI 133-136, where `m_current == sent` is rewritten to `sent == m_current`. -/
def It.eq (lhs rhs : It) : Bool := rhs.eqUnder lhs.m_current

/-- `operator<`, CI 138-142; with an underlying iterator on the right, CI 168-172. -/
def It.lt (lhs rhs : It) : Bool := lhs.m_current < rhs.m_current

/-- `operator>`, CI 144-148 and 174-178. -/
def It.gt (lhs rhs : It) : Bool := lhs.m_current > rhs.m_current

/-- `operator<=`, CI 150-154 and 180-184. -/
def It.le (lhs rhs : It) : Bool := lhs.m_current ≤ rhs.m_current

/-- `operator>=`, CI 156-160 and 186-190. -/
def It.ge (lhs rhs : It) : Bool := lhs.m_current ≥ rhs.m_current

/-- `operator<=>`, CI 162-166 and 192-197. -/
def It.cmp (lhs rhs : It) : Ordering := compare lhs.m_current rhs.m_current

/-- A loop over `[first, last)`: `for(; first != last; ++first) visit(*first)`. A client's loop over CI 54-136. -/
def traverse (xs : List α) : Nat → It → It → Option (List α)
  | 0, _, _ => none
  | fuel + 1, first, last =>
    if first.eq last then some [] else do
      let x ← first.star xs
      let first ← first.inc xs.length
      let r ← traverse xs fuel first last
      pure (x :: r)

/-- What a reference type is, apart from the type of the object: the kind and whether it is to `const`. The
`iter_reference_t` of iterator_traits.hpp 5-7. -/
inductive Ref
  /-- `T&` or `const T&` -/
  | lvalue (const : Bool)
  /-- `T&&` or `const T&&` -/
  | rvalue (const : Bool)
deriving DecidableEq, Repr

/-- `iter_const_reference_t`: `std::common_reference_t<const V&&, R>` for an iterator whose reference type `R` is a
reference to its value type: iterator_traits.hpp 5-7.  The standard gives `const V&` for an lvalue and `const V&&` for
an rvalue reference.  Iterators returning values or proxies are left out. -/
def constReference : Ref → Ref
  | .lvalue _ => .lvalue true
  | .rvalue _ => .rvalue true

/-- `CConstantIterator`: constant_iterator.hpp 7-9. -/
def isConstant (r : Ref) : Bool := constReference r == r

/-- The reference type of the result of `make_const_iterator`: CI 203-209 with CI 13 and 54. -/
def madeReference (r : Ref) : Ref := if isConstant r then r else constReference r

end Verif.ConstIt
