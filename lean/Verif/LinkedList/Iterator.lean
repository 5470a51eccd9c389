import Verif.LinkedList.Props

/-!
# Model of the iterators of `LinkedList`

LB stands for `private/container/linked_list_base.hpp`, LL for `include/xme/container/linked_list.hpp`. An iterator of
either constness holds a pointer to a node (LB 56, 104), as in `Verif.LinkedList.Model`. The order `<=>` (LB 52, 100)
compares addresses; here it is that of the numbers of the nodes, and it says nothing about list objects.
-/

set_option autoImplicit false

namespace Verif.LL

variable {α : Type}

/-- The iterators, LB 15-57 and 60-105; constructed from a pointer (LB 31, 76). -/
structure Iter where
  current_node : Ptr
  deriving DecidableEq

/-- `iterator()` and `const_iterator()`, LB 29, 56, 74, 104. -/
def Iter.default : Iter := ⟨none⟩

/-- A constant iterator from an iterator, LB 78-79. -/
def Iter.toConst (it : Iter) : Iter := ⟨it.current_node⟩

/-- `operator*` and what `operator->` points to, LB 33-39 and 81-87. -/
def Iter.star (it : Iter) : M α α := deref it.current_node

/-- `operator++`, LB 41-44 and 89-92: the changed iterator. -/
def Iter.inc (it : Iter) : M α Iter := do
  let n ← next it.current_node
  pure ⟨n⟩

/-- `operator++(int)`, LB 46-50 and 94-98: the returned and the changed iterator. -/
def Iter.postInc (it : Iter) : M α (Iter × Iter) := do
  let tmp : Iter := it
  let n ← next it.current_node
  pure (tmp, ⟨n⟩)

/-- The defaulted `operator==`, LB 54 and 102. -/
def Iter.eq (it other : Iter) : Bool := decide (it.current_node = other.current_node)

/-- The defaulted `operator<=>`, LB 52 and 100, for iterators that designate elements: the order of addresses. -/
def Iter.cmp (it other : Iter) : Option Ordering :=
  match it.current_node, other.current_node with
  | some (.node a), some (.node b) => some (compare a b)
  | _, _ => none

/-- `before_begin()`, LL 108-111. -/
def beforeBeginIt (l : Nat) : Iter := ⟨beforeBegin l⟩

/-- `begin()`, LL 113-116. -/
def beginIt (l : Nat) : M α Iter := do
  let n ← next (beforeBegin l)
  pure ⟨n⟩

/-- `end()`, LL 118-121. -/
def endIt : Iter := ⟨«end»⟩

/-- `while(first != last) visit(*first++)`. A client's loop over LB 37-54. -/
def visit : Nat → Iter → Iter → M α (List α)
  | 0, _, _ => M.hang
  | fuel + 1, first, last =>
    if first.eq last then pure []
    else do
      let (old, first) ← first.postInc
      let v ← old.star
      let rest ← visit fuel first last
      pure (v :: rest)

end Verif.LL
