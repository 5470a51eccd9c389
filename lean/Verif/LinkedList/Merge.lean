import Verif.LinkedList.Spec

/-!
# Merging two `LinkedList`s

A client that brings the elements of one sorted list into another.  This program is not part of
/repo/include/xme/container/linked_list.hpp (cited as LL); it only calls its functions, whose model is in `Model.lean`.  The
comparison of the client does not throw; copying an element and allocating memory may.
-/

set_option autoImplicit false

namespace Verif.LL

variable {α : Type} (E : Env α)

/-- Brings the elements of list `b` into the list of `prev`, behind `prev`:
`while(!b.empty()) { cur = next(prev); if(cur == end() || b.front() < *cur) { prev = l.insert_after(prev, b.front()); b.pop_front(); } else prev = cur; }`.
Calls LL 165, 177-179, LB 37-44, icontainer.hpp 79-90. -/
def mergeFrom (lt : α → α → Bool) (b : Nat) : Nat → Ptr → M α Unit
  | 0, _ => M.hang
  | fuel + 1, prev => do
    let e ← empty b
    if e = true then pure ()
    else do
      let v ← front b
      let cur ← next prev
      if cur = «end» then do
        let p ← insertAfter E prev v
        popFront b
        mergeFrom lt b fuel p
      else do
        let w ← deref cur
        if lt v w then do
          let p ← insertAfter E prev v
          popFront b
          mergeFrom lt b fuel p
        else mergeFrom lt b fuel cur

/-- `merge(a, b)`. Calls LL 109-111 and what `mergeFrom` calls. -/
def mergeLists (lt : α → α → Bool) (fuel a b : Nat) : M α Unit := mergeFrom E lt b fuel (beforeBegin a)

end Verif.LL
