import Verif.LinkedList.Spec

/-!
# Programs that use `LinkedList`

Loops a user writes around a `LinkedList` with its iterators: `erase_after` in a loop, insertion into a sorted
list, and a queue that keeps an iterator to its last element.  These programs are not part of
/repo/include/xme/container/linked_list.hpp (cited as LL); they only call its functions, whose model is in
`Model.lean`.  Predicates and comparisons of the client do not throw.
-/

set_option autoImplicit false

namespace Verif.LL

variable {α : Type}

/-- Erases the elements after `prev` for which `bad` holds:
`for(cur = next(prev); cur != end(); cur = next(prev)) if(bad(*cur)) l.erase_after(prev); else prev = cur;`.
Calls LL 210-215, LB 37-44. -/
def removeIf (bad : α → Bool) : Nat → Ptr → M α Unit
  | 0, _ => M.hang
  | fuel + 1, prev => do
    let cur ← next prev
    if cur = «end» then pure ()
    else do
      let v ← deref cur
      if bad v then do
        eraseAfter prev
        removeIf bad fuel prev
      else removeIf bad fuel cur

/-- Erases the elements after `cur` that repeat the element before them. Calls LL 210-215, LB 37-44. -/
def removeRepeatsFrom (same : α → α → Bool) : Nat → Ptr → M α Unit
  | 0, _ => M.hang
  | fuel + 1, cur => do
    let nxt ← next cur
    if nxt = «end» then pure ()
    else do
      let v ← deref cur
      let w ← deref nxt
      if same v w then do
        eraseAfter cur
        removeRepeatsFrom same fuel cur
      else removeRepeatsFrom same fuel nxt

/-- Erases all but the first of neighbouring elements that are the same. Calls LL 114-116, 210-215. -/
def removeRepeats (same : α → α → Bool) (fuel : Nat) (l : Nat) : M α Unit := do
  let b ← begin l
  if b = «end» then pure () else removeRepeatsFrom same fuel b

variable (E : Env α)

/-- Inserts `v` after `prev` and all following elements `w` up to the first with `v < w`.
Calls LL 177-179, LB 37-44. -/
def insertSorted (lt : α → α → Bool) (v : α) : Nat → Ptr → M α Ptr
  | 0, _ => M.hang
  | fuel + 1, prev => do
    let cur ← next prev
    if cur = «end» then insertAfter E prev v
    else do
      let w ← deref cur
      if lt v w then insertAfter E prev v else insertSorted lt v fuel cur

/-- Inserts the values one after the other into a sorted list. Calls LL 109-111, 177-179. -/
def sortInto (lt : α → α → Bool) (fuel : Nat) (l : Nat) : List α → M α Unit
  | [] => pure ()
  | v :: vs => do
    let _ ← insertSorted E lt v fuel (beforeBegin l)
    sortInto lt fuel l vs

/-- A queue: `some x` adds `x` behind the last element, whose iterator is `tail`; `none` takes the first
element if there is one.  `tail` is `before_begin()` while the queue is empty.  Gives the elements taken.
Calls LL 109-111, 177-179, 165, icontainer.hpp 79-90. -/
def queueRun (l : Nat) : List (Option α) → Ptr → M α (List α)
  | [], _ => pure []
  | some x :: ops, tail => do
    let t ← insertAfter E tail x
    queueRun l ops t
  | none :: ops, tail => do
    let e ← empty l
    if e = true then queueRun l ops tail
    else do
      let v ← front l
      popFront l
      let e' ← empty l
      let vs ← queueRun l ops (if e' = true then beforeBegin l else tail)
      pure (v :: vs)

end Verif.LL
