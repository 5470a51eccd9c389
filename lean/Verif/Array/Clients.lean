import Verif.Array.Iterator

/-!
# Programs that use `Array`

Loops a user writes around an `Array`, with the functions of /repo/include/xme/container/array.hpp and the accessors
of /repo/include/xme/container/icontainer.hpp.  They are not part of the library.  Predicates and comparisons of
the client do not throw.  A loop that uses up its fuel counts as undefined behaviour, so that every program proved
to return also ends.
-/

set_option autoImplicit false

namespace Verif.Arr

variable {α β : Type} (cfg : Elem α)

/-- A call of a member function; the result is the position of the returned iterator. -/
def call (op : Op α) : M (World α) Nat := fun w => exec cfg w op

/-- A call of an accessor. -/
def ask (f : World α → Option β) : M (World α) β := fun w =>
  match f w with
  | some b => .ok b w
  | none => .ub

/-- `for(auto it = begin() + i; it != end();) if(bad(*it)) it = a.erase(it); else ++it;`.
Calls array.hpp:265-272, 384-387, icontainer.hpp:13-25, 61-76. -/
def eraseIf (a : Nat) (bad : α → Bool) : Nat → Nat → M (World α) Unit
  | 0, _ => M.ub
  | fuel + 1, i => do
    let n ← ask (sizeOf' · a)
    if (i : Int) = n then pure ()
    else do
      let v ← ask (indexOf · a i)
      if bad v then do
        let r ← call cfg (.erase a i)
        eraseIf a bad fuel r
      else eraseIf a bad fuel (i + 1)

/-- Removal of element `i` that does not keep the order: `a[i] = a.back(); a.pop_back();`.
Calls array.hpp:246-249, icontainer.hpp:13-25, 92-104. -/
def swapRemove (a i : Nat) : M (World α) Unit := do
  let x ← ask (backOf · a)
  let _ ← call cfg (.writeAt a i x)
  let _ ← call cfg (.popBack a)
  pure ()

/-- `for(; i != a.size();) if(bad(a[i])) remove element i; else ++i;` with `swapRemove`.
Calls icontainer.hpp:13-25, 61-76. -/
def removeFast (a : Nat) (bad : α → Bool) : Nat → Nat → M (World α) Unit
  | 0, _ => M.ub
  | fuel + 1, i => do
    let n ← ask (sizeOf' · a)
    if (i : Int) = n then pure ()
    else do
      let v ← ask (indexOf · a i)
      if bad v then do
        swapRemove cfg a i
        removeFast a bad fuel i
      else removeFast a bad fuel (i + 1)

/-- The first position between `lo` and `hi` whose element is greater than `v`, by bisection.
Calls icontainer.hpp:13-25. -/
def upperBound (a : Nat) (lt : α → α → Bool) (v : α) : Nat → Nat → Nat → M (World α) Nat
  | 0, _, _ => M.ub
  | fuel + 1, lo, hi =>
    if lo < hi then do
      let mid := lo + (hi - lo) / 2
      let x ← ask (indexOf · a mid)
      if lt v x then upperBound a lt v fuel lo mid else upperBound a lt v fuel (mid + 1) hi
    else pure lo

/-- Insertion into a sorted array. Calls array.hpp:160-176, icontainer.hpp:61-76. -/
def insertSorted (a : Nat) (lt : α → α → Bool) (v : α) (fuel : Nat) : M (World α) Nat := do
  let n ← ask (sizeOf' · a)
  let i ← upperBound a lt v fuel 0 n.toNat
  call cfg (.insert a i (.val v))

/-- Moves element `j` towards the front by exchanging neighbours. Calls icontainer.hpp:13-25. -/
def sink (a : Nat) (lt : α → α → Bool) : Nat → M (World α) Unit
  | 0 => pure ()
  | j + 1 => do
    let x ← ask (indexOf · a ((j + 1 : Nat) : Int))
    let y ← ask (indexOf · a (j : Int))
    if lt x y then do
      let _ ← call cfg (.writeAt a j x)
      let _ ← call cfg (.writeAt a (j + 1) y)
      sink a lt j
    else pure ()

/-- Insertion sort in place, from element `i` on. Calls icontainer.hpp:61-76. -/
def sortFrom (a : Nat) (lt : α → α → Bool) : Nat → Nat → M (World α) Unit
  | 0, _ => M.ub
  | fuel + 1, i => do
    let n ← ask (sizeOf' · a)
    if (i : Int) = n then pure ()
    else do
      sink cfg a lt i
      sortFrom a lt fuel (i + 1)

/-- A stack: `some x` pushes, `none` takes the last element if there is one. Gives the elements taken.
Calls array.hpp:221-223, 246-249, icontainer.hpp:27-45, 92-104. -/
def stackRun (a : Nat) : List (Option α) → M (World α) (List α)
  | [] => pure []
  | some x :: ops => do
    let _ ← call cfg (.pushBack a (.val x))
    stackRun a ops
  | none :: ops => do
    let e ← ask (emptyOf · a)
    if e = true then stackRun a ops
    else do
      let v ← ask (backOf · a)
      let _ ← call cfg (.popBack a)
      let vs ← stackRun a ops
      pure (v :: vs)

end Verif.Arr
