import Verif.Algo.Reverse

/-!
# Model of `find` and `reverse` with comparisons and swaps that throw

FD stands for `include/xme/core/algorithm/find.hpp`, RV for `include/xme/core/algorithm/reverse.hpp`. Modelled are the
paths that work element by element: ranges that are not contiguous, and all ranges in scalar builds (FD 95, 97; RV 67,
69). There the functions call `::ranges::find` and `::ranges::reverse`, which are not part of the repository and are
taken to be the loops their documentation describes. A comparison may give any result and may throw, differently each
time; a swap may throw, and then leaves both elements as they were. An exception that leaves a `noexcept` function ends
the program.
-/

set_option autoImplicit false

namespace Verif.Algo.Throwing

open Verif.Algo

variable {α : Type}

/-- How a call ends. Part of the model, not of the code. -/
inductive ResT (β : Type) where
  | ok (b : β)
  | threw
  | terminated
  | ub (f : Fault)
  | hang
  deriving DecidableEq

/-- A function declared `noexcept`. The C++ rule. -/
def ResT.noexcept {β : Type} : ResT β → ResT β
  | .threw => .terminated
  | r => r

/-- The loop of `::ranges::find`, FD 95 and 97, from the `n`-th element on: `cmp n` is what comparing it with the value
gives, `none` an exception. -/
def findLoop (cmp : Nat → α → Option Bool) : List α → Nat → ResT Nat
  | [], n => .ok n
  | x :: xs, n =>
    match cmp n x with
    | none => .threw
    | some true => .ok n
    | some false => findLoop cmp xs (n + 1)

/-- `find(I i, S s, value)`, FD 71-99: not `noexcept`. -/
def findIter (cmp : Nat → α → Option Bool) (xs : List α) : ResT Nat := findLoop cmp xs 0

/-- `find(R&& range, value) noexcept`, FD 100-103 -/
def findRange (cmp : Nat → α → Option Bool) (xs : List α) : ResT Nat := (findIter cmp xs).noexcept

/-- The loop of `::ranges::reverse`, RV 67 and 69; `throws n` says whether the `n`-th swap throws. -/
def swapLoopT (throws : Nat → Bool) : Nat → Nat → Nat → Nat → List α → ResT (List α)
  | 0, _, _, _, _ => .hang
  | fuel + 1, n, i, s, m =>
    if i < s then
      if i + 1 < s then
        if throws n then .threw
        else
          match Rev.iterSwap i (s - 1) m with
          | .ok m => swapLoopT throws fuel (n + 1) (i + 1) (s - 1) m
          | .error f => .ub f
      else .ok m
    else .ok m

/-- `reverse(I i, S s) noexcept`, RV 47-71 -/
def reverseIter (throws : Nat → Bool) (fuel : Nat) (xs : List α) : ResT (List α) :=
  (swapLoopT throws fuel 0 0 xs.length xs).noexcept

/-- `reverse(R&& range) noexcept`, RV 72-75 -/
def reverseRange (throws : Nat → Bool) (fuel : Nat) (xs : List α) : ResT (List α) :=
  (reverseIter throws fuel xs).noexcept

end Verif.Algo.Throwing
