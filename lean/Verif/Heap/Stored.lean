import Verif.Array.Model
import Verif.Heap.Model

/-!
# `xme::Heap` on its storage

`Heap/Model.lean` takes the container to be a sequence and indices to be numbers. Here the same functions of
`include/xme/container/heap.hpp` (HP) run on the model of `xme::Array` with its memory (`Array/Model.lean`), arguments may
refer to an element of the heap itself, and the indices are `std::size_t` and `std::ptrdiff_t` of 64 bits. The comparator is
a pure function. Loops take fuel; running out of it counts as undefined.
-/

set_option autoImplicit false

namespace Verif.HeapS

open Verif.Arr (Elem St Src A M getD moveFrom writeAt emplaceBack popBack reserve destructor)

variable {α : Type} (cfg : Elem α) (lt : α → α → Bool)

/-- A `std::size_t`: HP 16, 94-101. -/
def wrap (n : Nat) : Nat := n % 2 ^ 64

/-- Conversion of a `std::size_t` to `std::ptrdiff_t`, as for the arguments of HP 89 and icontainer.hpp 14-25. -/
def toDiff (n : Nat) : Int := if n < 2 ^ 63 then n else (n : Int) - 2 ^ 64

/-- Conversion of a `std::ptrdiff_t` to `std::size_t`, HP 109. -/
def toSize (i : Int) : Nat := (i % 2 ^ 64).toNat

/-- `m_array[i]`, icontainer.hpp 14-25. -/
def get (i : Int) : A α α := if 0 ≤ i then Verif.Arr.index i.toNat else M.ub

/-- `m_compare(m_array[i], m_array[j])`: HP 105, 119, 121. -/
def compareAt (i j : Int) : A α Bool := do
  let x ← get i
  let y ← get j
  pure (lt x y)

/-- `std::ranges::swap(m_array[i], m_array[j])`, three moves: HP 64, 108, 124. -/
def swapAt (i j : Int) : A α Unit :=
  if 0 ≤ i ∧ 0 ≤ j then do
    let d ← getD
    let x ← moveFrom cfg d.blk i.toNat
    let y ← moveFrom cfg d.blk j.toNat
    writeAt cfg i.toNat y
    writeAt cfg j.toNat x
  else M.ub

/-- HP 89-91. The smallest `std::ptrdiff_t` has no predecessor: undefined. -/
def parent (index : Int) : A α Int := if -2 ^ 63 ≤ index - 1 then pure ((index - 1).tdiv 2) else M.ub

/-- HP 94-96. -/
def leftChild (index : Nat) : Nat := wrap (index * 2 + 1)

/-- HP 99-101. -/
def rightChild (index : Nat) : Nat := wrap (index * 2 + 2)

/-- `m_array.size()`: icontainer.hpp 62-76. -/
def size : A α Nat := do
  let d ← getD
  pure (wrap d.size)

/-- The loop of HP 104-111. -/
def upLoop : Nat → Nat → Int → A α Unit
  | 0, _, _ => M.ub
  | fuel + 1, index, parentHeap =>
    if index ≠ 0 then do
      let b ← compareAt lt parentHeap (toDiff index)
      if !b then pure ()
      else do
        swapAt cfg parentHeap (toDiff index)
        let p ← parent parentHeap
        upLoop fuel (toSize parentHeap) p
    else pure ()

/-- HP 103-112. -/
def heapfyUp (fuel index : Nat) : A α Unit := do
  let p ← parent (toDiff index)
  upLoop cfg lt fuel index p

/-- HP 119-120 and 121-122. -/
def pick (swapIndex child : Nat) : A α Nat := do
  let n ← size
  if child < n then do
    let b ← compareAt lt (toDiff swapIndex) (toDiff child)
    if b then pure child else pure swapIndex
  else pure swapIndex

/-- HP 114-127. -/
def heapfyDown : Nat → Nat → A α Unit
  | 0, _ => M.ub
  | fuel + 1, index => do
    let i1 ← pick lt index (leftChild index)
    let i2 ← pick lt i1 (rightChild index)
    if i2 ≠ index then do
      swapAt cfg (toDiff index) (toDiff i2)
      heapfyDown fuel i2
    else pure ()

/-- `push(value)` and `emplace`, HP 73-76, 82-85; `size() - 1` is a `std::size_t`. -/
def push (fuel : Nat) (src : Src α) : A α Unit := do
  emplaceBack cfg src
  let n ← size
  heapfyUp cfg lt fuel (wrap (n + (2 ^ 64 - 1)))

/-- `pop()`, HP 62-67; `front()` and `back()` are icontainer.hpp 79-104. -/
def pop (fuel : Nat) : A α Unit := do
  let d ← getD
  swapAt cfg 0 ((d.size : Int) - 1)
  popBack cfg
  heapfyDown cfg lt fuel 0

/-- The loops of HP 32-34 and 45-47. -/
def pushAll (fuel : Nat) : List (Src α) → A α Unit
  | [] => pure ()
  | x :: xs => do
    push cfg lt fuel x
    pushAll fuel xs

/-- The constructors from a range, HP 29-35 and 41-48, run on the null data of HP 129. Space is reserved if the iterators are
contiguous or a range is given (`hint`). If an exception leaves the body, the member is destroyed. -/
def fromRange (fuel : Nat) (hint : Bool) (srcs : List (Src α)) : A α Unit :=
  M.tryRethrow (do
      Verif.Arr.onlyIf (hint = true) (reserve cfg srcs.length)
      pushAll cfg lt fuel srcs)
    (do
      let d ← getD
      destructor cfg d)

end Verif.HeapS
