import Verif.Array.Model
import Verif.Heap.Stored

/-!
# Ranges that can be read once

`Array::insert(pos, first, last)` and `Array::push_back(first, last)` (`include/xme/container/array.hpp`), and the constructors
of `Heap` (`include/xme/container/heap.hpp`), accept every `std::input_iterator`. Advancing a copy of such an iterator may use
up what the original would have read: a stream has one position, however many iterators read from it. Here the iterators are
modelled with that effect; `Array/Model.lean` takes the range to be a list that can be read many times.

`Array(first, last)` (array.hpp:64-70) calls `uninitialized_copy_a`, which asks for a forward iterator (uninitialized.hpp:8):
it does not compile for the iterators that this module is about.
-/

set_option autoImplicit false

namespace Verif.Arr

/-- Kinds of iterators. Part of the model, not of the code: `forward` as pointers; `stream` as `std::istreambuf_iterator`, all
copies read from one position; `cached` as `std::istream_iterator`, which keeps the element it has read. -/
inductive Pass
  | forward
  | stream
  | cached

/-- An iterator `first` with the elements it will yield before it meets `last`. Part of the model, not of the code. -/
structure Iter (α : Type) where
  pass : Pass
  ahead : List α

variable {α : Type} (cfg : Elem α)

/-- `std::ranges::distance(first, last)` as array.hpp:183 and 228 call it: a copy of `first` is advanced to `last`. The second
component is what became of `first`. -/
def Iter.distance (it : Iter α) : Nat × Iter α :=
  (it.ahead.length,
    match it.pass with
    | .forward => it
    | .stream => { it with ahead := [] }
    | .cached => { it with ahead := it.ahead.take 1 })

/-- The elements a loop `for(; first != last; ++first)` sees through `*first`: array.hpp:190-192, 204-205, 232-235; heap.hpp:32-34. -/
def Iter.loop (it : Iter α) : List (Src α) := it.ahead.map .val

/-- `insert(pos, first, last)`, array.hpp:181-207. -/
def insertIter (pos : Nat) (it : Iter α) : A α Nat := do
  let d ← getD
  let (elements, it) := it.distance
  if d.size + elements > d.cap then
    let tmpCap := if d.cap = 0 then elements else d.cap + elements
    let nb ← allocate tmpCap
    M.tryRethrow (do
        constructLoop cfg nb pos it.loop
        fwdLoop cfg false d.blk 0 nb 0 pos
        fwdLoop cfg false d.blk pos nb (pos + elements) (d.size - pos))
      (destructor cfg ⟨nb, 0, tmpCap⟩)
    setD ⟨nb, d.size + elements, tmpCap⟩
    destructor cfg d
    pure pos
  else
    backLoop cfg false d.blk pos (pos + elements) (d.size - pos)
    setD { d with size := d.size + elements }
    constructLoop cfg d.blk pos it.loop
    pure pos

/-- `push_back(first, last)`, array.hpp:227-236. -/
def pushIter (it : Iter α) : A α Unit := do
  let d ← getD
  let (n, it) := it.distance
  let newCap := d.size + n
  onlyIf (newCap > d.cap) (growStorage cfg newCap)
  pushLoop cfg it.loop

/-- `Heap(first, last)`, heap.hpp:29-35: the distance is taken of contiguous iterators only. -/
def heapIter (lt : α → α → Bool) (fuel : Nat) (contiguous : Bool) (it : Iter α) : A α Unit :=
  if contiguous then
    let (_, it) := it.distance
    HeapS.fromRange cfg lt fuel true it.loop
  else HeapS.fromRange cfg lt fuel false it.loop

end Verif.Arr
