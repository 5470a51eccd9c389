import Verif.Array.Model

/-!
# The sizes that `Array` computes, in 64 bits

`include/xme/container/array.hpp`. `Array/Model.lean` computes sizes and capacities in the natural numbers; the code computes
them in `std::size_t`. Here are the functions that add sizes, with that type. The other functions only compare and subtract
sizes, or take them from the caller.
-/

set_option autoImplicit false

namespace Verif.Arr

/-- A `std::size_t`, array.hpp:29. -/
def sz (n : Nat) : Nat := n % 2 ^ 64

variable {α : Type} (cfg : Elem α)

/-- `emplace_back`, array.hpp:254-261. -/
def emplaceBackZ (src : Src α) : A α Unit := do
  let d ← getD
  onlyIf (d.size = d.cap) (growStorage cfg (sz (d.size + max d.size 1)))
  let d ← getD
  let v ← evalSrc cfg src
  construct cfg d.blk d.size v
  setD { d with size := d.size + 1 }

/-- `realloc_insert`, array.hpp:310-331. -/
def reallocInsertZ (pos : Nat) (src : Src α) : A α Nat := do
  let d ← getD
  let newSize := sz (d.size + max d.size 1)
  let nb ← allocate newSize
  M.tryRethrow (do
      let v ← evalSrc cfg src
      construct cfg nb pos v
      fwdLoop cfg true d.blk 0 nb 0 pos
      fwdLoop cfg true d.blk pos nb (pos + 1) (d.size - pos))
    (do
      destroy cfg nb pos
      deallocate cfg nb newSize)
  deallocate cfg d.blk d.cap
  setD ⟨nb, d.size + 1, newSize⟩
  pure pos

/-- `insert(pos, first, last)`, array.hpp:181-207. The distance of the iterators may have a wider type; it is converted in
array.hpp:183. -/
def insertRangeZ (pos : Nat) (srcs : List (Src α)) : A α Nat := do
  let d ← getD
  let elements := sz srcs.length
  if sz (d.size + elements) > d.cap then
    let tmpCap := if d.cap = 0 then elements else sz (d.cap + elements)
    let nb ← allocate tmpCap
    M.tryRethrow (do
        constructLoop cfg nb pos srcs
        fwdLoop cfg false d.blk 0 nb 0 pos
        fwdLoop cfg false d.blk pos nb (pos + elements) (d.size - pos))
      (destructor cfg ⟨nb, 0, tmpCap⟩)
    setD ⟨nb, d.size + elements, tmpCap⟩
    destructor cfg d
    pure pos
  else
    backLoop cfg false d.blk pos (pos + elements) (d.size - pos)
    setD { d with size := d.size + elements }
    constructLoop cfg d.blk pos srcs
    pure pos

/-- `push_back(first, last)`, array.hpp:227-236. -/
def pushRangeZ (srcs : List (Src α)) : A α Unit := do
  let d ← getD
  let newCap := sz (d.size + srcs.length)
  onlyIf (newCap > d.cap) (growStorage cfg newCap)
  pushLoop cfg srcs

end Verif.Arr
