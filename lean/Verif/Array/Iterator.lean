import Verif.Array.PointersProps

/-!
# Model of `Array::Iterator` and of the accessors of `IContainer` on arrays

The iterators of array.hpp:358-432 hold a pointer. A pointer is a block and an offset in it, as in
`Verif.Array.Model`; block 0 stands for the null pointer. Pointer arithmetic that leaves the block, and the
difference or order of pointers into different blocks, is undefined behaviour (`none`). Iterators of both constnesses
hold the same pointer. Not modelled: `n - it` (array.hpp:406-408), which subtracts a pointer from a number and does not
compile.
-/

set_option autoImplicit false

namespace Verif.Arr

variable {α : Type}

/-- array.hpp:431, constructed by array.hpp:374 and, for a constant iterator from another one, array.hpp:376-378. -/
structure It where
  blk : Nat
  off : Nat
  deriving DecidableEq

/-- `Iterator()`, array.hpp:372, 431. -/
def It.null : It := ⟨0, 0⟩

/-- `m_cursor + k`; adding zero to a null pointer is allowed. The C++ rule used in array.hpp:384-422. -/
def It.move (w : World α) (it : It) (k : Int) : Option It :=
  match w.mem.size it.blk with
  | some n => if 0 ≤ (it.off : Int) + k ∧ (it.off : Int) + k ≤ n then some ⟨it.blk, ((it.off : Int) + k).toNat⟩ else none
  | none => if it = .null ∧ k = 0 then some it else none

/-- `operator*` and the object `operator->` points to, array.hpp:380-382. -/
def It.star (w : World α) (it : It) : Option α := deref w it.blk it.off

/-- `operator++`, array.hpp:384-387. -/
def It.inc (w : World α) (it : It) : Option It := it.move w 1

/-- `operator++(int)`, array.hpp:389: the returned and the changed iterator. -/
def It.postInc (w : World α) (it : It) : Option (It × It) := (it.move w 1).map fun i => (it, i)

/-- `operator--`, array.hpp:391-394. -/
def It.dec (w : World α) (it : It) : Option It := it.move w (-1)

/-- `operator--(int)`, array.hpp:396: the returned and the changed iterator. -/
def It.postDec (w : World α) (it : It) : Option (It × It) := (it.move w (-1)).map fun i => (it, i)

/-- `it + n`, array.hpp:398. -/
def It.add (w : World α) (it : It) (n : Int) : Option It := it.move w n

/-- `n + it`, array.hpp:400-402. -/
def It.addLeft (w : World α) (n : Int) (it : It) : Option It := it.move w n

/-- `it - n`, array.hpp:404. -/
def It.sub (w : World α) (it : It) (n : Int) : Option It := it.move w (-n)

/-- `it - other`, array.hpp:410-412. -/
def It.diff (it other : It) : Option Int :=
  if it.blk = other.blk then some ((it.off : Int) - other.off) else none

/-- `it += n`, array.hpp:414-417: the changed iterator. -/
def It.addAssign (w : World α) (it : It) (n : Int) : Option It := it.move w n

/-- `it -= n`, array.hpp:419-422: the changed iterator. -/
def It.subAssign (w : World α) (it : It) (n : Int) : Option It := it.move w (-n)

/-- `it[n]`, array.hpp:424. -/
def It.index (w : World α) (it : It) (n : Int) : Option α := (it.move w n).bind (·.star w)

/-- The defaulted `operator==`, array.hpp:426. -/
def It.eq (it other : It) : Bool := decide (it = other)

/-- The defaulted `operator<=>`, array.hpp:428. -/
def It.cmp (it other : It) : Option Ordering :=
  if it.blk = other.blk then some (compare it.off other.off) else none

/-- `begin()`, array.hpp:99-107. -/
def beginIt (w : World α) (a : Nat) : Option It := (w.vars a).map fun d => ⟨d.blk, 0⟩

/-- `end()`, array.hpp:109-117. -/
def endIt (w : World α) (a : Nat) : Option It := (w.vars a).map fun d => ⟨d.blk, d.size⟩

/-- `operator[]`, icontainer.hpp:13-25. -/
def indexOf (w : World α) (a : Nat) (i : Int) : Option α := (beginIt w a).bind fun b => b.index w i

/-- `size()`, icontainer.hpp:61-76. -/
def sizeOf' (w : World α) (a : Nat) : Option Int := (beginIt w a).bind fun b => (endIt w a).bind fun e => e.diff b

/-- `empty()`, icontainer.hpp:27-45: arrays are sized ranges. -/
def emptyOf (w : World α) (a : Nat) : Option Bool := (sizeOf' w a).map fun n => n == 0

/-- `front()`, icontainer.hpp:78-90. -/
def frontOf (w : World α) (a : Nat) : Option α := (beginIt w a).bind fun b => b.star w

/-- `back()`, icontainer.hpp:92-104. -/
def backOf (w : World α) (a : Nat) : Option α := (endIt w a).bind fun e => (e.dec w).bind fun p => p.star w

/-- `data()`, icontainer.hpp:47-59: the pointer in `begin()`. -/
def dataOf (w : World α) (a : Nat) : Option (Nat × Nat) := (beginIt w a).map fun b => (b.blk, b.off)

/-- `for(; first != last; ++first) visit(*first)`. A client's loop over array.hpp:380-428. -/
def traverse (w : World α) : Nat → It → It → Option (List α)
  | 0, _, _ => none
  | fuel + 1, first, last =>
    if first.eq last then some [] else
      (first.star w).bind fun x => (first.inc w).bind fun first => (traverse w fuel first last).map fun r => x :: r

/-- `while(last != first) visit(*--last)`. A client's loop over array.hpp:380-428. -/
def traverseBack (w : World α) : Nat → It → It → Option (List α)
  | 0, _, _ => none
  | fuel + 1, first, last =>
    if last.eq first then some [] else
      (last.dec w).bind fun last => (last.star w).bind fun x => (traverseBack w fuel first last).map fun r => x :: r

end Verif.Arr
