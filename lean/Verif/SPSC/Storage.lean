import Verif.AlignedData.Model

/-!
# The slots of a queue of fixed capacity

Of `private/container/spsc_queue_base.hpp`. The other models of the queue take its buffer to be slots. In a queue with a
capacity known at compile time the buffer is an array of `AlignedData<T>`, and slot `i` is reached from a pointer to the
storage of the first. Here it is derived where the slots are. As for the vectors (`Math/Subscript.lean`) two sets of rules
for pointers are distinguished, those of the machine and those of the standard, where a pointer to the storage of one
`AlignedData` must not be used to reach another.
-/

set_option autoImplicit false

namespace Verif.SPSC.Storage

open Verif.AD (Ty dataTy element data accepts)

/-- The rules by which pointers are used. Part of the model, not of the code. -/
inductive Rules
  | machine | standard
  deriving DecidableEq

/-- `Align` of the elements: the default argument `alignof(T)` is used, spsc_queue_base.hpp:144 (aligned_data.hpp:12). -/
def slotTy (t : Ty) : Ty := dataTy t t.align

/-- The first slot: `m_data.data()->data()` for the array at address `a`, spsc_queue_base.hpp:141. -/
def first (t : Ty) (a : Nat) : Nat := data (element (slotTy t) a 0)

/-- `buffer + i`, a `T*` plus a number, as in spsc_queue_base.hpp:21, 62, 71, 80, 81, 108: one element of storage may be passed
by the rules of the standard, the whole array by those of the machine. `none` is undefined behaviour. -/
def slot (R : Rules) (t : Ty) (capacity a i : Nat) : Option Nat :=
  match R with
  | .machine =>
    if first t a + i * t.size ≤ a + capacity * (slotTy t).size then some (first t a + i * t.size) else none
  | .standard => if i ≤ 1 then some (first t a + i * t.size) else none

/-- Whether an element may be constructed, read or destroyed there, spsc_queue_base.hpp:62, 71, 80, 108: the storage must be
that of the object the pointer was made from. -/
def usable (R : Rules) (t : Ty) (capacity a p : Nat) : Bool :=
  match R with
  | .machine => decide (a ≤ p ∧ p + t.size ≤ a + capacity * (slotTy t).size ∧ p % t.align = 0)
  | .standard => decide (p + t.size ≤ first t a + (slotTy t).size ∧ p % t.align = 0)

/-- The `static_assert`s on the capacity, spsc_queue_base.hpp:100, and on the alignment, aligned_data.hpp:15, and the
default constructor of `AlignedData`, which exists only for default initialisable `T`, aligned_data.hpp:25-27,
spsc_queue.hpp:22-24. -/
def compiles (t : Ty) (capacity : Nat) (defaultInitializable : Bool) : Bool :=
  accepts capacity && accepts t.align && defaultInitializable

end Verif.SPSC.Storage
