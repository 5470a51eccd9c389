import Verif.AlignedData.Model

/-!
A pool of objects, kept in an array of `AlignedData`: client code. AD stands for `include/xme/container/aligned_data.hpp`. The free slots
are a stack of indices.
-/

set_option autoImplicit false

namespace Verif.AD

/-- The memory and the indices of the free slots. Part of the model, not of the code. -/
structure Pool where
  mem : Mem
  free : List Nat

/-- The default constructors of the slots `i`, `i + 1`, ..., AD 25-27, 59. -/
def zeroSlots (t : Ty) (align a : Nat) : Nat → Nat → Mem → Mem
  | 0, _, m => m
  | n + 1, i, m => zeroSlots t align a n (i + 1) (construct0 t m (element (dataTy t align) a i))

/-- `AlignedData<T, Align> slots[n];` at address `a`, all slots free. AD 25-27, 59. -/
def Pool.fresh (t : Ty) (align a n : Nat) (m : Mem) : Pool := ⟨zeroSlots t align a n 0 m, List.range n⟩

/-- `if(free.empty()) return nullptr; auto i = free.back(); free.pop_back(); return std::construct_at(slots[i].data(), args...);` with
`data()`, AD 46-56; `none` if undefined. -/
def Pool.acquire (t : Ty) (align a : Nat) (bytes : Nat → UInt8) (s : Pool) : Option (Pool × Option Nat) :=
  match s.free with
  | [] => some (s, none)
  | i :: free =>
    let p := data (element (dataTy t align) a i)
    (constructAt t s.mem p bytes).map fun m => (⟨m, free⟩, some p)

/-- `std::destroy_at(p); free.push_back((address of p - address of slots) / sizeof(slots[0]));` with the size of `AlignedData`, AD
58-59. -/
def Pool.release (t : Ty) (align a p : Nat) (s : Pool) : Pool :=
  { s with free := (p - a) / (dataTy t align).size :: s.free }

/-- The program changes a byte of an object that is at `p`. Part of the model, not of the code. -/
def Pool.write (p off : Nat) (b : UInt8) (s : Pool) : Pool := { s with mem := fun q => if q = p + off then b else s.mem q }

end Verif.AD
