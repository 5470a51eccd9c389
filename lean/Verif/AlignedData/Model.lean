import Verif.Core.Bits

/-!
# Model of `AlignedData`

AD stands for `include/xme/container/aligned_data.hpp`.  Memory is a function from addresses to bytes.  An object of a
type can live only at an address its alignment divides, which is what `constructAt` checks; which bytes the
constructor writes is a parameter.  Not modelled: the copy of an `AlignedData`, and constructors that throw.
-/

set_option autoImplicit false

namespace Verif.AD

/-- `sizeof` and `alignof` of a type. AD 12. -/
structure Ty where
  size : Nat
  align : Nat

/-- The `static_assert` on `Align`, AD 15, by the usual definition of `std::has_single_bit`. -/
def accepts (align : Nat) : Bool := align != 0 && (align &&& (align - 1)) == 0

/-- The least multiple of `a` that is not less than `n`. Part of the model, not of the code. -/
def roundUp (n a : Nat) : Nat := (n + a - 1) / a * a

/-- The class `AlignedData<T, Align>`: an array of `sizeof(T)` bytes with alignment `Align`; the size of a class is a
multiple of its alignment. AD 58-59. -/
def dataTy (t : Ty) (align : Nat) : Ty := ⟨roundUp t.size align, align⟩

/-- Bytes by address. Part of the model, not of the code. -/
abbrev Mem := Nat → UInt8

/-- `address()` of the object at address `a`: AD 34-44; `m_data` is the only member. -/
def address (a : Nat) : Nat := a

/-- `data()`: AD 46-56. -/
def data (a : Nat) : Nat := address a

/-- The default constructor: the initialiser `m_data{}` sets every byte to zero. AD 25-27, 59. -/
def construct0 (t : Ty) (m : Mem) (a : Nat) : Mem := fun p => if a ≤ p ∧ p < a + t.size then 0 else m p

/-- `std::construct_at(p, args...)` for an object whose representation will be `bytes`; `none` (undefined behaviour)
if `p` is not aligned for the type. AD 31. -/
def constructAt (t : Ty) (m : Mem) (p : Nat) (bytes : Nat → UInt8) : Option Mem :=
  if p % t.align = 0 then some (fun q => if p ≤ q ∧ q < p + t.size then bytes (q - p) else m q) else none

/-- The constructor with arguments: first `m_data{}`, then `construct_at(data(), args...)`. AD 29-32, 59. -/
def construct (t : Ty) (m : Mem) (a : Nat) (bytes : Nat → UInt8) : Option Mem :=
  constructAt t (construct0 t m a) (data a) bytes

/-- The address of element `i` of an array of a type that starts at `a`. Part of the model, not of the code. -/
def element (t : Ty) (a i : Nat) : Nat := a + i * t.size

end Verif.AD
