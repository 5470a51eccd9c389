import Mathlib.Data.List.Basic

/-!
# Model of `ArrayView`

AV stands for `include/xme/container/array_view.hpp`, IC for `include/xme/container/icontainer.hpp`.

The viewed object is an array, given by its bytes; a pointer into it is a byte offset. An element type is given by its
size. `std::size_t` has 64 bits. The template argument `Size` is `ext` (`none` is `static_cast<std::size_t>(-1)`). An
assertion is checked if `checked` is true and has no effect otherwise. `static_assert` and constraints that fail are
`illFormed`.
-/

set_option autoImplicit false

namespace Verif.AV

/-- A byte. Part of the model, not of the code. -/
abbrev Byte := Nat
/-- The bytes of the array the view refers to. Part of the model, not of the code. -/
abbrev Mem := List Byte

/-- What can go wrong: undefined behaviour, a failed `assert`, a program that does not compile. Part of the
model, not of the code. -/
inductive Fault
  | ub | assertion | illFormed
  deriving DecidableEq

/-- Arithmetic of `std::size_t`. Part of the model, not of the code. AV 153, 161-163, 171, 194-204, 233. -/
def wrap (n : Nat) : Nat := n % 2 ^ 64

/-- `assert` (AV 83, 161, 171, 179, 187, 195, 203): checked in debug builds only. -/
def assert (checked : Bool) (c : Bool) : Except Fault Unit :=
  if checked && !c then .error .assertion else .ok ()

/-- `static_assert` (AV 163, 181, 197). -/
def staticAssert (c : Bool) : Except Fault Unit :=
  if c then .ok () else .error .illFormed

/-- AV 208-210, with the template arguments; `s` is the member of `Extent`, AV 34. -/
structure View where
  sz : Nat
  ext : Option Nat
  m_view : Nat
  s : Nat
  deriving DecidableEq

/-- `Extent::size`, AV 19-21 and 31-33, and `size`, AV 146-148. -/
def View.size (v : View) : Nat := match v.ext with
  | some e => e
  | none => v.s

/-- `size_bytes`, AV 152-154 -/
def View.sizeBytes (v : View) : Nat := wrap (v.size * v.sz)

/-- Pointer arithmetic `p + k` in an array of `len` bytes with elements of `sz` bytes: one past the end is
allowed. AV 123, 164, 172, 198, 204. -/
def ptrAdd (len sz p : Nat) (k : Int) : Except Fault Nat :=
  let q := (p : Int) + k * sz
  if 0 ≤ q ∧ q ≤ len then .ok q.toNat else .error .ub

/-- The template argument `n` of a fixed-size view. AV 13-15. -/
def extOf (n : Nat) : Option Nat := if n = 2 ^ 64 - 1 then none else some n

/-- `ArrayView(Iter, std::size_t)`, AV 79-84 -/
def make (checked : Bool) (sz : Nat) (ext : Option Nat) (p n : Nat) : Except Fault View := do
  match ext with
  | some e => assert checked (n == e)
  | none => pure ()
  pure ⟨sz, ext, p, n⟩

/-- `subview<Offset, Count>()`, AV 157-165 -/
def View.subviewT (checked : Bool) (len : Nat) (v : View) (offset count : Nat) : Except Fault View := do
  match v.ext with
  | none => assert checked (decide (wrap (count + offset) ≤ v.size))
  | some e => staticAssert (decide (wrap (count + offset) ≤ e))
  let p ← ptrAdd len v.sz v.m_view offset
  make checked v.sz (extOf count) p count

/-- `subview(offset, count)`, AV 168-173 -/
def View.subview (checked : Bool) (len : Nat) (v : View) (offset count : Nat) : Except Fault View := do
  assert checked (decide (wrap (count + offset) ≤ v.size))
  let p ← ptrAdd len v.sz v.m_view offset
  make checked v.sz none p count

/-- `first<Count>()`, AV 176-183 -/
def View.firstT (checked : Bool) (v : View) (count : Nat) : Except Fault View := do
  match v.ext with
  | none => assert checked (decide (count ≤ v.size))
  | some e => staticAssert (decide (count ≤ e))
  make checked v.sz (extOf count) v.m_view count

/-- `first(count)`, AV 186-189 -/
def View.first (checked : Bool) (v : View) (count : Nat) : Except Fault View := do
  assert checked (decide (count ≤ v.size))
  make checked v.sz none v.m_view count

/-- `size() - count`: the offset in `std::size_t`. AV 198, 204. -/
def sizeSub (a b : Nat) : Nat := wrap (a + 2 ^ 64 - b)

/-- `last<Count>()`, AV 192-199 -/
def View.lastT (checked : Bool) (len : Nat) (v : View) (count : Nat) : Except Fault View := do
  match v.ext with
  | none => assert checked (decide (count ≤ v.size))
  | some e => staticAssert (decide (count ≤ e))
  let p ← ptrAdd len v.sz v.m_view (sizeSub v.size count)
  make checked v.sz (extOf count) p count

/-- `last(count)`, AV 202-205 -/
def View.last (checked : Bool) (len : Nat) (v : View) (count : Nat) : Except Fault View := do
  assert checked (decide (count ≤ v.size))
  let p ← ptrAdd len v.sz v.m_view (sizeSub v.size count)
  make checked v.sz none p count

/-- `operator[]` and `*(begin() + i)`, AV 122-130 and IC 14-25: reading an element. -/
def View.read (v : View) (m : Mem) (i : Int) : Except Fault (List Byte) := do
  let p ← ptrAdd m.length v.sz v.m_view i
  if p + v.sz ≤ m.length then .ok ((m.drop p).take v.sz) else .error .ub

/-- The same, writing it. AV 122-130 and IC 14-25. -/
def View.write (v : View) (m : Mem) (i : Int) (x : List Byte) : Except Fault Mem := do
  let p ← ptrAdd m.length v.sz v.m_view i
  if p + v.sz ≤ m.length then .ok (m.take p ++ x ++ m.drop (p + v.sz)) else .error .ub

/-- `as_bytes`, AV 229-236, and `as_writable_bytes`, AV 239-247, which differ in constness only; `data()` is
IC 48-59. -/
def View.asBytes (checked : Bool) (v : View) : Except Fault View :=
  let ext := match v.ext with
    | none => none
    | some e => extOf (wrap (v.sz * e))
  make checked 1 ext v.m_view v.sizeBytes

end Verif.AV
