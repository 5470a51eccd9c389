import Verif.View.Model

/-!
# Constructors, iterators and accessors of `ArrayView`

AV stands for `include/xme/container/array_view.hpp`, IC for `include/xme/container/icontainer.hpp`.

The viewed range has elements of a type `U`, the view elements of a type `T`. Only what matters for the result is said
about `T` and `U`: their sizes and how a `U*` is converted to a `T*`. Conversions that add `const` do not change the
pointer and are `same`. A null pointer is not distinguished from the offset 0; only empty views hold one. The constraints
of the constructors that concern the kind of range are not modelled, those on its length are.
-/

set_option autoImplicit false

namespace Verif.AV

/-- How `T` and `U` are related: the same type up to `const`; `T` a base class of `U` that lies at byte `off` in it; `T`
derived from `U`. Conversions in AV 81, 103, 110, 118. -/
inductive Conv
  | same
  | toBase (off : Nat)
  | toDerived
  deriving DecidableEq

/-- A contiguous range of `n` elements of `sz` bytes at byte `p`. The arguments of AV 79-118. -/
structure Rng where
  sz : Nat
  p : Nat
  n : Nat

/-- The implicit conversion of `U*` to `T*`, AV 81. -/
def implicitConv : Conv → Nat → Except Fault Nat
  | .same, p => .ok p
  | .toBase off, p => .ok (p + off)
  | .toDerived, _ => .error .illFormed

/-- `static_cast<pointer>` of a pointer to the `n` elements of a `std::array<U, n>`, AV 110 and 118: a cast to a derived
class compiles, but the elements are not parts of objects of that class. -/
def staticCast (cv : Conv) (p n : Nat) : Except Fault Nat :=
  match cv with
  | .same => .ok p
  | .toBase off => .ok (p + off)
  | .toDerived => if n = 0 then .ok p else .error .ub

/-- `ArrayView()`, AV 74-76 and 208-210. -/
def ofNothing (sz : Nat) (ext : Option Nat) : Except Fault View :=
  match ext with
  | none | some 0 => .ok ⟨sz, ext, 0, 0⟩
  | some _ => .error .illFormed

/-- `ArrayView(it, n)`, AV 79-84. -/
def ofIter (checked : Bool) (sz : Nat) (ext : Option Nat) (cv : Conv) (p n : Nat) : Except Fault View := do
  let p ← implicitConv cv p
  make checked sz ext p n

/-- A `std::ptrdiff_t` converted to `std::size_t`, AV 90. -/
def toSize (d : Int) : Nat := (d % 2 ^ 64).toNat

/-- `ArrayView(first, last)`, AV 88-90: `p` and `q` are the iterators, `szU` the size of their elements. -/
def ofIters (checked : Bool) (sz : Nat) (ext : Option Nat) (cv : Conv) (szU p q : Nat) : Except Fault View :=
  ofIter checked sz ext cv p (toSize (((q : Int) - p) / szU))

/-- `ArrayView(range)`, AV 93-98. -/
def ofRange (checked : Bool) (sz : Nat) (ext : Option Nat) (cv : Conv) (r : Rng) : Except Fault View :=
  ofIter checked sz ext cv r.p r.n

/-- `requires(Size == dynamic_size || Size == Lenght)`, AV 102, 108, 116. -/
def requireLen (ext : Option Nat) (n : Nat) : Except Fault Unit :=
  match ext with
  | none => .ok ()
  | some e => staticAssert (decide (e = n))

/-- `ArrayView(T (&)[n])`, AV 101-104. The elements are of type `T`. -/
def ofCArray (checked : Bool) (ext : Option Nat) (r : Rng) : Except Fault View := do
  requireLen ext r.n
  make checked r.sz ext r.p r.n

/-- `ArrayView(std::array<U, n>&)` and `ArrayView(const std::array<U, n>&)`, AV 107-118. -/
def ofStdArray (checked : Bool) (sz : Nat) (ext : Option Nat) (cv : Conv) (r : Rng) : Except Fault View := do
  requireLen ext r.n
  let p ← staticCast cv r.p r.n
  make checked sz ext p r.n

/-- The template argument `Size` that the deduction guides choose: the length for arrays, AV 213-220, dynamic for
iterators and ranges, AV 222-226. -/
def deduceExt (isArray : Bool) (n : Nat) : Option Nat := if isArray then extOf n else none

/-- `begin()`, AV 121-130. -/
def View.beginIt (v : View) : Nat := v.m_view

/-- `end()`, AV 133-142. -/
def View.endIt (len : Nat) (v : View) : Except Fault Nat := ptrAdd len v.sz v.m_view v.size

/-- `*it` for a pointer to an element. IC 82, 89, 96, 103. -/
def readAt (sz : Nat) (m : Mem) (p : Nat) : Except Fault (List Byte) :=
  if p + sz ≤ m.length then .ok ((m.drop p).take sz) else .error .ub

/-- `empty()`, IC 28-45: a view is a sized range. -/
def View.empty (v : View) : Bool := v.size == 0

/-- `front()`, IC 79-90. -/
def View.front (v : View) (m : Mem) : Except Fault (List Byte) := readAt v.sz m v.beginIt

/-- `back()`, IC 93-104. -/
def View.back (v : View) (m : Mem) : Except Fault (List Byte) := do
  let e ← v.endIt m.length
  let p ← ptrAdd m.length v.sz e (-1)
  readAt v.sz m p

/-- `for(; it != last; ++it) visit(*it)`, a client's loop over AV 121-142: the elements visited. -/
def visit (m : Mem) (sz : Nat) : Nat → Nat → Nat → Except Fault (List (List Byte))
  | 0, _, _ => .error .ub
  | fuel + 1, it, last =>
    if it = last then .ok []
    else do
      let x ← readAt sz m it
      let it ← ptrAdd m.length sz it 1
      let xs ← visit m sz fuel it last
      .ok (x :: xs)

end Verif.AV
