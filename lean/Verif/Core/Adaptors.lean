import Mathlib.Data.List.Basic

/-!
# `ConstIterator` and `ReverseIterator` over any iterator, and over each other

CI stands for `include/xme/core/iterators/const_iterator.hpp`, RI for `include/xme/core/iterators/reverse_iterator.hpp`.
`Verif.Core.ConstIterator` and `Verif.Core.ReverseIterator` have positions in an array as underlying iterators; here
the underlying iterator is any type with the operations of a random-access iterator, which may throw, so the adaptors
can be stacked. Every function of the two classes is declared `noexcept`.

Simplifications: copying an iterator neither throws nor has effects; the iterator is not a pointer type in RI 34 and
RI 42 (for pointers the branch there is the same with `m_current - 1` in place of `--tmp`); which of the operators
compile for a given type is not part of this model (see `Verif.Core.Types`, `Verif.Container.Require`).
-/

set_option autoImplicit false

namespace Verif.Adapt

/-- How a call ends: with a value, with an exception, in undefined behaviour, or in `std::terminate`. Part of the model,
not of the code. -/
inductive Out (β : Type) where
  | ok (b : β)
  | threw
  | ub
  | terminated
  deriving DecidableEq

/-- Sequencing. Part of the model, not of the code. -/
def Out.bind {β γ : Type} (o : Out β) (f : β → Out γ) : Out γ :=
  match o with
  | .ok b => f b
  | .threw => .threw
  | .ub => .ub
  | .terminated => .terminated

instance : Monad Out where
  pure := .ok
  bind := Out.bind

/-- A function declared `noexcept`: CI 36-197, RI 26-136. -/
def noexc {β : Type} : Out β → Out β
  | .threw => .terminated
  | o => o

/-- The operations of an iterator type with states `σ` and elements `α`; functions that change the iterator return its new
state. What CI and RI call of `It`. -/
structure Iter (σ α : Type) where
  /-- `*it` -/
  star : σ → Out α
  /-- `++it` -/
  inc : σ → Out σ
  /-- `it++`: the result and the new state -/
  postInc : σ → Out (σ × σ)
  /-- `--it` -/
  dec : σ → Out σ
  /-- `it--` -/
  postDec : σ → Out (σ × σ)
  /-- `it + n` -/
  add : σ → Int → Out σ
  /-- `n + it` -/
  radd : Int → σ → Out σ
  /-- `it - n` -/
  sub : σ → Int → Out σ
  /-- `it += n` -/
  addAssign : σ → Int → Out σ
  /-- `it -= n` -/
  subAssign : σ → Int → Out σ
  /-- `it - other` -/
  diff : σ → σ → Out Int
  /-- `it[n]` -/
  index : σ → Int → Out α
  /-- `it == other` -/
  eq : σ → σ → Out Bool
  /-- `it < other` -/
  lt : σ → σ → Out Bool
  /-- `it > other` -/
  gt : σ → σ → Out Bool
  /-- `it <= other` -/
  le : σ → σ → Out Bool
  /-- `it >= other` -/
  ge : σ → σ → Out Bool
  /-- `it <=> other` -/
  cmp : σ → σ → Out Ordering

/-- `m_current` in an adaptor: CI 199-200, RI 138-139. -/
structure Wrap (σ : Type) where
  m_current : σ
  deriving DecidableEq

variable {σ α : Type}

/-- `ConstIterator<It>`. -/
def constIt (B : Iter σ α) : Iter (Wrap σ) α where
  -- CI 54
  star it := noexc (B.star it.m_current)
  -- CI 56-59
  inc it := noexc do
    let c ← B.inc it.m_current
    pure ⟨c⟩
  -- CI 61-67; the inner call is `noexcept` itself
  postInc it := noexc do
    let tmp := it
    let c ← noexc (B.inc it.m_current)
    pure (tmp, ⟨c⟩)
  -- CI 69-74
  dec it := noexc do
    let c ← B.dec it.m_current
    pure ⟨c⟩
  -- CI 76-82
  postDec it := noexc do
    let tmp := it
    let c ← noexc (B.dec it.m_current)
    pure (tmp, ⟨c⟩)
  -- CI 84-88
  add it n := noexc do
    let c ← B.add it.m_current n
    pure ⟨c⟩
  -- CI 90-95
  radd n it := noexc do
    let c ← B.radd n it.m_current
    pure ⟨c⟩
  -- CI 97-101
  sub it n := noexc do
    let c ← B.sub it.m_current n
    pure ⟨c⟩
  -- CI 115-120
  addAssign it n := noexc do
    let c ← B.addAssign it.m_current n
    pure ⟨c⟩
  -- CI 122-127
  subAssign it n := noexc do
    let c ← B.subAssign it.m_current n
    pure ⟨c⟩
  -- CI 103-106, whose `m_current - sent` is CI 108-113
  diff it sent := noexc (noexc (B.diff it.m_current sent.m_current))
  -- CI 129-131
  index it n := noexc (B.index it.m_current n)
  -- CI 133-136, whose `m_current == sent` is rewritten to `sent == m_current`
  eq it sent := noexc (noexc (B.eq sent.m_current it.m_current))
  -- CI 138-142
  lt it other := noexc (B.lt it.m_current other.m_current)
  -- CI 144-148
  gt it other := noexc (B.gt it.m_current other.m_current)
  -- CI 150-154
  le it other := noexc (B.le it.m_current other.m_current)
  -- CI 156-160
  ge it other := noexc (B.ge it.m_current other.m_current)
  -- CI 162-166
  cmp it other := noexc (B.cmp it.m_current other.m_current)

/-- RI 41-48: `It tmp{m_current}; return *(--tmp);` -/
def revStar (B : Iter σ α) (it : Wrap σ) : Out α := noexc do
  let tmp ← B.dec it.m_current
  B.star tmp

/-- RI 72-76 -/
def revAdd (B : Iter σ α) (it : Wrap σ) (n : Int) : Out (Wrap σ) := noexc do
  let c ← B.sub it.m_current n
  pure ⟨c⟩

/-- The defaulted `<=>`: RI 124. The four order operators are rewritten to it. -/
def revCmp (B : Iter σ α) (lhs rhs : Wrap σ) : Out Ordering := noexc (B.cmp lhs.m_current rhs.m_current)

/-- `ReverseIterator<It>`. -/
def revIt (B : Iter σ α) : Iter (Wrap σ) α where
  star it := revStar B it
  -- RI 50-53
  inc it := noexc do
    let c ← B.dec it.m_current
    pure ⟨c⟩
  -- RI 55-59
  postInc it := noexc do
    let tmp := it
    let c ← B.dec it.m_current
    pure (tmp, ⟨c⟩)
  -- RI 61-64
  dec it := noexc do
    let c ← B.inc it.m_current
    pure ⟨c⟩
  -- RI 66-70
  postDec it := noexc do
    let tmp := it
    let c ← B.inc it.m_current
    pure (tmp, ⟨c⟩)
  add it n := revAdd B it n
  -- RI 78-82
  radd n it := noexc do
    let c ← B.sub it.m_current n
    pure ⟨c⟩
  -- RI 84-88
  sub it n := noexc do
    let c ← B.add it.m_current n
    pure ⟨c⟩
  -- RI 102-107
  addAssign it n := noexc do
    let c ← B.subAssign it.m_current n
    pure ⟨c⟩
  -- RI 109-114
  subAssign it n := noexc do
    let c ← B.addAssign it.m_current n
    pure ⟨c⟩
  -- RI 96-100
  diff lhs rhs := noexc (B.diff rhs.m_current lhs.m_current)
  -- RI 116-120
  index it n := noexc do
    let i ← revAdd B it n
    revStar B i
  -- RI 122
  eq lhs rhs := noexc (B.eq lhs.m_current rhs.m_current)
  lt lhs rhs := do
    let c ← revCmp B lhs rhs
    pure c.isLT
  gt lhs rhs := do
    let c ← revCmp B lhs rhs
    pure c.isGT
  le lhs rhs := do
    let c ← revCmp B lhs rhs
    pure c.isLE
  ge lhs rhs := do
    let c ← revCmp B lhs rhs
    pure c.isGE
  cmp lhs rhs := revCmp B lhs rhs

/-- Which adaptor. Part of the model, not of the code. -/
inductive Kind where
  | const
  | reverse
  deriving DecidableEq

/-- The states of a stack of adaptors, the outermost first: CI 200 and RI 139 with `It` an adaptor. -/
def StackState (σ : Type) : List Kind → Type
  | [] => σ
  | _ :: ks => Wrap (StackState σ ks)

/-- The iterator type of a stack of adaptors: CI 10-11 and RI 5-6 with `It` an adaptor. -/
def stack (B : Iter σ α) : (ks : List Kind) → Iter (StackState σ ks) α
  | [] => B
  | .const :: ks => constIt (stack B ks)
  | .reverse :: ks => revIt (stack B ks)

/-- The adaptors constructed one from the other: CI 38 and RI 28. -/
def wrap (s : σ) : (ks : List Kind) → StackState σ ks
  | [] => s
  | _ :: ks => (⟨wrap s ks⟩ : Wrap (StackState σ ks))

/-- A client's loop `for(; first != last; ++first) visit(*first)`. -/
def visit (B : Iter σ α) : Nat → σ → σ → Out (List α)
  | 0, _, _ => .ub
  | fuel + 1, first, last => do
    if ← B.eq first last then
      pure []
    else
      let x ← B.star first
      let first ← B.inc first
      let xs ← visit B fuel first last
      pure (x :: xs)

/-- A client's loop `for(; first < last; ++first) visit(*first)`. -/
def visitLess (B : Iter σ α) : Nat → σ → σ → Out (List α)
  | 0, _, _ => .ub
  | fuel + 1, first, last => do
    if ← B.lt first last then
      let x ← B.star first
      let first ← B.inc first
      let xs ← visitLess B fuel first last
      pure (x :: xs)
    else
      pure []

end Verif.Adapt
