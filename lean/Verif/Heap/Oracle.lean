import Verif.Heap.Model

/-!
# `xme::Heap` with user code that may answer anything and may throw

File: `/repo/include/xme/container/heap.hpp` (cited as HP).

`Model.lean` takes the comparator to be a pure function that never throws. Here the comparator, the swap of two
elements and the insertion at the end of the container are programs of the user over a state of their own: they may
answer differently each time, and may throw. An exception that leaves a function declared `noexcept` ends the program
(`terminated`). An insertion that throws leaves the container as it was (C12 says when `Array` does that). That a swap
that throws may have moved one of the elements is not represented: all swaps are inside `noexcept` functions.
-/

set_option autoImplicit false

namespace Verif.HeapX

/-- What the user supplies, over a state `σ`: HP 131, the swap of `T` and the copy constructor of `T` with the
allocator of the container. `none` and `true` stand for an exception. -/
structure User (α σ : Type) where
  cmp : σ → α → α → Option Bool × σ
  swapThrows : σ → α → α → Bool × σ
  pushThrows : σ → α → Bool × σ

/-- The heap (HP 129-131), the state of the user, and ghost counters of comparisons, swaps and exceptions. -/
structure St (α σ : Type) where
  arr : Array α
  ext : σ
  cmps : Nat
  swaps : Nat
  thrown : Nat

/-- How a computation ends. Part of the model, not of the code. -/
inductive Res (α σ β : Type)
  | ok (b : β) (s : St α σ)
  | threw (s : St α σ)
  | terminated (s : St α σ)
  | ub
  | hang

/-- Programs over a heap. Part of the model, not of the code. -/
def M (α σ β : Type) : Type := St α σ → Res α σ β

variable {α σ β γ : Type}

/-- Sequencing. Part of the model, not of the code. -/
def M.bind (f : M α σ β) (g : β → M α σ γ) : M α σ γ := fun s =>
  match f s with
  | .ok b s' => g b s'
  | .threw s' => .threw s'
  | .terminated s' => .terminated s'
  | .ub => .ub
  | .hang => .hang

/-- `do` notation for computations. Part of the model, not of the code. -/
instance : Monad (M α σ) where
  pure b := fun s => .ok b s
  bind := M.bind

/-- A function declared `noexcept` (HP 62, 103, 114): an exception that would leave it ends the program. -/
def noexcept (f : M α σ β) : M α σ β := fun s =>
  match f s with
  | .threw s' => .terminated s'
  | r => r

/-- A loop that ran out of fuel. Part of the model, not of the code. -/
def hang : M α σ β := fun _ => .hang

/-- `m_array.size()`: HP 75, 84, 119, 121. -/
def size : M α σ Nat := fun s => .ok s.arr.size s

/-- `m_array[i]`: HP 105, 108, 119, 121, 124. -/
def get (i : Int) : M α σ α := fun s =>
  if h : 0 ≤ i ∧ i.toNat < s.arr.size then .ok (s.arr[i.toNat]'h.2) s else .ub

variable (u : User α σ)

/-- `m_compare(x, y)`: HP 105, 119, 121. -/
def compare (x y : α) : M α σ Bool := fun s =>
  match u.cmp s.ext x y with
  | (some b, e) => .ok b { s with ext := e, cmps := s.cmps + 1 }
  | (none, e) => .threw { s with ext := e, cmps := s.cmps + 1, thrown := s.thrown + 1 }

/-- `m_compare(m_array[i], m_array[j])`: HP 105, 119, 121. -/
def compareAt (i j : Int) : M α σ Bool := do
  let x ← get i
  let y ← get j
  compare u x y

/-- `std::ranges::swap(m_array[i], m_array[j])`: HP 64, 108, 124. -/
def swapAt (i j : Int) : M α σ Unit := fun s =>
  if h : (0 ≤ i ∧ i.toNat < s.arr.size) ∧ (0 ≤ j ∧ j.toNat < s.arr.size) then
    match u.swapThrows s.ext (s.arr[i.toNat]'h.1.2) (s.arr[j.toNat]'h.2.2) with
    | (true, e) => .threw { s with ext := e, thrown := s.thrown + 1 }
    | (false, e) => .ok () { s with arr := s.arr.swap i.toNat j.toNat h.1.2 h.2.2, ext := e, swaps := s.swaps + 1 }
  else .ub

/-- The loop of HP 104-111 with its variables `index` and `parent_heap`; `parent` is HP 89-91. -/
def upLoop : Nat → Int → Int → M α σ Unit
  | 0, _, _ => hang
  | fuel + 1, index, parentHeap =>
    if index ≠ 0 then do
      let b ← compareAt u parentHeap index
      if !b then pure ()
      else do
        swapAt u parentHeap index
        upLoop fuel parentHeap (Heap.parent parentHeap)
    else pure ()

/-- HP 103-112. -/
def heapfyUp (fuel : Nat) (index : Nat) : M α σ Unit := noexcept (upLoop u fuel index (Heap.parent index))

/-- HP 119-120 and 121-122: the new `swap_index`. -/
def pick (swapIndex child : Nat) : M α σ Nat := do
  let n ← size
  if child < n then do
    let b ← compareAt u swapIndex child
    if b then pure child else pure swapIndex
  else pure swapIndex

/-- HP 114-127; `left_child` and `right_child` are HP 94-101. -/
def heapfyDown : Nat → Nat → M α σ Unit
  | 0, _ => hang
  | fuel + 1, index => noexcept do
    let i1 ← pick u index (Heap.leftChild index)
    let i2 ← pick u i1 (Heap.rightChild index)
    if i2 ≠ index then do
      swapAt u index i2
      heapfyDown fuel i2
    else pure ()

/-- `m_array.push_back(value)` / `emplace_back`: HP 74, 83. -/
def pushBack (v : α) : M α σ Unit := fun s =>
  match u.pushThrows s.ext v with
  | (true, e) => .threw { s with ext := e, thrown := s.thrown + 1 }
  | (false, e) => .ok () { s with arr := s.arr.push v, ext := e }

/-- `m_array.pop_back()`: HP 65. -/
def popBack : M α σ Unit := fun s =>
  if s.arr.size = 0 then .ub else .ok () { s with arr := s.arr.pop }

/-- HP 73-76, and `emplace`, HP 82-85. -/
def push (fuel : Nat) (v : α) : M α σ Unit := do
  pushBack u v
  let n ← size
  heapfyUp u fuel (n - 1)

/-- HP 62-67. -/
def pop (fuel : Nat) : M α σ Unit := noexcept do
  let n ← size
  swapAt u 0 ((n : Int) - 1)
  popBack
  heapfyDown u fuel 0

/-- The loops of the constructors from a range, HP 32-34 and 45-47. -/
def pushAll (fuel : Nat) : List α → M α σ Unit
  | [] => pure ()
  | x :: xs => do
    push u fuel x
    pushAll fuel xs

/-- The result of the program is `r`, given enough fuel. Part of the model, not of the code. -/
def Runs (F : Nat → M α σ β) (s : St α σ) (r : Res α σ β) : Prop := ∃ n, ∀ fuel, n ≤ fuel → F fuel s = r

end Verif.HeapX
