/-!
# Model of `xme::Heap`

File: `/repo/include/xme/container/heap.hpp` (cited as HP).

The container is the default `xme::Array`; it is represented by its sequence of elements (that `Array` behaves
as a sequence is proved in `Verif.Array`).  Elements are values, so an argument that refers to an element of
the heap's own storage is not covered here (see `Heap/Stored.lean`).  The comparator is an arbitrary pure function.  Accessing an
index that does not exist and popping from an empty heap are `ub` (the assertions of HP 63 and
icontainer.hpp 14-25; undefined behaviour when they are disabled).  Loops and recursion take fuel, running out
of it is `hang`.  Indices are unbounded here, machine integers in
`Heap/Stored.lean`.
-/

set_option autoImplicit false

namespace Verif.Heap

/-- The heap with ghost counters of comparisons and swaps. The container and comparator are HP 129-131. -/
structure St (α : Type) where
  arr : Array α
  cmps : Nat
  swaps : Nat

/-- How a computation ends. Part of the model, not of the code. -/
inductive Res (σ β : Type)
  | ok (b : β) (s : σ)
  | ub
  | hang

/-- Programs over a heap. Part of the model, not of the code. -/
def M (α β : Type) : Type := St α → Res (St α) β

namespace M
variable {α β γ : Type}

/-- Sequencing. Part of the model, not of the code. -/
def bind (f : M α β) (g : β → M α γ) : M α γ := fun s =>
  match f s with
  | .ok b s' => g b s'
  | .ub => .ub
  | .hang => .hang

/-- `do` notation for computations. Part of the model, not of the code. -/
instance : Monad (M α) where
  pure b := fun s => .ok b s
  bind := M.bind

/-- A loop that ran out of fuel. Part of the model, not of the code. -/
def hang : M α β := fun _ => .hang
/-- `m_array.size()`: HP 75, 84, 119, 121, icontainer.hpp 62-76. -/
def size : M α Nat := fun s => .ok s.arr.size s
end M

variable {α : Type} (lt : α → α → Bool)

/-- `m_array[i]` (icontainer.hpp 14-25).  A negative index converts to an out-of-range `size_t`. -/
def get (i : Int) : M α α := fun s =>
  if h : 0 ≤ i ∧ i.toNat < s.arr.size then .ok (s.arr[i.toNat]'h.2) s else .ub

/-- `m_compare(x, y)`. HP 105, 119, 121. -/
def compare (x y : α) : M α Bool := fun s => .ok (lt x y) { s with cmps := s.cmps + 1 }

/-- `m_compare(m_array[i], m_array[j])`. HP 105, 119, 121. -/
def compareAt (i j : Int) : M α Bool := do
  let x ← get i
  let y ← get j
  compare lt x y

/-- `std::ranges::swap(m_array[i], m_array[j])`. HP 64, 108, 124. -/
def swapAt (i j : Int) : M α Unit := fun s =>
  if h : (0 ≤ i ∧ i.toNat < s.arr.size) ∧ (0 ≤ j ∧ j.toNat < s.arr.size) then
    .ok () { s with arr := s.arr.swap i.toNat j.toNat h.1.2 h.2.2, swaps := s.swaps + 1 }
  else .ub

/-- HP 89-91; division truncates, so the parent of 0 is 0. -/
def parent (index : Int) : Int := (index - 1).tdiv 2

/-- HP 94-96. -/
def leftChild (index : Nat) : Nat := index * 2 + 1

/-- HP 99-101. -/
def rightChild (index : Nat) : Nat := index * 2 + 2

/-- The loop of HP 104-111 with its variables `index` and `parent_heap`. -/
def upLoop : Nat → Int → Int → M α Unit
  | 0, _, _ => M.hang
  | fuel + 1, index, parentHeap =>
    if index ≠ 0 then do
      let b ← compareAt lt parentHeap index
      if !b then pure ()
      else do
        swapAt parentHeap index
        upLoop fuel parentHeap (parent parentHeap)
    else pure ()

/-- HP 103-112. -/
def heapfyUp (fuel : Nat) (index : Nat) : M α Unit := upLoop lt fuel index (parent index)

/-- The condition of HP 119 and 121: `child < m_array.size() && m_compare(m_array[swap_index], m_array[child])`,
and the assignment of HP 120 and 122; the new `swap_index`. -/
def pick (swapIndex child : Nat) : M α Nat := do
  let n ← M.size
  if child < n then do
    let b ← compareAt lt swapIndex child
    if b then pure child else pure swapIndex
  else pure swapIndex

/-- HP 114-127. -/
def heapfyDown : Nat → Nat → M α Unit
  | 0, _ => M.hang
  | fuel + 1, index => do
    let i1 ← pick lt index (leftChild index)
    let i2 ← pick lt i1 (rightChild index)
    if i2 ≠ index then do
      swapAt index i2
      heapfyDown fuel i2
    else pure ()

/-- `m_array.push_back(value)` / `emplace_back`. HP 74, 83. -/
def pushBack (v : α) : M α Unit := fun s => .ok () { s with arr := s.arr.push v }

/-- `m_array.pop_back()` (array.hpp; asserts that it is not empty). HP 65. -/
def popBack : M α Unit := fun s =>
  if s.arr.size = 0 then .ub else .ok () { s with arr := s.arr.pop }

/-- HP 73-76; `emplace` (HP 82-85) is the same with the element constructed in place. -/
def push (fuel : Nat) (v : α) : M α Unit := do
  pushBack v
  let n ← M.size
  heapfyUp lt fuel (n - 1)

/-- HP 62-67.  `front()`/`back()` are icontainer.hpp 79-104. -/
def pop (fuel : Nat) : M α Unit := do
  let n ← M.size
  swapAt 0 ((n : Int) - 1)
  popBack
  heapfyDown lt fuel 0

/-- `front()` (icontainer.hpp 79-90). -/
def front : M α α := get 0

/-- The loops of HP 32-34 and 45-47; `reserve` does not change the elements. -/
def pushAll (fuel : Nat) : List α → M α Unit
  | [] => pure ()
  | x :: xs => do
    push lt fuel x
    pushAll fuel xs

/-- A client draining the heap: `while(!h.empty()) { out.push_back(h.front()); h.pop(); }`. Part of the model,
not of the code. -/
def drain (fuel : Nat) : Nat → M α (List α)
  | 0 => M.hang
  | n + 1 => do
    let k ← M.size
    if k = 0 then pure []
    else do
      let x ← front
      pop lt fuel
      let xs ← drain fuel n
      pure (x :: xs)

/-- HP 25: the empty heap. -/
def empty : St α := ⟨#[], 0, 0⟩

end Verif.Heap
