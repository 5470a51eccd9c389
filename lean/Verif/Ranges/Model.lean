/-!
Model of `ranges/destroy.hpp` and `ranges/uninitialized.hpp`.

Memory is a sequence of cells, each raw storage or holding an object.  Simplifications: iterators are
pointers into this memory (the code accepts any forward iterators), the allocator's `construct` and
`destroy` are the default ones (placement new and the destructor call), and destructors do not throw.
Constructing over a living object counts as an error here although the language only calls it a leak.
-/

set_option autoImplicit false

namespace Verif.Ranges

variable {α : Type}

/-- The cells of the memory: `none` is raw storage, `some v` a living object with value `v`. Part of the model,
not of the code. -/
abbrev Mem (α : Type) := List (Option α)

/-- What a call may end with. Part of the model, not of the code. -/
inductive Out (β : Type)
  /-- it returned -/
  | ok (b : β)
  /-- an exception left the call -/
  | exc
  /-- undefined behaviour -/
  | ub
deriving DecidableEq, Repr

/-- Memory, and the number of constructor calls so far. Part of the model, not of the code. -/
structure St (α : Type) where
  mem : Mem α
  calls : Nat
deriving DecidableEq, Repr

/-- `std::allocator_traits<Alloc>::destroy(alloc, p)`: `none` if there is no object at `p`. destroy.hpp 11, 26,
35. -/
def destroyAt (s : St α) (p : Nat) : Option (St α) :=
  match s.mem[p]? with
  | some (some _) => some { s with mem := s.mem.set p none }
  | _ => none

/-- `std::allocator_traits<Alloc>::construct(alloc, p, *src)`; `throws i` tells whether the `i`-th constructor
call throws.  Raw storage is required at `p`, an object at `src`. uninitialized.hpp 15-16, 41. -/
def constructAt (throws : Nat → Bool) (s : St α) (p src : Nat) : St α × Out Unit :=
  match s.mem[p]?, s.mem[src]? with
  | some none, some (some v) =>
    if throws s.calls then ({ s with calls := s.calls + 1 }, .exc)
    else (⟨s.mem.set p (some v), s.calls + 1⟩, .ok ())
  | _, _ => (s, .ub)

/-- `destroy_a(first, last, alloc)`: destroy.hpp 8-18.  A pointer that is incremented beyond the
memory is undefined behaviour. -/
def destroyA (s : St α) (first last : Nat) : St α × Out Unit :=
  if first = last then (s, .ok ())
  else if first < s.mem.length then
    match h : destroyAt s first with
    | some s' => destroyA s' (first + 1) last
    | none => (s, .ub)
  else (s, .ub)
termination_by s.mem.length - first
decreasing_by
  have : s'.mem.length = s.mem.length := by
    unfold destroyAt at h
    split at h
    · cases h; simp
    · cases h
  omega

/-- The loop of `destroy_n_a` (destroy.hpp 34-36) while `n > 0`; the last argument is `n`. -/
def destroyNLoop (s : St α) (first : Nat) : Nat → St α × Out Unit
  | 0 => (s, .ok ())
  | k + 1 =>
    match destroyAt s first with
    | some s' => destroyNLoop s' (first + 1) k
    | none => (s, .ub)

/-- `destroy_n_a(first, n, alloc)`, `n` of a signed type: destroy.hpp 31-37.  `destroy_at_a` (destroy.hpp
20-28) is `destroyAt` for an element that is not an array. -/
def destroyNA (s : St α) (first : Nat) (n : Int) : St α × Out Unit := destroyNLoop s first n.toNat

/-- The handlers of the two functions (uninitialized.hpp 19-22, 44-47): destroy the range, then throw again. -/
def handler (s : St α) (first last : Nat) {β : Type} : St α × Out β :=
  match destroyA s first last with
  | (s', .ok ()) => (s', .exc)
  | (s', .exc) => (s', .exc)
  | (s', .ub) => (s', .ub)

/-- The loop of `uninitialized_copy_a`: uninitialized.hpp 12-23; the handler (20) destroys the range from
the *input* iterator to the output iterator. -/
def copyLoop (throws : Nat → Bool) (inLast outLast : Nat) (s : St α) (inFirst outCurr : Nat) :
    St α × Out (Nat × Nat) :=
  if inFirst = inLast ∨ outCurr = outLast then (s, .ok (inFirst, outCurr))
  else if outCurr < s.mem.length then
    match h : constructAt throws s outCurr inFirst with
    | (s', .ok ()) => copyLoop throws inLast outLast s' (inFirst + 1) (outCurr + 1)
    | (s', .exc) => handler s' inFirst outCurr
    | (s', .ub) => (s', .ub)
  else (s, .ub)
termination_by s.mem.length - outCurr
decreasing_by
  have : s'.mem.length = s.mem.length := by
    unfold constructAt at h
    split at h
    · split at h
      · cases h
      · cases h; simp
    · cases h
  omega

/-- `uninitialized_copy_a(in_first, in_last, out_first, out_last, alloc)`: uninitialized.hpp 8-24 (and the
overload for ranges, 26-31). -/
def uninitializedCopyA (throws : Nat → Bool) (s : St α) (inFirst inLast outFirst outLast : Nat) :
    St α × Out (Nat × Nat) :=
  copyLoop throws inLast outLast s inFirst outFirst

/-- The loop of `uninitialized_fill_n_a`: uninitialized.hpp 38-48. -/
def fillLoop (throws : Nat → Bool) (first value : Nat) (s : St α) (curr : Nat) : Nat → St α × Out Nat
  | 0 => (s, .ok curr)
  | n + 1 =>
    match constructAt throws s curr value with
    | (s', .ok ()) => fillLoop throws first value s' (curr + 1) n
    | (s', .exc) => handler s' first curr
    | (s', .ub) => (s', .ub)

/-- `uninitialized_fill_n_a(first, n, value, alloc)`; `value` is the address of the object that the
reference designates: uninitialized.hpp 35-49. -/
def uninitializedFillNA (throws : Nat → Bool) (s : St α) (first n value : Nat) : St α × Out Nat :=
  fillLoop throws first value s first n

end Verif.Ranges
