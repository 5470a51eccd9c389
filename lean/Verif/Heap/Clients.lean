import Verif.Heap.Spec

/-!
# Programs that use a heap

Client programs written against `push`, `pop`, `front` and `size` of `Verif/Heap/Model`; HP stands for
`include/xme/container/heap.hpp`.  They are what heaps are used for: a simulation that takes the next event and schedules further
ones, keeping the best `k` of a stream, and merging sorted sequences.
-/

set_option autoImplicit false

namespace Verif.Heap

variable {α : Type} (lt : α → α → Bool)

/-- A client that takes the front again and again, at most so many times, and pushes new elements for it, which may depend on what
it has taken so far: `while(!h.empty()) { auto e = h.front(); h.pop(); for(auto& x : handle(e)) h.push(x); }`. HP 62-67, 73-76.
Part of the model, not of the code. -/
def simulate (next : List α → α → List α) (fuel : Nat) : Nat → List α → M α (List α)
  | 0, taken => pure taken
  | n + 1, taken => do
    let k ← M.size
    if k = 0 then pure taken
    else do
      let x ← front
      pop lt fuel
      pushAll lt fuel (next taken x)
      simulate next fuel n (taken ++ [x])

/-- A client that keeps the best `k` elements of a stream: `h.push(x); if(h.size() > k) h.pop();` for each. HP 62-67, 73-76. Part of
the model, not of the code. -/
def keepBest (fuel k : Nat) : List α → M α Unit
  | [] => pure ()
  | x :: xs => do
    push lt fuel x
    let n ← M.size
    if k < n then do
      pop lt fuel
      keepBest fuel k xs
    else keepBest fuel k xs

/-- Sequences compared by their first elements, the empty one before all others. Part of the model, not of the code. -/
def byHead : List α → List α → Bool
  | _, [] => false
  | [], _ :: _ => true
  | x :: _, y :: _ => lt x y

/-- What is pushed again when a sequence has been taken in a merge: the rest of it, if there is any. Part of the model, not of the
code. -/
def restOf (_ : List (List α)) (l : List α) : List (List α) := if l.tail.isEmpty then [] else [l.tail]

end Verif.Heap
