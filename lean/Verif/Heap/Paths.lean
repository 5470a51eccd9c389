import Verif.Heap.Clients

/-!
# Shortest ways with a heap

Dijkstra's algorithm as a client of the heap; HP stands for `include/xme/container/heap.hpp`.  The heap holds pairs of a length and a
place and is ordered by `std::greater` on the lengths, so that the shortest is in front.  Lengths are unsigned integers; no sum
exceeds their type.
-/

set_option autoImplicit false

namespace Verif.Heap

variable {V : Type}

/-- The comparison given to the heap: `a.length > b.length`. Template parameter of HP 8, 12-13. -/
def later (a b : Nat × V) : Bool := decide (b.1 < a.1)

/-- What is pushed when an entry was taken: nothing if its place was taken before, otherwise an entry for every road from there:
`if(!done[v]) { done[v] = true; dist[v] = d; for(auto [u, w] : roads[v]) h.push({d + w, u}); }`. HP 73-76. Part of the model, not of
the code. -/
def relax [DecidableEq V] (roads : V → List (V × Nat)) (taken : List (Nat × V)) (x : Nat × V) : List (Nat × V) :=
  if taken.any fun y => y.2 = x.2 then [] else (roads x.2).map fun r => (x.1 + r.2, r.1)

/-- `Heap h; h.push({0, src}); while(!h.empty()) ...`: the loop of `simulate`, at most `n` rounds. HP 62-67, 73-76. Part of the model,
not of the code. -/
def shortest [DecidableEq V] (roads : V → List (V × Nat)) (src : V) (n fuel : Nat) : M (Nat × V) (List (Nat × V)) := do
  push later fuel (0, src)
  simulate later (relax roads) fuel n []

/-- `dist[v]` if `done[v]`: the length with which the place was first taken. Part of the model, not of the code. -/
def distTo [DecidableEq V] (v : V) : List (Nat × V) → Option Nat
  | [] => none
  | x :: l => if x.2 = v then some x.1 else distTo v l

end Verif.Heap
