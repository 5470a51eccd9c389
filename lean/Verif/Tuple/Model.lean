import Mathlib.Logic.Function.Basic

/-!
# Model of `Tuple` and `Pair`

TP stands for `include/xme/container/tuple.hpp`, TB for `private/container/tuple_base.hpp`, PR for
`include/xme/container/pair.hpp`.

A tuple is the list of the places its elements are stored in (one `TupleElement` base each, TB 17-51, 54-72; for a
tuple of references the places referred to); the memory says what each place holds. `α` stands for the values of all
element types together; what the types are is not modelled, and an index that does not exist (a compile error) is
`none`. Value categories (copy or move) are not modelled.
-/

set_option autoImplicit false

namespace Verif.Tup

variable {α β : Type}

/-- An object's address. Part of the model, not of the code. -/
abbrev Loc := Nat
/-- The objects' values. Part of the model, not of the code. -/
abbrev Mem (α : Type) := Loc → α
/-- A tuple object: the addresses of its elements; TP 11-52, TB 17-26. -/
abbrev Tuple := List Loc

/-- `std::make_index_sequence<size>` TP 19, 30, 38, 93. -/
def indices (t : Tuple) : List Nat := List.range t.length

/-- `get<I>`, TP 57-70 and TB 28-40: the element itself. -/
def get (i : Nat) (t : Tuple) : Option Loc := t[i]?

/-- Aggregate construction from values, TP 28, 98, 104, 110, 139: the elements in order. -/
def construct : Tuple → List α → Mem α → Option (Mem α)
  | [], [], m => some m
  | l :: ls, v :: vs, m => construct ls vs (Function.update m l v)
  | _, _, _ => none

/-- TP 44: one element of the fold. -/
def assignAt (dst src : Tuple) (i : Nat) (m : Mem α) : Option (Mem α) := do
  let d ← get i dst
  let s ← get i src
  pure (Function.update m d (m s))

/-- TP 50: one element of the fold. -/
def swapAt (a b : Tuple) (i : Nat) (m : Mem α) : Option (Mem α) := do
  let x ← get i a
  let y ← get i b
  pure (Function.update (Function.update m x (m y)) y (m x))

/-- A fold over the comma operator. TP 44, 50. -/
def foldComma (f : Nat → Mem α → Option (Mem α)) : List Nat → Mem α → Option (Mem α)
  | [], m => some m
  | i :: is, m => do
    let m ← f i m
    foldComma f is m

/-- `operator=` from another tuple-like, TP 16-21, 42-45 -/
def assign (dst src : Tuple) (m : Mem α) : Option (Mem α) := foldComma (assignAt dst src) (indices dst) m

/-- `swap`, TP 37-39, 47-51 and 72-76 -/
def swap (a b : Tuple) (m : Mem α) : Option (Mem α) := foldComma (swapAt a b) (indices a) m

/-- `get<I>(tup)...` TP 28, 82. -/
def getAll (m : Mem α) (t : Tuple) (is : List Nat) : Option (List α) := is.mapM fun i => (get i t).map m

/-- `apply`, TP 79-94: `f` receives its arguments as a list. -/
def apply (f : List α → β) (t : Tuple) (m : Mem α) : Option β := (getAll m t (indices t)).map f

/-- The conversion operator, TP 23-31: the new object's elements lie at `u`. -/
def convert (t u : Tuple) (m : Mem α) : Option (Mem α) := do
  let vs ← getAll m t (indices t)
  construct u vs m

/-- `TupleCat`, TP 115-130: the outer and inner indices, given the index sequences of the tuples. -/
def tupleCat (outer inner : List Nat) (next : Nat) : List (List Nat) → List Nat × List Nat
  | [] => (outer, inner)
  | outerNext :: rest => tupleCat (outer ++ outerNext) (inner ++ outerNext.map fun x => next + 0 * x) (next + 1) rest

/-- TP 139: `get<OuterIndex>(get<InnerIndex>(tup))...` -/
def catElems (ts : List Tuple) : List Nat → List Nat → Option (List Loc)
  | o :: os, i :: is => do
    let t ← ts[i]?
    let l ← get o t
    let ls ← catElems ts os is
    pure (l :: ls)
  | [], [] => some []
  | _, _ => none

/-- `tuple_cat`, TP 132-150: the elements from which the result is constructed. -/
def cat (ts : List Tuple) : Option (List Loc) :=
  let idx := tupleCat [] [] 0 (ts.map indices)
  catElems ts idx.1 idx.2

/-! ### Comparison

`none` is `std::partial_ordering::unordered`. -/

/-- The defaulted `<=>` of TB 59 and TP 35: the elements in order, up to the first that is not equivalent. `cmp i` is
the `<=>` of the element type at `i` (TB 43). -/
def compare (cmp : Nat → α → α → Option Ordering) : Nat → List α → List α → Option Ordering
  | i, x :: xs, y :: ys =>
    match cmp i x y with
    | some .eq => compare cmp (i + 1) xs ys
    | r => r
  | _, _, _ => some .eq

/-- The defaulted `==` of TB 60 and TP 33. -/
def equal (eq : Nat → α → α → Bool) : Nat → List α → List α → Bool
  | i, x :: xs, y :: ys => eq i x y && equal eq (i + 1) xs ys
  | _, _, _ => true

/-! ### Pair -/

/-- A pair object: the addresses of its elements; pair.hpp 8-81. -/
structure Pair (α : Type) where
  first : Loc
  second : Loc

/-- `operator=`, PR 11-17 -/
def Pair.assign (p q : Pair α) (m : Mem α) : Mem α :=
  let m := Function.update m p.first (m q.first)
  Function.update m p.second (m q.second)

/-- `swap`, PR 71-75 -/
def Pair.swap (p q : Pair α) (m : Mem α) : Mem α :=
  let m := Function.update (Function.update m p.first (m q.first)) q.first (m p.first)
  Function.update (Function.update m p.second (m q.second)) q.second (m p.second)

/-- `get<I>`, PR 34-62 and 86-102 -/
def Pair.get (i : Nat) (p : Pair α) : Option Loc :=
  match i with
  | 0 => some p.first
  | 1 => some p.second
  | _ => none

/-- The defaulted `<=>`, PR 69 -/
def Pair.compare (c0 c1 : α → α → Option Ordering) (x y : α × α) : Option Ordering :=
  match c0 x.1 y.1 with
  | some .eq => c1 x.2 y.2
  | r => r

/-- The defaulted `==`, PR 66 -/
def Pair.equal (e0 e1 : α → α → Bool) (x y : α × α) : Bool := e0 x.1 y.1 && e1 x.2 y.2

end Verif.Tup
