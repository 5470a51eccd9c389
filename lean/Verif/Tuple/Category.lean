import Mathlib.Logic.Function.Basic

/-!
# Copies, moves and exceptions in `Tuple` and `Pair`

TP stands for `include/xme/container/tuple.hpp`, TB for `private/container/tuple_base.hpp`, PR for
`include/xme/container/pair.hpp`.

`Model.lean` says which element goes where. Here it is said whether it is copied or moved. An object holds a value, or
`none` after it was moved from. The elements of a tuple are objects, or references to objects elsewhere. What does not
compile is `none`. The branch without deducing `this` is modelled (TB 27-40, PR 34-62): with it `self` is the whole
tuple and `.value` in TB 24 would be ambiguous.
-/

set_option autoImplicit false

namespace Verif.TupC

/-- An element of type `X`, `X&` or `X&&`: the parameters of `TupleElement`, TB 17, 50. -/
inductive Kind
  | obj
  | lref
  | rref
  deriving DecidableEq

/-- The value category of an expression, and whether it is const: TP 57-70, PR 86-102. -/
inductive Cat
  | lvalue
  | clvalue
  | xvalue
  deriving DecidableEq

/-- An object's address. Part of the model, not of the code. -/
abbrev Loc := Nat
/-- The objects' values; `none` for an object that was moved from. Part of the model, not of the code. -/
abbrev Mem (α : Type) := Loc → Option α

/-- An element: TB 17-51, PR 77-80. `loc` is the object it is or refers to. -/
structure Elem where
  kind : Kind
  loc : Loc

/-- A tuple: TB 53-72. A pair is a tuple of two elements: PR 77-80. -/
abbrev Tuple := List Elem

/-- The category of `get<I>(tup)` for a tuple of category `c`: TP 57-70 and TB 27-40 (PR 34-62 and 86-102). `T&`,
`const T&` and `T&&` for `T` a reference collapse to references. A member of reference type is an lvalue, so TB 39 and
PR 46 and 61 do not compile for `X&&`. -/
def getCat : Cat → Kind → Option Cat
  | .lvalue, _ => some .lvalue
  | .clvalue, .obj => some .clvalue
  | .clvalue, _ => some .lvalue
  | .xvalue, .obj => some .xvalue
  | .xvalue, .lref => some .lvalue
  | .xvalue, .rref => none

variable {α : Type}

/-- `dst = e` for an expression `e` of category `c` that designates `src`: a move leaves `src` moved from. TP 44,
PR 14-15. -/
def transfer (c : Cat) (dst src : Loc) (m : Mem α) : Mem α :=
  match c with
  | .xvalue => Function.update (Function.update m dst (m src)) src none
  | _ => Function.update m dst (m src)

/-- TP 44: one element of the fold. -/
def assignAt (c : Cat) (dst src : Tuple) (i : Nat) (m : Mem α) : Option (Mem α) := do
  let d ← dst[i]?
  let s ← src[i]?
  let k ← getCat c s.kind
  pure (transfer k d.loc s.loc m)

/-- The fold over the comma operator, TP 44; PR 14-15 are the same for two elements. -/
def assignAll (c : Cat) (dst src : Tuple) : List Nat → Mem α → Option (Mem α)
  | [], m => some m
  | i :: is, m => do
    let m ← assignAt c dst src i m
    assignAll c dst src is m

/-- `operator=` from a tuple of another type, TP 16-21, and of a pair from any pair, PR 11-17. -/
def assignOther (c : Cat) (dst src : Tuple) (m : Mem α) : Option (Mem α) :=
  assignAll c dst src (List.range dst.length) m

/-- The implicit `operator=` from a tuple of the same type (TP 17 excludes the template): defaulted, element by
element (TB 17, 54, TP 9), and deleted if an element is a reference. -/
def assignSame (c : Cat) (dst src : Tuple) (m : Mem α) : Option (Mem α) :=
  if ∀ e ∈ dst, e.kind = .obj then assignAll c dst src (List.range dst.length) m else none

/-- The arguments `apply` passes on: TP 79-94. -/
def applyArgs (c : Cat) (t : Tuple) : Option (List (Cat × Loc)) :=
  t.mapM fun e => (getCat c e.kind).map fun k => (k, e.loc)

/-- What `get<InnerIndex>(std::move(tup))` of TP 139 makes of an argument of `tuple_cat`: TP 144, 149 and 108-111 make
`X&` of an lvalue and `X&&` of an rvalue. -/
def catArg (c : Cat) : Option Cat :=
  match c with
  | .xvalue => getCat .xvalue .rref
  | c => (getCat .xvalue .lref).map fun _ => c

/-- An element of the result of `tuple_cat`, TP 119-120 and 139, bound to or constructed from `get<OuterIndex>` of the
argument: an `X&&` cannot be bound to the lvalue. The result is the category it is constructed from. -/
def catElem (c : Cat) (e : Elem) : Option (Cat × Elem) :=
  match e.kind with
  | .rref => none
  | _ => (getCat c e.kind).map fun k => (k, e)

/-- The expressions the elements of `tuple_cat` are constructed from, in order: TP 136-150. There is one
`get<InnerIndex>` for each element (TP 130), none for an empty tuple. -/
def catElems : List (Cat × Tuple) → Option (List (Cat × Elem))
  | [] => some []
  | (c, t) :: rest => do
    let es ← t.mapM fun e => (catArg c).bind fun k => catElem k e
    let r ← catElems rest
    pure (es ++ r)

/-! ### Exceptions -/

/-- How an assignment ends. Part of the model, not of the code. -/
inductive Res (α : Type)
  | ok (m : Mem α)
  | threw (m : Mem α)
  | terminated

/-- The fold of TP 44 when the assignment of the elements in `thr` throws, before it has any effect. -/
def assignAllThrow (thr : Nat → Bool) (c : Cat) (dst src : Tuple) : List Nat → Mem α → Option (Res α)
  | [], m => some (.ok m)
  | i :: is, m =>
    if thr i then some (.threw m)
    else do
      let m ← assignAt c dst src i m
      assignAllThrow thr c dst src is m

/-- TP 16-21 with elements whose assignment may throw; the function is not `noexcept`. -/
def tupleAssign (thr : Nat → Bool) (c : Cat) (dst src : Tuple) (m : Mem α) : Option (Res α) :=
  assignAllThrow thr c dst src (List.range dst.length) m

/-- PR 11-17: `noexcept` if the elements are nothrow swappable. -/
def pairAssign (nothrowSwappable : Bool) (thr : Nat → Bool) (c : Cat) (dst src : Tuple) (m : Mem α) : Option (Res α) :=
  (assignAllThrow thr c dst src (List.range 2) m).map fun r =>
    match r with
    | .threw m => if nothrowSwappable then .terminated else .threw m
    | r => r

end Verif.TupC
