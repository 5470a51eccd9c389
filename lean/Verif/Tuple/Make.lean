import Verif.Tuple.Category
import Verif.Tuple.Model

/-!
# `make_tuple`, `make_pair`, `tie`, `forward_as_tuple`

TP stands for `include/xme/container/tuple.hpp`, TB for `private/container/tuple_base.hpp`, PR for
`include/xme/container/pair.hpp`. The memory is that of `Category.lean`. A `const` object is an object of another type here:
arguments are lvalues or rvalues. Rvalues of `const` objects (which are copied), arrays and functions (which decay to
pointers) are left out.
-/

set_option autoImplicit false

namespace Verif.TupC

variable {α : Type}

/-- An argument: the object it designates, whether it is an rvalue, and, for a `std::reference_wrapper`, the object that refers
to. Part of the model, not of the code. -/
structure Arg where
  loc : Loc
  rvalue : Bool
  target : Option Loc

/-- The category of `std::forward<T>(value)`: TP 104, 110, PR 113-114. -/
def Arg.cat (a : Arg) : Cat := if a.rvalue then .xvalue else .lvalue

/-- `std::unwrap_ref_decay_t<T>` and the element of that type at `l`: TP 55, 104, PR 84, 113. -/
def madeElem (l : Loc) (a : Arg) : Elem :=
  match a.target with
  | some t => ⟨.lref, t⟩
  | none => ⟨.obj, l⟩

/-- `make_tuple` with the elements at `ls`, TP 101-105, and the tuple constructed with deduction, TP 54-55: the elements are
constructed in order. -/
def makeTuple : List Loc → List Arg → Mem α → Option (Tuple × Mem α)
  | [], [], m => some ([], m)
  | l :: ls, a :: as, m => do
    let m := match a.target with
      | some _ => m
      | none => transfer a.cat l a.loc m
    let (t, m) ← makeTuple ls as m
    pure (madeElem l a :: t, m)
  | _, _, _ => none

/-- `make_pair`, PR 109-115, and the pair constructed with deduction, PR 83-84. -/
def makePair (l1 l2 : Loc) (a b : Arg) (m : Mem α) : Tuple × Mem α :=
  let m := match a.target with
    | some _ => m
    | none => transfer a.cat l1 a.loc m
  let m := match b.target with
    | some _ => m
    | none => transfer b.cat l2 b.loc m
  ([madeElem l1 a, madeElem l2 b], m)

/-- `tie`, TP 96-99. -/
def tie (ls : List Loc) : Tuple := ls.map fun l => ⟨.lref, l⟩

/-- `forward_as_tuple`, TP 107-111. -/
def forwardAsTuple (as : List Arg) : Tuple := as.map fun a => ⟨if a.rvalue then .rref else .lref, a.loc⟩

/-- Whether the tuples have the same type, given that corresponding elements have once references are removed. Part of the
model, not of the code. -/
def sameType (dst src : Tuple) : Bool := dst.map (·.kind) == src.map (·.kind)

/-- `dst = src` for tuples: the template of TP 14-21 for another type, the implicit one for the same type. -/
def assignTuple (c : Cat) (dst src : Tuple) (m : Mem α) : Option (Mem α) :=
  if sameType dst src then assignSame c dst src m else assignOther c dst src m

/-- `dst = src` for pairs: for the same type the implicit one if it is not deleted. If it is, the template of PR 11-17 is the
better match, except for a `const` right hand side. -/
def assignPair (c : Cat) (dst src : Tuple) (m : Mem α) : Option (Mem α) :=
  if sameType dst src && c == .clvalue then assignSame c dst src m else assignOther c dst src m

/-- `<=>` and the operators made from it, TB 43, 59, TP 35, PR 69: defaulted, so deleted for a class with a reference member.
-/
def compareTuples (cmp : Nat → Option α → Option α → Option Ordering) (s t : Tuple) (m : Mem α) : Option (Option Ordering) :=
  if ∀ e ∈ s, e.kind = .obj then some (Tup.compare cmp 0 (s.map fun e => m e.loc) (t.map fun e => m e.loc)) else none

/-- `==`, TB 45, 60, TP 33, PR 66: the same. -/
def equalTuples (eq : Nat → Option α → Option α → Bool) (s t : Tuple) (m : Mem α) : Option Bool :=
  if ∀ e ∈ s, e.kind = .obj then some (Tup.equal eq 0 (s.map fun e => m e.loc) (t.map fun e => m e.loc)) else none

end Verif.TupC
