import Verif.Tuple.Model

/-!
# Comparisons of elements that throw

TP stands for `include/xme/container/tuple.hpp`, TB for `private/container/tuple_base.hpp`, PR for
`include/xme/container/pair.hpp`. `Model.lean` has the comparisons for elements whose comparisons return.
-/

set_option autoImplicit false

namespace Verif.TupT

variable {α : Type}

/-- How a comparison ends: with a result, with an exception, or with the end of the program. Part of the model, not of the
code. -/
inductive Out (ρ : Type)
  | ret (r : ρ)
  | threw
  | terminated
  deriving DecidableEq

/-- A function declared `noexcept`: TP 33, 35, PR 66, 69. -/
def noexcept {ρ : Type} : Out ρ → Out ρ
  | .threw => .terminated
  | o => o

/-- The defaulted `<=>` of TB 43 and 59, which are not `noexcept`: element by element, up to the first that is not equivalent.
`none` is `std::partial_ordering::unordered`. -/
def compareElems (cmp : Nat → α → α → Out (Option Ordering)) : Nat → List α → List α → Out (Option Ordering)
  | i, x :: xs, y :: ys =>
    match cmp i x y with
    | .ret (some .eq) => compareElems cmp (i + 1) xs ys
    | o => o
  | _, _, _ => .ret (some .eq)

/-- The defaulted `==` of TB 45 and 60. -/
def equalElems (eq : Nat → α → α → Out Bool) : Nat → List α → List α → Out Bool
  | i, x :: xs, y :: ys =>
    match eq i x y with
    | .ret true => equalElems eq (i + 1) xs ys
    | o => o
  | _, _, _ => .ret true

/-- TP 35 -/
def tupleCompare (cmp : Nat → α → α → Out (Option Ordering)) (xs ys : List α) : Out (Option Ordering) :=
  noexcept (compareElems cmp 0 xs ys)

/-- TP 33 -/
def tupleEqual (eq : Nat → α → α → Out Bool) (xs ys : List α) : Out Bool := noexcept (equalElems eq 0 xs ys)

/-- PR 69 -/
def pairCompare (cmp : Nat → α → α → Out (Option Ordering)) (x y : α × α) : Out (Option Ordering) :=
  noexcept (match cmp 0 x.1 y.1 with
    | .ret (some .eq) => cmp 1 x.2 y.2
    | o => o)

/-- PR 66 -/
def pairEqual (eq : Nat → α → α → Out Bool) (x y : α × α) : Out Bool :=
  noexcept (match eq 0 x.1 y.1 with
    | .ret true => eq 1 x.2 y.2
    | o => o)

end Verif.TupT
