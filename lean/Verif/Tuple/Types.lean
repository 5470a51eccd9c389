import Verif.Core.Types

/-!
# The types of tuples and of their elements

TP stands for `include/xme/container/tuple.hpp`, TB for `private/container/tuple_base.hpp`, PR for
`include/xme/container/pair.hpp`, CC for `include/xme/container/concepts.hpp`. What the compiler makes of `std::tuple_size`,
`std::tuple_element`, `get`, structured bindings, `CTupleLike`, `CPairLike` and the result type of `tuple_cat`, for the branch
without deducing `this`. The types are those of `Core/Types.lean`.

Simplifications: a class can be a member of a tuple (it is complete and not abstract); other classes with a tuple interface,
such as `std::tuple`, are left out.
-/

set_option autoImplicit false

namespace Verif.TupTypes

open Verif.Types

/-- `const T`. TB 33, CC 20, PR 40, 55. -/
def addConst : Ty → Ty
  | .fund _ v f => .fund true v f
  | .enum _ v i s u => .enum true v i s u
  | .cls _ v i => .cls true v i
  | .initList _ v t => .initList true v t
  | .ptr _ v t => .ptr true v t
  | .memPtr _ v i t => .memPtr true v i t
  | .array t n => .array (addConst t) n
  | t => t

/-- `T&`, with the collapsing rule. TB 28, 33, CC 20, PR 35, 40, 50, 55. -/
def addLref : Ty → Ty
  | .lref t => .lref t
  | .rref t => .lref t
  | t => .lref t

/-- `T&&`, with the collapsing rule. TB 38, PR 45, 60. -/
def addRref : Ty → Ty
  | .lref t => .lref t
  | .rref t => .rref t
  | t => .rref t

/-- Whether a type is `const`, and whether it is `volatile`: of an array, whether the elements are. Part of the model, not of
the code. -/
def cvOf : Ty → Bool × Bool
  | .fund c v _ | .enum c v _ _ _ | .cls c v _ | .initList c v _ | .ptr c v _ | .memPtr c v _ _ => (c, v)
  | .array t _ => cvOf t
  | _ => (false, false)

/-- `decltype(f())` for a function returning the type: the result of a type that is neither a class nor a reference loses its
qualifiers; arrays and functions cannot be returned. TB 47, TP 160. -/
def callType : Ty → Option Ty
  | .fund _ _ f => some (.fund false false f)
  | .enum _ _ i s u => some (.enum false false i s u)
  | .ptr _ _ t => some (.ptr false false t)
  | .memPtr _ _ i t => some (.memPtr false false i t)
  | .array _ _ => none
  | .fn _ => none
  | t => some t

/-- A `Tuple` or a `Pair` of these element types. TP 8-9, PR 8-9. -/
inductive Tup
  | tuple (ts : List Ty)
  | pair (a b : Ty)
  deriving DecidableEq

/-- Whether there can be a member of the type. TB 50, PR 78, 80. -/
def memberOk : Ty → Bool
  | .fund _ _ .void => false
  | .fn _ => false
  | _ => true

/-- Whether the class can be instantiated: the members can be (TB 50, PR 78-80) and, in a tuple, the function of TB 47, which
returns the element type. -/
def Tup.wellFormed : Tup → Bool
  | .tuple ts => ts.all fun t => memberOk t && (callType t).isSome
  | .pair a b => memberOk a && memberOk b

/-- `std::tuple_size_v`. TP 155-156, PR 120-121. -/
def Tup.size : Tup → Nat
  | .tuple ts => ts.length
  | .pair _ _ => 2

/-- `std::tuple_element_t<I, T>`: what the static member function of TB 47 chosen by the index returns (TP 158-161); for a pair
PR 123-131. -/
def Tup.element : Tup → Nat → Option Ty
  | .tuple ts, i => ts[i]? >>= callType
  | .pair a _, 0 => some a
  | .pair _ b, 1 => some b
  | .pair _ _, _ => none

/-- The type of the member behind the index. TB 17-50, 65-72, PR 34-62. -/
def Tup.member : Tup → Nat → Option Ty
  | .tuple ts, i => ts[i]?
  | .pair a _, 0 => some a
  | .pair _ b, 1 => some b
  | .pair _ _, _ => none

/-- The argument of `get`. TP 58, 63, 68, PR 88, 94, 100. -/
inductive Access
  | lvalue | constLvalue | rvalue | constRvalue
  deriving DecidableEq

/-- `decltype(get<I>(t))`. A `const` rvalue takes the overload for `const` lvalues (TP 62-65, PR 92-96). For an rvalue the
member of the cast object is returned as `T&&` (TB 38-40, PR 45-47, 60-62): a member that is an rvalue reference is an lvalue
there, and does not convert. TP 57-70, PR 86-102. -/
def getType (a : Access) (t : Ty) : Option Ty :=
  match a with
  | .lvalue => some (addLref t)
  | .constLvalue => some (addLref (addConst t))
  | .constRvalue => some (addLref (addConst t))
  | .rvalue => match t with
    | .rref _ => none
    | t => some (addRref t)

/-- `get<I>(t)`. TP 57-70, PR 86-102. -/
def Tup.get (T : Tup) (i : Nat) (a : Access) : Option Ty := T.member i >>= getType a

/-- Whether an expression `from` (the type of `get`: an lvalue or xvalue of the type referred to) initialises a reference `to`
to the same type up to qualifiers: the same kind of reference, with at least the qualifiers. Part of the model, not of the
code; CC 20. -/
def binds : Ty → Ty → Bool
  | .lref t, .lref u => covers t u
  | .rref t, .rref u => covers t u
  | _, _ => false
where
  /-- the same type with at least the qualifiers -/
  covers (t u : Ty) : Bool :=
    decide (removeCv t = removeCv u) && (!(cvOf u).1 || (cvOf t).1) && (!(cvOf u).2 || (cvOf t).2)

/-- `CTupleElement<T, I>`, CC 17-21: `get<I>(t)` of an lvalue converts to `const std::tuple_element_t<I, T>&`. -/
def cTupleElement (T : Tup) (i : Nat) : Bool :=
  match T.element i, T.get i .lvalue with
  | some e, some g => binds (addLref (addConst e)) g
  | _, _ => false

/-- `CTupleLike` of a tuple or pair, with any qualifiers and reference, which CC 37 removes. CC 23-37. -/
def cTupleLike (T : Tup) : Bool := (List.range T.size).all fun i => cTupleElement T i

/-- `CPairLike`, CC 39-40. -/
def cPairLike (T : Tup) : Bool := cTupleLike T && decide (T.size = 2)

/-- The declaration of structured bindings: `auto& [...] = t`, `const auto& [...] = t`, `auto [...] = t`. The interface TP
155-161 and PR 120-131 is there for them. -/
inductive Binding
  | ref | constRef | value
  deriving DecidableEq

/-- The type of the reference behind the name of a structured binding, and whether it can be initialised from `get`: the type
is `std::tuple_element_t<I, E>` made a reference, `E` being `const` for `constRef`; `get` is called on an lvalue, on an rvalue
for `value`. The rule of the language; TP 57-70, 155-161. -/
def Tup.bind (T : Tup) (b : Binding) (i : Nat) : Bool :=
  match b with
  | .ref => match T.element i, T.get i .lvalue with
    | some e, some g => binds (addLref e) g
    | _, _ => false
  | .constRef => match T.element i, T.get i .constLvalue with
    | some e, some g => binds (addLref (addConst e)) g
    | _, _ => false
  | .value => match T.element i, T.get i .rvalue with
    | some e, some g => binds (addRref e) g
    | _, _ => false

/-- `TupleCat`, TP 115-130: the outer and the inner indices. -/
def catIndices (outer inner : List Nat) (next : Nat) : List Nat → List Nat × List Nat
  | [] => (outer, inner)
  | n :: rest => catIndices (outer ++ List.range n) (inner ++ (List.range n).map fun k => next + 0 * k) (next + 1) rest

/-- The result type of `tuple_cat`, TP 117-123, 132-134, 144-149: the elements `std::tuple_element_t<Outer, Inner-th tuple>`. -/
def catType (Ts : List Tup) : List (Option Ty) :=
  let (outer, inner) := catIndices [] [] 0 (Ts.map Tup.size)
  (outer.zip inner).map fun (o, i) => Ts[i]? >>= fun T => T.element o

end Verif.TupTypes
