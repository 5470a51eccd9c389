import Verif.Functional.Init

/-!
# Which constructor of a container an initialisation selects

AY stands for `include/xme/container/array.hpp`, LL for `include/xme/container/linked_list.hpp`, HP for
`include/xme/container/heap.hpp`. This is a model of what the compiler does with `C b(e)`, `C b = e` (also when `e` is passed or
returned by value) and of which overload `push_back`, `insert` and `insert_after` select for one argument.

The types, expressions and rules of overload resolution are those of `Core/Types.lean` and `Functional/Init.lean`. Whether a
type is a range whose elements convert to the element type, and how an expression converts to a size, an allocator or the
element type is up to the program. Initialisation with braces and from two or more arguments is left out.
-/

set_option autoImplicit false

namespace Verif.ContInit

open Verif.Types Verif.FnInit

/-- What the rest of the program says about types. Part of the model, not of the code. -/
structure World extends Prog where
  /-- the deduced type is an `input_range` whose elements convert to the element type: AY 72-73, 213-214, 239-240, LL 75-76,
  192-193, HP 38-39 -/
  isRange : Ty → Bool
  /-- how the expression converts to `size_type`, AY 49, LL 41 -/
  toSize : Expr → Option Rank
  /-- how the expression converts to the allocator, AY 46 -/
  toAlloc : Expr → Option Rank
  /-- the deduced type converts to the element type: AY 159, 220, LL 176 -/
  toElem : Ty → Bool

/-- The constructors that can take one argument. AY 41-75, LL 41-82, HP 38-48. -/
inductive Ctor
  | copy | move | alloc | size | list | range
  deriving DecidableEq

/-- A container: its constructors, which of them are explicit, and whether the constructor from a range excludes the container
itself. AY 41-75, LL 41-82, HP 25-48. -/
structure Cls where
  ctors : List Ctor
  explicit : Ctor → Bool
  guarded : Bool

/-- `Array`, AY 41-76. -/
def array : Cls := ⟨[.copy, .move, .alloc, .size, .list, .range], fun c => c = .alloc || c = .size || c = .range, true⟩

/-- `LinkedList`, LL 41-85: all are explicit, the copy and the move constructor too. -/
def linkedList : Cls := ⟨[.copy, .move, .size, .list, .range], fun _ => true, false⟩

/-- `Heap`, HP 38-48; copying and moving are implicit. -/
def heap : Cls := ⟨[.copy, .move, .range], fun _ => false, true⟩

/-- A conversion to something that is not the container: the container itself has none. AY 46, 49, LL 41. -/
def unlessSelf (self : Nat) (e : Expr) (r : Option Rank) : Option Rank :=
  match e.ty with
  | .cls _ _ k => if k = self then none else r
  | _ => r

/-- How the expression converts to `std::initializer_list<T>`. AY 61, LL 65. -/
def toList (elem : Ty) (e : Expr) : Option Rank :=
  match e.ty with
  | .initList _ _ t => if t = elem then some .identity else none
  | _ => none

/-- The key of a constructor, smaller being better, as in `FnInit.key`; `none` if it is not viable. For the constructor from a
range: AY 72-75, LL 75-77, HP 38-41. -/
def key (W : World) (C : Cls) (self : Nat) (elem : Ty) (e : Expr) : Ctor → Option Nat
  | .copy => (toSelf W.toProg self false e).map fun r =>
      8 * r.num + (if e.cat = .lvalue then 0 else 4) + (if isConst e.ty then 0 else 2)
  | .move => (toSelf W.toProg self true e).map fun r => 8 * r.num
  | .alloc => (unlessSelf self e (W.toAlloc e)).map fun r => 8 * r.num
  | .size => (unlessSelf self e (W.toSize e)).map fun r => 8 * r.num
  | .list => (toList elem e).map fun r => 8 * r.num
  | .range =>
    if W.isRange (deduce e) && (!C.guarded || cDifferentFromSelf (deduce e) (.cls false false self)) then some 1 else none

/-- The best of the candidates; `none` if there is none, or no best one. AY 41-76, LL 41-85, HP 38-48. -/
def choose {α : Type} [DecidableEq α] (key : α → Option Nat) (cs : List α) : Option α :=
  cs.find? fun c =>
    match key c with
    | none => false
    | some k => cs.all fun d => d = c || match key d with
      | none => true
      | some l => decide (k < l)

/-- What an initialisation does: it does not compile, the expression makes the container itself, or the constructor selected
does. Part of the model, not of the code. -/
inductive Out
  | illFormed | same
  | by (c : Ctor)
  deriving DecidableEq

/-- The initialisation with the constructors that take part; a temporary of the class makes the new object itself. AY 41-76,
LL 41-85, HP 38-48. -/
def init (W : World) (C : Cls) (self : Nat) (elem : Ty) (e : Expr) (cs : List Ctor) : Out :=
  if elided self e then .same
  else match choose (key W C self elem e) cs with
    | none => .illFormed
    | some c => .by c

/-- `C b(e)`: all constructors take part. AY 41-76, LL 41-85, HP 38-48. -/
def direct (W : World) (C : Cls) (self : Nat) (elem : Ty) (e : Expr) : Out := init W C self elem e C.ctors

/-- `C b = e`, and passing or returning `e` by value: the explicit constructors do not take part. AY 41-76, LL 41-85,
HP 38-48. -/
def copyInit (W : World) (C : Cls) (self : Nat) (elem : Ty) (e : Expr) : Out :=
  init W C self elem e (C.ctors.filter fun c => !C.explicit c)

/-- The overloads for one value: `AY 159, 220, LL 176` take an element, `AY 213, 239, LL 192` a range. -/
inductive Adding
  | element | range
  deriving DecidableEq

/-- `a.push_back(e)`, `a.insert(pos, e)`, `l.insert_after(pos, e)`: both overloads are templates with a parameter `X&&`, neither
more constrained. AY 159-160, 213-215, 220-221, 239-241, LL 176-177, 192-194. -/
def adding (W : World) (e : Expr) : Option Adding :=
  choose (fun a => match a with
    | .element => if W.toElem (deduce e) then some 1 else none
    | .range => if W.isRange (deduce e) then some 1 else none) [.element, .range]

end Verif.ContInit
