import Verif.Core.Types

/-!
# What a delegate and a binder can be made from

DG stands for `include/xme/core/functional/delegate.hpp`, BD for `include/xme/core/functional/bind.hpp`. This is a model of
what the compiler does with `Delegate d(e)`, `d = e` and `BindFront b(e)`: which of the overloaded constructors or assignment
operators it selects, and whether the selected one compiles for that argument.

Simplifications.
* Of the rules of overload resolution those are here which matter for these overloads: identity before derived-to-base
  conversion before user-defined conversion; then an rvalue reference before an lvalue reference for an rvalue; then the less
  `const` reference; then a function before a template.
* Whether a type can be constructed from an expression, called, and converted is up to the program. A callable that can be
  constructed can be destroyed. For local storage the callable is constructed with braces (DG 76); that a constructor from a
  `std::initializer_list` can take over there is left out.
* Initialisation from a list in braces is left out.
-/

set_option autoImplicit false

namespace Verif.FnInit

open Verif.Types

/-- The value categories. Part of the model, not of the code. -/
inductive Cat
  | lvalue | xvalue | prvalue
  deriving DecidableEq

/-- An expression: the argument of DG 119, 127, 135, 152, 157, 162, 171, BD 15, 17, 19. `ty` is not a reference. -/
structure Expr where
  ty : Ty
  cat : Cat
  deriving DecidableEq

/-- What the rest of the program says about types. Part of the model, not of the code. -/
structure Prog where
  /-- a class derives from another -/
  derives : Nat → Nat → Bool
  /-- there is a user-defined conversion to the class -/
  converts : Expr → Nat → Bool
  /-- the expression converts to `std::nullptr_t` other than by being one, as the literal `0` does -/
  toNull : Expr → Bool
  /-- an object of the type can be constructed from the expression -/
  constructible : Ty → Expr → Bool
  /-- an lvalue of the type can be called with the arguments, and the result converts to the result type: DG 62 -/
  invocable : Ty → Bool

/-- The type deduced for `Fn` with a parameter `Fn&&`. DG 136, 172, BD 20. -/
def deduce (e : Expr) : Ty := if e.cat = .lvalue then .lref e.ty else e.ty

/-- The overloads of the constructor or of the assignment operator. DG 119, 127, 135, 152, 157, 162, 171, BD 15, 17, 19. -/
inductive Cand
  | copy | move | null | template
  deriving DecidableEq

/-- How good a conversion is, from the best. Part of the model, not of the code. -/
inductive Rank
  | identity | base | user
  deriving DecidableEq

/-- The rank as a number: smaller is better. Part of the model, not of the code. -/
def Rank.num : Rank → Nat
  | .identity => 0
  | .base => 1
  | .user => 2

/-- How the expression converts to a reference to the class `self`: `const Self&` (DG 119, 152, BD 15) or, if `rv`, `Self&&`
(DG 127, 157, BD 17). No reference to the class binds a `volatile` object; `Self&&` binds no lvalue and nothing `const`. -/
def toSelf (P : Prog) (self : Nat) (rv : Bool) (e : Expr) : Option Rank :=
  match e.ty with
  | .cls c v k =>
    if k = self || P.derives k self then
      if v then none
      else if rv && (c || e.cat = .lvalue) then none
      else some (if k = self then .identity else .base)
    else if P.converts e self then some .user else none
  | _ => if P.converts e self then some .user else none

/-- How the expression converts to `std::nullptr_t`; the class itself has no conversion but an explicit one to `bool`
(DG 150). DG 162. -/
def toNullptr (P : Prog) (self : Nat) (e : Expr) : Option Rank :=
  match e.ty with
  | .fund _ _ .nullptr => some .identity
  | .cls _ _ k => if k ≠ self && P.toNull e then some .base else none
  | _ => if P.toNull e then some .base else none

/-- The `const` of the type. Part of the model, not of the code. -/
def isConst : Ty → Bool
  | .fund c _ _ | .enum c _ _ _ _ | .cls c _ _ | .initList c _ _ | .ptr c _ _ | .memPtr c _ _ _ => c
  | _ => false

/-- The key of a viable candidate, smaller being better: the rank, then whether an lvalue reference binds an rvalue, then
whether `const` is added, then whether it is a template. `none` if the candidate is not viable. DG 119-175, BD 15-23. -/
def key (P : Prog) (self : Nat) (e : Expr) : Cand → Option Nat
  | .copy => (toSelf P self false e).map fun r =>
      8 * r.num + (if e.cat = .lvalue then 0 else 4) + (if isConst e.ty then 0 else 2)
  | .move => (toSelf P self true e).map fun r => 8 * r.num
  | .null => (toNullptr P self e).map fun r => 8 * r.num
  | .template => if cDifferentFromSelf (deduce e) (.cls false false self) then some 1 else none

/-- The best of the candidates; `none` if there is none, or no best one. DG 119-175, BD 15-23. -/
def choose (P : Prog) (self : Nat) (e : Expr) (cs : List Cand) : Option Cand :=
  cs.find? fun c =>
    match key P self e c with
    | none => false
    | some k => cs.all fun d => d = c || match key P self e d with
      | none => true
      | some l => decide (k < l)

/-- What an initialisation or assignment does: it does not compile, the expression makes the object itself without a
constructor, it copies, moves, makes the delegate empty, or stores a callable of the given type. Part of the model, not of the
code. -/
inductive Init
  | illFormed | same | copied | moved | emptied
  | wraps (t : Ty)
  deriving DecidableEq

/-- Whether the members of `FunctorManager<Fn>` compile that the constructor of a delegate names, DG 135-143: `handle` returns a
pointer to `Fn`, which for a reference does not exist (DG 65); the callable is created from the argument, which `std::forward`
makes an xvalue (DG 139, 76, 79), and in `manager` from an lvalue (DG 95); it is called as an lvalue (DG 62). -/
def managerCompiles (P : Prog) : Ty → Bool
  | .lref _ => false
  | .rref _ => false
  | t => P.constructible t ⟨t, .xvalue⟩ && P.constructible t ⟨t, .lvalue⟩ && P.invocable t

/-- The expression is a temporary of the class, with any qualifiers: it makes the new object itself and no constructor is
selected. Part of the model, not of the code. -/
def elided (self : Nat) (e : Expr) : Bool :=
  match e.ty with
  | .cls _ _ k => k = self && e.cat = .prvalue
  | _ => false

/-- `Delegate d(e)`. The copy constructor passes the storage of a `const` delegate as a plain reference (DG 121) and does not
compile. DG 119-143. -/
def construct (P : Prog) (self : Nat) (e : Expr) : Init :=
  if elided self e then .same
  else match choose P self e [.copy, .move, .template] with
  | some .copy => .illFormed
  | some .move => .moved
  | some .template => if managerCompiles P (deduce e) then .wraps (deduce e) else .illFormed
  | _ => .illFormed

/-- `std::forward<Fn>(other)` of a parameter bound to the expression. DG 173. -/
def forwarded (e : Expr) : Expr := ⟨e.ty, if e.cat = .lvalue then .lvalue else .xvalue⟩

/-- `d = e`. The copy assignment constructs a delegate from a `const` delegate (DG 153), the move assignment from
`std::move(other)` (DG 158), the template from the argument (DG 173), and each swaps the result in. DG 152-175. -/
def assign (P : Prog) (self : Nat) (e : Expr) : Init :=
  match choose P self e [.copy, .move, .null, .template] with
  | some .copy => construct P self ⟨.cls true false self, .lvalue⟩
  | some .move => construct P self ⟨.cls false false self, .xvalue⟩
  | some .null => .emptied
  | some .template => construct P self (forwarded e)
  | none => .illFormed

/-- `BindFront b(e, args...)` and `BindBack b(e, args...)` with `n` more arguments, for a class with a callable of type `fn` and
`m` bound arguments. Copying and moving are defaulted. The template names the packs of both together (BD 22, 84), which does not
compile unless they are as long; that the bound arguments can be constructed from those given is taken for granted.
BD 15-23, 77-85. -/
def bindConstruct (P : Prog) (self : Nat) (fn : Ty) (m n : Nat) (e : Expr) : Init :=
  if n = 0 && elided self e then .same
  else match choose P self e (if n = 0 then [.copy, .move, .template] else [.template]) with
  | some .copy => .copied
  | some .move => .moved
  | some .template => if n = m && P.constructible fn (forwarded e) then .wraps fn else .illFormed
  | _ => .illFormed

/-! ### The deduction guides -/

/-- The qualifiers of a member function. DG 208-226. -/
structure Quals where
  const : Bool
  volatile : Bool
  lref : Bool
  rref : Bool
  noexcept : Bool
  deriving DecidableEq

/-- The type of a member function or function pointer: result, parameters, `...` at the end, and qualifiers. DG 208-230. -/
structure Sig where
  result : Ty
  params : List Ty
  ellipsis : Bool
  deriving DecidableEq

/-- `FunctionGuideHelper<R (T::*)(Args...) quals>::type`: the four specialisations DG 208-226; `noexcept` is a parameter of
each. -/
def guideHelper (s : Sig) (q : Quals) : Option Sig :=
  if s.ellipsis then none
  else if q.volatile || q.rref then none
  else match q.const, q.lref with
    | false, false => some ⟨s.result, s.params, false⟩
    | false, true => some ⟨s.result, s.params, false⟩
    | true, false => some ⟨s.result, s.params, false⟩
    | true, true => some ⟨s.result, s.params, false⟩

/-- What `Delegate d(e)` without a signature is given: a pointer to a function or a function, or an object with the call
operators listed. The argument of DG 229-234. -/
inductive Callee
  | pointer (s : Sig) (noexcept : Bool)
  | object (ops : List (Sig × Quals))
  | generic

/-- The signature deduced for `Delegate d(e)`: from a function or a pointer to one (DG 229-230), else from the call operator,
which must be the only one and no template for its address to be taken without a target (DG 232-234). -/
def deduceSig : Callee → Option Sig
  | .pointer s _ => if s.ellipsis then none else some ⟨s.result, s.params, false⟩
  | .object [(s, q)] => guideHelper s q
  | .object _ => none
  | .generic => none

end Verif.FnInit
