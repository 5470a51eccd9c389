import Mathlib.Data.List.Basic

/-!
# What `noexcept` reports

The exception specifications of `Tuple`, `Pair` and the binders, and what the functions do. P stands for
`include/xme/container/pair.hpp`, T for `include/xme/container/tuple.hpp`, B for
`include/xme/core/functional/bind.hpp`.

A call is a list of operations on the user's types, in order, with what its specification says. Each operation may be declared
not to throw by the user's type (`World`); one that is not may throw or not, as an oracle says.

Simplifications: the stored types are object types and the arguments are not arrays, functions or
`std::reference_wrapper`s, so that decay removes references and const only; the user's types have no conversion to tuples;
destructors do not throw; operations are those that the code names, overload resolution among the user's functions is in `World`;
`std::ranges::swap` and `ranges::swap` throw no more and no less than `std::is_nothrow_swappable` says.
-/

set_option autoImplicit false

namespace Verif.Noexcept

variable {K F : Type}

/-- An expression: the type without reference and const, whether it is const, and whether it is an rvalue. A forwarding
reference deduced from it is `const`-qualified and a reference accordingly. T 102, B 20, 31. -/
structure Ex (K : Type) where
  base : K
  const : Bool
  rval : Bool
  deriving DecidableEq

/-- What the user's types promise: which constructions, assignments, swaps, comparisons and calls are declared not to throw; and whether the
compiler initialises aggregates from parenthesised lists (`__cpp_aggregate_paren_init`). Part of the model, not of the code. -/
structure World (K F : Type) where
  ctor : K → Ex K → Bool
  assign : K → Ex K → Bool
  swap : K → Bool
  cmp : K → Bool
  call : Ex F → List (Ex K) → Bool
  fctor : F → Ex F → Bool
  fassign : F → Ex F → Bool
  paren : Bool

/-- An operation on the user's types. Part of the model, not of the code. -/
inductive Op (K F : Type)
  | ctor (k : K) (e : Ex K)
  | assign (k : K) (e : Ex K)
  | swap (k : K)
  | cmp (k : K)
  | call (f : Ex F) (es : List (Ex K))
  | fctor (f : F) (e : Ex F)
  | fassign (f : F) (e : Ex F)

/-- Whether the operation is declared not to throw. Part of the model, not of the code. -/
def Op.safe (W : World K F) : Op K F → Bool
  | .ctor k e => W.ctor k e
  | .assign k e => W.assign k e
  | .swap k => W.swap k
  | .cmp k => W.cmp k
  | .call f es => W.call f es
  | .fctor f e => W.fctor f e
  | .fassign f e => W.fassign f e

/-- A call: what `noexcept(call)` reports, whether a function further inside is declared not to throw, and the operations.
Part of the model, not of the code. -/
structure Call (K F : Type) where
  reported : Bool
  inner : Bool
  ops : List (Op K F)

/-- How a call ends. Part of the model, not of the code. -/
inductive End
  | normal
  | exception
  | terminated
  deriving DecidableEq

/-- Whether one of the operations throws; the oracle says which of those that may throw does. Part of the model, not of the
code. -/
def throwsFrom (W : World K F) (oracle : Nat → Bool) (i : Nat) : List (Op K F) → Bool
  | [] => false
  | o :: l => if !o.safe W && oracle i then true else throwsFrom W oracle (i + 1) l

/-- Execution of a call. Part of the model, not of the code. -/
def Call.run (W : World K F) (oracle : Nat → Bool) (c : Call K F) : End :=
  if throwsFrom W oracle 0 c.ops then if c.reported || c.inner then .terminated else .exception else .normal

/-- `Pair::operator=(P&&)` from any pair whose elements are the expressions `e0` and `e1`. P 11-17. -/
def pairAssign (W : World K F) (t u : K) (e0 e1 : Ex K) : Call K F :=
  ⟨W.swap t && W.swap u, false, [.assign t e0, .assign u e1]⟩

/-- `Pair::swap` and `swap` of pairs. P 71-75, 104-107. -/
def pairSwap (W : World K F) (t u : K) : Call K F :=
  ⟨W.swap t && W.swap u, W.swap t && W.swap u, [.swap t, .swap u]⟩

/-- `make_pair`: `std::is_nothrow_constructible_v<Pair<...>, T, U>` is about a list in parentheses. P 109-115. -/
def makePair (W : World K F) (a b : Ex K) : Call K F :=
  ⟨W.paren && W.ctor a.base a && W.ctor b.base b, false, [.ctor a.base a, .ctor b.base b]⟩

/-- `Tuple::operator=(U&&)` from any tuple. T 16-21, 44-46. -/
def tupleAssign (ts : List (K × Ex K)) : Call K F := ⟨false, false, ts.map fun p => .assign p.1 p.2⟩

/-- `Tuple::swap` and `swap` of tuples. T 37-39, 48-52, 72-76. -/
def tupleSwap (W : World K F) (ts : List K) : Call K F := ⟨ts.all W.swap, ts.all W.swap, ts.map .swap⟩

/-- `make_tuple`: a tuple is an aggregate whose first element is its base class, which is not initialised from a user's type in a list
in parentheses, where braces are not left out; so only the empty tuple is constructible in this sense. T 101-105. -/
def makeTuple (es : List (Ex K)) : Call K F := ⟨es.isEmpty, false, es.map fun e => .ctor e.base e⟩

/-- `==` and `<=>` of tuples and pairs, defaulted and declared `noexcept` without a condition; `n` elements are compared before the result is
known. T 33-35, P 65-69. -/
def compare (ts : List K) (n : Nat) : Call K F := ⟨true, true, (ts.take n).map .cmp⟩

/-- `apply(f, t)` for a tuple whose elements are the expressions `es`. T 78-94. -/
def apply (W : World K F) (f : Ex F) (es : List (Ex K)) : Call K F := ⟨W.call f es, W.call f es, [.call f es]⟩

/-- Whether `std::is_nothrow_constructible_v<BoundArg, Arg>` holds for the type deduced from the argument `e` and the stored type: an
lvalue gives a reference, which a temporary of the stored type can only be bound to if it is const; an rvalue gives the type itself.
B 22. -/
def swapped (W : World K F) (e : Ex K) : Bool :=
  if e.rval then W.ctor e.base ⟨e.base, false, true⟩ else e.const

/-- The construction of the callable and the arguments. B 23, 85. -/
def store (f : Ex F) (es : List (Ex K)) : List (Op K F) := .fctor f.base f :: es.map fun e => .ctor e.base e

/-- `bind_front(f, args...)`, which is not declared `noexcept`, around the constructor of the binder. B 19-23, 134-143. -/
def bindFront (W : World K F) (f : Ex F) (es : List (Ex K)) : Call K F :=
  ⟨false, W.fctor f.base f && es.all (swapped W), store f es⟩

/-- `bind_back(f, args...)`. B 81-85, 157-166. -/
def bindBack (W : World K F) (f : Ex F) (es : List (Ex K)) : Call K F :=
  ⟨false, W.fctor f.base f && es.all fun e => W.ctor e.base e, store f es⟩

/-- The arguments that the specification of the call operator of a binder names: `Args&`, `const Args&`, `Args`, `const Args`. B 32,
38, 44, 50, 94, 100, 106, 112. -/
def named (const rval : Bool) (bound : List K) : List (Ex K) := bound.map fun k => ⟨k, const, rval⟩

/-- The arguments that `get<I>` of the stored tuple gives: no overload takes a constant rvalue, so that it is treated as an
lvalue. B 58, 120, T 57-70. -/
def given (const rval : Bool) (bound : List K) : List (Ex K) := bound.map fun k => ⟨k, const, rval && !const⟩

/-- The call of what `bind_front` returned, a const or rvalue object or neither. B 30-64. -/
def callFront (W : World K F) (const rval : Bool) (f : F) (bound : List K) (args : List (Ex K)) : Call K F :=
  ⟨W.call ⟨f, const, rval⟩ (named const rval bound ++ args),
   W.call ⟨f, const, rval⟩ (given const rval bound ++ args), [.call ⟨f, const, rval⟩ (given const rval bound ++ args)]⟩

/-- The call of what `bind_back` returned. B 92-126. -/
def callBack (W : World K F) (const rval : Bool) (f : F) (bound : List K) (args : List (Ex K)) : Call K F :=
  ⟨W.call ⟨f, const, rval⟩ (args ++ named const rval bound),
   W.call ⟨f, const, rval⟩ (args ++ given const rval bound), [.call ⟨f, const, rval⟩ (args ++ given const rval bound)]⟩

/-- Copy and move construction of what `bind_front` or `bind_back` returned: defaulted, and declared `noexcept` without a condition. B 15-17,
77-79. -/
def binderCtor (rval : Bool) (f : F) (bound : List K) : Call K F :=
  ⟨true, true, .fctor f ⟨f, !rval, rval⟩ :: bound.map fun k => .ctor k ⟨k, !rval, rval⟩⟩

/-- Copy and move assignment of what `bind_front` or `bind_back` returned. B 25-27, 87-89. -/
def binderAssign (rval : Bool) (f : F) (bound : List K) : Call K F :=
  ⟨true, true, .fassign f ⟨f, !rval, rval⟩ :: bound.map fun k => .assign k ⟨k, !rval, rval⟩⟩

end Verif.Noexcept
