import Verif.AlignedData.Model

/-!
# Construction and copies of `AlignedData`

AD stands for `include/xme/container/aligned_data.hpp`.

The class has an unconstrained constructor template beside its implicit copy and move constructors. Which of them is chosen
for an argument, and what it does, is modelled here. An element type is described by what matters for that: whether it is
trivially copyable, whether it can be constructed from nothing, and whether it can be constructed from an `AlignedData` (as
`std::any` can). The representations of its objects are bytes, as in `Model.lean`. A call that does not compile is
`illFormed`.
-/

set_option autoImplicit false

namespace Verif.AD

/-- What is known of an element type. Part of the model, not of the code. AD 12, 26. -/
structure Traits where
  triviallyCopyable : Bool
  defaultInitializable : Bool
  /-- constructible from an `AlignedData` of the type, and then with these bytes -/
  fromData : Option (Nat → UInt8)

/-- The arguments of a construction: AD 25-32. `others` are arguments that are not an `AlignedData` of this type: those
`T` can be constructed from with the given bytes, after which the constructor may throw. -/
inductive Arg
  | nothing
  | lvalue (src : Nat)
  | constLvalue (src : Nat)
  | rvalue (src : Nat)
  | constRvalue (src : Nat)
  | others (bytes : Nat → UInt8) (throws : Bool)

/-- The constructors: the default one, AD 25-27, the template, AD 29-32, and the implicit ones that copy the member of
AD 59. -/
inductive Ctor
  | default | template | copy | move
  deriving DecidableEq

/-- Overload resolution: a better conversion wins, then a function that is not a template. For a non-const lvalue the
template takes a reference without `const`, for a const rvalue an rvalue reference, which are better than the copy
constructor's. AD 25-32. -/
def choose (τ : Traits) : Arg → Ctor
  | .nothing => if τ.defaultInitializable then .default else .template
  | .lvalue _ => .template
  | .constLvalue _ => .copy
  | .rvalue _ => .move
  | .constRvalue _ => .template
  | .others _ _ => .template

/-- How a construction ends. Part of the model, not of the code. -/
inductive Made
  | ok (m : Mem)
  | ub
  | terminated
  | illFormed

/-- The implicit copy and move constructors: the bytes of the member are copied, AD 59. -/
def copyBytes (t : Ty) (m : Mem) (a src : Nat) : Mem := fun p => if a ≤ p ∧ p < a + t.size then m (src + (p - a)) else m p

/-- The body of the template, AD 30-31, for a `T` with the given bytes; it is `noexcept`. -/
def byTemplate (t : Ty) (m : Mem) (a : Nat) (bytes : Nat → UInt8) (throws : Bool) : Made :=
  if throws then .terminated
  else match construct t m a bytes with
    | some m' => .ok m'
    | none => .ub

/-- Constructing an `AlignedData` at address `a`. AD 25-32, 59. -/
def make (t : Ty) (τ : Traits) (m : Mem) (a : Nat) (x : Arg) : Made :=
  match choose τ x, x with
  | .default, _ => .ok (construct0 t m a)
  | .copy, .constLvalue src | .move, .rvalue src => .ok (copyBytes t m a src)
  | .template, .others bytes throws => byTemplate t m a bytes throws
  | .template, .lvalue _ | .template, .constRvalue _ =>
    match τ.fromData with
    | some bytes => byTemplate t m a bytes false
    | none => .illFormed
  | _, _ => .illFormed

end Verif.AD
