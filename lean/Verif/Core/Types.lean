import Mathlib.Data.Nat.Basic

/-!
# Types, and the predicates on them

AR stands for `include/xme/core/concepts/arithmetic.hpp`, DF for `include/xme/core/concepts/different_from.hpp`, SE for
`include/xme/core/type_traits/is_scoped_enum.hpp`, IL for `include/xme/core/type_traits/is_initializer_list.hpp`.

The types of C++ as far as these predicates look at them, and the traits of the standard library they use, written down from
the rules of the language. Simplifications: a class type is a name, except `std::initializer_list`; a function type is a name;
extended integer and floating-point types are left out.
-/

set_option autoImplicit false

namespace Verif.Types

/-- The fundamental types. AR 6, 9. -/
inductive Fund
  | void | nullptr | bool
  | char | schar | uchar | char8 | char16 | char32 | wchar
  | short | ushort | int | uint | long | ulong | llong | ullong
  | float | double | ldouble
  deriving DecidableEq

/-- A type. `c` and `v` say whether it is `const` and `volatile`; those of an array are those of its elements; `strong` says whether an
enumeration is scoped. The template
arguments of AR 5-18, DF 5-9, SE 5, IL 5-9. -/
inductive Ty
  | fund (c v : Bool) (f : Fund)
  | enum (c v : Bool) (id : Nat) (strong : Bool) (under : Fund)
  | cls (c v : Bool) (id : Nat)
  | initList (c v : Bool) (t : Ty)
  | ptr (c v : Bool) (t : Ty)
  | memPtr (c v : Bool) (id : Nat) (t : Ty)
  | array (t : Ty) (n : Option Nat)
  | fn (id : Nat)
  | lref (t : Ty)
  | rref (t : Ty)
  deriving DecidableEq

/-- What the implementation decides about the fundamental types. Part of the model, not of the code; used by AR 12, 15. -/
structure Platform where
  charSigned : Bool
  wcharSigned : Bool
  bits : Fund → Nat
  bits_pos : ∀ f, 1 ≤ bits f

/-- `std::remove_cv_t`. AR 6, 9, SE 7. -/
def removeCv : Ty → Ty
  | .fund _ _ f => .fund false false f
  | .enum _ _ i s u => .enum false false i s u
  | .cls _ _ i => .cls false false i
  | .initList _ _ t => .initList false false t
  | .ptr _ _ t => .ptr false false t
  | .memPtr _ _ i t => .memPtr false false i t
  | .array t n => .array (removeCv t) n
  | .fn i => .fn i
  | .lref t => .lref t
  | .rref t => .rref t

/-- `std::remove_reference_t`. DF 9. -/
def removeRef : Ty → Ty
  | .lref t => t
  | .rref t => t
  | t => t

/-- `std::remove_cvref_t`. DF 9. -/
def removeCvref (t : Ty) : Ty := removeCv (removeRef t)

/-- `std::is_floating_point_v`. AR 6. -/
def isFloatingPoint (t : Ty) : Bool :=
  match removeCv t with
  | .fund _ _ f =>
    match f with
    | .float | .double | .ldouble => true
    | _ => false
  | _ => false

/-- `std::is_integral_v`. AR 9. -/
def isIntegral (t : Ty) : Bool :=
  match removeCv t with
  | .fund _ _ f =>
    match f with
    | .void | .nullptr | .float | .double | .ldouble => false
    | _ => true
  | _ => false

/-- Whether an integer type is one of the signed ones. AR 12, 15. -/
def Fund.signed (p : Platform) : Fund → Bool
  | .char => p.charSigned
  | .wchar => p.wcharSigned
  | .schar | .short | .int | .long | .llong => true
  | _ => false

/-- `T(-1)` for an arithmetic type, as an integer: `-1` for floating-point and signed types, `true` for `bool`, the largest
number for an unsigned type. AR 12, 15. -/
def Fund.ofMinusOne (p : Platform) (f : Fund) : Int :=
  match f with
  | .float | .double | .ldouble => -1
  | .bool => 1
  | f => if f.signed p then -1 else 2 ^ p.bits f - 1

/-- `std::is_signed_v`: arithmetic, and `T(-1) < T(0)`. AR 12. -/
def isSigned (p : Platform) (t : Ty) : Bool :=
  match removeCv t with
  | .fund _ _ f => (isIntegral t || isFloatingPoint t) && decide (f.ofMinusOne p < 0)
  | _ => false

/-- `std::is_unsigned_v`: arithmetic, and `T(0) < T(-1)`. AR 15. -/
def isUnsigned (p : Platform) (t : Ty) : Bool :=
  match removeCv t with
  | .fund _ _ f => (isIntegral t || isFloatingPoint t) && decide (0 < f.ofMinusOne p)
  | _ => false

/-- `std::is_enum_v`. SE 7. -/
def isEnum (t : Ty) : Bool :=
  match removeCv t with
  | .enum .. => true
  | _ => false

/-- `std::underlying_type_t`, which has no member for anything but an enumeration. SE 8. -/
def underlyingType (t : Ty) : Option Fund :=
  match removeCv t with
  | .enum _ _ _ _ u => some u
  | _ => none

/-- `std::is_convertible_v<E, U>` for an enumeration and a fundamental type: unscoped enumerations convert to every arithmetic
type, scoped ones to none. SE 8. -/
def enumConverts (t : Ty) (u : Fund) : Bool :=
  match removeCv t with
  | .enum _ _ _ strong _ => !strong && (isIntegral (.fund false false u) || isFloatingPoint (.fund false false u))
  | _ => false

/-- `CFloatingPoint`, AR 5-6. -/
def cFloatingPoint (t : Ty) : Bool := isFloatingPoint t

/-- `CIntegral`, AR 8-9. -/
def cIntegral (t : Ty) : Bool := isIntegral t

/-- `CSignedIntegral`, AR 11-12. -/
def cSignedIntegral (p : Platform) (t : Ty) : Bool := cIntegral t && isSigned p t

/-- `CUnsignedIntegral`, AR 14-15. -/
def cUnsignedIntegral (p : Platform) (t : Ty) : Bool := cIntegral t && isUnsigned p t

/-- `CArithmetic`, AR 17-18. -/
def cArithmetic (t : Ty) : Bool := cFloatingPoint t || cIntegral t

/-- `is_scoped_enum`, SE 5-9. The second requirement is not looked at when the first fails, and a missing underlying type
makes the whole `false`. -/
def isScopedEnum (t : Ty) : Bool :=
  isEnum t &&
    match underlyingType t with
    | none => false
    | some u => !enumConverts t u

/-- `is_initializer_list`, IL 5-9: the specialisation matches `std::initializer_list<T>` as written, without qualifiers. -/
def isInitializerList : Ty → Bool
  | .initList false false _ => true
  | _ => false

/-- `CDifferentFrom`, DF 5-6. -/
def cDifferentFrom (t u : Ty) : Bool := !decide (t = u)

/-- `CDifferentFromSelf`, DF 8-9. -/
def cDifferentFromSelf (t self : Ty) : Bool := !decide (self = removeCvref t)

end Verif.Types
