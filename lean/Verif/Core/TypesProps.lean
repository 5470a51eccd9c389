import Verif.Core.Types
import Mathlib.Algebra.Order.Ring.Int
import Mathlib.Algebra.Order.GroupWithZero.Basic

/-!
# The predicates on types

C134: which types `CIntegral`, `CFloatingPoint`, `CSignedIntegral`, `CUnsignedIntegral`, `CArithmetic`, `is_scoped_enum`,
`is_initializer_list` and `CDifferentFromSelf` accept. The statements list the types, and say which numbers they hold, without
the traits of the model.
-/

set_option autoImplicit false

namespace Verif.Types

/-- The floating-point types. -/
def floats : List Fund := [.float, .double, .ldouble]

/-- The integer types, `bool` and the character types among them. -/
def integers : List Fund :=
  [.bool, .char, .schar, .uchar, .char8, .char16, .char32, .wchar, .short, .ushort, .int, .uint, .long, .ulong, .llong, .ullong]

/-- The integer types whose numbers start at zero whatever the platform. -/
def naturals : List Fund := [.bool, .uchar, .char8, .char16, .char32, .ushort, .uint, .ulong, .ullong]

/-- The numbers an integer type holds: `0` and `1` for `bool`, else two's complement or binary of its size. -/
def Holds (p : Platform) (f : Fund) (x : Int) : Prop :=
  if f = .bool then x = 0 ∨ x = 1
  else if f ∈ naturals ∨ (f = .char ∧ p.charSigned = false) ∨ (f = .wchar ∧ p.wcharSigned = false) then
    0 ≤ x ∧ x < 2 ^ p.bits f
  else -2 ^ (p.bits f - 1) ≤ x ∧ x < 2 ^ (p.bits f - 1)

/-- C134: `CIntegral` holds for the integer types, `CFloatingPoint` for the three floating-point types and `CArithmetic` for
both, with any qualifiers and for nothing else: not for references, enumerations, pointers or classes. -/
theorem arithmetic_concepts_exact (t : Ty) :
    (cIntegral t = true ↔ ∃ c v f, t = .fund c v f ∧ f ∈ integers) ∧
    (cFloatingPoint t = true ↔ ∃ c v f, t = .fund c v f ∧ f ∈ floats) ∧
    (cArithmetic t = true ↔ ∃ c v f, t = .fund c v f ∧ (f ∈ integers ∨ f ∈ floats)) := by
  cases t with
  | fund c v f =>
    refine ⟨⟨fun h => ⟨c, v, f, rfl, ?_⟩, ?_⟩, ⟨fun h => ⟨c, v, f, rfl, ?_⟩, ?_⟩, ⟨fun h => ⟨c, v, f, rfl, ?_⟩, ?_⟩⟩
    · revert h; cases f <;> simp [cIntegral, isIntegral, removeCv, integers]
    · rintro ⟨c', v', f', h, hf⟩
      simp only [Ty.fund.injEq] at h
      obtain ⟨-, -, rfl⟩ := h
      revert hf; cases f <;> simp [cIntegral, isIntegral, removeCv, integers]
    · revert h; cases f <;> simp [cFloatingPoint, isFloatingPoint, removeCv, floats]
    · rintro ⟨c', v', f', h, hf⟩
      simp only [Ty.fund.injEq] at h
      obtain ⟨-, -, rfl⟩ := h
      revert hf; cases f <;> simp [cFloatingPoint, isFloatingPoint, removeCv, floats]
    · revert h
      cases f <;> simp [cArithmetic, cFloatingPoint, cIntegral, isIntegral, isFloatingPoint, removeCv, integers, floats]
    · rintro ⟨c', v', f', h, hf⟩
      simp only [Ty.fund.injEq] at h
      obtain ⟨-, -, rfl⟩ := h
      revert hf
      cases f <;> simp [cArithmetic, cFloatingPoint, cIntegral, isIntegral, isFloatingPoint, removeCv, integers, floats]
  | _ => simp [cArithmetic, cFloatingPoint, cIntegral, isIntegral, isFloatingPoint, removeCv]

/-- C134: an integer type is `CSignedIntegral` exactly if it holds `-1` and `CUnsignedIntegral` exactly if it does not; nothing
else is either. -/
theorem signedness_exact (p : Platform) (t : Ty) :
    (cSignedIntegral p t = true ↔ ∃ c v f, t = .fund c v f ∧ f ∈ integers ∧ Holds p f (-1)) ∧
    (cUnsignedIntegral p t = true ↔ ∃ c v f, t = .fund c v f ∧ f ∈ integers ∧ ¬ Holds p f (-1)) := by
  have pow : ∀ f, (1 : Int) < 2 ^ p.bits f := fun f =>
    one_lt_pow₀ (by decide) (by have := p.bits_pos f; omega)
  have pow1 : ∀ f, (1 : Int) ≤ 2 ^ (p.bits f - 1) := fun f => one_le_pow₀ (by decide)
  cases t with
  | fund c v f =>
    have key : (cSignedIntegral p (.fund c v f) = true ↔ f ∈ integers ∧ Holds p f (-1)) ∧
        (cUnsignedIntegral p (.fund c v f) = true ↔ f ∈ integers ∧ ¬ Holds p f (-1)) := by
      have h0 := pow f
      have h1 := pow1 f
      have h2 : ¬ ((2 : Int) ^ p.bits f - 1 < 0) := by omega
      have h3 : (0 : Int) < 2 ^ p.bits f - 1 := by omega
      have h4 : -(2 : Int) ^ (p.bits f - 1) ≤ -1 ∧ (-1 : Int) < 2 ^ (p.bits f - 1) := by constructor <;> omega
      cases f <;> cases hc : p.charSigned <;> cases hw : p.wcharSigned <;>
        simp_all [cSignedIntegral, cUnsignedIntegral, cIntegral, isIntegral, isFloatingPoint, isSigned, isUnsigned, removeCv,
          Fund.ofMinusOne, Fund.signed, integers, Holds, naturals]
    refine ⟨key.1.trans ⟨fun h => ⟨c, v, f, rfl, h⟩, ?_⟩, key.2.trans ⟨fun h => ⟨c, v, f, rfl, h⟩, ?_⟩⟩
    all_goals
      rintro ⟨c', v', f', h, hf⟩
      simp only [Ty.fund.injEq] at h
      obtain ⟨-, -, rfl⟩ := h
      exact hf
  | _ => simp [cSignedIntegral, cUnsignedIntegral, cIntegral, isIntegral, removeCv]

/-- C134: `is_scoped_enum` holds for the scoped enumerations, with any qualifiers and underlying type, and for nothing else, if
the underlying types of enumerations are integer types, as they must be. -/
theorem scoped_enum_exact (t : Ty) (hu : ∀ c v i s u, t = .enum c v i s u → u ∈ integers) :
    isScopedEnum t = true ↔ ∃ c v i u, t = .enum c v i true u := by
  cases t with
  | enum c v i s u =>
    have h := hu c v i s u rfl
    constructor
    · intro h'
      refine ⟨c, v, i, u, ?_⟩
      cases s with
      | true => rfl
      | false =>
        exfalso
        revert h h'
        cases u <;> simp [isScopedEnum, isEnum, underlyingType, enumConverts, removeCv, isIntegral, isFloatingPoint, integers]
    · rintro ⟨c', v', i', u', h'⟩
      simp only [Ty.enum.injEq] at h'
      obtain ⟨-, -, -, rfl, -⟩ := h'
      simp [isScopedEnum, isEnum, underlyingType, enumConverts, removeCv]
  | _ => simp [isScopedEnum, isEnum, underlyingType, removeCv]

/-- C134: `is_initializer_list` holds for `std::initializer_list<U>`, whatever `U` is, without qualifiers and for nothing else:
not for a `const` one, as the other predicates would, and for no reference to one. -/
theorem initializer_list_exact (t : Ty) :
    (isInitializerList t = true ↔ ∃ u, t = .initList false false u) ∧
    isInitializerList (.initList true false t) = false ∧ isInitializerList (.lref (.initList false false t)) = false := by
  refine ⟨?_, rfl, rfl⟩
  cases t with
  | initList c v u => cases c <;> cases v <;> simp [isInitializerList]
  | _ => simp [isInitializerList]

/-- C134: `CDifferentFromSelf<T, Self>` for a class `Self` fails for `Self`, with any qualifiers, and for references to that,
and holds for all other types. -/
theorem different_from_self_exact (t : Ty) (self : Nat) :
    cDifferentFromSelf t (.cls false false self) = false ↔
      ∃ c v, t = .cls c v self ∨ t = .lref (.cls c v self) ∨ t = .rref (.cls c v self) := by
  have key : ∀ u : Ty, .cls false false self = removeCv u ↔ ∃ c v, u = .cls c v self := by
    intro u
    cases u with
    | cls c v k =>
      simp only [removeCv, Ty.cls.injEq, true_and]
      exact ⟨fun h => ⟨c, v, rfl, rfl, h.symm⟩, fun ⟨_, _, _, _, h⟩ => h.symm⟩
    | _ => simp [removeCv]
  have key2 : ∀ u : Ty, (!decide (Ty.cls false false self = removeCv u)) = false ↔ ∃ c v, u = .cls c v self := by
    intro u
    rw [← key u, Bool.not_eq_false', decide_eq_true_iff]
  unfold cDifferentFromSelf removeCvref
  rw [key2]
  cases t with
  | lref u => simp [removeRef]
  | rref u => simp [removeRef]
  | _ => simp [removeRef]

/-- `CDifferentFrom` holds both ways round or not at all, never of a type and itself, and `CDifferentFromSelf` is the same
thing once references and qualifiers are removed. -/
theorem different_from_laws (t u : Ty) : cDifferentFrom t u = cDifferentFrom u t ∧ cDifferentFrom t t = false ∧
    (t ≠ u → cDifferentFrom t u = true) ∧ cDifferentFromSelf t u = cDifferentFrom (removeCvref t) u := by
  refine ⟨?_, by simp [cDifferentFrom], fun h => by simp [cDifferentFrom, h], ?_⟩
  · simp only [cDifferentFrom]; rw [decide_eq_decide.2 eq_comm]
  · simp only [cDifferentFrom, cDifferentFromSelf]; rw [decide_eq_decide.2 eq_comm]

/-- A platform with signed `char`, as on x86. -/
def x86 : Platform :=
  ⟨true, true, fun f => match f with
    | .bool | .char | .schar | .uchar | .char8 => 8
    | .char16 | .short | .ushort => 16
    | .char32 | .wchar | .int | .uint | .float => 32
    | .ldouble => 128
    | _ => 64, by intro f; cases f <;> decide⟩

/-- Non-vacuity: the predicates on types of every sort. -/
example : cIntegral (.fund true true .bool) = true ∧ cIntegral (.lref (.fund false false .int)) = false ∧
    cFloatingPoint (.fund true false .double) = true ∧ cSignedIntegral x86 (.fund false false .char) = true ∧
    cUnsignedIntegral x86 (.fund false true .char16) = true ∧ cUnsignedIntegral x86 (.fund false false .bool) = true ∧
    cSignedIntegral x86 (.fund false false .float) = false ∧ cArithmetic (.enum false false 0 false .int) = false ∧
    isScopedEnum (.enum true false 0 true .uchar) = true ∧ isScopedEnum (.enum false false 0 false .uchar) = false ∧
    isInitializerList (.initList false false (.fund true false .int)) = true ∧
    cDifferentFromSelf (.lref (.cls true false 3)) (.cls false false 3) = false ∧
    cDifferentFromSelf (.ptr false false (.cls false false 3)) (.cls false false 3) = true := by decide

/-- Non-vacuity: `char` holds `-1` here, `char16_t` does not. -/
example : Holds x86 .char (-1) ∧ ¬ Holds x86 .char16 (-1) ∧ Holds x86 .char16 65535 ∧ ¬ Holds x86 .bool 2 := by
  simp [Holds, x86, naturals]

end Verif.Types
