import Mathlib.Data.Nat.Basic

/-!
# Models of `has_single_bit`, `to_unsigned` and `forward_like`

HS stands for `include/xme/core/bit/has_single_bit.hpp`, TU for `include/xme/core/utility/to_unsigned.hpp`, FL for
`include/xme/core/utility/forward_like.hpp`.
-/

set_option autoImplicit false

namespace Verif.Bits

/-- `n - 1` and `&` after the integral promotions: a type of fewer than 32 bits becomes `int` (32 bits, no overflow as
`n - 1` is at least -1), any other stays unsigned and wraps. HS 8. -/
def decAnd (w : Nat) (n : BitVec w) : Bool :=
  if w < 32 then
    let p : BitVec 32 := n.setWidth 32
    (p - 1) &&& p != 0
  else
    (n - 1) &&& n != 0

/-- `has_single_bit`, HS 5-9: `!((n - 1) & n) && n != 0` -/
def hasSingleBit (w : Nat) (n : BitVec w) : Bool := !decAnd w n && n != 0

/-- Conversion of an integer to an unsigned type of `w` bits. TU 8, 13. -/
def toUnsignedType (w : Nat) (x : Int) : Nat := (x % (2 : Int) ^ w).toNat

/-- `to_unsigned`, TU 6-9 and 12-18: a signed or unsigned number of `w` bits. -/
def toUnsigned (w : Nat) (x : Int) : Nat := toUnsignedType w x

/-- The values of a type of `w` bits. Part of the model, not of the code. -/
def InRange (signed : Bool) (w : Nat) (x : Int) : Prop :=
  if signed then -(2 : Int) ^ (w - 1) ≤ x ∧ x < (2 : Int) ^ (w - 1) else 0 ≤ x ∧ x < (2 : Int) ^ w

/-! ### Types -/

/-- Reference or not. Part of the model, not of the code. -/
inductive RefKind
  | none | lvalue | rvalue
  deriving DecidableEq

/-- A type as far as `forward_like` looks at it: `cv U`, `cv U&` or `cv U&&`. FL 6-8. -/
structure Ty where
  const : Bool
  volatile : Bool
  ref : RefKind
  deriving DecidableEq

/-- An expression: its cv-qualification and whether it is an lvalue. The argument of FL 8. -/
structure Expr where
  const : Bool
  volatile : Bool
  isLvalue : Bool
  deriving DecidableEq

/-- `std::remove_reference_t` FL 9. -/
def Ty.removeRef (t : Ty) : Ty := { t with ref := .none }
/-- `T&`, with the collapsing rule FL 14. -/
def Ty.addLref (t : Ty) : Ty := { t with ref := .lvalue }
/-- `T&&`, with the collapsing rule FL 8, 20. -/
def Ty.addRref (t : Ty) : Ty := { t with ref := match t.ref with | .lvalue => .lvalue | _ => .rvalue }
/-- The `T` deduced for a parameter `T&&`. FL 6-8. -/
def deduce (e : Expr) : Ty := ⟨e.const, e.volatile, if e.isLvalue then .lvalue else .none⟩
/-- The type of the parameter's name as an lvalue expression. FL 8. -/
def named (t : Ty) : Ty := t.removeRef
/-- `std::as_const(value)` for an lvalue of type `t` FL 12, 18. -/
def asConst (t : Ty) : Ty := { t.removeRef with const := true }.addLref
/-- `std::move(value)` FL 18, 20. -/
def moveTy (t : Ty) : Ty := t.removeRef.addRref

/-- `forward_like<Like>(value)`, FL 6-22: the type returned. -/
def forwardLike (like : Ty) (e : Expr) : Ty :=
  let t := deduce e
  let value := named t.addRref
  let isAddingConst := like.removeRef.const
  if like.ref = .lvalue then
    if isAddingConst then asConst value else t.addLref
  else
    if isAddingConst then moveTy (asConst value) else moveTy value

end Verif.Bits
