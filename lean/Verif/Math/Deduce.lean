import Verif.Math.Init

/-!
# Deduced component types

The deduction guides of `Vector`, `Matrix` and `Quaternion`, for numbers and columns: `std::common_type_t` of the types of
the arguments. V stands for `include/xme/math/vector.hpp`, M for `include/xme/math/matrix.hpp`, Q for
`include/xme/math/quaternion.hpp`.

The rules for arithmetic types are those of C++20: [meta.trans.other] for `std::common_type`, [expr.cond] and [expr.arith.conv]
for the type of `b ? x : y`, [conv.prom] for promotions.

Simplifications: arguments that are not numbers (for `Vector` and `Quaternion`) or not vectors (for `Matrix`) are left out;
so are objects of the class itself, which are copied by the copy deduction candidate.
-/

set_option autoImplicit false

namespace Verif.MathDeduce

open Verif.MathInit (Arg Out vecInit matInit quatInit)

/-- An arithmetic type: one that is promoted before arithmetic (`bool`, `char`, `short`, `char16_t`, `wchar_t`, ..., numbered
by the implementation); the signed or unsigned integer type of rank `r`, from `int` (rank 0) on; the floating-point types
`float` (0), `double` (1), `long double` (2). include/xme/core/concepts/arithmetic.hpp 9-16. -/
inductive Kind
  | narrow (i : Nat)
  | int (r : Nat) (u : Bool)
  | flt (r : Nat)
  deriving DecidableEq

/-- What the standard leaves to the implementation: the number of value bits with the sign, the type to which the others are
promoted, the precision of the floating-point types. Part of the model, not of the code. -/
structure Platform where
  width : Nat → Nat
  narrowWidth : Nat → Nat
  narrowUnsigned : Nat → Bool
  target : Nat → Nat × Bool
  prec : Nat → Nat
  /-- A type of higher rank is at least as wide, [basic.fundamental]. -/
  mono : ∀ r s, r ≤ s → width r ≤ width s
  pos : ∀ r, 2 ≤ width r
  precMono : ∀ r s, r ≤ s → prec r ≤ prec s
  /-- A promotion keeps all values, [conv.prom]. -/
  same : ∀ i, (target i).2 = narrowUnsigned i → narrowWidth i ≤ width (target i).1
  wider : ∀ i, (target i).2 = false → narrowUnsigned i = true → narrowWidth i < width (target i).1
  unsignedOnly : ∀ i, (target i).2 = true → narrowUnsigned i = true
  narrowPos : ∀ i, 1 ≤ narrowWidth i

/-- The integral promotions. Part of the model, not of the code. -/
def promote (P : Platform) : Kind → Kind
  | .narrow i => .int (P.target i).1 (P.target i).2
  | k => k

/-- The usual arithmetic conversions for two integer types that need no promotion: the same sign, the larger rank; otherwise the
unsigned type if its rank is not lower; otherwise the signed type if it is wider; otherwise its unsigned counterpart. Part of the
model, not of the code. -/
def usualInt (P : Platform) (r : Nat) (u : Bool) (s : Nat) (v : Bool) : Kind :=
  if u = v then .int (max r s) u
  else
    let ru := if u then r else s
    let rs := if u then s else r
    if rs ≤ ru then .int ru true
    else if P.width ru < P.width rs then .int rs false
    else .int rs true

/-- The usual arithmetic conversions. Part of the model, not of the code. -/
def usual (P : Platform) (a b : Kind) : Kind :=
  match promote P a, promote P b with
  | .flt r, .flt s => .flt (max r s)
  | .flt r, _ => .flt r
  | _, .flt s => .flt s
  | .int r u, .int s v => usualInt P r u s v
  | _, _ => .int 0 false

/-- The type of `b ? x : y`, decayed: `std::common_type` of two. Part of the model, not of the code. -/
def common2 (P : Platform) (a b : Kind) : Kind := if a = b then a else usual P a b

/-- `std::common_type_t<T, Args...>`. V 124, M 156, Q 59. -/
def commonType (P : Platform) : List Kind → Option Kind
  | [] => none
  | a :: l => some (l.foldl (common2 P) a)

/-- `Vector(T, Args...) -> Vector<common_type_t<T, Args...>, sizeof...(Args) + 1>`, for numbers. V 123-124. -/
def vecDeduce (P : Platform) (args : List Kind) : Option (Kind × Nat) :=
  (commonType P args).map fun c => (c, args.length)

/-- `Matrix(Vector<T, Rows>, Vector<Args, Rows>...) -> Matrix<common_type_t<T, Args...>, sizeof...(Args) + 1, Rows>`, for the
component types of the columns; `Matrix` takes floating-point types only. M 45, 154-156. -/
def matDeduce (P : Platform) (args : List Kind) : Option (Kind × Nat) :=
  match commonType P args with
  | some (.flt r) => some (.flt r, args.length)
  | _ => none

/-- `Quaternion(T, Args...) -> Quaternion<conditional_t<is_integral_v<Temp>, float, Temp>>`, for numbers. Q 59-60. -/
def quatDeduce (P : Platform) (args : List Kind) : Option Kind :=
  (commonType P args).map fun c => match c with
    | .flt r => .flt r
    | _ => .flt 0

/-- `Vector(args...)` for numbers: the type that is deduced, and its constructor. V 44-60, 123-124. -/
def vecMake (P : Platform) (args : List Kind) : Option (Kind × Nat × Out) :=
  (vecDeduce P args).map fun p => (p.1, p.2, vecInit true p.1 p.2 (args.map .num))

/-- `Matrix(args...)` for columns of `r` components. M 54-73, 154-156. -/
def matMake (P : Platform) (r : Nat) (args : List Kind) : Option (Kind × Nat × Out) :=
  (matDeduce P args).map fun p => (p.1, p.2, matInit true p.1 p.2 r (args.map fun k => .vec k r))

/-- `Quaternion(args...)` for numbers. Q 9-12, 59-60. -/
def quatMake (P : Platform) (args : List Kind) : Option (Kind × Out) :=
  (quatDeduce P args).map fun c => (c, quatInit true c (args.map .num))

/-- The integers that are values of a type: an unsigned type of `w` bits has those from 0 to 2^w - 1, a signed one those from
-2^(w-1) to 2^(w-1) - 1, a floating-point type those with at most as many significant bits as its precision (the range of exponents
is left out). Part of the model, not of the code. -/
def intHas (w : Nat) (u : Bool) (z : Int) : Prop :=
  if u then 0 ≤ z ∧ z < 2 ^ w else -2 ^ (w - 1) ≤ z ∧ z < 2 ^ (w - 1)

instance (w : Nat) (u : Bool) (z : Int) : Decidable (intHas w u z) := by unfold intHas; infer_instance

/-- The integers that are values of a type. Part of the model, not of the code. -/
def Has (P : Platform) : Kind → Int → Prop
  | .narrow i, z => intHas (P.narrowWidth i) (P.narrowUnsigned i) z
  | .int r u, z => intHas (P.width r) u z
  | .flt r, z => ∃ (m : Int) (e : Nat), m.natAbs < 2 ^ P.prec r ∧ z = m * 2 ^ e

end Verif.MathDeduce
