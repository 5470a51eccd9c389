import Verif.Math.Rounding

/-!
Vectors of integers: `math/vector.hpp`, `math/vectors/*.hpp` for a component type that is an integer type.

A value is an `Int` in the range of its type.  As C++20 says: operands narrower than `int` are promoted to
`int`, signed overflow is undefined, unsigned arithmetic wraps around, a conversion between integer types
keeps the value modulo 2^bits, and a conversion from `double` drops the fraction and is undefined if the
result is outside the range.  `none` is undefined behaviour.

Simplifications: `int` has 32 bits; `bool` is in `Math/BoolVector`; the two operands of a vector operation have the same
component type; `lo`/`hi` are not enforced by types (theorems assume components in range where it matters).
-/

set_option autoImplicit false

namespace Verif.Math

/-- An integer type: its width and signedness.  `std::int8_t` is `⟨8, true⟩`.  core/concepts/arithmetic.hpp
9-16. -/
structure IntTy where
  bits : Nat
  signed : Bool
deriving DecidableEq, Repr

namespace IntTy

/-- The least value (`std::numeric_limits<T>::min()`). Part of the model, not of the code. -/
def lo (t : IntTy) : Int := if t.signed then -2 ^ (t.bits - 1) else 0

/-- The greatest value. Part of the model, not of the code. -/
def hi (t : IntTy) : Int := if t.signed then 2 ^ (t.bits - 1) - 1 else 2 ^ t.bits - 1

/-- `z` is a value of the type. Part of the model, not of the code. -/
def Has (t : IntTy) (z : Int) : Prop := t.lo ≤ z ∧ z ≤ t.hi

instance (t : IntTy) (z : Int) : Decidable (t.Has z) := inferInstanceAs (Decidable (_ ∧ _))

/-- Integral promotion: the type in which an operand of type `t` takes part in arithmetic. Part of the model,
not of the code. -/
def promote (t : IntTy) : IntTy := if t.bits < 32 then ⟨32, true⟩ else t

/-- Conversion of an integer to the type: the value modulo 2^bits. Part of the model, not of the code. -/
def conv (t : IntTy) (z : Int) : Int :=
  if t.signed then Int.bmod z (2 ^ t.bits) else z % 2 ^ t.bits

/-- The outcome of an arithmetic operation in type `t` whose exact result is `z`. Part of the model, not of the
code. -/
def result (t : IntTy) (z : Int) : Option Int :=
  if t.signed then (if t.Has z then some z else none) else some (z % 2 ^ t.bits)

end IntTy

/-- The four binary operators of `VEC_OP` (vector.hpp 70-73). -/
inductive ArithOp
  | add | sub | mul | div
deriving DecidableEq, Repr

/-- `a op b` for two operands of type `t`, in the promoted type. Division by zero is undefined. vector.hpp 13,
21. -/
def ArithOp.eval (t : IntTy) (op : ArithOp) (a b : Int) : Option Int :=
  match op with
  | .add => t.promote.result (a + b)
  | .sub => t.promote.result (a - b)
  | .mul => t.promote.result (a * b)
  | .div => if b = 0 then none else t.promote.result (a.tdiv b)

/-- `result[i] = a op b` (vector.hpp 13, 21), `x{static_cast<T>(a op b)}` (vector2.hpp 49, vector3.hpp 54-55,
vector4.hpp 57-58) and `a op= b` (vector.hpp 28, 34): the outcome is converted back to `t`. -/
def ArithOp.at (t : IntTy) (op : ArithOp) (a b : Int) : Option Int := (op.eval t a b).map t.conv

/-- A loop whose body may be undefined. vector.hpp 12, 20, 27, 33. -/
def forLoopM {σ : Type} (n : Nat) (body : Fin n → σ → Option σ) (s : σ) : Option σ :=
  (List.finRange n).foldlM (fun s i => body i s) s

/-- `VEC_OP(op)` between two vectors: vector.hpp 16-23, vector2.hpp 15-22, vector3.hpp 16-24, vector4.hpp
17-26. -/
def intOp (t : IntTy) (op : ArithOp) : {n : Nat} → Vec ℤ n → Vec ℤ n → Option (Vec ℤ n)
  | 2, a, b => do
    let x ← op.at t (a 0) (b 0)
    let y ← op.at t (a 1) (b 1)
    pure ![x, y]
  | 3, a, b => do
    let x ← op.at t (a 0) (b 0)
    let y ← op.at t (a 1) (b 1)
    let z ← op.at t (a 2) (b 2)
    pure ![x, y, z]
  | 4, a, b => do
    let x ← op.at t (a 0) (b 0)
    let y ← op.at t (a 1) (b 1)
    let z ← op.at t (a 2) (b 2)
    let w ← op.at t (a 3) (b 3)
    pure ![x, y, z, w]
  | n, a, b => forLoopM n (fun i r => (op.at t (a i) (b i)).map (store r i)) (fun _ => 0)

/-- `VEC_SELF_OP(op)` with a vector, component by component in place; the operand may be the object itself:
vector.hpp 31-36, vector2.hpp 30-35, vector3.hpp 33-39, vector4.hpp 36-43. -/
def intSelfOp (t : IntTy) (op : ArithOp) : {n : Nat} → Vec ℤ n → Operand ℤ n → Option (Vec ℤ n)
  | 2, r, b => do
    let r ← (op.at t (r 0) (b.at r 0)).map (store r 0)
    (op.at t (r 1) (b.at r 1)).map (store r 1)
  | 3, r, b => do
    let r ← (op.at t (r 0) (b.at r 0)).map (store r 0)
    let r ← (op.at t (r 1) (b.at r 1)).map (store r 1)
    (op.at t (r 2) (b.at r 2)).map (store r 2)
  | 4, r, b => do
    let r ← (op.at t (r 0) (b.at r 0)).map (store r 0)
    let r ← (op.at t (r 1) (b.at r 1)).map (store r 1)
    let r ← (op.at t (r 2) (b.at r 2)).map (store r 2)
    (op.at t (r 3) (b.at r 3)).map (store r 3)
  | n, r, b => forLoopM n (fun i r => (op.at t (r i) (b.at r i)).map (store r i)) r

/-- `VEC_OP(op)` between a vector and a scalar already converted to the component type (`static_cast<T>(s)`):
vector.hpp 9-15, vector2.hpp 8-14, vector3.hpp 8-15, vector4.hpp 8-16. -/
def intOpS (t : IntTy) (op : ArithOp) : {n : Nat} → Vec ℤ n → ℤ → Option (Vec ℤ n)
  | 2, a, s => do
    let x ← op.at t (a 0) s
    let y ← op.at t (a 1) s
    pure ![x, y]
  | 3, a, s => do
    let x ← op.at t (a 0) s
    let y ← op.at t (a 1) s
    let z ← op.at t (a 2) s
    pure ![x, y, z]
  | 4, a, s => do
    let x ← op.at t (a 0) s
    let y ← op.at t (a 1) s
    let z ← op.at t (a 2) s
    let w ← op.at t (a 3) s
    pure ![x, y, z, w]
  | n, a, s => forLoopM n (fun i r => (op.at t (a i) s).map (store r i)) (fun _ => 0)

/-- The fraction dropped. Part of the model, not of the code. -/
noncomputable def truncZ (x : ℝ) : ℤ := if 0 ≤ x then ⌊x⌋ else ⌈x⌉

open Classical in
/-- `static_cast<T>(x)` of a floating-point number: vector.hpp 13; also the conversion of the result of
`std::sqrt` to the return type, vector.hpp 105-110, vector2.hpp 94-97, vector3.hpp 107-110. -/
noncomputable def castReal (t : IntTy) (x : ℝ) : Option ℤ :=
  if t.Has (truncZ x) then some (truncZ x) else none

/-- `v op s` for an integer vector and a floating-point scalar: `static_cast<T>(s)` before the operation
(vector.hpp 13, vector2.hpp 11-12, vector3.hpp 11-13, vector4.hpp 11-14).  The cast is written once per
component; it is the same value each time, and a vector has at least one component. -/
noncomputable def intOpReal (t : IntTy) (op : ArithOp) {n : Nat} (a : Vec ℤ n) (s : ℝ) : Option (Vec ℤ n) := do
  let s ← castReal t s
  intOpS t op a s

/-- `-x`, converted back to the component type: vector.hpp 66, vector2.hpp 56, vector3.hpp 68, vector4.hpp
84. -/
def negAt (t : IntTy) (a : ℤ) : Option ℤ := (t.promote.result (-a)).map t.conv

/-- Unary minus: vector.hpp 62-68, vector2.hpp 54-57, vector3.hpp 66-69, vector4.hpp 82-85. -/
def intNeg (t : IntTy) [Indet ℤ] : {n : Nat} → Vec ℤ n → Option (Vec ℤ n)
  | 2, a => do
    let x ← negAt t (a 0)
    let y ← negAt t (a 1)
    pure ![x, y]
  | 3, a => do
    let x ← negAt t (a 0)
    let y ← negAt t (a 1)
    let z ← negAt t (a 2)
    pure ![x, y, z]
  | 4, a => do
    let x ← negAt t (a 0)
    let y ← negAt t (a 1)
    let z ← negAt t (a 2)
    let w ← negAt t (a 3)
    pure ![x, y, z, w]
  | n, a => forLoopM n (fun i r => (negAt t (a i)).map (store r i)) (uninit n)

/-- `result += (v1[i] * v2[i])`: the product and the sum in the promoted type, then converted. geometry.hpp
16. -/
def mulAcc (t : IntTy) (r a b : ℤ) : Option ℤ := do
  let p ← ArithOp.mul.eval t a b
  (t.promote.result (r + p)).map t.conv

/-- `dot`: vectors/geometry.hpp 13-18. -/
def intDot (t : IntTy) {n : Nat} (a b : Vec ℤ n) : Option ℤ := forLoopM n (fun i r => mulAcc t r (a i) (b i)) 0

/-- `a * d - b * c` in the promoted type, converted back. geometry.hpp 27-29. -/
def crossAt (t : IntTy) (a d b c : ℤ) : Option ℤ := do
  let p ← ArithOp.mul.eval t a d
  let q ← ArithOp.mul.eval t b c
  (t.promote.result (p - q)).map t.conv

/-- `cross`: vectors/geometry.hpp 24-31. -/
def intCross (t : IntTy) (v1 v2 : Vec ℤ 3) : Option (Vec ℤ 3) := do
  let x ← crossAt t (v1 1) (v2 2) (v1 2) (v2 1)
  let y ← crossAt t (v1 2) (v2 0) (v1 0) (v2 2)
  let z ← crossAt t (v1 0) (v2 1) (v1 1) (v2 0)
  pure ![x, y, z]

/-- `reflect`: vectors/geometry.hpp 70-75. -/
def intReflect (t : IntTy) {n : Nat} (v k : Vec ℤ n) : Option (Vec ℤ n) := do
  let d ← intDot t v k
  let p ← intOpS t .mul k d
  let q ← intOpS t .mul p (t.conv 2)
  intOp t .sub v q

/-- `faceforward`: vectors/geometry.hpp 63-68. -/
def intFaceforward (t : IntTy) [Indet ℤ] {n : Nat} (v i k : Vec ℤ n) : Option (Vec ℤ n) := do
  let d ← intDot t k i
  if d < 0 then pure v else intNeg t v

/-- `double`: IEEE 754 binary64 without its exponent range. Part of the model, not of the code. -/
noncomputable def double : Rounding := nearestEven 53 (by norm_num)

/-- `std::sqrt` of an integer: converted to `double` (rounded), then the rounded root; a NaN for a negative
argument.  vector.hpp 110, vector2.hpp 96, vector3.hpp 109, vector4.hpp 126. -/
noncomputable def sqrtInt (z : ℤ) : Option ℝ :=
  if z < 0 then none else some (double.rnd (√(double.rnd z)))

/-- `x * x + y * y + ...` in the promoted type, from left to right: vector2.hpp 96, vector3.hpp 109, vector4.hpp
126. -/
def squares (t : IntTy) : List ℤ → Option ℤ
  | [] => some 0
  | x :: xs => do
    let p ← ArithOp.mul.eval t x x
    xs.foldlM (fun r y => do
      let q ← ArithOp.mul.eval t y y
      t.promote.result (r + q)) p

/-- The argument of `std::sqrt` in `v.length()`: vector.hpp 106-110, vector2.hpp 96, vector3.hpp 109, vector4.hpp
126.  Only the general template accumulates in `T`. -/
def lengthArg (t : IntTy) : {n : Nat} → Vec ℤ n → Option ℤ
  | 2, v => squares t [v 0, v 1]
  | 3, v => squares t [v 0, v 1, v 2]
  | 4, v => squares t [v 0, v 1, v 2, v 3]
  | n, v => forLoopM n (fun i r => mulAcc t r (v i) (v i)) 0

/-- `v.length()` where the return type is `T`: vector.hpp 105-111, vector2.hpp 94-97, vector3.hpp 107-110.  The
conversion of a NaN is undefined. -/
noncomputable def intLength (t : IntTy) {n : Nat} (v : Vec ℤ n) : Option ℤ := do
  let z ← lengthArg t v
  let x ← sqrtInt z
  castReal t x

/-- `v.length()` of a vector of four, whose return type is deduced and therefore `double`: vector4.hpp
124-127. (The result of the square root of a negative number, a NaN, is `none` here.) -/
noncomputable def intLength4 (t : IntTy) (v : Vec ℤ 4) : Option ℝ := do
  let z ← lengthArg t v
  sqrtInt z

/-- Uniform `lerp` with `percent` of an integer type: `1 - percent` in the promoted type, then both factors are
converted to the components' type, here exactly: vectors/functions.hpp 12-20. -/
noncomputable def lerpInt (t : IntTy) {n : Nat} (v1 v2 : Vec ℝ n) (percent : ℤ) : Option (Vec ℝ n) := do
  let q ← t.promote.result (1 - percent)
  pure (add (mulS v2 (percent : ℝ)) (mulS v1 (q : ℝ)))

end Verif.Math
