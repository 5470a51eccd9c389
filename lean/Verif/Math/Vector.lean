import Mathlib.Data.Fin.VecNotation
import Mathlib.Algebra.BigOperators.Fin
import Mathlib.Analysis.Real.Sqrt
import Mathlib.Analysis.SpecialFunctions.Trigonometric.Basic
import Mathlib.Tactic.FinCases

/-!
Model of `math/vector.hpp`, `math/vectors/*.hpp` and `math/scalars/functions.hpp`.

The component type is any type with the operations the code uses: the theorems in `VectorProps.lean` and
its siblings are about exact arithmetic (a ring, a field or the reals; unsigned integers that wrap around
are a ring), those in `RoundingProps.lean` about floating-point numbers whose operations round.

In a field `x / 0` is 0 here, which it is not in the code; so no theorem about exact arithmetic relies on it. What
the code does then is in the theorems about IEEE 754 numbers.

Simplification, throughout: both operands have the same component type so that `static_cast<T>` is the
identity.  Loops are loops here too, and a specialised template is a separate branch.
-/

set_option autoImplicit false

namespace Verif.Math

/-- `Vector<T, n>`: n components (vector.hpp 120; vector2.hpp 106-107; vector3.hpp 119-121;
vector4.hpp 136-139).  Out-of-range subscripts, which are assertion failures, do not exist in the
model. -/
abbrev Vec (T : Type) (n : Nat) := Fin n → T

/-- What an uninitialised component holds.  Every theorem is for every instance, that is, whatever the
indeterminate values are. Part of the model, not of the code. vector.hpp 44. -/
class Indet (T : Type) where
  junk : Nat → T

/-- `Vector result;` (vector.hpp 44: defaulted constructor, components indeterminate). -/
def uninit {T : Type} [Indet T] (n : Nat) : Vec T n := fun i => Indet.junk i.val

/-- `for(std::size_t i = 0; i < n; ++i) body(i)`. -/
def forLoop {σ : Type} (n : Nat) (body : Fin n → σ → σ) (s : σ) : σ :=
  (List.finRange n).foldl (fun s i => body i s) s

/-- The assignment `result[i] = x`. vector.hpp 13, 21, 28, 34; vectors/functions.hpp 31-36, 48. -/
def store {T : Type} {n : Nat} (r : Vec T n) (i : Fin n) (x : T) : Vec T n :=
  fun j => if j = i then x else r j

/-- The functions of `<cmath>` the code calls. vector.hpp 110, vector2.hpp 96, vector3.hpp 109, vector4.hpp 126,
geometry.hpp 37, transformation.hpp 41-42. -/
class MathFns (T : Type) where
  sqrt : T → T
  sin : T → T
  cos : T → T

/-- On the reals they are the exact functions. Part of the model, not of the code. -/
noncomputable instance : MathFns ℝ := ⟨Real.sqrt, Real.sin, Real.cos⟩

@[simp] theorem sqrt_real (x : ℝ) : MathFns.sqrt x = Real.sqrt x := rfl
@[simp] theorem sin_real (x : ℝ) : MathFns.sin x = Real.sin x := rfl
@[simp] theorem cos_real (x : ℝ) : MathFns.cos x = Real.cos x := rfl

section Ops

variable {T : Type} {n : Nat}

/-- `VEC_OP(op)` between two vectors: the loop of vector.hpp 16-23 and the specialisations vector2.hpp
15-22, vector3.hpp 16-24, vector4.hpp 17-26. -/
def vecOp [Zero T] (op : T → T → T) : {n : Nat} → Vec T n → Vec T n → Vec T n
  | 2, a, b => ![op (a 0) (b 0), op (a 1) (b 1)]
  | 3, a, b => ![op (a 0) (b 0), op (a 1) (b 1), op (a 2) (b 2)]
  | 4, a, b => ![op (a 0) (b 0), op (a 1) (b 1), op (a 2) (b 2), op (a 3) (b 3)]
  | n, a, b => forLoop n (fun i r => store r i (op (a i) (b i))) (fun _ => 0)

/-- `VEC_OP(op)` between a vector and a scalar: vector.hpp 9-15, vector2.hpp 8-14, vector3.hpp 8-15,
vector4.hpp 8-16. -/
def vecOpS [Zero T] (op : T → T → T) : {n : Nat} → Vec T n → T → Vec T n
  | 2, a, s => ![op (a 0) s, op (a 1) s]
  | 3, a, s => ![op (a 0) s, op (a 1) s, op (a 2) s]
  | 4, a, s => ![op (a 0) s, op (a 1) s, op (a 2) s, op (a 3) s]
  | n, a, s => forLoop n (fun i r => store r i (op (a i) s)) (fun _ => 0)

/-- The right operand of a compound assignment: another vector, or the very object being assigned. vector.hpp
31, vector2.hpp 30, vector3.hpp 33, vector4.hpp 36. -/
inductive Operand (T : Type) (n : Nat)
  | other (v : Vec T n)
  | itself

/-- Component `i` of the operand while the object holds `r`. Part of the model, not of the code. vector.hpp 34.
-/
def Operand.at {T : Type} {n : Nat} (o : Operand T n) (r : Vec T n) (i : Fin n) : T :=
  match o with
  | .other v => v i
  | .itself => r i

/-- `VEC_SELF_OP(op)` with a vector: vector.hpp 31-36, vector2.hpp 30-35, vector3.hpp 33-39, vector4.hpp
36-43: component by component, in place. -/
def vecSelfOp (op : T → T → T) : {n : Nat} → Vec T n → Operand T n → Vec T n
  | 2, a, b =>
    let r := store a 0 (op (a 0) (b.at a 0))
    store r 1 (op (r 1) (b.at r 1))
  | 3, a, b =>
    let r := store a 0 (op (a 0) (b.at a 0))
    let r := store r 1 (op (r 1) (b.at r 1))
    store r 2 (op (r 2) (b.at r 2))
  | 4, a, b =>
    let r := store a 0 (op (a 0) (b.at a 0))
    let r := store r 1 (op (r 1) (b.at r 1))
    let r := store r 2 (op (r 2) (b.at r 2))
    store r 3 (op (r 3) (b.at r 3))
  | n, a, b => forLoop n (fun i r => store r i (op (r i) (b.at r i))) a

/-- `VEC_SELF_OP(op)` with a scalar, passed by value: vector.hpp 26-30, vector2.hpp 25-29, vector3.hpp
27-32, vector4.hpp 29-35. -/
def vecSelfOpS (op : T → T → T) : {n : Nat} → Vec T n → T → Vec T n
  | 2, a, s =>
    let r := store a 0 (op (a 0) s)
    store r 1 (op (r 1) s)
  | 3, a, s =>
    let r := store a 0 (op (a 0) s)
    let r := store r 1 (op (r 1) s)
    store r 2 (op (r 2) s)
  | 4, a, s =>
    let r := store a 0 (op (a 0) s)
    let r := store r 1 (op (r 1) s)
    let r := store r 2 (op (r 2) s)
    store r 3 (op (r 3) s)
  | n, a, s => forLoop n (fun i r => store r i (op (r i) s)) a

/-- Unary minus: vector.hpp 62-68, vector2.hpp 54-57, vector3.hpp 66-69, vector4.hpp 82-85. -/
def neg [Neg T] [Indet T] : {n : Nat} → Vec T n → Vec T n
  | 2, a => ![-(a 0), -(a 1)]
  | 3, a => ![-(a 0), -(a 1), -(a 2)]
  | 4, a => ![-(a 0), -(a 1), -(a 2), -(a 3)]
  | n, a => forLoop n (fun i r => store r i (-(a i))) (uninit n)

/-- `Vector(U s)`: vector.hpp 46-49 (`fill`), vector2.hpp 47, vector3.hpp 51-52, vector4.hpp 55. -/
def splat : {n : Nat} → T → Vec T n
  | 2, s => ![s, s]
  | 3, s => ![s, s, s]
  | 4, s => ![s, s, s, s]
  | _, s => fun _ => s

/-- Conversion / assignment from a vector: vector.hpp 56-60, 75-80, vector2.hpp 51-52, 64-69, vector3.hpp
63-64, 76-82, vector4.hpp 79-80, 92-99. -/
def assign [Indet T] : {n : Nat} → Vec T n → Vec T n
  | 2, v => ![v 0, v 1]
  | 3, v => ![v 0, v 1, v 2]
  | 4, v => ![v 0, v 1, v 2, v 3]
  | n, v => forLoop n (fun i r => store r i (v i)) (uninit n)

/-- `operator+`: `VEC_OP(+)`, vector.hpp 70 and the specialisations. -/
def add [Zero T] [Add T] (a b : Vec T n) : Vec T n := vecOp (· + ·) a b
/-- `operator-`: `VEC_OP(-)`, vector.hpp 71. -/
def sub [Zero T] [Sub T] (a b : Vec T n) : Vec T n := vecOp (· - ·) a b
/-- `operator*` of two vectors: `VEC_OP(*)`, vector.hpp 72. -/
def mul [Zero T] [Mul T] (a b : Vec T n) : Vec T n := vecOp (· * ·) a b
/-- `operator/` of two vectors: `VEC_OP(/)`, vector.hpp 73. -/
def div [Zero T] [Div T] (a b : Vec T n) : Vec T n := vecOp (· / ·) a b
/-- `operator*` by a scalar: `VEC_OP(*)`, vector.hpp 72. -/
def mulS [Zero T] [Mul T] (a : Vec T n) (s : T) : Vec T n := vecOpS (· * ·) a s
/-- `operator/` by a scalar: `VEC_OP(/)`, vector.hpp 73. -/
def divS [Zero T] [Div T] (a : Vec T n) (s : T) : Vec T n := vecOpS (· / ·) a s

/-- `dot`: vectors/geometry.hpp 13-18. -/
def dot [Zero T] [Add T] [Mul T] (v1 v2 : Vec T n) : T :=
  forLoop n (fun i r => r + v1 i * v2 i) 0

/-- `cross`: vectors/geometry.hpp 24-31. -/
def cross [Mul T] [Sub T] (v1 v2 : Vec T 3) : Vec T 3 :=
  ![v1 1 * v2 2 - v1 2 * v2 1, v1 2 * v2 0 - v1 0 * v2 2, v1 0 * v2 1 - v1 1 * v2 0]

/-- `length(v)`: vectors/geometry.hpp 36-38. -/
def length [Zero T] [Add T] [Mul T] [MathFns T] (v : Vec T n) : T := MathFns.sqrt (dot v v)

/-- `v.length()`: vector.hpp 105-111, vector2.hpp 94-97, vector3.hpp 107-110, vector4.hpp 124-127. -/
def lengthM [Zero T] [Add T] [Mul T] [MathFns T] : {n : Nat} → Vec T n → T
  | 2, v => MathFns.sqrt (v 0 * v 0 + v 1 * v 1)
  | 3, v => MathFns.sqrt (v 0 * v 0 + v 1 * v 1 + v 2 * v 2)
  | 4, v => MathFns.sqrt (v 0 * v 0 + v 1 * v 1 + v 2 * v 2 + v 3 * v 3)
  | n, v => MathFns.sqrt (forLoop n (fun i r => r + v i * v i) 0)

/-- `distance`: vectors/geometry.hpp 43-48. -/
def distance [Zero T] [Add T] [Sub T] [Mul T] [MathFns T] (v1 v2 : Vec T n) : T := lengthM (sub v2 v1)

/-- `normalize(v)`: vectors/geometry.hpp 52-56. -/
def normalize [Zero T] [One T] [Add T] [Mul T] [Div T] [MathFns T] (v : Vec T n) : Vec T n :=
  mulS v (1 / length v)

/-- `v.normalize()`: vector.hpp 113-118 and the same text in the specialisations. -/
def normalizeM [Zero T] [One T] [Add T] [Mul T] [Div T] [MathFns T] (v : Vec T n) : Vec T n :=
  mulS v (1 / lengthM v)

/-- `faceforward`: vectors/geometry.hpp 63-68. -/
def faceforward [Zero T] [Add T] [Mul T] [Neg T] [LT T] [DecidableLT T] [Indet T] (v i k : Vec T n) :
    Vec T n :=
  if dot k i < 0 then v else neg v

/-- `reflect`: vectors/geometry.hpp 70-75. -/
def reflect [Zero T] [Add T] [Sub T] [Mul T] [OfNat T 2] (v k : Vec T n) : Vec T n :=
  sub v (mulS (mulS k (dot v k)) 2)

/-- Uniform `lerp` (and `mix`, glsl_mapping.hpp 59-64): vectors/functions.hpp 12-20. -/
def lerp [Zero T] [One T] [Add T] [Sub T] [Mul T] (v1 v2 : Vec T n) (percent : T) : Vec T n :=
  add (mulS v2 percent) (mulS v1 (1 - percent))

/-- Uniform `lerp` with a `bool`: vectors/functions.hpp 16-18. -/
def lerpB (v1 v2 : Vec T n) (percent : Bool) : Vec T n := if percent then v2 else v1

/-- Component-wise `lerp` (and `mix`, glsl_mapping.hpp 66-72): vectors/functions.hpp 24-39. -/
def lerpV [One T] [Add T] [Sub T] [Mul T] [Indet T] (v1 v2 percent : Vec T n) : Vec T n :=
  forLoop n (fun i r => store r i (v2 i * percent i + v1 i * (1 - percent i))) (uninit n)

/-- Component-wise `lerp` with `bool`s: vectors/functions.hpp 31-33. -/
def lerpVB [Indet T] (v1 v2 : Vec T n) (percent : Vec Bool n) : Vec T n :=
  forLoop n (fun i r => store r i (if percent i then v2 i else v1 i)) (uninit n)

/-- A C++ `bool` in an arithmetic expression. scalars/functions.hpp 13. -/
def ofBool [Zero T] [One T] (b : Bool) : T := if b then 1 else 0

/-- Scalar `sign`: scalars/functions.hpp 9-14. -/
def sign [Zero T] [One T] [Sub T] [LT T] [DecidableLT T] (x : T) : T :=
  ofBool (decide (0 < x)) - ofBool (decide (x < 0))

/-- Vector `sign`: vectors/functions.hpp 43-50. -/
def signV [Zero T] [One T] [Sub T] [LT T] [DecidableLT T] [Indet T] (v : Vec T n) : Vec T n :=
  forLoop n (fun i r => store r i (sign (v i))) (uninit n)

end Ops

end Verif.Math
