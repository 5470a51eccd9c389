import Verif.Math.Matrix

/-!
Loops a user writes with vectors, matrices and quaternions: accumulating a sum, stepping a position, averaging, applying one
transformation after the other. The loops are client code; every operation in them is the one of the library.
-/

set_option autoImplicit false

namespace Verif.Math

variable {T : Type} {n : Nat}

/-- `for(auto& v : vs) s += v;` with `operator+=`: vector.hpp 31-36, vector2.hpp 30-35, vector3.hpp 33-39, vector4.hpp 36-43. -/
def sumLoop [Add T] (vs : List (Vec T n)) (s : Vec T n) : Vec T n :=
  vs.foldl (fun s v => vecSelfOp (· + ·) s (.other v)) s

/-- `for(auto& v : vs) p += v * dt;` with `operator*`: vector.hpp 9-15, 72, and `operator+=`: vector.hpp 31-36 (and the same of
vector2.hpp, vector3.hpp, vector4.hpp). -/
def stepLoop [Zero T] [Add T] [Mul T] (vs : List (Vec T n)) (dt : T) (p : Vec T n) : Vec T n :=
  vs.foldl (fun p v => vecSelfOp (· + ·) p (.other (mulS v dt))) p

/-- `Vector m{0}; for(auto& v : vs) m += v; m /= d;` with `operator/=`: vector.hpp 26-30, vector2.hpp 25-29, vector3.hpp 27-32,
vector4.hpp 29-35. -/
def meanLoop [Zero T] [Add T] [Div T] (vs : List (Vec T n)) (d : T) : Vec T n :=
  vecSelfOpS (· / ·) (sumLoop vs (splat 0)) d

/-- `for(auto& m : ms) v = m * v;` with the product of a matrix and a vector: matrix.hpp 88-95, matrix4x4.hpp 89-98. -/
def transformLoop [Zero T] [Add T] [Mul T] [Indet T] (ms : List (Mat T n n)) (v : Vec T n) : Vec T n :=
  ms.foldl (fun v m => mulVec m v) v

/-- `for(auto& p : ps) q = p * q;` with the product of quaternions: quaternion.hpp 26-35. -/
def turnLoop [Add T] [Sub T] [Mul T] (ps : List (Quat T)) (q : Quat T) : Quat T :=
  ps.foldl (fun q p => p.mul q) q

/-- `for(k times) s += dt;` with `operator+=` of a vector and a number: vector.hpp 26-30, vector2.hpp 25-29, vector3.hpp 27-32,
vector4.hpp 29-35. -/
def clockLoop [Add T] (dt : T) : Nat → Vec T n → Vec T n
  | 0, s => s
  | k + 1, s => clockLoop dt k (vecSelfOpS (· + ·) s dt)

end Verif.Math
