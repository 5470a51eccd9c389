import Verif.Math.Matrix

/-!
Powers of matrices and quaternions by repeated squaring, and what users compute with them: linear recurrences, numbers of
walks, polynomials of a matrix. The functions are client code; every operation in them is the one of the library.
-/

set_option autoImplicit false

namespace Verif.Math

variable {T : Type} {n : Nat}

/-- `while(e != 0) { if(e % 2 == 1) r = r * b; b = b * b; e /= 2; } return r;` with the product of matrices: matrix.hpp 96-107,
matrix4x4.hpp 100-110. -/
def powLoop [Zero T] [Add T] [Mul T] [Indet T] (b r : Mat T n n) (e : Nat) : Mat T n n :=
  if e = 0 then r else powLoop (mulMat b b) (if e % 2 = 1 then mulMat r b else r) (e / 2)
termination_by e

/-- `Matrix<T, n, n> r;` (matrix.hpp 54, matrix4x4.hpp 52), then the loop. -/
def matPow [Zero T] [One T] [Add T] [Mul T] [Indet T] (a : Mat T n n) (e : Nat) : Mat T n n :=
  powLoop a defaultMat e

/-- The same loop with the product of quaternions: quaternion.hpp 26-35. -/
def quatPowLoop [Add T] [Sub T] [Mul T] (b r : Quat T) (e : Nat) : Quat T :=
  if e = 0 then r else quatPowLoop (b.mul b) (if e % 2 = 1 then r.mul b else r) (e / 2)
termination_by e

/-- `Quaternion<T> r{1, 0, 0, 0};` (quaternion.hpp 11-12), then the loop. -/
def quatPow [Zero T] [One T] [Add T] [Sub T] [Mul T] (q : Quat T) (e : Nat) : Quat T :=
  quatPowLoop q ⟨1, 0, 0, 0⟩ e

/-- `Matrix<T, n+1, n+1> m(0); for(i < n) m[i + 1][i] = 1; for(i <= n) m[i][n] = c[i];` with `Matrix(U s)`: matrix.hpp 56-62,
matrix4x4.hpp 54-61, and `operator[]`: matrix.hpp 121-129, matrix4x4.hpp 126-134. -/
def companion [Zero T] [One T] (c : Vec T (n + 1)) : Mat T (n + 1) (n + 1) :=
  forLoop (n + 1) (fun i m => store2 m i (Fin.last n) (c i))
    (forLoop n (fun i m => store2 m i.succ i.castSucc 1) (diagonal 0))

/-- Term `k` of the sequence that begins with the components of `x` and goes on with
`x(k+n+1) = c[0] x(k) + ... + c[n] x(k+n)`: `(pow(companion(c), k) * x)[0]`, with the product of a matrix and a vector:
matrix.hpp 88-95, matrix4x4.hpp 89-98. -/
def recurrence [Zero T] [One T] [Add T] [Mul T] [Indet T] (c x : Vec T (n + 1)) (k : Nat) : T :=
  mulVec (matPow (companion c) k) x 0

/-- `Matrix r(0); for(c from the last coefficient to the first) r = r * a + Matrix(c);` with `Matrix(U s)`: matrix.hpp 56-62,
matrix4x4.hpp 54-61, the product and the sum: matrix.hpp 83, 96-107, matrix4x4.hpp 84, 100-110. The list has the coefficients from
the first to the last. -/
def horner [Zero T] [Add T] [Mul T] [Indet T] (a : Mat T n n) (cs : List T) : Mat T n n :=
  cs.reverse.foldl (fun r c => matAdd (mulMat r a) (diagonal c)) (diagonal 0)

end Verif.Math
