import Verif.Math.Matrix

/-!
Areas of polygons and volumes of meshes: client code around `determinant`.
-/

set_option autoImplicit false

namespace Verif.Math

variable {T : Type}

/-- `Matrix<T, 2, 2> m(0); m[0] = p; m[1] = q; determinant(m)` with `Matrix(U s)` and `operator[]`: matrix.hpp 56-62, 121-129, and
`determinant`: matrices/functions.hpp 9-13. -/
def wedge [Zero T] [Sub T] [Mul T] (p q : Vec T 2) : T :=
  det2 (store (store (diagonal 0) 0 p) 1 q)

/-- `Matrix<T, 3, 3> m(0); m[0] = p; m[1] = q; m[2] = r; determinant(m)`: matrix.hpp 56-62, 121-129, matrices/functions.hpp 14-21. -/
def triple [Zero T] [Add T] [Sub T] [Mul T] (p q r : Vec T 3) : T :=
  det3 (store (store (store (diagonal 0) 0 p) 1 q) 2 r)

/-- `for(each further corner x) { s += wedge(p, x); p = x; } return s + wedge(p, q);` with `determinant`: matrices/functions.hpp
9-13. -/
def areaLoop [Zero T] [Add T] [Sub T] [Mul T] (q : Vec T 2) : Vec T 2 → List (Vec T 2) → T → T
  | p, [], s => s + wedge p q
  | p, x :: l, s => areaLoop q x l (s + wedge p x)

/-- Twice the area of a polygon, positive if its corners are listed counter-clockwise, with `determinant`: matrices/functions.hpp
9-13. -/
def area2 [Zero T] [Add T] [Sub T] [Mul T] : List (Vec T 2) → T
  | [] => 0
  | p :: l => areaLoop p p l 0

/-- A triangle of a mesh. Part of the model, not of the code. -/
structure Tri (T : Type) where
  a : Vec T 3
  b : Vec T 3
  c : Vec T 3

/-- Six times the volume of a mesh: `s = 0; for(each triangle) s += triple(a, b, c);` with `determinant`: matrices/functions.hpp
14-21. -/
def volume6 [Zero T] [Add T] [Sub T] [Mul T] (m : List (Tri T)) : T :=
  m.foldl (fun s t => s + triple t.a t.b t.c) 0

end Verif.Math
