import Verif.Math.Vector

/-!
Frames of unit vectors: client code around `dot`, `cross` and `normalize`. Orthonormalisation of any number of vectors, and the
frame of a camera.
-/

set_option autoImplicit false

namespace Verif.Math

variable {T : Type} {n : Nat}

/-- `for(each e) v = v - e * dot(v, e);` with `dot`: vectors/geometry.hpp 13-18, and the operators of vectors: vector.hpp 8-23. -/
def removeParts [Zero T] [Add T] [Sub T] [Mul T] : List (Vec T n) → Vec T n → Vec T n
  | [], v => v
  | e :: es, v => removeParts es (sub v (mulS e (dot v e)))

/-- `for(each v) es.push_back(normalize(removeParts(es, v)));` with `normalize`: vectors/geometry.hpp 52-56. -/
def orthonormalize [Zero T] [One T] [Add T] [Sub T] [Mul T] [Div T] [MathFns T] :
    List (Vec T n) → List (Vec T n) → List (Vec T n)
  | es, [] => es
  | es, v :: vs => orthonormalize (es ++ [normalize (removeParts es v)]) vs

/-- The frame of a camera. Part of the model, not of the code. -/
structure Frame (T : Type) where
  right : Vec T 3
  up : Vec T 3
  ahead : Vec T 3

/-- `f = normalize(target - eye); s = normalize(cross(f, up)); u = cross(s, f);` with `cross`: vectors/geometry.hpp 24-31, and
`normalize`: vectors/geometry.hpp 52-56. -/
def lookAt [Zero T] [One T] [Add T] [Sub T] [Mul T] [Div T] [MathFns T] (eye target up : Vec T 3) : Frame T :=
  let f := normalize (sub target eye)
  let s := normalize (cross f up)
  ⟨s, cross s f, f⟩

/-- The coordinates of a point as the camera sees it: `{dot(s, p - eye), dot(u, p - eye), -dot(f, p - eye)}` with `dot`:
vectors/geometry.hpp 13-18. -/
def toView [Zero T] [Add T] [Sub T] [Mul T] [Neg T] (c : Frame T) (eye p : Vec T 3) : Vec T 3 :=
  ![dot c.right (sub p eye), dot c.up (sub p eye), -dot c.ahead (sub p eye)]

end Verif.Math
