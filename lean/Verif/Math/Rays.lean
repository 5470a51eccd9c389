import Verif.Math.Vector

/-!
Rays against planes, triangles and spheres, and the nearest point of a segment: client code around `dot`, `cross` and `lerp`.
-/

set_option autoImplicit false

namespace Verif.Math

variable {T : Type} {n : Nat}

/-- Where a ray meets the plane through `p` with normal `k`: `c = dot(d, k); if(c == 0) return {}; return dot(p - o, k) / c;` with
`dot`: vectors/geometry.hpp 13-18. -/
def hitPlane [Zero T] [Add T] [Sub T] [Mul T] [Div T] [DecidableEq T] (o d p k : Vec T n) : Option T :=
  let c := dot d k
  if c = 0 then none else some (dot (sub p o) k / c)

/-- Where a ray meets a triangle: the way along the ray and the coordinates in the triangle, found by Möller and Trumbore's method.
`e1 = b - a; e2 = c - a; h = cross(d, e2); det = dot(e1, h); if(det == 0) return {}; f = 1 / det; s = o - a; u = f * dot(s, h);
if(u < 0 || u > 1) return {}; q = cross(s, e1); v = f * dot(d, q); if(v < 0 || u + v > 1) return {}; t = f * dot(e2, q);
if(t < 0) return {}; return {t, u, v};` with `dot`: vectors/geometry.hpp 13-18, and `cross`: vectors/geometry.hpp 24-31. -/
def hitTriangle [Zero T] [One T] [Add T] [Sub T] [Mul T] [Div T] [LT T] [DecidableLT T] [DecidableEq T] (o d a b c : Vec T 3) :
    Option (T × T × T) :=
  let e1 := sub b a
  let e2 := sub c a
  let h := cross d e2
  let det := dot e1 h
  if det = 0 then none
  else
    let f := 1 / det
    let s := sub o a
    let u := f * dot s h
    if u < 0 ∨ 1 < u then none
    else
      let q := cross s e1
      let v := f * dot d q
      if v < 0 ∨ 1 < u + v then none
      else
        let t := f * dot e2 q
        if t < 0 then none else some (t, u, v)

/-- Where a ray with a direction of length 1 first meets a sphere: `m = o - c; b = dot(m, d); disc = b * b - (dot(m, m) - r * r);
if(disc < 0) return {}; w = sqrt(disc); t = -b - w; if(t < 0) t = -b + w; if(t < 0) return {}; return t;` with `dot`:
vectors/geometry.hpp 13-18. -/
def hitSphere [Zero T] [Add T] [Sub T] [Mul T] [Neg T] [LT T] [DecidableLT T] [MathFns T] (o d c : Vec T n) (r : T) : Option T :=
  let m := sub o c
  let b := dot m d
  let disc := b * b - (dot m m - r * r)
  if disc < 0 then none
  else
    let w := MathFns.sqrt disc
    let t := -b - w
    let t := if t < 0 then -b + w else t
    if t < 0 then none else some t

/-- The point of a segment nearest to `p`: `e = b - a; q = dot(e, e); t = q == 0 ? 0 : dot(p - a, e) / q; t = t < 0 ? 0 : t > 1 ? 1 : t;
return lerp(a, b, t);` with `dot`: vectors/geometry.hpp 13-18, and `lerp`: vectors/functions.hpp 12-20. -/
def nearest [Zero T] [One T] [Add T] [Sub T] [Mul T] [Div T] [LT T] [DecidableLT T] [DecidableEq T] (p a b : Vec T n) : Vec T n :=
  let e := sub b a
  let q := dot e e
  let t := if q = 0 then 0 else dot (sub p a) e / q
  let t := if t < 0 then 0 else if 1 < t then 1 else t
  lerp a b t

end Verif.Math
