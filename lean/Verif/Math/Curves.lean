import Verif.Math.Matrix

/-!
Curves by repeated interpolation (the scheme of de Casteljau): client code whose only operation is `lerp`. An array of points is
a function of the index.
-/

set_option autoImplicit false

namespace Verif.Math

variable {T : Type} {n : Nat}

/-- `for(; m != 0; --m, ++i) p[i] = lerp(p[i], p[i + 1], t);` with `lerp`: vectors/functions.hpp 12-20. -/
def casteljauRow [Zero T] [One T] [Add T] [Sub T] [Mul T] (t : T) : Nat → Nat → (Nat → Vec T n) → (Nat → Vec T n)
  | 0, _, p => p
  | m + 1, i, p => casteljauRow t m (i + 1) (Function.update p i (lerp (p i) (p (i + 1)) t))

/-- `for(; d != 0; --d) { the loop above with m = d, i = 0 } return p[0];` with `lerp`: vectors/functions.hpp 12-20. -/
def casteljau [Zero T] [One T] [Add T] [Sub T] [Mul T] (t : T) : Nat → (Nat → Vec T n) → Vec T n
  | 0, p => p 0
  | d + 1, p => casteljau t d (casteljauRow t (d + 1) 0 p)

/-- `for(k = 0;; ++k, --d) { l[k] = p[0]; r[d] = p[d]; if(d == 0) break; the loop above with m = d, i = 0 }`: the points of the
two pieces of a curve, with `lerp`: vectors/functions.hpp 12-20. -/
def splitLoop [Zero T] [One T] [Add T] [Sub T] [Mul T] (t : T) : Nat → Nat → (Nat → Vec T n) → (Nat → Vec T n) → (Nat → Vec T n) →
    (Nat → Vec T n) × (Nat → Vec T n)
  | 0, k, p, l, r => (Function.update l k (p 0), Function.update r 0 (p 0))
  | d + 1, k, p, l, r =>
    splitLoop t d (k + 1) (casteljauRow t (d + 1) 0 p) (Function.update l k (p 0)) (Function.update r (d + 1) (p (d + 1)))

end Verif.Math
