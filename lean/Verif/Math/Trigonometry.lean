import Verif.Math.Constants
import Mathlib.Analysis.SpecialFunctions.Trigonometric.Basic
import Mathlib.Analysis.SpecialFunctions.Trigonometric.Inverse
import Mathlib.Analysis.SpecialFunctions.Trigonometric.Arctan

/-!
# Model of `math/scalars/trigonometry.hpp`

TR stands for `include/xme/math/scalars/trigonometry.hpp`. Over the reals: `std::cos` and the others are the real
functions, and π is the literal of `constants.hpp`. `radiansOf` and `degreesOf` are the same for any arithmetic; the
theorems about rounding use them.
-/

set_option autoImplicit false

namespace Verif.Math.Trig

/-- `radians`, TR 9-13, with any arithmetic; `c180` is 180 converted to the type -/
def radiansOf {T : Type} [Mul T] [Div T] (pi c180 deg : T) : T := deg * (pi / c180)

/-- `degrees`, TR 15-19, with any arithmetic -/
def degreesOf {T : Type} [Mul T] [Div T] (pi c180 rad : T) : T := rad * (c180 / pi)

/-- `radians`, TR 9-13 -/
noncomputable def radians (deg : ℝ) : ℝ := radiansOf (Lit.pi_v : ℝ) 180 deg

/-- `degrees`, TR 15-19 -/
noncomputable def degrees (rad : ℝ) : ℝ := degreesOf (Lit.pi_v : ℝ) 180 rad

/-- `sec`, TR 25-29 -/
noncomputable def sec (s : ℝ) : ℝ := 1 / Real.cos s

/-- `csc`, TR 30-34 -/
noncomputable def csc (s : ℝ) : ℝ := 1 / Real.sin s

/-- `cot`, TR 35-39 -/
noncomputable def cot (s : ℝ) : ℝ := 1 / Real.tan s

/-- `arcsin`, TR 41-45: `std::asin`, which is not a number (`none`) outside [-1, 1] -/
noncomputable def arcsin (s : ℝ) : Option ℝ := if -1 ≤ s ∧ s ≤ 1 then some (Real.arcsin s) else none

/-- `arccos`, TR 46-50: `std::acos`, which is not a number (`none`) outside [-1, 1] -/
noncomputable def arccos (s : ℝ) : Option ℝ := if -1 ≤ s ∧ s ≤ 1 then some (Real.arccos s) else none

/-- `arctan`, TR 51-55: `std::atan` -/
noncomputable def arctan (s : ℝ) : ℝ := Real.arctan s

end Verif.Math.Trig
