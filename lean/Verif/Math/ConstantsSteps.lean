import Mathlib.Data.Real.Basic
import Mathlib.Tactic.FieldSimp
import Mathlib.Tactic.Positivity
import Mathlib.Tactic.Ring

/-!
# Inequalities between rational functions

The tails of the series for `ζ(3)`, the constant of Catalan and the constant of Euler, compared with telescoping
series. Written out by a script; each line is checked by `field_simp` and `ring`.
-/

set_option autoImplicit false

namespace Verif.Math.Const

noncomputable def zUp (x : ℝ) : ℝ := (1 / 2) / x ^ 2 + (1 / 2) / x ^ 3 + (1 / 4) / x ^ 4 + ((-1) / 12) / x ^ 6 + (1 / 12) / x ^ 8

noncomputable def zLo (x : ℝ) : ℝ := (1 / 2) / x ^ 2 + (1 / 2) / x ^ 3 + (1 / 4) / x ^ 4 + ((-1) / 12) / x ^ 6

noncomputable def bUp (x : ℝ) : ℝ := (1 / 2) / x ^ 2 + ((-3) / 2) / x ^ 4 + (25 / 2) / x ^ 6

noncomputable def bLo (x : ℝ) : ℝ := (1 / 2) / x ^ 2 + ((-3) / 2) / x ^ 4 + (25 / 2) / x ^ 6 + ((-427) / 2) / x ^ 8

noncomputable def rLo (x : ℝ) : ℝ := (1 / 2) / x ^ 1 + ((-1) / 12) / x ^ 2 + (1 / 120) / x ^ 4 + ((-1) / 252) / x ^ 6 + (1 / 240) / x ^ 8

noncomputable def rUp (x : ℝ) : ℝ := (1 / 2) / x ^ 1 + ((-1) / 12) / x ^ 2 + (1 / 120) / x ^ 4 + ((-1) / 252) / x ^ 6

theorem zUp_step {m : ℝ} (hm : 0 ≤ m) : 0 ≤ zUp (1 + 1 * m) - zUp (2 + 1 * m) - 1 / (1 + 1 * m) ^ 3 := by
  have e : zUp (1 + 1 * m) - zUp (2 + 1 * m) - 1 / (1 + 1 * m) ^ 3 =
      (147 + 476 * m + 621 * m ^ 2 + 408 * m ^ 3 + 135 * m ^ 4 + 18 * m ^ 5) /
        (12 * (1 + 1 * m) ^ 8 * (2 + 1 * m) ^ 8) := by
    simp only [zUp]
    field_simp
    ring
  rw [e]
  positivity

theorem zLo_step {m : ℝ} (hm : 0 ≤ m) : 0 ≤ 1 / (1 + 1 * m) ^ 3 - (zLo (1 + 1 * m) - zLo (2 + 1 * m)) := by
  have e : 1 / (1 + 1 * m) ^ 3 - (zLo (1 + 1 * m) - zLo (2 + 1 * m)) =
      (27 + 54 * m + 36 * m ^ 2 + 8 * m ^ 3) /
        (12 * (1 + 1 * m) ^ 6 * (2 + 1 * m) ^ 6) := by
    simp only [zLo]
    field_simp
    ring
  rw [e]
  positivity

theorem bUp_step {m : ℝ} (hm : 0 ≤ m) : 0 ≤ bUp (4 + 4 * m) - bUp (8 + 4 * m) - (1 / (5 + 4 * m) ^ 2 - 1 / (7 + 4 * m) ^ 2) := by
  have e : bUp (4 + 4 * m) - bUp (8 + 4 * m) - (1 / (5 + 4 * m) ^ 2 - 1 / (7 + 4 * m) ^ 2) =
      (1784346624 + 8492470272 * m + 17267853312 * m ^ 2 + 19442851840 * m ^ 3 + 13091727360 * m ^ 4 +
        5271531520 * m ^ 5 + 1175322624 * m ^ 6 + 111935488 * m ^ 7) /
        (1 * (4 + 4 * m) ^ 6 * (8 + 4 * m) ^ 6 * (5 + 4 * m) ^ 2 * (7 + 4 * m) ^ 2) := by
    simp only [bUp]
    field_simp
    ring
  rw [e]
  positivity

theorem bLo_step {m : ℝ} (hm : 0 ≤ m) : 0 ≤ (1 / (5 + 4 * m) ^ 2 - 1 / (7 + 4 * m) ^ 2) - (bLo (4 + 4 * m) - bLo (8 + 4 * m)) := by
  have e : (1 / (5 + 4 * m) ^ 2 - 1 / (7 + 4 * m) ^ 2) - (bLo (4 + 4 * m) - bLo (8 + 4 * m)) =
      (2543560065024 + 15224851922944 * m + 40507469070336 * m ^ 2 + 62881276887040 * m ^ 3 +
        62767789178880 * m ^ 4 + 41782753361920 * m ^ 5 + 18548878344192 * m ^ 6 + 5295594799104 * m ^ 7 +
        882258739200 * m ^ 8 + 65352499200 * m ^ 9) /
        (1 * (4 + 4 * m) ^ 8 * (8 + 4 * m) ^ 8 * (5 + 4 * m) ^ 2 * (7 + 4 * m) ^ 2) := by
    simp only [bLo]
    field_simp
    ring
  rw [e]
  positivity

theorem rUp_step {m : ℝ} (hm : 0 ≤ m) : 0 ≤ ((2 / 1) / (21 + 2 * m) ^ 1 + (2 / 3) / (21 + 2 * m) ^ 3 + (2 / 5) / (21 + 2 * m) ^ 5 + (2 / 7) / (21 + 2 * m) ^ 7) + rUp (11 + 1 * m) - rUp (10 + 1 * m) - 1 / (11 + 1 * m) := by
  have e : ((2 / 1) / (21 + 2 * m) ^ 1 + (2 / 3) / (21 + 2 * m) ^ 3 + (2 / 5) / (21 + 2 * m) ^ 5 + (2 / 7) / (21 + 2 * m) ^ 7) + rUp (11 + 1 * m) - rUp (10 + 1 * m) - 1 / (11 + 1 * m) =
      (172848899672910 + 164619806920380 * m + 70552031043609 * m ^ 2 + 17918127788400 * m ^ 3 +
        2986376221617 * m ^ 4 + 341302190166 * m ^ 5 + 27087605334 * m ^ 6 + 1474160688 * m ^ 7 + 52648722 *
        m ^ 8 + 1114260 * m ^ 9 + 10612 * m ^ 10) /
        (2520 * (11 + 1 * m) ^ 6 * (21 + 2 * m) ^ 7 * (10 + 1 * m) ^ 6) := by
    simp only [rUp]
    field_simp
    ring
  rw [e]
  positivity

theorem rLo_step {m : ℝ} (hm : 0 ≤ m) : 0 ≤ 1 / (11 + 1 * m) - ((2 / 1) / (21 + 2 * m) ^ 1 + (2 / 3) / (21 + 2 * m) ^ 3 + (2 / 5) / (21 + 2 * m) ^ 5 + (2 / 7) / (21 + 2 * m) ^ 7 + (2 / 9) / (21 + 2 * m) ^ 9 + (9 / 44) / (21 + 2 * m) ^ 11) - rLo (11 + 1 * m) + rLo (10 + 1 * m) := by
  have e : 1 / (11 + 1 * m) - ((2 / 1) / (21 + 2 * m) ^ 1 + (2 / 3) / (21 + 2 * m) ^ 3 + (2 / 5) / (21 + 2 * m) ^ 5 + (2 / 7) / (21 + 2 * m) ^ 7 + (2 / 9) / (21 + 2 * m) ^ 9 + (9 / 44) / (21 + 2 * m) ^ 11) - rLo (11 + 1 * m) + rLo (10 + 1 * m) =
      (188006288608320029393931 + 286434008238009346571010 * m + 204561214366099004667484 * m ^ 2 +
        90901856350824045937872 * m ^ 3 + 28132221017223852527944 * m ^ 4 + 6429369712844443365000 * m ^ 5 +
        1122453098494310608168 * m ^ 6 + 152698145546265854304 * m ^ 7 + 16358938387678717810 * m ^ 8 +
        1384766849341922676 * m ^ 9 + 92311114622761216 * m ^ 10 + 4795093612932336 * m ^ 11 +
        190272319340932 * m ^ 12 + 5575544015832 * m ^ 13 + 113783869656 * m ^ 14 + 1444857120 * m ^ 15 +
        8600340 * m ^ 16) /
        (55440 * (11 + 1 * m) ^ 8 * (21 + 2 * m) ^ 11 * (10 + 1 * m) ^ 8) := by
    simp only [rLo]
    field_simp
    ring
  rw [e]
  positivity

end Verif.Math.Const
