import Verif.Math.RoundingMoreProps
import Verif.Math.PrecisionProps
import Mathlib.Analysis.InnerProductSpace.PiL2

/-!
C144: what any number of rotations computed in floating point does to lengths and angles.
-/

set_option autoImplicit false

namespace Verif.Math

variable {R : Rounding}

/-! ### The exact rotation about an axis that is only nearly a unit vector -/

/-- The inner product of the images of two vectors. -/
theorem turn_inner (c s n0 n1 n2 x0 x1 x2 y0 y1 y2 : ℝ) (h : c ^ 2 + s ^ 2 = 1) :
    (x0 * (c + n0 * (1 - c) * n0) + x1 * (n0 * (1 - c) * n1 + s * n2) + x2 * (n0 * (1 - c) * n2 - s * n1)) *
      (y0 * (c + n0 * (1 - c) * n0) + y1 * (n0 * (1 - c) * n1 + s * n2) + y2 * (n0 * (1 - c) * n2 - s * n1)) +
    (x0 * (n1 * (1 - c) * n0 - s * n2) + x1 * (c + n1 * (1 - c) * n1) + x2 * (n1 * (1 - c) * n2 + s * n0)) *
      (y0 * (n1 * (1 - c) * n0 - s * n2) + y1 * (c + n1 * (1 - c) * n1) + y2 * (n1 * (1 - c) * n2 + s * n0)) +
    (x0 * (n2 * (1 - c) * n0 + s * n1) + x1 * (n2 * (1 - c) * n1 - s * n0) + x2 * (c + n2 * (1 - c) * n2)) *
      (y0 * (n2 * (1 - c) * n0 + s * n1) + y1 * (n2 * (1 - c) * n1 - s * n0) + y2 * (c + n2 * (1 - c) * n2)) =
    (x0 * y0 + x1 * y1 + x2 * y2) * (1 + s ^ 2 * (n0 ^ 2 + n1 ^ 2 + n2 ^ 2 - 1)) +
      (1 - c) ^ 2 * (n0 ^ 2 + n1 ^ 2 + n2 ^ 2 - 1) * ((n0 * x0 + n1 * x1 + n2 * x2) * (n0 * y0 + n1 * y1 + n2 * y2)) := by
  linear_combination ((x0 * y0 + x1 * y1 + x2 * y2) -
    (n0 * x0 + n1 * x1 + n2 * x2) * (n0 * y0 + n1 * y1 + n2 * y2)) * h

/-- The inner product and the length of vectors with three coordinates. -/
def dot3 (x y : Fin 3 → ℝ) : ℝ := x 0 * y 0 + x 1 * y 1 + x 2 * y 2

/-- See `dot3`. -/
noncomputable def len3 (x : Fin 3 → ℝ) : ℝ := √(x 0 ^ 2 + x 1 ^ 2 + x 2 ^ 2)

theorem len3_nonneg (x : Fin 3 → ℝ) : 0 ≤ len3 x := Real.sqrt_nonneg _

theorem len3_sq (x : Fin 3 → ℝ) : len3 x ^ 2 = x 0 ^ 2 + x 1 ^ 2 + x 2 ^ 2 := Real.sq_sqrt (by positivity)

theorem dot3_self (x : Fin 3 → ℝ) : dot3 x x = len3 x ^ 2 := by rw [len3_sq]; unfold dot3; ring

theorem dot3_le (x y : Fin 3 → ℝ) : |dot3 x y| ≤ len3 x * len3 y := by
  unfold len3
  rw [← Real.sqrt_mul (by positivity)]
  apply Real.abs_le_sqrt
  unfold dot3
  nlinarith [sq_nonneg (x 0 * y 1 - x 1 * y 0), sq_nonneg (x 0 * y 2 - x 2 * y 0), sq_nonneg (x 1 * y 2 - x 2 * y 1)]

/-- The first three entries of row `j`: the coordinate `j` of the images of the axes. -/
def row3 (m : Mat ℝ 4 4) (j : Fin 4) : Fin 3 → ℝ := fun i => m i.castSucc j

/-- The change of an inner product of rows under the exact rotation about `n`. -/
theorem turn_change (m : Mat ℝ 4 4) (a : ℝ) (n : Fin 3 → ℝ) (j l : Fin 4) :
    dot3 (row3 (rotate m a n) j) (row3 (rotate m a n) l) - dot3 (row3 m j) (row3 m l) =
      (n 0 ^ 2 + n 1 ^ 2 + n 2 ^ 2 - 1) * (Real.sin a ^ 2 * dot3 (row3 m j) (row3 m l) +
        (1 - Real.cos a) ^ 2 * (dot3 n (row3 m j) * dot3 n (row3 m l))) := by
  obtain ⟨a0, a1, a2, -⟩ := rotate_entries m a n j
  obtain ⟨b0, b1, b2, -⟩ := rotate_entries m a n l
  have h := turn_inner (Real.cos a) (Real.sin a) (n 0) (n 1) (n 2) (m 0 j) (m 1 j) (m 2 j) (m 0 l) (m 1 l) (m 2 l)
    (by linarith [Real.sin_sq_add_cos_sq a])
  have e : dot3 (row3 (rotate m a n) j) (row3 (rotate m a n) l) =
      rotate m a n 0 j * rotate m a n 0 l + rotate m a n 1 j * rotate m a n 1 l + rotate m a n 2 j * rotate m a n 2 l := rfl
  have p0 : dot3 (row3 m j) (row3 m l) = m 0 j * m 0 l + m 1 j * m 1 l + m 2 j * m 2 l := rfl
  have p1 : dot3 n (row3 m j) = n 0 * m 0 j + n 1 * m 1 j + n 2 * m 2 j := rfl
  have p2 : dot3 n (row3 m l) = n 0 * m 0 l + n 1 * m 1 l + n 2 * m 2 l := rfl
  rw [e, a0, a1, a2, b0, b1, b2, p0, p1, p2]
  simp only [sin_real, cos_real]
  rw [h]
  ring

theorem turn_bound {D δ s c t p q A B N : ℝ} (hD : |D| ≤ δ) (hs : s ^ 2 ≤ 1) (hc : (1 - c) ^ 2 ≤ 4)
    (ht : |t| ≤ A * B) (hp : |p| ≤ N * A) (hq : |q| ≤ N * B) (hN : N ^ 2 ≤ 1 + δ) (hN0 : 0 ≤ N) (hA : 0 ≤ A) (hB : 0 ≤ B) :
    |D * (s ^ 2 * t + (1 - c) ^ 2 * (p * q))| ≤ (5 * δ + 4 * δ ^ 2) * (A * B) := by
  have hd0 : 0 ≤ δ := (abs_nonneg _).trans hD
  have P := mul_nonneg hA hB
  have d2 : |p * q| ≤ (1 + δ) * (A * B) := by
    rw [abs_mul]
    have h1 := mul_le_mul hp hq (abs_nonneg _) (mul_nonneg hN0 hA)
    have h3 := mul_le_mul_of_nonneg_right hN P
    have h4 : N * A * (N * B) = N ^ 2 * (A * B) := by ring
    linarith
  have t1 : |s ^ 2 * t| ≤ 1 * (A * B) := by
    rw [abs_mul, abs_of_nonneg (sq_nonneg s)]
    exact mul_le_mul hs ht (abs_nonneg _) (by norm_num)
  have t2 : |(1 - c) ^ 2 * (p * q)| ≤ 4 * ((1 + δ) * (A * B)) := by
    rw [abs_mul, abs_of_nonneg (sq_nonneg (1 - c))]
    exact mul_le_mul hc d2 (abs_nonneg _) (by norm_num)
  have t3 := abs_add_le (s ^ 2 * t) ((1 - c) ^ 2 * (p * q))
  rw [abs_mul]
  have := mul_le_mul hD (t3.trans (add_le_add t1 t2)) (abs_nonneg _) hd0
  refine this.trans (le_of_eq ?_)
  ring

/-- The exact rotation about `n`: inner products of rows, up to the error in the length of the axis. -/
theorem exact_turn (m : Mat ℝ 4 4) (a : ℝ) (n : Fin 3 → ℝ) (δ : ℝ) (hn : |n 0 ^ 2 + n 1 ^ 2 + n 2 ^ 2 - 1| ≤ δ)
    (j l : Fin 4) :
    |dot3 (row3 (rotate m a n) j) (row3 (rotate m a n) l) - dot3 (row3 m j) (row3 m l)| ≤
      (5 * δ + 4 * δ ^ 2) * (len3 (row3 m j) * len3 (row3 m l)) := by
  rw [turn_change]
  have hN : len3 n ^ 2 ≤ 1 + δ := by rw [len3_sq]; linarith [(abs_le.mp hn).2]
  exact turn_bound hn (Real.sin_sq_le_one a) (by nlinarith [Real.neg_one_le_cos a, Real.cos_le_one a])
    (dot3_le _ _) (dot3_le _ _) (dot3_le _ _) hN (len3_nonneg _) (len3_nonneg _) (len3_nonneg _)

/-! ### One computed rotation -/

/-- `fp_rotate_error` for an axis with coordinates of any size. -/
theorem fp_rotate_error_any [Libm R] (m : Mat (FP R) 4 4) (angle : FP R) (axis : Vec (FP R) 3) (k : Nat) (b : ℝ)
    (hs : |(Libm.sin angle).val - Real.sin angle.val| ≤ (1 + R.u) ^ k - 1)
    (hc : |(Libm.cos angle).val - Real.cos angle.val| ≤ (1 + R.u) ^ k - 1)
    (hb : 1 ≤ b) (ha : ∀ i, |(axis i).val| ≤ b) (i : Fin 3) (j : Fin 4) :
    |(rotate m angle axis i.castSucc j).val - rotate (valM m) angle.val (fun i => (axis i).val) i.castSucc j| ≤
      ((1 + R.u) ^ (k + 7) - 1) * (3 * b ^ 2 * (|(m 0 j).val| + |(m 1 j).val| + |(m 2 j).val|)) := by
  have S : Approx (MathFns.sin angle) (Real.sin angle.val) 1 k := ⟨by rw [mul_one]; exact hs, Real.abs_sin_le_one _⟩
  have C : Approx (MathFns.cos angle) (Real.cos angle.val) 1 k := ⟨by rw [mul_one]; exact hc, Real.abs_cos_le_one _⟩
  have A : ∀ i, Approx (axis i) (axis i).val b 0 := fun i => (Approx.exact _).mono le_rfl (ha i)
  have one : Approx (1 : FP R) 1 1 k := by
    refine ⟨?_, by simp⟩
    rw [FP.val_one]; simpa using Approx.pow_ge R k
  have T : ∀ i, Approx (axis i * (1 - MathFns.cos angle)) ((axis i).val * (1 - Real.cos angle.val)) (2 * b) (k + 2) := by
    intro i
    exact ((A i).mul (one.sub C)).mono (by omega) (by linarith)
  have TT : ∀ i l, Approx (axis i * (1 - MathFns.cos angle) * axis l)
      ((axis i).val * (1 - Real.cos angle.val) * (axis l).val) (2 * b ^ 2) (k + 3) :=
    fun i l => ((T i).mul (A l)).mono (by omega) (by nlinarith)
  have SA : ∀ i, Approx (MathFns.sin angle * axis i) (Real.sin angle.val * (axis i).val) (b ^ 2) (k + 3) :=
    fun i => (S.mul (A i)).mono (by omega) (by nlinarith)
  have D : ∀ i, Approx (MathFns.cos angle + axis i * (1 - MathFns.cos angle) * axis i)
      (Real.cos angle.val + (axis i).val * (1 - Real.cos angle.val) * (axis i).val) (3 * b ^ 2) (k + 4) :=
    fun i => ((C.mono (by omega : k ≤ k + 3) le_rfl).add (TT i i)).mono le_rfl (by nlinarith)
  have P : ∀ i l o, Approx (axis i * (1 - MathFns.cos angle) * axis l + MathFns.sin angle * axis o)
      ((axis i).val * (1 - Real.cos angle.val) * (axis l).val + Real.sin angle.val * (axis o).val) (3 * b ^ 2) (k + 4) :=
    fun i l o => ((TT i l).add (SA o)).mono le_rfl (by linarith)
  have Q : ∀ i l o, Approx (axis i * (1 - MathFns.cos angle) * axis l - MathFns.sin angle * axis o)
      ((axis i).val * (1 - Real.cos angle.val) * (axis l).val - Real.sin angle.val * (axis o).val) (3 * b ^ 2) (k + 4) :=
    fun i l o => ((TT i l).sub (SA o)).mono le_rfl (by linarith)
  have three : ∀ {x y z : FP R} {ex ey ez : ℝ}, Approx x ex (3 * b ^ 2) (k + 4) → Approx y ey (3 * b ^ 2) (k + 4) →
      Approx z ez (3 * b ^ 2) (k + 4) →
      |(m 0 j * x + m 1 j * y + m 2 j * z).val - ((m 0 j).val * ex + (m 1 j).val * ey + (m 2 j).val * ez)| ≤
        ((1 + R.u) ^ (k + 7) - 1) * (3 * b ^ 2 * (|(m 0 j).val| + |(m 1 j).val| + |(m 2 j).val|)) := by
    intro x y z ex ey ez hx hy hz
    have M : ∀ {w : FP R} {e : ℝ} (l : Fin 4), Approx w e (3 * b ^ 2) (k + 4) →
        Approx (m l j * w) ((m l j).val * e) (|(m l j).val| * (3 * b ^ 2)) (k + 5) :=
      fun l h => ((Approx.exact (m l j)).mul h).mono (by omega) le_rfl
    have := (((M 0 hx).add (M 1 hy)).add ((M 2 hz).mono (by omega : k + 5 ≤ k + 5 + 1) le_rfl)).err
    rw [show 3 * b ^ 2 * (|(m 0 j).val| + |(m 1 j).val| + |(m 2 j).val|) =
      |(m 0 j).val| * (3 * b ^ 2) + |(m 1 j).val| * (3 * b ^ 2) + |(m 2 j).val| * (3 * b ^ 2) by ring]
    exact this
  obtain ⟨h0, h1, h2, h3⟩ := rotate_entries m angle axis j
  obtain ⟨g0, g1, g2, -⟩ := rotate_entries (valM m) angle.val (fun i => (axis i).val) j
  fin_cases i
  · show |(rotate m angle axis 0 j).val - rotate (valM m) angle.val (fun i => (axis i).val) 0 j| ≤ _
    rw [h0, g0]; exact three (D 0) (P 0 1 2) (Q 0 2 1)
  · show |(rotate m angle axis 1 j).val - rotate (valM m) angle.val (fun i => (axis i).val) 1 j| ≤ _
    rw [h1, g1]; exact three (Q 1 0 2) (D 1) (P 1 2 0)
  · show |(rotate m angle axis 2 j).val - rotate (valM m) angle.val (fun i => (axis i).val) 2 j| ≤ _
    rw [h2, g2]; exact three (P 2 0 1) (Q 2 1 0) (D 2)

/-- What one rotation does to lengths and angles, relatively: `5 δ + 4 δ²` because the axis has not quite length 1, the
rest for `k` roundings in `sin` and `cos` and seven more. -/
noncomputable def drift (R : Rounding) (k : Nat) (δ : ℝ) : ℝ :=
  5 * δ + 4 * δ ^ 2 + 9 * (1 + δ) * ((1 + R.u) ^ (k + 7) - 1)

/-- A rotation with an accurate library and an axis of length nearly 1. -/
structure GoodTurn [Libm R] (k : Nat) (δ : ℝ) (angle : FP R) (axis : Vec (FP R) 3) : Prop where
  sin : |(Libm.sin angle).val - Real.sin angle.val| ≤ (1 + R.u) ^ k - 1
  cos : |(Libm.cos angle).val - Real.cos angle.val| ≤ (1 + R.u) ^ k - 1
  axis : |(axis 0).val ^ 2 + (axis 1).val ^ 2 + (axis 2).val ^ 2 - 1| ≤ δ

theorem perturbed {x y p q : Fin 3 → ℝ} {η e A B t : ℝ} (hη : 0 ≤ η) (he : 0 ≤ e) (hA : 0 ≤ A) (hB : 0 ≤ B)
    (hx : len3 x ≤ (1 + η) * A) (hy : len3 y ≤ (1 + η) * B)
    (hp : len3 (fun i => p i - x i) ≤ e * A) (hq : len3 (fun i => q i - y i) ≤ e * B)
    (h : |dot3 x y - t| ≤ η * (A * B)) : |dot3 p q - t| ≤ ((1 + η + e) ^ 2 - 1) * (A * B) := by
  have e1 : dot3 p q - t = (dot3 x y - t) + (dot3 x (fun i => q i - y i) + (dot3 (fun i => p i - x i) y +
      dot3 (fun i => p i - x i) (fun i => q i - y i))) := by unfold dot3; ring
  have a1 := (dot3_le x (fun i => q i - y i)).trans (mul_le_mul hx hq (len3_nonneg _) (by positivity))
  have a2 := (dot3_le (fun i => p i - x i) y).trans (mul_le_mul hp hy (len3_nonneg _) (by positivity))
  have a3 := (dot3_le (fun i => p i - x i) (fun i => q i - y i)).trans
    (mul_le_mul hp hq (len3_nonneg _) (by positivity))
  rw [e1]
  refine (abs_add_le _ _).trans ?_
  have b1 := abs_add_le (dot3 x (fun i => q i - y i)) (dot3 (fun i => p i - x i) y +
      dot3 (fun i => p i - x i) (fun i => q i - y i))
  have b2 := abs_add_le (dot3 (fun i => p i - x i) y) (dot3 (fun i => p i - x i) (fun i => q i - y i))
  have hAB := mul_nonneg hA hB
  nlinarith [mul_nonneg hη hAB, mul_nonneg (mul_nonneg hη hη) hAB]

/-- C144 for one rotation. -/
theorem rotate_step [Libm R] (m : Mat (FP R) 4 4) (angle : FP R) (axis : Vec (FP R) 3) (k : Nat) (δ : ℝ)
    (g : GoodTurn k δ angle axis) (j l : Fin 4) :
    |dot3 (row3 (valM (rotate m angle axis)) j) (row3 (valM (rotate m angle axis)) l) -
        dot3 (row3 (valM m) j) (row3 (valM m) l)| ≤
      ((1 + drift R k δ) ^ 2 - 1) * (len3 (row3 (valM m) j) * len3 (row3 (valM m) l)) := by
  have hδ : 0 ≤ δ := (abs_nonneg _).trans g.axis
  have hp := Approx.pow_ge R (k + 7)
  have hup := (abs_le.mp g.axis).2
  have hb1 : 1 ≤ √(1 + δ) := Real.one_le_sqrt.mpr (by linarith)
  have hb : √(1 + δ) ^ 2 = 1 + δ := Real.sq_sqrt (by linarith)
  have ha : ∀ i, |(axis i).val| ≤ √(1 + δ) := by
    intro i
    apply Real.abs_le_sqrt
    have h0 := sq_nonneg (axis 0).val
    have h1 := sq_nonneg (axis 1).val
    have h2 := sq_nonneg (axis 2).val
    fin_cases i
    · show (axis 0).val ^ 2 ≤ _; linarith
    · show (axis 1).val ^ 2 ≤ _; linarith
    · show (axis 2).val ^ 2 ≤ _; linarith
  have E := fp_rotate_error_any m angle axis k _ g.sin g.cos hb1 ha
  rw [hb] at E
  set x := rotate (valM m) angle.val (fun i => (axis i).val) with hx
  have X := exact_turn (valM m) angle.val (fun i => (axis i).val) δ g.axis
  rw [← hx] at X
  -- the length of a row of the exact image
  have L : ∀ j, len3 (row3 x j) ≤ (1 + (5 * δ + 4 * δ ^ 2)) * len3 (row3 (valM m) j) := by
    intro j
    have h := (abs_le.mp (X j j)).2
    rw [dot3_self, dot3_self] at h
    have hl := len3_nonneg (row3 (valM m) j)
    have hη : 0 ≤ 5 * δ + 4 * δ ^ 2 := by positivity
    refine abs_le_of_sq_le_sq' ?_ (by positivity) |>.2
    nlinarith [mul_nonneg hη (sq_nonneg (len3 (row3 (valM m) j))),
      mul_nonneg (mul_nonneg hη hη) (sq_nonneg (len3 (row3 (valM m) j)))]
  -- the error of a computed row
  have D : ∀ j, len3 (fun i => row3 (valM (rotate m angle axis)) j i - row3 x j i) ≤
      9 * (1 + δ) * ((1 + R.u) ^ (k + 7) - 1) * len3 (row3 (valM m) j) := by
    intro j
    set c := (1 + R.u) ^ (k + 7) - 1 with hc
    have hc0 : 0 ≤ c := by linarith
    set S := |(m 0 j).val| + |(m 1 j).val| + |(m 2 j).val| with hS
    have hSle : S ^ 2 ≤ 3 * len3 (row3 (valM m) j) ^ 2 := by
      rw [len3_sq]
      show S ^ 2 ≤ 3 * ((m 0 j).val ^ 2 + (m 1 j).val ^ 2 + (m 2 j).val ^ 2)
      rw [← sq_abs (m 0 j).val, ← sq_abs (m 1 j).val, ← sq_abs (m 2 j).val, hS]
      nlinarith [sq_nonneg (|(m 0 j).val| - |(m 1 j).val|), sq_nonneg (|(m 0 j).val| - |(m 2 j).val|),
        sq_nonneg (|(m 1 j).val| - |(m 2 j).val|)]
    have sq : ∀ i : Fin 3, (row3 (valM (rotate m angle axis)) j i - row3 x j i) ^ 2 ≤
        (c * (3 * (1 + δ)) * S) ^ 2 := by
      intro i
      rw [← sq_abs]
      have := E i j
      refine pow_le_pow_left₀ (abs_nonneg _) ?_ 2
      calc |row3 (valM (rotate m angle axis)) j i - row3 x j i| ≤ c * (3 * (1 + δ) * S) := this
        _ = c * (3 * (1 + δ)) * S := by ring
    refine abs_le_of_sq_le_sq' ?_ (by have := len3_nonneg (row3 (valM m) j); positivity) |>.2
    rw [len3_sq]
    have s0 := sq 0
    have s1 := sq 1
    have s2 := sq 2
    have hK : 0 ≤ (c * (3 * (1 + δ))) ^ 2 := sq_nonneg _
    have := mul_le_mul_of_nonneg_left hSle hK
    rw [mul_pow] at s0 s1 s2
    nlinarith
  have hη : 0 ≤ 5 * δ + 4 * δ ^ 2 := by positivity
  have he : 0 ≤ 9 * (1 + δ) * ((1 + R.u) ^ (k + 7) - 1) := mul_nonneg (by positivity) (by linarith)
  have := perturbed hη he (len3_nonneg (row3 (valM m) j)) (len3_nonneg (row3 (valM m) l)) (L j) (L l) (D j) (D l) (X j l)
  unfold drift
  rw [show 1 + (5 * δ + 4 * δ ^ 2 + 9 * (1 + δ) * ((1 + R.u) ^ (k + 7) - 1)) =
    1 + (5 * δ + 4 * δ ^ 2) + 9 * (1 + δ) * ((1 + R.u) ^ (k + 7) - 1) by ring]
  exact this

/-! ### Any number of rotations -/

/-- A program that rotates a matrix again and again: `m = rotate(m, angle, axis)` for each pair. -/
noncomputable def rotateAll [Libm R] (m : Mat (FP R) 4 4) (turns : List (FP R × Vec (FP R) 3)) : Mat (FP R) 4 4 :=
  turns.foldl (fun m t => rotate m t.1 t.2) m

/-- C144. After any sequence of rotations the inner products of the rows of the matrix - their lengths and the angles
between them - have changed by at most the factor that each rotation allows, to the power of the number of rotations; the
last column has not changed. -/
theorem rotations_drift [Libm R] (m : Mat (FP R) 4 4) (turns : List (FP R × Vec (FP R) 3)) (k : Nat) (δ : ℝ)
    (g : ∀ t ∈ turns, GoodTurn k δ t.1 t.2) (j l : Fin 4) :
    |dot3 (row3 (valM (rotateAll m turns)) j) (row3 (valM (rotateAll m turns)) l) -
        dot3 (row3 (valM m) j) (row3 (valM m) l)| ≤
      ((1 + drift R k δ) ^ (2 * turns.length) - 1) * (len3 (row3 (valM m) j) * len3 (row3 (valM m) l)) ∧
    rotateAll m turns 3 j = m 3 j := by
  induction turns generalizing m j l with
  | nil => simp [rotateAll]
  | cons t ts ih =>
    have g1 := g t (by simp)
    have ih' := fun j l => ih (rotate m t.1 t.2) (fun s hs => g s (by simp [hs])) j l
    have e : rotateAll m (t :: ts) = rotateAll (rotate m t.1 t.2) ts := rfl
    rw [e]
    refine ⟨?_, (ih' j l).2.trans (rotate_entries m t.1 t.2 j).2.2.2⟩
    have hδ : 0 ≤ δ := (abs_nonneg _).trans g1.axis
    have hp := Approx.pow_ge R (k + 7)
    have hd : 0 ≤ drift R k δ := by
      unfold drift
      have : 0 ≤ 9 * (1 + δ) * ((1 + R.u) ^ (k + 7) - 1) := mul_nonneg (by positivity) (by linarith)
      positivity
    have st := rotate_step m t.1 t.2 k δ g1
    -- lengths after the first rotation
    have L : ∀ j, len3 (row3 (valM (rotate m t.1 t.2)) j) ≤ (1 + drift R k δ) * len3 (row3 (valM m) j) := by
      intro j
      have h := (abs_le.mp (st j j)).2
      rw [dot3_self, dot3_self] at h
      have hl := len3_nonneg (row3 (valM m) j)
      refine abs_le_of_sq_le_sq' ?_ (by positivity) |>.2
      rw [mul_pow]
      linarith [sq (len3 (row3 (valM m) j))]
    have hpow : (1 : ℝ) ≤ (1 + drift R k δ) ^ (2 * ts.length) := one_le_pow₀ (by linarith)
    have h1 := (ih' j l).1
    have h2 := st j l
    have h3 := mul_le_mul (L j) (L l) (len3_nonneg _) (mul_nonneg (by linarith) (len3_nonneg (row3 (valM m) j)))
    have h4 := mul_le_mul_of_nonneg_left h3 (by linarith : 0 ≤ (1 + drift R k δ) ^ (2 * ts.length) - 1)
    have h5 := abs_add_le (dot3 (row3 (valM (rotateAll (rotate m t.1 t.2) ts)) j)
        (row3 (valM (rotateAll (rotate m t.1 t.2) ts)) l) -
        dot3 (row3 (valM (rotate m t.1 t.2)) j) (row3 (valM (rotate m t.1 t.2)) l))
      (dot3 (row3 (valM (rotate m t.1 t.2)) j) (row3 (valM (rotate m t.1 t.2)) l) -
        dot3 (row3 (valM m) j) (row3 (valM m) l))
    rw [sub_add_sub_cancel] at h5
    have e2 : (1 + drift R k δ) ^ (2 * (t :: ts).length) = (1 + drift R k δ) ^ (2 * ts.length) * (1 + drift R k δ) ^ 2 := by
      rw [List.length_cons, show 2 * (ts.length + 1) = 2 * ts.length + 2 by ring, pow_add]
    rw [e2]
    nlinarith

/-! ### Rotations of the identity: what the matrix does to vectors -/

/-- The image of the vector `v` under the upper left block of `m`. -/
def image3 (m : Mat ℝ 4 4) (v : Fin 3 → ℝ) : Fin 3 → ℝ := fun i => m 0 i.castSucc * v 0 + m 1 i.castSucc * v 1 + m 2 i.castSucc * v 2

theorem quad_bound {ε a b c d e f x y z : ℝ} (ha : |a| ≤ ε) (hb : |b| ≤ ε) (hc : |c| ≤ ε) (hd : |d| ≤ ε) (he : |e| ≤ ε)
    (hf : |f| ≤ ε) :
    |x ^ 2 * a + y ^ 2 * b + z ^ 2 * c + 2 * (x * y) * d + 2 * (x * z) * e + 2 * (y * z) * f| ≤
      3 * ε * (x ^ 2 + y ^ 2 + z ^ 2) := by
  have e0 : 0 ≤ ε := (abs_nonneg _).trans ha
  have sqb : ∀ x y : ℝ, |y| ≤ ε → |x ^ 2 * y| ≤ x ^ 2 * ε := fun x y hy => by
    rw [abs_mul, abs_of_nonneg (sq_nonneg x)]; exact mul_le_mul_of_nonneg_left hy (sq_nonneg x)
  have crb : ∀ x z y : ℝ, |y| ≤ ε → |2 * (x * z) * y| ≤ x ^ 2 * ε + z ^ 2 * ε := fun x z y hy => by
    rw [abs_mul, ← add_mul]
    refine mul_le_mul ?_ hy (abs_nonneg _) (by positivity)
    rw [abs_le]; constructor <;> nlinarith [sq_nonneg (x + z), sq_nonneg (x - z)]
  have b0 := abs_le.mp (sqb x _ ha)
  have b1 := abs_le.mp (sqb y _ hb)
  have b2 := abs_le.mp (sqb z _ hc)
  have b3 := abs_le.mp (crb x y _ hd)
  have b4 := abs_le.mp (crb x z _ he)
  have b5 := abs_le.mp (crb y z _ hf)
  rw [abs_le, show 3 * ε * (x ^ 2 + y ^ 2 + z ^ 2) = 3 * (x ^ 2 * ε) + 3 * (y ^ 2 * ε) + 3 * (z ^ 2 * ε) by ring]
  constructor
  · linarith [b0.1, b1.1, b2.1, b3.1, b4.1, b5.1]
  · linarith [b0.2, b1.2, b2.2, b3.2, b4.2, b5.2]

/-- Rows nearly orthonormal, so lengths of images nearly unchanged. -/
theorem nearly_orthonormal (m : Mat ℝ 4 4) (ε : ℝ)
    (h : ∀ j l : Fin 3, |dot3 (row3 m j.castSucc) (row3 m l.castSucc) - (if j = l then 1 else 0)| ≤ ε) (hε : 3 * ε < 1)
    (v : Fin 3 → ℝ) :
    (1 - 3 * ε) * len3 v ^ 2 ≤ len3 (image3 m v) ^ 2 ∧ len3 (image3 m v) ^ 2 ≤ (1 + 3 * ε) * len3 v ^ 2 := by
  have e0 : 0 ≤ ε := (abs_nonneg _).trans (h 0 0)
  -- the transposed matrix
  let tr : (Fin 3 → ℝ) →ₗ[ℝ] (Fin 3 → ℝ) :=
    { toFun := fun u c => u 0 * m c.castSucc 0 + u 1 * m c.castSucc 1 + u 2 * m c.castSucc 2
      map_add' := fun a b => by funext c; simp only [Pi.add_apply]; ring
      map_smul' := fun r a => by funext c; simp only [Pi.smul_apply, smul_eq_mul, RingHom.id_apply]; ring }
  have tr_sq : ∀ u, |len3 (tr u) ^ 2 - len3 u ^ 2| ≤ 3 * ε * len3 u ^ 2 := by
    intro u
    have g00 := h 0 0
    have g01 := h 0 1
    have g02 := h 0 2
    have g11 := h 1 1
    have g12 := h 1 2
    have g22 := h 2 2
    simp only [Fin.isValue, if_true, show (0 : Fin 3) ≠ 1 by decide, show (0 : Fin 3) ≠ 2 by decide,
      show (1 : Fin 3) ≠ 2 by decide, if_false, sub_zero] at g00 g01 g02 g11 g12 g22
    set p00 := dot3 (row3 m (Fin.castSucc (0 : Fin 3))) (row3 m (Fin.castSucc (0 : Fin 3))) with d00
    set p01 := dot3 (row3 m (Fin.castSucc (0 : Fin 3))) (row3 m (Fin.castSucc (1 : Fin 3))) with d01
    set p02 := dot3 (row3 m (Fin.castSucc (0 : Fin 3))) (row3 m (Fin.castSucc (2 : Fin 3))) with d02
    set p11 := dot3 (row3 m (Fin.castSucc (1 : Fin 3))) (row3 m (Fin.castSucc (1 : Fin 3))) with d11
    set p12 := dot3 (row3 m (Fin.castSucc (1 : Fin 3))) (row3 m (Fin.castSucc (2 : Fin 3))) with d12
    set p22 := dot3 (row3 m (Fin.castSucc (2 : Fin 3))) (row3 m (Fin.castSucc (2 : Fin 3))) with d22
    have e : len3 (tr u) ^ 2 - len3 u ^ 2 = u 0 ^ 2 * (p00 - 1) + u 1 ^ 2 * (p11 - 1) + u 2 ^ 2 * (p22 - 1) +
        2 * (u 0 * u 1) * p01 + 2 * (u 0 * u 2) * p02 + 2 * (u 1 * u 2) * p12 := by
      rw [len3_sq, len3_sq, d00, d01, d02, d11, d12, d22]
      show (u 0 * m 0 0 + u 1 * m 0 1 + u 2 * m 0 2) ^ 2 + (u 0 * m 1 0 + u 1 * m 1 1 + u 2 * m 1 2) ^ 2 +
        (u 0 * m 2 0 + u 1 * m 2 1 + u 2 * m 2 2) ^ 2 - (u 0 ^ 2 + u 1 ^ 2 + u 2 ^ 2) =
        u 0 ^ 2 * ((m 0 0 * m 0 0 + m 1 0 * m 1 0 + m 2 0 * m 2 0) - 1) +
        u 1 ^ 2 * ((m 0 1 * m 0 1 + m 1 1 * m 1 1 + m 2 1 * m 2 1) - 1) +
        u 2 ^ 2 * ((m 0 2 * m 0 2 + m 1 2 * m 1 2 + m 2 2 * m 2 2) - 1) +
        2 * (u 0 * u 1) * (m 0 0 * m 0 1 + m 1 0 * m 1 1 + m 2 0 * m 2 1) +
        2 * (u 0 * u 2) * (m 0 0 * m 0 2 + m 1 0 * m 1 2 + m 2 0 * m 2 2) +
        2 * (u 1 * u 2) * (m 0 1 * m 0 2 + m 1 1 * m 1 2 + m 2 1 * m 2 2)
      ring
    clear_value p00 p01 p02 p11 p12 p22
    rw [e, len3_sq]
    exact quad_bound g00 g11 g22 g01 g02 g12
  have adj : ∀ u w, dot3 (tr u) w = dot3 u (image3 m w) := by
    intro u w
    show (u 0 * m 0 0 + u 1 * m 0 1 + u 2 * m 0 2) * w 0 + (u 0 * m 1 0 + u 1 * m 1 1 + u 2 * m 1 2) * w 1 +
        (u 0 * m 2 0 + u 1 * m 2 1 + u 2 * m 2 2) * w 2 =
      u 0 * (m 0 0 * w 0 + m 1 0 * w 1 + m 2 0 * w 2) + u 1 * (m 0 1 * w 0 + m 1 1 * w 1 + m 2 1 * w 2) +
        u 2 * (m 0 2 * w 0 + m 1 2 * w 1 + m 2 2 * w 2)
    ring
  constructor
  · have inj : Function.Injective tr := by
      rw [injective_iff_map_eq_zero]
      intro u hu
      have := (abs_le.mp (tr_sq u)).1
      rw [hu] at this
      have z : len3 (0 : Fin 3 → ℝ) ^ 2 = 0 := by rw [len3_sq]; simp
      rw [z] at this
      have hz : len3 u ^ 2 ≤ 0 := by nlinarith [sq_nonneg (len3 u)]
      rw [len3_sq] at hz
      have q0 := sq_nonneg (u 0)
      have q1 := sq_nonneg (u 1)
      have q2 := sq_nonneg (u 2)
      have z0 : u 0 = 0 := pow_eq_zero_iff (two_ne_zero) |>.mp (by linarith)
      have z1 : u 1 = 0 := pow_eq_zero_iff (two_ne_zero) |>.mp (by linarith)
      have z2 : u 2 = 0 := pow_eq_zero_iff (two_ne_zero) |>.mp (by linarith)
      funext i
      fin_cases i
      · exact z0
      · exact z1
      · exact z2
    obtain ⟨u, hu⟩ := LinearMap.injective_iff_surjective.mp inj v
    have lo := (abs_le.mp (tr_sq u)).1
    rw [hu] at lo
    have a := adj u v
    rw [hu, dot3_self] at a
    have b := (le_abs_self _).trans (dot3_le u (image3 m v))
    rw [← a] at b
    set A := len3 u with hA
    set V := len3 v with hV
    set W := len3 (image3 m v) with hW
    have A0 : 0 ≤ A := len3_nonneg _
    have V0 : 0 ≤ V := len3_nonneg _
    have W0 : 0 ≤ W := len3_nonneg _
    clear_value A V W
    have c1 : (1 - 3 * ε) * A ^ 2 ≤ V ^ 2 := by linarith
    rcases eq_or_lt_of_le V0 with h0 | h0
    · rw [← h0]; nlinarith [sq_nonneg W]
    · have c2 : (V ^ 2) ^ 2 ≤ (A * W) ^ 2 := pow_le_pow_left₀ (sq_nonneg V) b 2
      have c3 : (1 - 3 * ε) * (V ^ 2) ^ 2 ≤ V ^ 2 * W ^ 2 := by
        calc (1 - 3 * ε) * (V ^ 2) ^ 2 ≤ (1 - 3 * ε) * (A * W) ^ 2 := mul_le_mul_of_nonneg_left c2 (by linarith)
          _ = (1 - 3 * ε) * A ^ 2 * W ^ 2 := by ring
          _ ≤ V ^ 2 * W ^ 2 := mul_le_mul_of_nonneg_right c1 (sq_nonneg W)
      have : V ^ 2 * ((1 - 3 * ε) * V ^ 2) ≤ V ^ 2 * W ^ 2 := by nlinarith
      exact le_of_mul_le_mul_left this (by positivity)
  · have hi := (abs_le.mp (tr_sq (image3 m v))).2
    have a := adj (image3 m v) v
    rw [dot3_self] at a
    have b := (le_abs_self _).trans (dot3_le (tr (image3 m v)) v)
    rw [a] at b
    set T := len3 (tr (image3 m v)) with hT
    set V := len3 v with hV
    set W := len3 (image3 m v) with hW
    have T0 : 0 ≤ T := len3_nonneg _
    have V0 : 0 ≤ V := len3_nonneg _
    have W0 : 0 ≤ W := len3_nonneg _
    clear_value T V W
    rcases eq_or_lt_of_le W0 with h0 | h0
    · rw [← h0]; nlinarith [sq_nonneg V]
    · have c2 : (W ^ 2) ^ 2 ≤ (T * V) ^ 2 := pow_le_pow_left₀ (sq_nonneg W) b 2
      have c3 : T ^ 2 * V ^ 2 ≤ (1 + 3 * ε) * W ^ 2 * V ^ 2 := mul_le_mul_of_nonneg_right (by linarith) (sq_nonneg V)
      have : W ^ 2 * W ^ 2 ≤ W ^ 2 * ((1 + 3 * ε) * V ^ 2) := by nlinarith
      exact le_of_mul_le_mul_left this (by positivity)

/-- C144. A matrix made by any sequence of rotations of the identity: while the drift is small, it neither stretches nor
shrinks any vector by more than the drift, its last row and column are exactly those of the identity. -/
theorem rotations_of_identity [Libm R] (turns : List (FP R × Vec (FP R) 3)) (k : Nat) (δ ε : ℝ)
    (g : ∀ t ∈ turns, GoodTurn k δ t.1 t.2) (hε : (1 + drift R k δ) ^ (2 * turns.length) - 1 ≤ ε) (h3 : 3 * ε < 1)
    (v : Fin 3 → ℝ) :
    (1 - 3 * ε) * len3 v ^ 2 ≤ len3 (image3 (valM (rotateAll defaultMat turns)) v) ^ 2 ∧
    len3 (image3 (valM (rotateAll defaultMat turns)) v) ^ 2 ≤ (1 + 3 * ε) * len3 v ^ 2 ∧
    (∀ i : Fin 3, (rotateAll (R := R) defaultMat turns i.castSucc 3).val = 0) ∧
    (∀ j : Fin 4, (rotateAll (R := R) defaultMat turns 3 j).val = if j = 3 then 1 else 0) := by
  have dv : ∀ i j : Fin 4, (defaultMat (T := FP R) (c := 4) (r := 4) i j).val = if i = j then 1 else 0 := by
    intro i j
    unfold defaultMat
    rw [diagonal_apply]
    by_cases e : i = j
    · subst e; simp
    · simp [e, Fin.ext_iff.not.mp e]
  have D := rotations_drift (R := R) defaultMat turns k δ g
  have ln : ∀ j : Fin 3, len3 (row3 (valM (defaultMat (T := FP R) (c := 4) (r := 4))) j.castSucc) = 1 := by
    intro j
    unfold len3
    rw [show (row3 (valM (defaultMat (T := FP R) (c := 4) (r := 4))) j.castSucc 0) = if (0 : Fin 4) = j.castSucc then 1 else 0 from dv _ _,
      show (row3 (valM (defaultMat (T := FP R) (c := 4) (r := 4))) j.castSucc 1) = if (1 : Fin 4) = j.castSucc then 1 else 0 from dv _ _,
      show (row3 (valM (defaultMat (T := FP R) (c := 4) (r := 4))) j.castSucc 2) = if (2 : Fin 4) = j.castSucc then 1 else 0 from dv _ _]
    fin_cases j <;> norm_num [Fin.ext_iff]
  have l3 : len3 (row3 (valM (defaultMat (T := FP R) (c := 4) (r := 4))) 3) = 0 := by
    unfold len3
    rw [show (row3 (valM (defaultMat (T := FP R) (c := 4) (r := 4))) 3 0) = if (0 : Fin 4) = 3 then 1 else 0 from dv _ _,
      show (row3 (valM (defaultMat (T := FP R) (c := 4) (r := 4))) 3 1) = if (1 : Fin 4) = 3 then 1 else 0 from dv _ _,
      show (row3 (valM (defaultMat (T := FP R) (c := 4) (r := 4))) 3 2) = if (2 : Fin 4) = 3 then 1 else 0 from dv _ _]
    norm_num [Fin.ext_iff]
  have dots : ∀ j l : Fin 3, dot3 (row3 (valM (defaultMat (T := FP R) (c := 4) (r := 4))) j.castSucc)
      (row3 (valM (defaultMat (T := FP R) (c := 4) (r := 4))) l.castSucc) = if j = l then 1 else 0 := by
    intro j l
    unfold dot3
    have q : ∀ (i : Fin 3) (j : Fin 3), row3 (valM (defaultMat (T := FP R) (c := 4) (r := 4))) j.castSucc i =
        if i = j then 1 else 0 := fun i j => by
      rw [show row3 (valM (defaultMat (T := FP R) (c := 4) (r := 4))) j.castSucc i = if i.castSucc = j.castSucc then 1 else 0 from dv _ _]
      simp
    rw [q, q, q, q, q, q]
    fin_cases j <;> fin_cases l <;> norm_num [Fin.ext_iff]
  have N := nearly_orthonormal (valM (rotateAll (R := R) defaultMat turns)) ε (fun j l => by
    have := (D j.castSucc l.castSucc).1
    rw [dots, ln, ln, mul_one, mul_one] at this
    exact this.trans hε) h3 v
  refine ⟨N.1, N.2, fun i => ?_, fun j => ?_⟩
  · have := (D 3 3).1
    rw [dot3_self, dot3_self, l3] at this
    have this : len3 (row3 (valM (rotateAll (R := R) defaultMat turns)) 3) ^ 2 = 0 := by
      simpa using this
    rw [len3_sq] at this
    set w := row3 (valM (rotateAll (R := R) defaultMat turns)) 3 with hw
    have q0 := sq_nonneg (w 0)
    have q1 := sq_nonneg (w 1)
    have q2 := sq_nonneg (w 2)
    have z : ∀ i, w i = 0 := by
      intro i
      fin_cases i
      · exact pow_eq_zero_iff (two_ne_zero) |>.mp (show w 0 ^ 2 = 0 by linarith)
      · exact pow_eq_zero_iff (two_ne_zero) |>.mp (show w 1 ^ 2 = 0 by linarith)
      · exact pow_eq_zero_iff (two_ne_zero) |>.mp (show w 2 ^ 2 = 0 by linarith)
    exact z i
  · rw [(D j j).2, dv]
    simp only [eq_comm]

/-! ### Cases -/

/-- The correctly rounded library and the z axis: the hypotheses are met by any angle. -/
theorem exampleTurn (R : Rounding) (angle : FP R) : @GoodTurn R (exampleLibm R) 1 0 angle ![0, 0, 1] := by
  have e : ∀ x : ℝ, |x| ≤ 1 → |R.rnd x - x| ≤ (1 + R.u) ^ 1 - 1 := fun x h => by
    have := (R.err x).trans (mul_le_mul_of_nonneg_left h R.u_nonneg)
    linarith
  exact ⟨e _ (Real.abs_sin_le_one _), e _ (Real.abs_cos_le_one _), by simp⟩

theorem pow_small {x : ℝ} {n : Nat} (h0 : 0 ≤ x) (h : n * x ≤ 1 / 2) : (1 + x) ^ n - 1 ≤ 2 * n * x := by
  induction n with
  | zero => simp
  | succ n ih =>
    push_cast at h ⊢
    have := ih (by nlinarith)
    rw [pow_succ]
    have hn : (n : ℝ) * x ≤ 1 / 2 := by nlinarith
    nlinarith [mul_nonneg h0 (Nat.cast_nonneg n (α := ℝ)), mul_le_mul_of_nonneg_right hn h0]

/-- Ten thousand rotations in `double` by any angles about unit axes that `double` holds exactly, with a library that is off
by at most one rounding: no vector changes its squared length by a relative 2 in 10^9. -/
example (lib : Libm double53)
    (turns : List (FP double53 × Vec (FP double53) 3))
    (n : turns.length ≤ 10 ^ 4) (g : ∀ t ∈ turns, GoodTurn 1 0 t.1 t.2) (v : Fin 3 → ℝ) :
    |len3 (image3 (valM (rotateAll defaultMat turns)) v) ^ 2 - len3 v ^ 2| ≤ 2 / 10 ^ 9 * len3 v ^ 2 := by
  have hu : double53.u = (2 : ℝ) ^ (-53 : ℤ) := rfl
  have d0 : 0 ≤ drift double53 1 0 := by
    unfold drift; rw [hu]; norm_num
  have d1 : drift double53 1 0 ≤ 1 / 10 ^ 14 := by
    unfold drift; rw [hu]; norm_num
  have hn : ((2 * turns.length : Nat) : ℝ) ≤ 2 * 10 ^ 4 := by push_cast; exact_mod_cast Nat.mul_le_mul_left 2 n
  have m1 : ((2 * turns.length : Nat) : ℝ) * drift double53 1 0 ≤ 2 * 10 ^ 4 * (1 / 10 ^ 14) :=
    mul_le_mul hn d1 d0 (by norm_num)
  have p := pow_small d0 (m1.trans (by norm_num))
  have hε : (1 + drift double53 1 0) ^ (2 * turns.length) - 1 ≤ 4 / 10 ^ 10 := by
    refine p.trans ?_
    rw [mul_assoc]; linarith
  obtain ⟨h1, h2, -⟩ := rotations_of_identity turns 1 0 (4 / 10 ^ 10) g hε (by norm_num) v
  rw [abs_le]
  have := sq_nonneg (len3 v)
  constructor <;> linarith

end Verif.Math
