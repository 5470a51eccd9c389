import Verif.Math.MatrixProps
import Mathlib.LinearAlgebra.CrossProduct
import Mathlib.Tactic.Positivity

/-!
Properties of translations, scalings and rotations (C69, C70, C81).
-/

set_option autoImplicit false

namespace Verif.Math

/-- Homogeneous coordinates: a point has `w = 1`, a direction `w = 0`. -/
def hom {T : Type} (p : Vec T 3) (w : T) : Vec T 4 := ![p 0, p 1, p 2, w]

section

variable {T : Type} [CommRing T] [Indet T]

theorem mulVec4 (m : Mat T 4 4) (v : Vec T 4) :
    mulVec m v = fun j => m 0 j * v 0 + m 1 j * v 1 + m 2 j * v 2 + m 3 j * v 3 := by
  rw [mulVec_apply]; funext j; rw [Fin.sum_univ_four]

theorem mulVec_hom (m : Mat T 4 4) (p : Vec T 3) (w : T) (j : Fin 4) :
    mulVec m (hom p w) j = m 0 j * p 0 + m 1 j * p 1 + m 2 j * p 2 + m 3 j * w := by
  rw [mulVec4]; rfl

/-- C69.  `translate(m, v)` is `m` times the translation by `v`, `scale(m, v)` is `m` times the scaling by
`v`; translations add up, scalings multiply. -/
theorem translate_scale (m : Mat T 4 4) (u v p : Vec T 3) (w : T) :
    toM (translate m v) = toM m * !![1, 0, 0, v 0; 0, 1, 0, v 1; 0, 0, 1, v 2; 0, 0, 0, 1] ∧
    toM (scale m v) = toM m * !![v 0, 0, 0, 0; 0, v 1, 0, 0; 0, 0, v 2, 0; 0, 0, 0, 1] ∧
    mulVec (translate m v) (hom p 1) = mulVec m (hom (fun i => p i + v i) 1) ∧
    mulVec (translate m v) (hom p 0) = mulVec m (hom p 0) ∧
    mulVec (scale m v) (hom p w) = mulVec m (hom (fun i => v i * p i) w) ∧
    translate (translate m u) v = translate m (fun i => u i + v i) ∧
    scale (scale m u) v = scale m (fun i => u i * v i) := by
  refine ⟨?_, ?_, ?_, ?_, ?_, ?_, ?_⟩
  · ext j i
    rw [Matrix.mul_apply, Fin.sum_univ_four]
    fin_cases i <;> simp [toM, translate, add_eq, mulS_eq, mul_comm]
  · ext j i
    rw [Matrix.mul_apply, Fin.sum_univ_four]
    fin_cases i <;> simp [toM, scale, mulS_eq, mul_comm]
  · funext j
    rw [mulVec_hom, mulVec_hom]; simp [translate, add_eq, mulS_eq]; ring
  · funext j
    rw [mulVec_hom, mulVec_hom]; simp [translate]
  · funext j
    rw [mulVec_hom, mulVec_hom]; simp [scale, mulS_eq]; ring
  · funext i j; fin_cases i <;> simp [translate, add_eq, mulS_eq]; ring
  · funext i j; fin_cases i <;> simp [scale, mulS_eq] <;> ring

example : mulVec (translate (defaultMat : Mat ℤ 4 4) ![1, 2, 3]) (hom ![10, 20, 30] 1) =
    hom ![11, 22, 33] 1 := by decide

end

/-! ### C70: rotation -/

/-- Rodrigues' formula: `p` turned by `angle` about the unit axis `n`. -/
noncomputable def turned (angle : ℝ) (n p : Vec ℝ 3) : Vec ℝ 3 :=
  Real.cos angle • p + Real.sin angle • crossProduct n p + ((1 - Real.cos angle) * (n ⬝ᵥ p)) • n

theorem turned_apply (a : ℝ) (n p : Vec ℝ 3) :
    turned a n p =
      ![Real.cos a * p 0 + Real.sin a * (n 1 * p 2 - n 2 * p 1) +
          (1 - Real.cos a) * (n 0 * p 0 + n 1 * p 1 + n 2 * p 2) * n 0,
        Real.cos a * p 1 + Real.sin a * (n 2 * p 0 - n 0 * p 2) +
          (1 - Real.cos a) * (n 0 * p 0 + n 1 * p 1 + n 2 * p 2) * n 1,
        Real.cos a * p 2 + Real.sin a * (n 0 * p 1 - n 1 * p 0) +
          (1 - Real.cos a) * (n 0 * p 0 + n 1 * p 1 + n 2 * p 2) * n 2] := by
  funext i
  unfold turned
  rw [cross_apply]
  simp only [Pi.add_apply, Pi.smul_apply, smul_eq_mul, dotProduct, Fin.sum_univ_three]
  fin_cases i <;> simp

theorem rotateWith_columns (f : ℝ → ℝ) (m : Mat ℝ 4 4) (a : ℝ) (n : Vec ℝ 3) :
    rotateWith f m a n =
      let s := Real.sin a
      let c := Real.cos a
      let t := f (1 - c)
      ![(c + n 0 * t * n 0) • m 0 + (n 0 * t * n 1 + s * n 2) • m 1 + (n 0 * t * n 2 - s * n 1) • m 2,
        (n 1 * t * n 0 - s * n 2) • m 0 + (c + n 1 * t * n 1) • m 1 + (n 1 * t * n 2 + s * n 0) • m 2,
        (n 2 * t * n 0 + s * n 1) • m 0 + (n 2 * t * n 1 - s * n 0) • m 1 + (c + n 2 * t * n 2) • m 2,
        m 3] := by
  unfold rotateWith
  simp only [add_eq, mulS_eq, store2_apply]
  simp [mul_comm]

/-- C70, first part.  `rotate(m, angle, n)` maps a point or direction as `m` maps the turned one; so it is
`m` times the rotation `rotate(identity, angle, n)`. -/
theorem rotate_turns (m : Mat ℝ 4 4) (a : ℝ) (n p : Vec ℝ 3) (w : ℝ) :
    mulVec (rotate m a n) (hom p w) = mulVec m (hom (turned a n p) w) ∧
    rotate m a n = mulMat m (rotate defaultMat a n) := by
  constructor
  · funext j
    rw [mulVec_hom, mulVec_hom, rotate, rotateWith_columns, turned_apply]
    simp
    ring
  · rw [mulMat_apply, rotate, rotate, rotateWith_columns, rotateWith_columns]
    funext i j
    rw [Fin.sum_univ_four]
    simp only [id]
    fin_cases i <;> simp [defaultMat, diagonal_apply] <;> ring

theorem det4_rotate (a : ℝ) (n : Vec ℝ 3) :
    det4 (rotate defaultMat a n) =
      (Real.cos a + (1 - Real.cos a) * (n 0 ^ 2 + n 1 ^ 2 + n 2 ^ 2)) *
      (Real.cos a ^ 2 + Real.sin a ^ 2 * (n 0 ^ 2 + n 1 ^ 2 + n 2 ^ 2)) := by
  rw [rotate, rotateWith_columns]
  simp [det4, defaultMat, diagonal_apply]
  ring

theorem toM_mulVec {T : Type} [CommRing T] [Indet T] {c r : Nat} (m : Mat T c r) (v : Vec T c) :
    mulVec m v = (toM m).mulVec v := (matrix_ops m m (defaultMat : Mat T c c) v 0).2.1

/-- Turning keeps scalar products, fixes the axis and is additive in the angle. -/
theorem turned_laws (a b : ℝ) (n p q : Vec ℝ 3) (hn : dot n n = 1) :
    dot (turned a n p) (turned a n q) = dot p q ∧ length (turned a n p) = length p ∧
    det4 (rotate defaultMat a n) = 1 ∧ turned a n n = n ∧
    turned a n (turned b n p) = turned (a + b) n p ∧
    (∀ m, rotate (rotate m a n) b n = rotate m (a + b) n) := by
  rw [dot_eq, Fin.sum_univ_three] at hn
  have hsc := Real.sin_sq_add_cos_sq a
  have key : ∀ p q : Vec ℝ 3, dot (turned a n p) (turned a n q) = dot p q := by
    intro p q
    rw [dot_eq, dot_eq, Fin.sum_univ_three, Fin.sum_univ_three, turned_apply, turned_apply]
    simp
    linear_combination (Real.sin a ^ 2 * (p 0 * q 0 + p 1 * q 1 + p 2 * q 2) +
      (1 - Real.cos a) ^ 2 * (n 0 * p 0 + n 1 * p 1 + n 2 * p 2) *
        (n 0 * q 0 + n 1 * q 1 + n 2 * q 2)) * hn +
      ((p 0 * q 0 + p 1 * q 1 + p 2 * q 2) - (n 0 * p 0 + n 1 * p 1 + n 2 * p 2) *
        (n 0 * q 0 + n 1 * q 1 + n 2 * q 2)) * hsc
  have comp : ∀ (a b : ℝ) (p : Vec ℝ 3), turned a n (turned b n p) = turned (a + b) n p := by
    intro a b p
    rw [turned_apply, turned_apply, turned_apply, Real.cos_add, Real.sin_add]
    funext i
    fin_cases i <;> simp <;>
    [linear_combination ((1 - Real.cos a) * (1 - Real.cos b) *
        (n 0 * p 0 + n 1 * p 1 + n 2 * p 2) * n 0 - Real.sin a * Real.sin b * p 0) * hn;
     linear_combination ((1 - Real.cos a) * (1 - Real.cos b) *
        (n 0 * p 0 + n 1 * p 1 + n 2 * p 2) * n 1 - Real.sin a * Real.sin b * p 1) * hn;
     linear_combination ((1 - Real.cos a) * (1 - Real.cos b) *
        (n 0 * p 0 + n 1 * p 1 + n 2 * p 2) * n 2 - Real.sin a * Real.sin b * p 2) * hn]
  refine ⟨key p q, by rw [length, length, key], ?_, ?_, comp a b p, fun m => ?_⟩
  · rw [det4_rotate]
    have : n 0 ^ 2 + n 1 ^ 2 + n 2 ^ 2 = 1 := by rw [← hn]; ring
    rw [this]
    linear_combination hsc
  · rw [turned_apply]
    funext i
    fin_cases i <;> simp <;>
    [linear_combination ((1 - Real.cos a) * n 0) * hn;
     linear_combination ((1 - Real.cos a) * n 1) * hn;
     linear_combination ((1 - Real.cos a) * n 2) * hn]
  · have ext4 : ∀ A B : Mat ℝ 4 4, (∀ p w, mulVec A (hom p w) = mulVec B (hom p w)) → A = B := by
      intro A B h
      funext i j
      have e : ∀ (p : Vec ℝ 3) (w : ℝ), A 0 j * p 0 + A 1 j * p 1 + A 2 j * p 2 + A 3 j * w =
          B 0 j * p 0 + B 1 j * p 1 + B 2 j * p 2 + B 3 j * w := fun p w => by
        rw [← mulVec_hom, ← mulVec_hom, h]
      have e0 := e ![1, 0, 0] 0
      have e1 := e ![0, 1, 0] 0
      have e2 := e ![0, 0, 1] 0
      have e3 := e ![0, 0, 0] 1
      simp at e0 e1 e2 e3
      fin_cases i <;> assumption
    apply ext4
    intro p w
    rw [(rotate_turns _ _ _ _ _).1, (rotate_turns _ _ _ _ _).1, (rotate_turns _ _ _ _ _).1, comp]

/-- C70, second part.  For a unit axis `n`, `rotate(m, angle, n)` is `m` times a matrix that maps points and
directions by a linear map `f` of space (leaving `w` alone) where `f` preserves scalar products and lengths,
fixes the axis and is given by Rodrigues' formula; the matrix has determinant 1; rotating twice about
the same axis adds the angles. -/
theorem rotate_is_rotation (a b : ℝ) (n : Vec ℝ 3) (hn : n ⬝ᵥ n = 1) :
    ∃ (R : Matrix (Fin 4) (Fin 4) ℝ) (f : Vec ℝ 3 → Vec ℝ 3),
      (∀ m, toM (rotate m a n) = toM m * R) ∧ (∀ p w, R.mulVec (hom p w) = hom (f p) w) ∧
      (∀ p q, f p ⬝ᵥ f q = p ⬝ᵥ q) ∧ (∀ p, ‖WithLp.toLp 2 (f p)‖ = ‖WithLp.toLp 2 p‖) ∧ f n = n ∧ R.det = 1 ∧
      (∀ p, f p = Real.cos a • p + Real.sin a • crossProduct n p + ((1 - Real.cos a) * (n ⬝ᵥ p)) • n) ∧
      (∀ m, rotate (rotate m a n) b n = rotate m (a + b) n) := by
  rw [← dot_eq_dotProduct] at hn
  have hl := fun p q => turned_laws a b n p q hn
  refine ⟨toM (rotate defaultMat a n), turned a n, fun m => ?_, fun p w => ?_, fun p q => ?_, fun p => ?_,
    (hl n n).2.2.2.1, ?_, fun p => rfl, (hl n n).2.2.2.2.2⟩
  · rw [(rotate_turns m a n n 0).2, (matrix_ops m m (rotate defaultMat a n) 0 0).1]
  · rw [← toM_mulVec, (rotate_turns _ _ _ _ _).1, toM_mulVec,
      (matrix_ops (defaultMat : Mat ℝ 4 4) defaultMat (defaultMat : Mat ℝ 4 4) 0 0).2.2.2.2.2.2.1,
      Matrix.one_mulVec]
  · rw [← dot_eq_dotProduct, ← dot_eq_dotProduct]; exact (hl p q).1
  · rw [← length_norm, ← length_norm]; exact (hl p p).2.1
  · rw [← (determinant_correct (T := ℝ)).2.2]; exact (hl n n).2.2.1

/-- C70: the rotation is counter-clockwise seen from the tip of the axis. -/
theorem rotate_orientation (a w : ℝ) :
    (toM (rotate defaultMat a ![0, 0, 1])).mulVec (hom ![1, 0, 0] w) = hom ![Real.cos a, Real.sin a, 0] w := by
  rw [← toM_mulVec, (rotate_turns _ _ _ _ _).1, toM_mulVec,
    (matrix_ops (defaultMat : Mat ℝ 4 4) defaultMat (defaultMat : Mat ℝ 4 4) 0 0).2.2.2.2.2.2.1,
    Matrix.one_mulVec]
  congr 1
  rw [turned_apply]; funext i; fin_cases i <;> simp

example : ![(0 : ℝ), 3 / 5, 4 / 5] ⬝ᵥ ![0, 3 / 5, 4 / 5] = 1 := by
  simp only [dotProduct, Fin.sum_univ_three]; simp; norm_num

/-! ### C81: axes of integers -/

/-- C81 is false: with an axis of integers the factor `1 - cos` is truncated, so that for every angle
with `0 < cos < 1` a point on the (unit) axis is scaled by `cos` instead of being fixed. -/
theorem rotate_integer_axis_wrong (a : ℝ) (h0 : 0 < Real.cos a) (h1 : Real.cos a < 1) (n : Vec ℤ 3)
    (hn : n ⬝ᵥ n = 1) :
    mulVec (rotateInt defaultMat a n) (hom (fun i => (n i : ℝ)) 0) =
      hom (fun i => Real.cos a * n i) 0 ∧
    mulVec (rotateInt defaultMat a n) (hom (fun i => (n i : ℝ)) 0) ≠ hom (fun i => (n i : ℝ)) 0 := by
  have ht : truncate (1 - Real.cos a) = 0 := by
    have : ⌊1 - Real.cos a⌋ = 0 := by
      rw [Int.floor_eq_iff]; constructor <;> push_cast <;> linarith
    rw [truncate, if_pos (by linarith), this]; simp
  have key : mulVec (rotateInt defaultMat a n) (hom (fun i => (n i : ℝ)) 0) =
      hom (fun i => Real.cos a * n i) 0 := by
    funext j
    rw [mulVec_hom, rotateInt, rotateWith_columns]
    simp only [ht]
    fin_cases j <;> simp [defaultMat, diagonal_apply, hom] <;> ring
  refine ⟨key, ?_⟩
  rw [key]
  intro e
  have hz : ∀ i : Fin 3, (n i : ℝ) = 0 := by
    intro i
    have : Real.cos a * n i = n i := by
      have := congrFun e i.castSucc
      fin_cases i <;> simpa [hom] using this
    have h2 : (Real.cos a - 1) * (n i : ℝ) = 0 := by linarith
    rcases mul_eq_zero.mp h2 with h | h
    · linarith
    · exact h
  have hz' : ∀ i : Fin 3, n i = 0 := fun i => by exact_mod_cast hz i
  rw [dotProduct, Fin.sum_univ_three] at hn
  simp [hz'] at hn

/-- C81, the part that holds: an axis of integers is as good as one of reals when `1 - cos` is an
integer, that is for multiples of a quarter turn.  Missing: every other angle. -/
theorem rotate_integer_axis_partial (m : Mat ℝ 4 4) (a : ℝ) (n : Vec ℤ 3) (k : ℤ)
    (hk : 1 - Real.cos a = k) : rotateInt m a n = rotate m a fun i => (n i : ℝ) := by
  have ht : truncate (1 - Real.cos a) = 1 - Real.cos a := by
    rw [hk, truncate]; simp
  rw [rotateInt, rotate, rotateWith_columns, rotateWith_columns]
  simp only [ht, id]

/-- C81, exactly: with an axis of integers of length one a point on the axis is multiplied by `cos` plus the whole
part of `1 - cos`.  So it is fixed exactly for the multiples of a quarter turn, and exactly for these the rotation
is the one about the same axis of reals, of any matrix. -/
theorem rotate_integer_axis_iff (a : ℝ) (n : Vec ℤ 3) (hn : n ⬝ᵥ n = 1) :
    mulVec (rotateInt defaultMat a n) (hom (fun i => (n i : ℝ)) 0) =
      hom (fun i => (Real.cos a + ⌊1 - Real.cos a⌋) * n i) 0 ∧
    (mulVec (rotateInt defaultMat a n) (hom (fun i => (n i : ℝ)) 0) = hom (fun i => (n i : ℝ)) 0 ↔
      ∃ k : ℤ, a = k * (Real.pi / 2)) ∧
    ((∀ m : Mat ℝ 4 4, rotateInt m a n = rotate m a fun i => (n i : ℝ)) ↔ ∃ k : ℤ, a = k * (Real.pi / 2)) := by
  have ht : truncate (1 - Real.cos a) = ⌊1 - Real.cos a⌋ := by
    rw [truncate, if_pos (by linarith [Real.cos_le_one a])]
  have hnr : (n 0 : ℝ) * n 0 + n 1 * n 1 + n 2 * n 2 = 1 := by
    rw [dotProduct, Fin.sum_univ_three] at hn
    exact_mod_cast hn
  have key : mulVec (rotateInt defaultMat a n) (hom (fun i => (n i : ℝ)) 0) =
      hom (fun i => (Real.cos a + ⌊1 - Real.cos a⌋) * n i) 0 := by
    funext j
    rw [mulVec_hom, rotateInt, rotateWith_columns]
    simp only [ht]
    fin_cases j <;> simp [defaultMat, diagonal_apply, hom]
    · linear_combination (⌊1 - Real.cos a⌋ : ℝ) * n 0 * hnr
    · linear_combination (⌊1 - Real.cos a⌋ : ℝ) * n 1 * hnr
    · linear_combination (⌊1 - Real.cos a⌋ : ℝ) * n 2 * hnr
  have quarter : (∃ k : ℤ, 1 - Real.cos a = k) ↔ ∃ k : ℤ, a = k * (Real.pi / 2) := by
    have hs : Real.sin (2 * a) = 0 ↔ ∃ k : ℤ, a = k * (Real.pi / 2) := by
      rw [Real.sin_eq_zero_iff]
      exact exists_congr fun k => ⟨fun h => by linarith, fun h => by linarith⟩
    rw [← hs, Real.sin_two_mul]
    have hsq := Real.sin_sq_add_cos_sq a
    constructor
    · rintro ⟨k, hk⟩
      have h1 : (k : ℝ) ≤ 2 := by linarith [Real.neg_one_le_cos a]
      have h2 : (0 : ℝ) ≤ k := by linarith [Real.cos_le_one a]
      have h1' : k ≤ 2 := by exact_mod_cast h1
      have h2' : 0 ≤ k := by exact_mod_cast h2
      have hc : Real.cos a = 1 - k := by linarith
      have hk3 : k = 0 ∨ k = 1 ∨ k = 2 := by omega
      rcases hk3 with rfl | rfl | rfl
      · have : Real.sin a = 0 := by rw [hc] at hsq; push_cast at hsq; nlinarith
        rw [this]; ring
      · rw [hc]; push_cast; ring
      · have : Real.sin a = 0 := by rw [hc] at hsq; push_cast at hsq; nlinarith
        rw [this]; ring
    · intro h
      have h' : Real.sin a * Real.cos a = 0 := by linarith
      rcases mul_eq_zero.1 h' with h | h
      · rw [h] at hsq
        have : (Real.cos a - 1) * (Real.cos a + 1) = 0 := by linarith
        rcases mul_eq_zero.1 this with h | h
        · exact ⟨0, by push_cast; linarith⟩
        · exact ⟨2, by push_cast; linarith⟩
      · exact ⟨1, by push_cast; linarith⟩
  have fixed : mulVec (rotateInt defaultMat a n) (hom (fun i => (n i : ℝ)) 0) = hom (fun i => (n i : ℝ)) 0 ↔
      ∃ k : ℤ, a = k * (Real.pi / 2) := by
    rw [key, ← quarter]
    constructor
    · intro e
      refine ⟨⌊1 - Real.cos a⌋, ?_⟩
      have hz : ∀ i : Fin 3, (Real.cos a + ⌊1 - Real.cos a⌋) * n i = n i := by
        intro i
        have := congrFun e i.castSucc
        fin_cases i <;> simpa [hom] using this
      have h0 := hz 0
      have h1 := hz 1
      have h2 := hz 2
      linear_combination -(n 0 : ℝ) * h0 - n 1 * h1 - n 2 * h2 + (Real.cos a + ⌊1 - Real.cos a⌋ - 1) * hnr
    · rintro ⟨k, hk⟩
      rw [hk, Int.floor_intCast, ← hk]
      congr 1
      funext i
      ring
  refine ⟨key, fixed, ?_, ?_⟩
  · intro h
    rw [← fixed, h, (rotate_turns _ _ _ _ _).1]
    rw [toM_mulVec, (matrix_ops (defaultMat : Mat ℝ 4 4) defaultMat (defaultMat : Mat ℝ 4 4) 0 0).2.2.2.2.2.2.1,
      Matrix.one_mulVec]
    congr 1
    rw [turned_apply]
    funext i
    fin_cases i <;> simp
    · linear_combination (1 - Real.cos a) * n 0 * hnr
    · linear_combination (1 - Real.cos a) * n 1 * hnr
    · linear_combination (1 - Real.cos a) * n 2 * hnr
  · intro h m
    obtain ⟨k, hk⟩ := quarter.2 h
    exact rotate_integer_axis_partial m a n k hk

example : 0 < Real.cos (Real.pi / 3) ∧ Real.cos (Real.pi / 3) < 1 ∧ ![(0 : ℤ), 0, 1] ⬝ᵥ ![0, 0, 1] = 1 ∧
    1 - Real.cos (Real.pi / 2) = (1 : ℤ) := by
  rw [Real.cos_pi_div_three, Real.cos_pi_div_two]
  exact ⟨by norm_num, by norm_num, by decide, by simp⟩

end Verif.Math
