import Verif.Math.RoundingLemmas

/-!
Properties of the vector and matrix operations on floating-point numbers: which identities hold exactly
although every operation rounds, and how far the results are from the exact ones.

Every theorem is for every rounding that IEEE 754 allows as rounding to nearest (`Rounding`) and for every
dimension; `nearestEven 24` is `float`, `nearestEven 53` is `double`.  The vocabulary of the statements:
`x.val` is the real number that `x` represents and `R.u` the unit roundoff.
-/

set_option autoImplicit false

namespace Verif.Math

variable {R : Rounding} {n : Nat}

/-! ### Identities that hold exactly -/

/-- Sums, differences, negation and scaling of vectors of floating-point numbers: what holds with no
rounding error at all. -/
theorem fp_vector_exact [Indet (FP R)] (a b : Vec (FP R) n) (s : FP R) (zero : Vec (FP R) n)
    (hz : ∀ i, (zero i).val = 0) :
    add a b = add b a ∧ mul a b = mul b a ∧
    add a zero = a ∧ sub a zero = a ∧ sub a a = zero ∧ add a (neg a) = zero ∧
    sub a b = add a (neg b) ∧ neg (sub a b) = sub b a ∧ (sub a b = zero ↔ a = b) ∧ neg (neg a) = a ∧
    mulS a 1 = a ∧ divS a 1 = a ∧ mulS a 0 = zero ∧
    mulS (neg a) s = neg (mulS a s) ∧ mulS a (-s) = neg (mulS a s) ∧
    mulS a 2 = add a a ∧ (∀ i, (mulS a 2 i).val = 2 * (a i).val) := by
  obtain rfl : zero = fun _ => 0 := funext fun i => FP.ext (hz i)
  simp only [add, sub, mul, mulS, divS, vecOp_apply, vecOpS_apply, neg_apply]
  refine ⟨?_, ?_, ?_, ?_, ?_, ?_, ?_, ?_, ?_, ?_, ?_, ?_, ?_, ?_, ?_, ?_, ?_⟩
  · funext i; exact FP.addComm _ _
  · funext i; exact FP.mulComm _ _
  · funext i; exact FP.addZero _
  · funext i; exact FP.subZero _
  · funext i; exact FP.subSelf _
  · funext i; exact FP.addNeg _
  · funext i; exact FP.subNeg _ _
  · funext i; exact FP.negSub _ _
  · simp only [funext_iff, FP.subEqZero]
  · funext i; exact FP.negNeg _
  · funext i; exact FP.mulOne _
  · funext i; exact FP.divOne _
  · funext i; exact FP.mulZero _
  · funext i; exact FP.negMul _ _
  · funext i; exact FP.mulNeg _ _
  · funext i; exact FP.mulTwo _
  · intro i; exact FP.twoVal _

/-- `dot` on floating-point numbers is exactly symmetric, exactly odd, exactly homogeneous for the factor
2, and the product of a vector with itself is never negative and zero only for the zero vector. -/
theorem fp_dot_exact [Indet (FP R)] (a b : Vec (FP R) n) :
    dot a b = dot b a ∧ dot (neg a) b = -dot a b ∧ dot a (neg b) = -dot a b ∧
    (dot (mulS a 2) b).val = 2 * (dot a b).val ∧
    0 ≤ (dot a a).val ∧ ((dot a a).val = 0 ↔ ∀ i, (a i).val = 0) ∧
    ∀ i, (a i * a i).val ≤ (dot a a).val := by
  have hsymm : ∀ a b : Vec (FP R) n, dot a b = dot b a := by
    intro a b; unfold dot; simp only [FP.mulComm]
  have hneg : ∀ a b : Vec (FP R) n, dot (neg a) b = -dot a b := by
    intro a b
    unfold dot
    rw [← foldl_map (fun x : FP R => -x) FP.negZero FP.negAdd]
    simp only [neg_apply, FP.negMul]
  have hnn : ∀ i, 0 ≤ (a i * a i).val := fun i => R.nonneg (mul_self_nonneg _)
  obtain ⟨h1, h2⟩ := foldl_val_nonneg (fun i => a i * a i) hnn (List.finRange n) 0 le_rfl
  refine ⟨hsymm a b, hneg a b, by rw [hsymm, hneg, hsymm], ?_, h1, ?_, fun i => h2 i (List.mem_finRange i)⟩
  · rw [← FP.twoVal]
    unfold dot
    rw [← foldl_map (fun x : FP R => x * 2) (FP.zeroMul _) (fun x y => (FP.twoAdd x y).symm)]
    simp only [mulS, vecOpS_apply, FP.twoMulMul]
  · constructor
    · intro h i
      have h3 : (a i * a i).val ≤ (dot a a).val := h2 i (List.mem_finRange i)
      have h4 : R.rnd ((a i).val * (a i).val) = 0 := le_antisymm (h ▸ h3) (hnn i)
      rw [R.eq_zero] at h4
      exact mul_self_eq_zero.mp h4
    · intro h
      have : a = fun _ => 0 := funext fun i => FP.ext (h i)
      rw [this, dot_zero_right]; rfl

theorem lengthM_fp [Libm R] (v : Vec (FP R) n) : lengthM v = length v := by
  unfold lengthM length dot
  split
  · simp [forLoop, List.finRange_succ, FP.zeroAdd]
  · simp [forLoop, List.finRange_succ, FP.zeroAdd]
  · simp [forLoop, List.finRange_succ, FP.zeroAdd]
  · rfl

theorem length_val [Libm R] (v : Vec (FP R) n) : (length v).val = R.rnd (√(dot v v).val) := rfl

theorem length_zero_iff [Indet (FP R)] [Libm R] (v : Vec (FP R) n) :
    (length v).val = 0 ↔ ∀ i, (v i).val = 0 := by
  obtain ⟨-, -, -, -, h1, h2, -⟩ := fp_dot_exact v v
  rw [length_val, R.eq_zero, Real.sqrt_eq_zero h1, h2]

/-- The length of a vector of floating-point numbers: both ways to compute it agree, it is never negative,
it is zero for the zero vector only, it does not depend on the sign and it doubles exactly when the vector
is doubled; the distance is exactly symmetric and zero for equal points only. -/
theorem fp_length_exact [Indet (FP R)] [Libm R] (v w : Vec (FP R) n) :
    lengthM v = length v ∧ 0 ≤ (length v).val ∧ ((length v).val = 0 ↔ ∀ i, (v i).val = 0) ∧
    length (neg v) = length v ∧ (length (mulS v 2)).val = 2 * (length v).val ∧
    distance v w = distance w v ∧ 0 ≤ (distance v w).val ∧
    ((distance v w).val = 0 ↔ v = w) := by
  have hneg : ∀ v : Vec (FP R) n, length (neg v) = length v := by
    intro v
    have h : dot (neg v) (neg v) = dot v v := by
      obtain ⟨-, h1, h2, -⟩ := fp_dot_exact v (neg v)
      rw [h1, (fp_dot_exact v v).2.2.1, FP.negNeg]
    unfold length; rw [h]
  have hz : (0 : FP R).val = 0 := rfl
  obtain ⟨-, -, -, -, -, -, -, hsub, hself, -⟩ :=
    fp_vector_exact w v (0 : FP R) (fun _ => 0) fun _ => rfl
  refine ⟨lengthM_fp v, R.nonneg (Real.sqrt_nonneg _), length_zero_iff v, hneg v, ?_, ?_, ?_, ?_⟩
  · have h1 : dot (mulS v 2) (mulS v 2) = (dot v v * 2) * 2 := by
      obtain ⟨-, -, -, h2, -⟩ := fp_dot_exact v (mulS v 2)
      obtain ⟨h3, -, -, -⟩ := fp_dot_exact v (mulS v 2)
      obtain ⟨-, -, -, h4, -⟩ := fp_dot_exact v v
      refine FP.ext ?_
      rw [h2, h3, h4, FP.twoVal, FP.twoVal]
    rw [length_val, length_val, h1, FP.twoVal, FP.twoVal, ← R.two_mul,
      show 2 * (2 * (dot v v).val) = 2 ^ 2 * (dot v v).val by ring,
      Real.sqrt_mul (by positivity), Real.sqrt_sq (by norm_num)]
  · unfold distance
    rw [lengthM_fp, lengthM_fp, ← hneg, hsub]
  · unfold distance
    rw [lengthM_fp]; exact R.nonneg (Real.sqrt_nonneg _)
  · unfold distance
    rw [lengthM_fp, length_zero_iff]
    constructor
    · intro h
      exact (hself.mp (funext fun i => FP.ext (h i))).symm
    · intro h i
      have := hself.mpr h.symm
      rw [this]; rfl

/-- The cross product of floating-point vectors: exactly antisymmetric, and exactly zero for a vector with
itself. -/
theorem fp_cross_exact [Indet (FP R)] (a b : Vec (FP R) 3) :
    cross a b = neg (cross b a) ∧ ∀ i, (cross a a i).val = 0 := by
  constructor
  · funext i
    rw [neg_apply]
    unfold cross
    fin_cases i <;>
      · simp only [Matrix.cons_val_zero, Matrix.cons_val_one, Matrix.cons_val, Fin.zero_eta, Fin.mk_one,
          Fin.reduceFinMk, FP.negSub]
        congr 1 <;> exact FP.mulComm _ _
  · intro i
    unfold cross
    fin_cases i <;>
      · simp only [Matrix.cons_val_zero, Matrix.cons_val_one, Matrix.cons_val, Fin.zero_eta, Fin.mk_one,
          Fin.reduceFinMk]
        first
          | rw [FP.mulComm (a 1) (a 2), FP.subSelf]; rfl
          | rw [FP.mulComm (a 2) (a 0), FP.subSelf]; rfl
          | rw [FP.mulComm (a 0) (a 1), FP.subSelf]; rfl

/-- Multiplying by the identity matrix, translating by nothing, scaling by one and rotating by angle zero
change no floating-point matrix or vector at all: no rounding error is introduced. -/
theorem fp_identity_exact [Indet (FP R)] {c r : Nat} (m : Mat (FP R) c r) (v : Vec (FP R) n) :
    mulVec (defaultMat : Mat (FP R) n n) v = v ∧
    mulMat (defaultMat : Mat (FP R) r r) m = m ∧ mulMat m (defaultMat : Mat (FP R) c c) = m := by
  have hd : ∀ {k : Nat} (i j : Fin k), (defaultMat : Mat (FP R) k k) i j = if i = j then 1 else 0 := by
    intro k i j
    unfold defaultMat
    rw [diagonal_apply]
    simp only [Fin.val_inj]
  have key : ∀ {k : Nat} (w : Vec (FP R) k) (j : Fin k),
      dot (fun i => (defaultMat : Mat (FP R) k k) i j) w = w j := by
    intro k w j
    unfold dot
    rw [foldl_single (fun i => (defaultMat : Mat (FP R) k k) i j * w i) j fun i hij => by
      rw [hd, if_neg hij, FP.zeroMul]]
    rw [hd, if_pos rfl, FP.mulComm, FP.mulOne]
  have key' : ∀ {k : Nat} (w : Vec (FP R) k) (j : Fin k),
      dot w ((defaultMat : Mat (FP R) k k) j) = w j := by
    intro k w j
    unfold dot
    rw [foldl_single (fun i => w i * (defaultMat : Mat (FP R) k k) j i) j fun i hij => by
      rw [hd, if_neg (Ne.symm hij), FP.mulZero]]
    rw [hd, if_pos rfl, FP.mulOne]
  refine ⟨?_, ?_, ?_⟩
  · rw [mulVec_dot]; funext j; exact key v j
  · rw [mulMat_dot]; funext i j; exact key (m i) j
  · rw [mulMat_dot]; funext i j; exact key' (fun l => m l j) i

/-- Transformations that do nothing leave a floating-point matrix exactly as it was. -/
theorem fp_transform_exact [Libm R] (m : Mat (FP R) 4 4) (v axis : Vec (FP R) 3) (angle : FP R) :
    ((∀ i, (v i).val = 0) → translate m v = m) ∧
    ((∀ i, (v i).val = 1) → scale m v = m) ∧
    (angle.val = 0 → rotate m angle axis = m) := by
  refine ⟨fun h => ?_, fun h => ?_, fun h => ?_⟩
  · have h' : ∀ i, v i = 0 := fun i => FP.ext (h i)
    funext i j
    unfold translate
    simp only [h', add, mulS, vecOp_apply, vecOpS_apply, FP.mulZero, FP.zeroAdd]
    fin_cases i <;> rfl
  · have h' : ∀ i, v i = 1 := fun i => FP.ext (h i)
    funext i j
    unfold scale
    simp only [h', mulS, vecOpS_apply, FP.mulOne]
    fin_cases i <;> rfl
  · have hs : MathFns.sin angle = 0 := FP.ext (Libm.sin_zero angle h)
    have hc : MathFns.cos angle = 1 := FP.ext (Libm.cos_zero angle h)
    funext i j
    unfold rotate rotateWith
    fin_cases i <;>
      simp [hs, hc, add, mulS, vecOp_apply, vecOpS_apply, store2_apply, FP.mulZero, FP.zeroMul, FP.zeroAdd,
        FP.addZero, FP.subSelf, FP.mulOne]

/-- Interpolation hits its end points exactly, and the selecting functions return one of their arguments
exactly: `faceforward` gives `v` or `-v`, `sign` gives -1, 0 or 1 with the sign of the argument. -/
theorem fp_select_exact [Indet (FP R)] (a b p : Vec (FP R) n) (t x : FP R) :
    (t.val = 0 → lerp a b t = a) ∧ (t.val = 1 → lerp a b t = b) ∧
    (∀ i, (p i).val = 0 → lerpV a b p i = a i) ∧ (∀ i, (p i).val = 1 → lerpV a b p i = b i) ∧
    (∀ i k, faceforward a i k = if (dot k i).val < 0 then a else neg a) ∧
    (0 < x.val → (sign x).val = 1) ∧ (x.val = 0 → (sign x).val = 0) ∧ (x.val < 0 → (sign x).val = -1) ∧
    (∀ i, signV a i = sign (a i)) := by
  have hlt : ∀ y z : FP R, y < z ↔ y.val < z.val := fun _ _ => Iff.rfl
  refine ⟨?_, ?_, ?_, ?_, ?_, ?_, ?_, ?_, ?_⟩
  · intro h
    obtain rfl : t = 0 := FP.ext h
    funext i
    simp only [lerp, add, mulS, vecOp_apply, vecOpS_apply, FP.mulZero, FP.subZero, FP.mulOne, FP.zeroAdd]
  · intro h
    obtain rfl : t = 1 := FP.ext h
    funext i
    simp only [lerp, add, mulS, vecOp_apply, vecOpS_apply, FP.mulZero, FP.subSelf, FP.mulOne, FP.addZero]
  · intro i h
    have h' : p i = 0 := FP.ext h
    unfold lerpV
    rw [forLoop_store, h', FP.mulZero, FP.subZero, FP.mulOne, FP.zeroAdd]
  · intro i h
    have h' : p i = 1 := FP.ext h
    unfold lerpV
    rw [forLoop_store, h', FP.mulOne, FP.subSelf, FP.mulZero, FP.addZero]
  · intro i k; rfl
  · intro h
    have h1 : (0 : FP R) < x := h
    have h2 : ¬x < 0 := fun h2 => absurd (show x.val < 0 from h2) (by linarith)
    simp [sign, ofBool, h1, h2, FP.subZero]
  · intro h
    have h1 : ¬(0 : FP R) < x := fun h2 => absurd (show 0 < x.val from h2) (by linarith)
    have h2 : ¬x < 0 := fun h2 => absurd (show x.val < 0 from h2) (by linarith)
    simp [sign, ofBool, h1, h2, FP.subZero]
  · intro h
    have h1 : ¬(0 : FP R) < x := fun h2 => absurd (show 0 < x.val from h2) (by linarith)
    have h2 : x < 0 := h
    simp [sign, ofBool, h1, h2, FP.val_sub, R.odd, R.one]
  · intro i; unfold signV; rw [forLoop_store]

/-! ### Rounding errors -/

/-- `dot`: the computed value is within `((1+u)^n - 1) Σ|aᵢbᵢ|` of the exact dot product. -/
theorem fp_dot_error (a b : Vec (FP R) n) :
    |(dot a b).val - ∑ i, (a i).val * (b i).val| ≤
      ((1 + R.u) ^ n - 1) * ∑ i, |(a i).val * (b i).val| := dot_err a b

/-- `length` is within the factor `(1±u)√((1±u)^n)` of the Euclidean length: no cancellation can spoil
it. -/
theorem fp_length_error [Libm R] (v : Vec (FP R) n) :
    (1 - R.u) * √((1 - R.u) ^ n) * √(∑ i, (v i).val ^ 2) ≤ (length v).val ∧
    (length v).val ≤ (1 + R.u) * √((1 + R.u) ^ n) * √(∑ i, (v i).val ^ 2) := by
  obtain ⟨h1, h2⟩ := dot_self_bounds v
  simp only [← sq] at h1 h2
  have u0 := R.u_nonneg
  have u1 := R.u_lt
  have hs : 0 ≤ ∑ i, (v i).val ^ 2 := Finset.sum_nonneg fun i _ => sq_nonneg _
  rw [length_val]
  constructor
  · refine le_trans ?_ (R.ge (Real.sqrt_nonneg _))
    rw [mul_assoc, ← Real.sqrt_mul (pow_nonneg (by linarith) _)]
    exact mul_le_mul_of_nonneg_left (Real.sqrt_le_sqrt h1) (by linarith)
  · refine (R.le (Real.sqrt_nonneg _)).trans ?_
    rw [mul_assoc, ← Real.sqrt_mul (pow_nonneg (by linarith) _)]
    exact mul_le_mul_of_nonneg_left (Real.sqrt_le_sqrt h2) (by linarith)

/-- `distance` is within the factor `(1±u)²√((1±u)^n)` of the Euclidean distance, however close the two
points are. -/
theorem fp_distance_error [Libm R] (v w : Vec (FP R) n) :
    (1 - R.u) ^ 2 * √((1 - R.u) ^ n) * √(∑ i, ((v i).val - (w i).val) ^ 2) ≤ (distance v w).val ∧
    (distance v w).val ≤ (1 + R.u) ^ 2 * √((1 + R.u) ^ n) * √(∑ i, ((v i).val - (w i).val) ^ 2) := by
  have u0 := R.u_nonneg
  have u1 := R.u_lt
  unfold distance
  rw [lengthM_fp]
  obtain ⟨h1, h2⟩ := fp_length_error (sub w v)
  have e : ∀ i, (sub w v i).val = R.rnd ((w i).val - (v i).val) := by
    intro i; unfold sub; rw [vecOp_apply]; rfl
  simp only [e] at h1 h2
  have g1 : √((1 - R.u) ^ 2 * ∑ i, ((v i).val - (w i).val) ^ 2) ≤
      √(∑ i, R.rnd ((w i).val - (v i).val) ^ 2) := by
    refine Real.sqrt_le_sqrt ?_
    rw [Finset.mul_sum]
    refine Finset.sum_le_sum fun i _ => le_trans (le_of_eq ?_) (R.sq_ge _)
    ring
  have g2 : √(∑ i, R.rnd ((w i).val - (v i).val) ^ 2) ≤
      √((1 + R.u) ^ 2 * ∑ i, ((v i).val - (w i).val) ^ 2) := by
    refine Real.sqrt_le_sqrt ?_
    rw [Finset.mul_sum]
    refine Finset.sum_le_sum fun i _ => (R.sq_le _).trans (le_of_eq ?_)
    ring
  rw [Real.sqrt_mul (sq_nonneg _), Real.sqrt_sq (by linarith)] at g1
  rw [Real.sqrt_mul (sq_nonneg _), Real.sqrt_sq (by linarith)] at g2
  constructor
  · refine le_trans ?_ h1
    have := mul_le_mul_of_nonneg_left g1
      (mul_nonneg (show 0 ≤ 1 - R.u by linarith) (Real.sqrt_nonneg ((1 - R.u) ^ n)))
    refine le_trans (le_of_eq ?_) this
    ring
  · refine h2.trans ?_
    have := mul_le_mul_of_nonneg_left g2
      (mul_nonneg (show 0 ≤ 1 + R.u by linarith) (Real.sqrt_nonneg ((1 + R.u) ^ n)))
    refine this.trans (le_of_eq ?_)
    ring

/-- `normalize` (both forms) of a vector that is not zero: the result points in the direction of `v`, each
component being a positive multiple of the component of `v` up to one rounding, and its length is 1 up to
the stated factors. -/
theorem fp_normalize_error [Indet (FP R)] [Libm R] (v : Vec (FP R) n) (hv : ∃ i, (v i).val ≠ 0) :
    normalizeM v = normalize v ∧
    (∃ k : ℝ, 0 < k ∧ ∀ i, |(normalize v i).val - k * (v i).val| ≤ R.u * |k * (v i).val|) ∧
    (1 - R.u) ^ 2 / ((1 + R.u) * √((1 + R.u) ^ n)) ≤ √(∑ i, (normalize v i).val ^ 2) ∧
    √(∑ i, (normalize v i).val ^ 2) ≤ (1 + R.u) ^ 2 / ((1 - R.u) * √((1 - R.u) ^ n)) := by
  have u0 := R.u_nonneg
  have u1 := R.u_lt
  have hsum : 0 < ∑ i, (v i).val ^ 2 := by
    obtain ⟨i, hi⟩ := hv
    exact lt_of_lt_of_le (by positivity)
      (Finset.single_le_sum (f := fun i => (v i).val ^ 2) (fun j _ => sq_nonneg _) (Finset.mem_univ i))
  set N := √(∑ i, (v i).val ^ 2) with hN
  have hNpos : 0 < N := Real.sqrt_pos.mpr hsum
  obtain ⟨h1, h2⟩ := fp_length_error v
  rw [← hN] at h1 h2
  set l := (length v).val with hl
  have p1 : 0 < √((1 - R.u) ^ n) := Real.sqrt_pos.mpr (pow_pos (by linarith) n)
  have p2 : 0 < √((1 + R.u) ^ n) := Real.sqrt_pos.mpr (pow_pos (by linarith) n)
  have q1 : 0 < (1 - R.u) * √((1 - R.u) ^ n) := mul_pos (by linarith) p1
  have q2 : 0 < (1 + R.u) * √((1 + R.u) ^ n) := mul_pos (by linarith) p2
  have hlpos : 0 < l := lt_of_lt_of_le (mul_pos q1 hNpos) h1
  set k := R.rnd (1 / l) with hk
  have hinv : 0 < 1 / l := by positivity
  have k1 : (1 - R.u) * (1 / l) ≤ k := R.ge hinv.le
  have k2 : k ≤ (1 + R.u) * (1 / l) := R.le hinv.le
  have hkpos : 0 < k := lt_of_lt_of_le (mul_pos (by linarith) hinv) k1
  have e : ∀ i, (normalize v i).val = R.rnd ((v i).val * k) := by
    intro i; unfold normalize mulS; rw [vecOpS_apply]; rfl
  have s1 : √(((1 - R.u) * k) ^ 2 * ∑ i, (v i).val ^ 2) ≤ √(∑ i, (normalize v i).val ^ 2) := by
    refine Real.sqrt_le_sqrt ?_
    rw [Finset.mul_sum]
    refine Finset.sum_le_sum fun i _ => ?_
    rw [e]
    refine le_trans (le_of_eq ?_) (R.sq_ge _)
    ring
  have s2 : √(∑ i, (normalize v i).val ^ 2) ≤ √(((1 + R.u) * k) ^ 2 * ∑ i, (v i).val ^ 2) := by
    refine Real.sqrt_le_sqrt ?_
    rw [Finset.mul_sum]
    refine Finset.sum_le_sum fun i _ => ?_
    rw [e]
    refine (R.sq_le _).trans (le_of_eq ?_)
    ring
  rw [Real.sqrt_mul (sq_nonneg _), Real.sqrt_sq (mul_nonneg (by linarith) hkpos.le), ← hN] at s1 s2
  refine ⟨by unfold normalizeM normalize; rw [lengthM_fp], ⟨k, hkpos, fun i => ?_⟩, ?_, ?_⟩
  · rw [e, mul_comm k]; exact R.err _
  · refine le_trans ?_ s1
    rw [div_le_iff₀ q2]
    have a1 : (1 - R.u) * (1 / l) * l = 1 - R.u := by field_simp
    have a2 : 1 - R.u ≤ k * ((1 + R.u) * √((1 + R.u) ^ n) * N) := by
      calc 1 - R.u = (1 - R.u) * (1 / l) * l := a1.symm
        _ ≤ k * l := mul_le_mul_of_nonneg_right k1 hlpos.le
        _ ≤ _ := mul_le_mul_of_nonneg_left h2 hkpos.le
    calc (1 - R.u) ^ 2 = (1 - R.u) * (1 - R.u) := sq _
      _ ≤ (1 - R.u) * (k * ((1 + R.u) * √((1 + R.u) ^ n) * N)) := mul_le_mul_of_nonneg_left a2 (by linarith)
      _ = _ := by ring
  · refine s2.trans ?_
    rw [le_div_iff₀ q1]
    have a1 : (1 + R.u) * (1 / l) * l = 1 + R.u := by field_simp
    have a2 : k * ((1 - R.u) * √((1 - R.u) ^ n) * N) ≤ 1 + R.u := by
      calc k * ((1 - R.u) * √((1 - R.u) ^ n) * N) ≤ k * l := mul_le_mul_of_nonneg_left h1 hkpos.le
        _ ≤ (1 + R.u) * (1 / l) * l := mul_le_mul_of_nonneg_right k2 hlpos.le
        _ = _ := a1
    calc (1 + R.u) * k * N * ((1 - R.u) * √((1 - R.u) ^ n))
        = (1 + R.u) * (k * ((1 - R.u) * √((1 - R.u) ^ n) * N)) := by ring
      _ ≤ (1 + R.u) * (1 + R.u) := mul_le_mul_of_nonneg_left a2 (by linarith)
      _ = _ := by ring

/-- Products of matrices with vectors and matrices: every component is within `((1+u)^c - 1)` times the sum
of the magnitudes of its terms, `c` being the number of terms. -/
theorem fp_matrix_error [Indet (FP R)] {c r k : Nat} (a : Mat (FP R) c r) (b : Mat (FP R) k c)
    (v : Vec (FP R) c) :
    (∀ j, |(mulVec a v j).val - ∑ i, (a i j).val * (v i).val| ≤
      ((1 + R.u) ^ c - 1) * ∑ i, |(a i j).val * (v i).val|) ∧
    (∀ i j, |(mulMat a b i j).val - ∑ l, (a l j).val * (b i l).val| ≤
      ((1 + R.u) ^ c - 1) * ∑ l, |(a l j).val * (b i l).val|) := by
  rw [mulVec_dot, mulMat_dot]
  exact ⟨fun j => dot_err _ v, fun i j => dot_err _ (b i)⟩

/-- The error of the difference of two products. -/
theorem sub_mul_err (a b c d : FP R) :
    |(a * b - c * d).val - (a.val * b.val - c.val * d.val)| ≤
      ((1 + R.u) ^ 2 - 1) * (|a.val * b.val| + |c.val * d.val|) := by
  have h1 : |(a * b).val - a.val * b.val| ≤ ((1 + R.u) ^ 1 - 1) * |a.val * b.val| := by
    rw [pow_one, add_sub_cancel_left]; exact R.err _
  have h2 : |-(c * d).val - -(c.val * d.val)| ≤ R.u * |-(c.val * d.val)| := by
    rw [abs_neg, ← neg_sub', abs_neg]; exact R.err _
  have h3 : |(a * b - c * d).val - ((a * b).val + -(c * d).val)| ≤ R.u * |(a * b).val + -(c * d).val| := by
    rw [← sub_eq_add_neg]; exact R.err _
  have := step_err R.u_nonneg le_rfl h1 le_rfl h2 h3
  rw [abs_neg, ← sub_eq_add_neg] at this
  exact this

/-- `cross` and the 2x2 determinant: the error is at most `((1+u)² - 1)` times the sum of the magnitudes of
the two products. -/
theorem fp_cross_error (a b : Vec (FP R) 3) (m : Mat (FP R) 2 2) :
    (∀ i, |(cross a b i).val - ((a (i + 1)).val * (b (i + 2)).val - (a (i + 2)).val * (b (i + 1)).val)| ≤
      ((1 + R.u) ^ 2 - 1) * (|(a (i + 1)).val * (b (i + 2)).val| + |(a (i + 2)).val * (b (i + 1)).val|)) ∧
    |(det2 m).val - ((m 0 0).val * (m 1 1).val - (m 1 0).val * (m 0 1).val)| ≤
      ((1 + R.u) ^ 2 - 1) * (|(m 0 0).val * (m 1 1).val| + |(m 1 0).val * (m 0 1).val|) := by
  refine ⟨fun i => ?_, sub_mul_err _ _ _ _⟩
  fin_cases i <;> exact sub_mul_err _ _ _ _

/-- `lerp` is within `((1+u)³ - 1)` times the magnitudes of its two terms of the exact interpolation. -/
theorem fp_lerp_error (a b : Vec (FP R) n) (t : FP R) (i : Fin n) :
    |(lerp a b t i).val - ((b i).val * t.val + (a i).val * (1 - t.val))| ≤
      ((1 + R.u) ^ 3 - 1) * (|(b i).val * t.val| + |(a i).val * (1 - t.val)|) := by
  have u0 := R.u_nonneg
  simp only [lerp, add, mulS, vecOp_apply, vecOpS_apply]
  set x := (b i).val * t.val
  set y := (a i).val * (1 - t.val) with hy
  have hp : |(b i * t).val - x| ≤ R.u * |x| := R.err _
  have hd : |(1 - t : FP R).val - (1 - t.val)| ≤ R.u * |1 - t.val| := R.err _
  have hq : |(a i * (1 - t)).val - (a i).val * (1 - t : FP R).val| ≤ R.u * |(a i).val * (1 - t : FP R).val| :=
    R.err _
  have hs : |(b i * t + a i * (1 - t)).val - ((b i * t).val + (a i * (1 - t)).val)| ≤
      R.u * |(b i * t).val + (a i * (1 - t)).val| := R.err _
  have hd' : |(a i).val * (1 - t : FP R).val - y| ≤ R.u * |y| := by
    rw [hy, ← mul_sub, abs_mul, abs_mul]
    calc _ ≤ |(a i).val| * (R.u * |1 - t.val|) := mul_le_mul_of_nonneg_left hd (abs_nonneg _)
      _ = _ := by ring
  set z := (a i).val * (1 - t : FP R).val
  have hz : |z| ≤ (1 + R.u) * |y| := by
    have := abs_sub_abs_le_abs_sub z y; linarith
  have hqy : |(a i * (1 - t)).val - y| ≤ ((1 + R.u) ^ 2 - 1) * |y| := by
    have h1 := abs_add_le ((a i * (1 - t)).val - z) (z - y)
    rw [show (a i * (1 - t)).val - z + (z - y) = (a i * (1 - t)).val - y by ring] at h1
    have h2 : R.u * |z| ≤ R.u * ((1 + R.u) * |y|) := mul_le_mul_of_nonneg_left hz u0
    nlinarith
  have hw : |(a i * (1 - t)).val| ≤ (1 + R.u) ^ 2 * |y| := by
    have := abs_sub_abs_le_abs_sub (a i * (1 - t)).val y; linarith
  have hv : |(b i * t).val| ≤ (1 + R.u) * |x| := by
    have := abs_sub_abs_le_abs_sub (b i * t).val x; linarith
  have hsum := abs_add_le (b i * t).val (a i * (1 - t)).val
  have h1 := abs_add_le ((b i * t + a i * (1 - t)).val - ((b i * t).val + (a i * (1 - t)).val))
    (((b i * t).val - x) + ((a i * (1 - t)).val - y))
  have h2 := abs_add_le ((b i * t).val - x) ((a i * (1 - t)).val - y)
  rw [show (b i * t + a i * (1 - t)).val - ((b i * t).val + (a i * (1 - t)).val) +
    (((b i * t).val - x) + ((a i * (1 - t)).val - y)) = (b i * t + a i * (1 - t)).val - (x + y) by ring] at h1
  have h3 : R.u * |(b i * t).val + (a i * (1 - t)).val| ≤
      R.u * ((1 + R.u) * |x| + (1 + R.u) ^ 2 * |y|) := mul_le_mul_of_nonneg_left (by linarith) u0
  have hx := abs_nonneg x
  have hy := abs_nonneg y
  have h4 : ((1 + R.u) ^ 3 - 1) * (|x| + |y|) -
      (R.u * ((1 + R.u) * |x| + (1 + R.u) ^ 2 * |y|) + R.u * |x| + ((1 + R.u) ^ 2 - 1) * |y|) =
      ((1 + R.u) ^ 2 * R.u) * |x| := by ring
  have h5 : 0 ≤ ((1 + R.u) ^ 2 * R.u) * |x| := by positivity
  linarith

/-! ### The formats of the language, and what does not hold -/

/-- `float` and `double` are instances: unit roundoffs 2^-24 and 2^-53. -/
example : (nearestEven 24 (by norm_num)).u = (2 : ℝ) ^ (-24 : ℤ) ∧
    (nearestEven 53 (by norm_num)).u = (2 : ℝ) ^ (-53 : ℤ) := ⟨rfl, rfl⟩

/-- What the rounding does to particular numbers: with 2 digits, 5 lies in the middle between 4 and 6 and
goes to 4 (an even digit), 7 goes to 8. -/
theorem roundTo_five : roundTo 2 5 = 4 ∧ roundTo 2 7 = 8 ∧ roundTo 2 6 = 6 := by
  have h : ∀ x : ℝ, 4 ≤ x → x < 8 → roundTo 2 x = rne (x / 2) * 2 := by
    intro x h1 h2
    have : lastPlace 2 x = 1 := by
      unfold lastPlace
      rw [abs_of_pos (by linarith), log_of_binade (k := 2) (by norm_num; exact h1) (by norm_num; exact h2)]
      norm_num
    unfold roundTo
    rw [this, zpow_one]
  have hf : ∀ (k : ℤ), ⌊(k : ℝ) + 1 / 2⌋ = k := by
    intro k; rw [Int.floor_eq_iff]; constructor <;> linarith
  refine ⟨?_, ?_, ?_⟩
  · rw [h 5 (by norm_num) (by norm_num), show (5 : ℝ) / 2 = (2 : ℤ) + 1 / 2 by norm_num]
    unfold rne Int.fract
    rw [hf]; norm_num
  · rw [h 7 (by norm_num) (by norm_num), show (7 : ℝ) / 2 = (3 : ℤ) + 1 / 2 by norm_num]
    unfold rne Int.fract
    rw [hf]
    have : ¬Even (3 : ℤ) := by decide
    norm_num [this]
  · rw [h 6 (by norm_num) (by norm_num), show (6 : ℝ) / 2 = (3 : ℤ) by norm_num, rne_int]
    norm_num

/-- A library whose `sin` and `cos` are right at zero: the hypotheses on it can be met. -/
noncomputable instance exampleLibm (R : Rounding) : Libm R where
  sin x := .round R (Real.sin x.val)
  cos x := .round R (Real.cos x.val)
  sin_zero x h := by simp [FP.round, h, R.zero]
  cos_zero x h := by simp [FP.round, h, R.one]

/-- A vector with components 1 and 2 in any format; its normalisation is within the bounds, which is not
vacuous. -/
example (R : Rounding) : ∃ v : Vec (FP R) 2, (∃ i, (v i).val ≠ 0) ∧ (v 0).val = 1 ∧ (v 1).val = 2 :=
  ⟨![1, 2], ⟨0, by simp⟩, rfl, rfl⟩

/-- Sums of floating-point vectors are not associative, so the bounds above cannot all be zero: with two
digits, (4 + 1) + 1 is 4 but 4 + (1 + 1) is 6. -/
theorem fp_add_not_assoc : ∃ a b c : Vec (FP (nearestEven 2 (by norm_num))) 1,
    add (add a b) c ≠ add a (add b c) := by
  obtain ⟨h5, -, h6⟩ := roundTo_five
  have h4 : roundTo 2 4 = 4 := by
    have := roundTo_pow (p := 2) (by norm_num) 2
    norm_num at this; exact this
  have h2 : roundTo 2 (1 + 1) = 2 := by
    have := roundTo_pow (p := 2) (by norm_num) 1
    norm_num at this ⊢; exact this
  refine ⟨fun _ => ⟨4, h4⟩, fun _ => 1, fun _ => 1, fun h => ?_⟩
  have := congrArg FP.val (congrFun h 0)
  simp only [add, vecOp_apply] at this
  change roundTo 2 (roundTo 2 (4 + 1) + 1) = roundTo 2 (4 + roundTo 2 (1 + 1)) at this
  rw [h2, show (4 : ℝ) + 1 = 5 by norm_num, h5, show (4 : ℝ) + 1 = 5 by norm_num, h5,
    show (4 : ℝ) + 2 = 6 by norm_num, h6] at this
  norm_num at this

end Verif.Math
