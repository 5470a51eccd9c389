import Verif.Math.VectorLemmas
import Mathlib.Analysis.InnerProductSpace.PiL2
import Mathlib.LinearAlgebra.CrossProduct
import Mathlib.Tactic.Ring
import Mathlib.Tactic.Linarith
import Mathlib.Tactic.LinearCombination
import Mathlib.Tactic.FieldSimp

/-!
Properties of vectors (C59 - C65).  Everything is for vectors of every size `n`; the sizes 2, 3 and 4
go through the specialised templates, the others through the loops.
-/

set_option autoImplicit false

namespace Verif.Math

variable {n : Nat}

/-! ### C59: vector arithmetic -/

/-- C59, first part.  Every operator acts component by component: binary, compound (also when the right
operand is the object itself), with scalars, unary minus, conversion and fill. -/
theorem vector_componentwise {T : Type} [Field T] [Indet T] (a b : Vec T n) (s : T) (i : Fin n) :
    add a b i = a i + b i ∧ sub a b i = a i - b i ∧ mul a b i = a i * b i ∧ div a b i = a i / b i ∧
    mulS a s i = a i * s ∧ divS a s i = a i / s ∧ neg a i = -(a i) ∧
    vecSelfOp (· + ·) a (.other b) i = a i + b i ∧ vecSelfOp (· - ·) a (.other b) i = a i - b i ∧
    vecSelfOp (· * ·) a (.other b) i = a i * b i ∧ vecSelfOp (· / ·) a (.other b) i = a i / b i ∧
    vecSelfOp (· + ·) a .itself i = a i + a i ∧ vecSelfOp (· - ·) a .itself i = 0 ∧
    vecSelfOp (· * ·) a .itself i = a i * a i ∧
    vecSelfOpS (· * ·) a s i = a i * s ∧ vecSelfOpS (· / ·) a s i = a i / s ∧
    assign a i = a i ∧ (splat s : Vec T n) i = s := by
  refine ⟨?_, ?_, ?_, ?_, ?_, ?_, ?_, ?_, ?_, ?_, ?_, ?_, ?_, ?_, ?_, ?_, ?_, ?_⟩ <;>
    simp [add, sub, mul, div, mulS, divS, vecOp_apply, vecOpS_apply, neg_apply, vecSelfOp_apply,
      vecSelfOpS_apply, assign_apply, splat_apply, Operand.at]

/-- C59, second part.  The operators are those of the vector space `T^n` (Mathlib's functions `Fin n → T`), so
they obey its laws, which are spelled out. -/
theorem vector_space_laws {T : Type} [Field T] [Indet T] (a b c : Vec T n) (s t : T) :
    (add a b = a + b ∧ sub a b = a - b ∧ neg a = -a ∧ mulS a s = s • a ∧ (s ≠ 0 → divS a s = s⁻¹ • a) ∧
      (splat 0 : Vec T n) = 0) ∧
    add a b = add b a ∧ add (add a b) c = add a (add b c) ∧ add a (splat 0) = a ∧
    add a (neg a) = splat 0 ∧ sub a b = add a (neg b) ∧
    mulS (add a b) s = add (mulS a s) (mulS b s) ∧ mulS a (s + t) = add (mulS a s) (mulS a t) ∧
    mulS a (s * t) = mulS (mulS a s) t ∧ mulS a 1 = a ∧ (s ≠ 0 → mulS (divS a s) s = a) := by
  refine ⟨⟨add_eq a b, sub_eq a b, neg_eq a, mulS_eq a s, fun _ => divS_eq a s, ?_⟩, ?_, ?_, ?_, ?_, ?_, ?_, ?_, ?_, ?_, ?_⟩ <;>
    simp only [add_eq, sub_eq, neg_eq, mulS_eq, divS_eq, splat_apply]
  · rfl
  · exact add_comm _ _
  · exact add_assoc _ _ _
  · exact add_zero a
  · exact add_neg_cancel a
  · exact sub_eq_add_neg _ _
  · exact smul_add _ _ _
  · exact add_smul _ _ _
  · rw [smul_smul, mul_comm]
  · exact one_smul _ _
  · intro h; rw [smul_smul, mul_inv_cancel₀ h, one_smul]

/-- C59, third part.  `dot` is the sum of products; it is symmetric and bilinear. -/
theorem dot_bilinear {T : Type} [CommRing T] (a b c : Vec T n) (s : T) :
    dot a b = ∑ i, a i * b i ∧ dot a b = dot b a ∧ dot (add a b) c = dot a c + dot b c ∧
    dot (mulS a s) b = s * dot a b := by
  refine ⟨dot_eq a b, ?_, ?_, ?_⟩
  · rw [dot_eq, dot_eq]; exact Finset.sum_congr rfl fun i _ => mul_comm _ _
  · simp only [dot_eq, add_eq, ← Finset.sum_add_distrib]
    exact Finset.sum_congr rfl fun i _ => add_mul _ _ _
  · simp only [dot_eq, mulS_eq, Finset.mul_sum]
    exact Finset.sum_congr rfl fun i _ => by simp [mul_assoc]

/-- C59, fourth part.  Both length functions are the Euclidean norm, hence non-negative with square
`dot(v, v)`. -/
theorem length_sq (v : Vec ℝ n) :
    length v = ‖WithLp.toLp 2 v‖ ∧ lengthM v = ‖WithLp.toLp 2 v‖ ∧ length v ^ 2 = dot v v ∧ 0 ≤ length v := by
  have h1 : length v = ‖WithLp.toLp 2 v‖ := by
    rw [length_eq, EuclideanSpace.norm_eq]
    congr 1
    exact Finset.sum_congr rfl fun i _ => by simp [sq]
  refine ⟨h1, by rw [← h1, lengthM_eq, length_eq], ?_, Real.sqrt_nonneg _⟩
  rw [length_eq, dot_eq, Real.sq_sqrt]
  exact Finset.sum_nonneg fun i _ => mul_self_nonneg _

instance : Indet ℝ := ⟨fun _ => 0⟩

example : add ![(1 : ℝ), 2, 3] ![10, 20, 30] = ![11, 22, 33] := by
  rw [add_eq]; funext i; fin_cases i <;> simp <;> norm_num

example : length ![(3 : ℝ), 4] = 5 := by
  rw [length_eq, Fin.sum_univ_two, Real.sqrt_eq_iff_mul_self_eq] <;> norm_num

/-! ### C60: cross product -/

theorem dot_eq_dotProduct {T : Type} [CommRing T] (a b : Vec T n) : dot a b = a ⬝ᵥ b := dot_eq a b

/-- C60.  `cross` is the vector product; spelled out: it is orthogonal to its operands, antisymmetric, and
Lagrange's identity holds. -/
theorem cross_laws {T : Type} [CommRing T] (a b : Vec T 3) :
    cross a b = crossProduct a b ∧
    cross a b ⬝ᵥ a = 0 ∧ cross a b ⬝ᵥ b = 0 ∧ cross a b = -cross b a ∧
    cross a b ⬝ᵥ cross a b = (a ⬝ᵥ a) * (b ⬝ᵥ b) - (a ⬝ᵥ b) ^ 2 := by
  refine ⟨?_, ?_, ?_, ?_, ?_⟩
  · rw [cross_apply]; rfl
  · simp only [dotProduct, cross, Fin.sum_univ_three]; simp; ring
  · simp only [dotProduct, cross, Fin.sum_univ_three]; simp; ring
  · funext i; fin_cases i <;> simp [cross] <;> ring
  · simp only [dotProduct, cross, Fin.sum_univ_three]; simp; ring

/-- C60: the product is right-handed and linear. -/
theorem cross_right_handed {T : Type} [CommRing T] (a b c : Vec T 3) (s : T) :
    cross ![1, 0, 0] ![0, 1, 0] = (![0, 0, 1] : Vec T 3) ∧
    cross ![0, 1, 0] ![0, 0, 1] = (![1, 0, 0] : Vec T 3) ∧
    cross ![0, 0, 1] ![1, 0, 0] = (![0, 1, 0] : Vec T 3) ∧
    cross (a + b) c = cross a c + cross b c ∧ cross (s • a) b = s • cross a b := by
  refine ⟨?_, ?_, ?_, ?_, ?_⟩
  · funext i; fin_cases i <;> simp [cross]
  · funext i; fin_cases i <;> simp [cross]
  · funext i; fin_cases i <;> simp [cross]
  · funext i; fin_cases i <;> simp [cross] <;> ring
  · funext i; fin_cases i <;> simp [cross] <;> ring

example : cross ![1, 2, 3] ![4, 5, 6] = ![(-3 : ℤ), 6, -3] := by decide

/-! ### C61: normalize, distance -/

theorem length_norm (v : Vec ℝ n) : length v = ‖WithLp.toLp 2 v‖ := (length_sq v).1

theorem distance_norm (a b : Vec ℝ n) : distance a b = dist (WithLp.toLp 2 a) (WithLp.toLp 2 b) := by
  rw [dist_comm, dist_eq_norm, distance, (length_sq _).2.1, sub_eq]
  rfl

/-- C61, first part.  Both normalize functions give a vector of (Euclidean) length 1 in the direction of
`v`. -/
theorem normalize_unit (v : Vec ℝ n) (hv : v ≠ 0) :
    ‖WithLp.toLp 2 (normalize v)‖ = 1 ∧ (∃ k : ℝ, 0 < k ∧ normalize v = k • v) ∧
    ‖WithLp.toLp 2 v‖ • normalize v = v ∧ normalizeM v = normalize v := by
  have hne : WithLp.toLp 2 v ≠ 0 := fun h => hv (by simpa using congrArg WithLp.ofLp h)
  have hpos : 0 < length v := by rw [length_norm]; exact norm_pos_iff.mpr hne
  refine ⟨?_, ⟨1 / length v, by positivity, by rw [normalize, mulS_eq]⟩, ?_, ?_⟩
  · rw [normalize, mulS_eq, WithLp.toLp_smul, norm_smul, ← length_norm, Real.norm_eq_abs,
      abs_of_pos (by positivity)]
    field_simp
  · rw [← length_norm, normalize, mulS_eq, smul_smul, mul_one_div_cancel hpos.ne', one_smul]
  · rw [normalizeM, normalize, (length_sq v).2.1, ← length_norm]

example : (![(3 : ℝ), 4]) ≠ 0 := fun h => by simpa using congrFun h 0

/-- C61, second part.  `distance` is the Euclidean distance, and so a metric. -/
theorem distance_metric (a b c : Vec ℝ n) :
    distance a b = dist (WithLp.toLp 2 a) (WithLp.toLp 2 b) ∧
    0 ≤ distance a b ∧ (distance a b = 0 ↔ a = b) ∧ distance a b = distance b a ∧
    distance a c ≤ distance a b + distance b c := by
  simp only [distance_norm]
  refine ⟨trivial, dist_nonneg, ?_, dist_comm _ _, dist_triangle _ _ _⟩
  rw [dist_eq_zero]
  exact ⟨fun h => by simpa using congrArg WithLp.ofLp h, fun h => by rw [h]⟩

/-! ### C62: reflect -/

theorem reflect_eq {T : Type} [CommRing T] (v k : Vec T n) : reflect v k = v - (2 * dot v k) • k := by
  rw [reflect, sub_eq, mulS_eq, mulS_eq, smul_smul]

theorem dot_sub_smul {T : Type} [CommRing T] (v k u : Vec T n) (s : T) :
    dot (v - s • k) u = dot v u - s * dot k u := by
  simp only [dot_eq, Finset.mul_sum, ← Finset.sum_sub_distrib]
  exact Finset.sum_congr rfl fun i _ => by simp; ring

/-- C62.  For a unit normal `k`: `reflect` is an involution, keeps scalar products (hence lengths), fixes the
vectors orthogonal to `k` and negates `k`. -/
theorem reflect_laws {T : Type} [CommRing T] (k v u : Vec T n) (hk : k ⬝ᵥ k = 1) :
    reflect (reflect v k) k = v ∧ reflect v k ⬝ᵥ reflect u k = v ⬝ᵥ u ∧
    (v ⬝ᵥ k = 0 → reflect v k = v) ∧ reflect k k = -k := by
  simp only [← dot_eq_dotProduct] at hk ⊢
  refine ⟨?_, ?_, ?_, ?_⟩
  · rw [reflect_eq, reflect_eq, dot_sub_smul, hk, sub_sub, ← add_smul]
    have : 2 * dot v k + 2 * (dot v k - 2 * dot v k * 1) = 0 := by ring
    rw [this, zero_smul, sub_zero]
  · rw [reflect_eq, dot_sub_smul, (dot_bilinear v _ v 0).2.1, (dot_bilinear k _ k 0).2.1, reflect_eq,
      dot_sub_smul, dot_sub_smul, hk, (dot_bilinear u v v 0).2.1, (dot_bilinear k v v 0).2.1,
      (dot_bilinear u k v 0).2.1]
    ring
  · intro h; rw [reflect_eq, h, mul_zero, zero_smul, sub_zero]
  · rw [reflect_eq, hk, mul_one, two_smul]; abel

example : ![(3 / 5 : ℝ), 4 / 5] ⬝ᵥ ![3 / 5, 4 / 5] = 1 := by
  simp only [dotProduct, Fin.sum_univ_two]; norm_num

/-! ### C63: faceforward -/

section Ordered

variable {T : Type} [Field T] [LinearOrder T] [IsStrictOrderedRing T] [Indet T]

omit [IsStrictOrderedRing T] in
/-- C63, the part that holds: away from `dot(n, i) = 0`, `faceforward` returns `-v` for a positive dot
product and `v` for a negative one.  Missing: the documented `v` when the dot product is 0. -/
theorem faceforward_partial (v i k : Vec T n) (h : i ⬝ᵥ k ≠ 0) :
    faceforward v i k = if 0 < i ⬝ᵥ k then -v else v := by
  rw [← dot_eq_dotProduct] at *
  rw [faceforward, (dot_bilinear k i v 0).2.1, neg_eq]
  rcases lt_or_gt_of_ne h with h | h
  · rw [if_pos h, if_neg (not_lt.mpr h.le)]
  · rw [if_neg (not_lt.mpr h.le), if_pos h]

/-- C63 is false: when the dot product is 0, which is "otherwise", the code returns `-v`; for every
non-zero `v` that differs from the documented result. -/
theorem faceforward_wrong_at_zero (v i k : Vec T n) (h : i ⬝ᵥ k = 0) (hv : v ≠ 0) :
    faceforward v i k = -v ∧ faceforward v i k ≠ if 0 < i ⬝ᵥ k then -v else v := by
  have h1 : faceforward v i k = -v := by
    rw [← dot_eq_dotProduct] at h
    rw [faceforward, (dot_bilinear k i v 0).2.1, h, if_neg (lt_irrefl _), neg_eq]
  refine ⟨h1, ?_⟩
  rw [h1, h, if_neg (lt_irrefl _)]
  intro e
  apply hv
  funext j
  have := congrFun e j
  simp only [Pi.neg_apply, Pi.zero_apply] at this ⊢
  linarith

example : ![(1 : ℝ), 0] ⬝ᵥ ![0, 1] = 0 ∧ ![(1 : ℝ), 0] ⬝ᵥ ![1, 1] ≠ 0 := by
  simp [dotProduct, Fin.sum_univ_two]

/-! ### C64: lerp -/

/-- C64.  Both forms of `lerp`: end points, containment, and affinity in the parameter. -/
theorem lerp_laws (a b : Vec T n) (t : T) (ts : Vec T n) (i : Fin n) :
    lerp a b 0 = a ∧ lerp a b 1 = b ∧
    (0 ≤ t → t ≤ 1 → min (a i) (b i) ≤ lerp a b t i ∧ lerp a b t i ≤ max (a i) (b i)) ∧
    lerp a b t i = a i + t * (b i - a i) ∧
    lerpV a b ts i = a i + ts i * (b i - a i) ∧ lerp a a t = a := by
  have key : ∀ (a b : Vec T n) (t : T) (i : Fin n), lerp a b t i = a i + t * (b i - a i) := by
    intro a b t i
    rw [lerp, add_eq, mulS_eq, mulS_eq]
    simp only [Pi.add_apply, Pi.smul_apply, smul_eq_mul]; ring
  refine ⟨?_, ?_, fun h0 h1 => ?_, key a b t i, ?_, ?_⟩
  · funext j; rw [key]; ring
  · funext j; rw [key]; ring
  · rw [key]
    rcases le_total (a i) (b i) with h | h
    · rw [min_eq_left h, max_eq_right h]
      constructor <;> nlinarith [mul_nonneg h0 (sub_nonneg.mpr h)]
    · rw [min_eq_right h, max_eq_left h]
      constructor <;> nlinarith [mul_nonneg h0 (sub_nonneg.mpr h)]
  · rw [lerpV, forLoop_store]; ring
  · funext j; rw [key]; ring

omit [LinearOrder T] [IsStrictOrderedRing T] in
/-- C64 with booleans: `lerp` selects. -/
theorem lerp_bool (a b : Vec T n) (p : Bool) (ps : Vec Bool n) (i : Fin n) :
    lerpB a b p = (if p then b else a) ∧ lerpB a b p = lerp a b (if p then 1 else 0) ∧
    lerpVB a b ps i = if ps i then b i else a i := by
  refine ⟨?_, ?_, ?_⟩
  · cases p <;> simp [lerpB]
  · cases p <;> simp [lerpB, lerp, add_eq, mulS_eq]
  · rw [lerpVB, forLoop_store]

/-! ### C65: sign -/

omit [Indet T] in
/-- C65.  `sign` on scalars. -/
theorem sign_laws (x : T) :
    (sign x = -1 ↔ x < 0) ∧ (sign x = 0 ↔ x = 0) ∧ (sign x = 1 ↔ 0 < x) ∧ x = sign x * |x| := by
  have h1 : (1 : T) ≠ -1 := by intro h; have : (0:T) < 1 := zero_lt_one; linarith
  rcases lt_trichotomy x 0 with h | h | h
  · have : sign x = -1 := by simp [sign, ofBool, h, not_lt.mpr h.le]
    rw [this, abs_of_neg h]
    refine ⟨by simp [h], by simp [h.ne], ?_, by ring⟩
    simp [h1.symm, not_lt.mpr h.le]
  · have : sign x = 0 := by simp [sign, ofBool, h]
    rw [this, h]; simp
  · have : sign x = 1 := by simp [sign, ofBool, h, not_lt.mpr h.le]
    rw [this, abs_of_pos h]
    refine ⟨?_, by simp [h.ne'], by simp [h], by ring⟩
    simp [h1, not_lt.mpr h.le]

omit [IsStrictOrderedRing T] in
/-- C65 on vectors. -/
theorem signV_componentwise (v : Vec T n) (i : Fin n) : signV v i = sign (v i) := by
  rw [signV, forLoop_store]

end Ordered

/-- C65 for integers. -/
theorem sign_int (x : Int) : sign x = Int.sign x := by
  rcases lt_trichotomy x 0 with h | h | h
  · simp [sign, ofBool, h, not_lt.mpr h.le, Int.sign_eq_neg_one_of_neg h]
  · subst h; rfl
  · simp [sign, ofBool, h, not_lt.mpr h.le, Int.sign_eq_one_of_pos h]

end Verif.Math
