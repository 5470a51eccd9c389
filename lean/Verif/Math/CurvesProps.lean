import Verif.Math.Curves
import Verif.Math.IeeeProps
import Verif.Math.IeeeSpecialProps
import Mathlib.Algebra.Polynomial.AlgebraMap
import Mathlib.Data.Nat.Choose.Sum
import Mathlib.Analysis.Calculus.Deriv.Mul
import Mathlib.Analysis.Calculus.Deriv.Add

/-! C173: curves by repeated `lerp`. -/

set_option autoImplicit false

namespace Verif.Math

variable {T : Type} {n : Nat}

/-! ### The triangle of points -/

/-- The points of the triangle, from their definition. -/
def tri [Zero T] [One T] [Add T] [Sub T] [Mul T] (t : T) : Nat → (Nat → Vec T n) → Nat → Vec T n
  | 0, p, j => p j
  | k + 1, p, j => lerp (tri t k p j) (tri t k p (j + 1)) t

section
variable [Zero T] [One T] [Add T] [Sub T] [Mul T] (t : T)

theorem tri_succ (k : Nat) : ∀ (p : Nat → Vec T n) (j : Nat), tri t (k + 1) p j = tri t k (fun j => lerp (p j) (p (j + 1)) t) j := by
  induction k with
  | zero => intro p j; rfl
  | succ k ih => intro p j; rw [tri, ih, ih]; rfl

theorem tri_congr (k : Nat) : ∀ (p q : Nat → Vec T n) (j : Nat), (∀ l, j ≤ l → l ≤ j + k → p l = q l) → tri t k p j = tri t k q j := by
  induction k with
  | zero => intro p q j h; exact h j le_rfl le_rfl
  | succ k ih =>
    intro p q j h
    rw [tri, tri, ih p q j fun l h1 h2 => h l h1 (by omega), ih p q (j + 1) fun l h1 h2 => h l (by omega) (by omega)]

theorem casteljauRow_apply (m : Nat) : ∀ (i : Nat) (p : Nat → Vec T n) (j : Nat), casteljauRow t m i p j =
    if i ≤ j ∧ j < i + m then lerp (p j) (p (j + 1)) t else p j := by
  induction m with
  | zero => intro i p j; rw [if_neg (by omega)]; rfl
  | succ m ih =>
    intro i p j
    rw [casteljauRow, ih]
    by_cases e : j = i
    · subst e; rw [if_neg (by omega), if_pos (by omega), Function.update_self]
    · rw [Function.update_of_ne e]
      by_cases h : i + 1 ≤ j ∧ j < i + 1 + m
      · rw [if_pos h, if_pos (by omega), Function.update_of_ne (by omega)]
      · rw [if_neg h, if_neg (by omega)]

theorem tri_row (k d : Nat) (p : Nat → Vec T n) (j : Nat) (h : j + k < d) : tri t k (casteljauRow t d 0 p) j = tri t (k + 1) p j := by
  rw [tri_succ]
  refine tri_congr t k _ _ j fun l h1 h2 => ?_
  rw [casteljauRow_apply, if_pos (by omega)]

theorem casteljau_tri (d : Nat) : ∀ p : Nat → Vec T n, casteljau t d p = tri t d p 0 := by
  induction d with
  | zero => intro p; rfl
  | succ d ih => intro p; rw [casteljau, ih, tri_row t d (d + 1) p 0 (by omega)]

theorem split_tri (d : Nat) : ∀ (k : Nat) (p l r : Nat → Vec T n),
    (∀ j, (splitLoop t d k p l r).1 j = if k ≤ j ∧ j ≤ k + d then tri t (j - k) p 0 else l j) ∧
    (∀ j, (splitLoop t d k p l r).2 j = if j ≤ d then tri t (d - j) p j else r j) := by
  induction d with
  | zero =>
    intro k p l r
    refine ⟨fun j => ?_, fun j => ?_⟩
    · show Function.update l k (p 0) j = _
      by_cases e : j = k
      · subst e; rw [Function.update_self, if_pos (by omega), Nat.sub_self]; rfl
      · rw [Function.update_of_ne e, if_neg (by omega)]
    · show Function.update r 0 (p 0) j = _
      by_cases e : j = 0
      · subst e; rw [Function.update_self, if_pos le_rfl]; rfl
      · rw [Function.update_of_ne e, if_neg (by omega)]
  | succ d ih =>
    intro k p l r
    obtain ⟨i1, i2⟩ := ih (k + 1) (casteljauRow t (d + 1) 0 p) (Function.update l k (p 0)) (Function.update r (d + 1) (p (d + 1)))
    refine ⟨fun j => ?_, fun j => ?_⟩
    · rw [splitLoop, i1]
      by_cases e : j = k
      · subst e; rw [if_neg (by omega), if_pos (by omega), Function.update_self, Nat.sub_self]; rfl
      · rw [Function.update_of_ne e]
        by_cases h : k + 1 ≤ j ∧ j ≤ k + 1 + d
        · rw [if_pos h, if_pos (by omega), tri_row t _ _ _ _ (by omega), show j - (k + 1) + 1 = j - k by omega]
        · rw [if_neg h, if_neg (by omega)]
    · rw [splitLoop, i2]
      by_cases e : j = d + 1
      · subst e; rw [if_neg (by omega), if_pos (by omega), Function.update_self, Nat.sub_self]; rfl
      · rw [Function.update_of_ne e]
        by_cases h : j ≤ d
        · rw [if_pos h, if_pos (by omega), tri_row t _ _ _ _ (by omega), show d - j + 1 = d + 1 - j by omega]
        · rw [if_neg h, if_neg (by omega)]

theorem lerp_apply' (a b : Vec T n) (i : Fin n) : lerp a b t i = b i * t + a i * (1 - t) := by
  simp only [lerp, add, mulS, vecOp_apply, vecOpS_apply]

end

/-! ### Polynomials in the shift -/

section
open Polynomial
variable [CommRing T]

/-- The shift of a sequence. -/
def shift : Module.End T (Nat → T) where
  toFun f j := f (j + 1)
  map_add' _ _ := rfl
  map_smul' _ _ := rfl

/-- The value of a polynomial in the shift, at the first place. -/
noncomputable def at0 (P : Nat → T) (f : T[X]) : T := (aeval (shift (T := T)) f) P 0

theorem at0_add (P : Nat → T) (f g : T[X]) : at0 P (f + g) = at0 P f + at0 P g := by
  simp [at0]

theorem at0_C (P : Nat → T) (a : T) (f : T[X]) : at0 P (C a * f) = a * at0 P f := by
  simp [at0]

theorem at0_sum (P : Nat → T) (s : Finset Nat) (f : Nat → T[X]) : at0 P (∑ i ∈ s, f i) = ∑ i ∈ s, at0 P (f i) := by
  simp [at0]

theorem at0_X (P : Nat → T) (j : Nat) : at0 P (X ^ j) = P j := by
  have key : ∀ (j : Nat) (P : Nat → T) (i : Nat), ((shift (T := T)) ^ j) P i = P (i + j) := by
    intro j
    induction j with
    | zero => intro P i; rfl
    | succ j ih => intro P i; rw [pow_succ', Module.End.mul_apply]; show (shift ^ j) P (i + 1) = _; rw [ih]; congr 1; omega
  simp [at0, key]

theorem at0_pow (P : Nat → T) (a b : T) (d : Nat) :
    at0 P ((C a + C b * X) ^ d) = ∑ m ∈ Finset.range (d + 1), (d.choose m : T) * (b ^ m * a ^ (d - m)) * P m := by
  rw [add_comm, add_pow, at0_sum]
  refine Finset.sum_congr rfl fun m _ => ?_
  have : ((C b * X) ^ m * C a ^ (d - m) * (d.choose m : T[X])) = C ((d.choose m : T) * (b ^ m * a ^ (d - m))) * X ^ m := by
    simp only [C_mul, C_pow, mul_pow, map_natCast]
    ring
  rw [this, at0_C, at0_X]

theorem tri_poly (t : T) (p : Nat → Vec T n) (i : Fin n) (k : Nat) : ∀ j,
    tri t k p j i = at0 (fun l => p l i) (X ^ j * (C (1 - t) + C t * X) ^ k) := by
  induction k with
  | zero => intro j; rw [pow_zero, mul_one, at0_X]; rfl
  | succ k ih =>
    intro j
    rw [tri, lerp_apply', ih, ih, mul_comm _ t, mul_comm _ (1 - t), ← at0_C, ← at0_C, ← at0_add]
    congr 1
    ring

end

/-! ### The curve -/

/-- C173. The scheme gives the curve of Bernstein: point `i` of `d + 1` has weight `binomial(d, i) t^i (1-t)^(d-i)`. -/
theorem casteljau_bernstein [CommRing T] (t : T) (d : Nat) (p : Nat → Vec T n) (i : Fin n) :
    casteljau t d p i = ∑ m ∈ Finset.range (d + 1), (d.choose m : T) * (t ^ m * (1 - t) ^ (d - m)) * p m i := by
  rw [casteljau_tri, tri_poly, pow_zero, one_mul, at0_pow]

/-- C173. The ends of the curve, and the curve the other way round. -/
theorem casteljau_ends [CommRing T] (t : T) (d : Nat) (p : Nat → Vec T n) :
    casteljau 0 d p = p 0 ∧ casteljau 1 d p = p d ∧
    casteljau (1 - t) d (fun i => p (d - i)) = casteljau t d p := by
  refine ⟨funext fun i => ?_, funext fun i => ?_, funext fun i => ?_⟩
  · rw [casteljau_bernstein, Finset.sum_eq_single 0]
    · simp
    · intro m _ hm; simp [hm]
    · simp
  · rw [casteljau_bernstein, Finset.sum_eq_single d]
    · simp
    · intro m hm hd
      rw [Finset.mem_range] at hm
      rw [sub_self, zero_pow (by omega)]; simp
    · simp
  · rw [casteljau_bernstein, casteljau_bernstein, ← Finset.sum_range_reflect]
    refine Finset.sum_congr rfl fun m hm => ?_
    have hm : m ≤ d := by rw [Finset.mem_range] at hm; omega
    rw [show d + 1 - 1 - m = d - m by omega, Nat.choose_symm hm, Nat.sub_sub_self hm]
    ring

/-- C173. Moving the points moves the curve: with a matrix and a vector, or by a projection onto fewer components. -/
theorem casteljau_affine [CommRing T] [Indet T] {r : Nat} (t : T) (d : Nat) (p : Nat → Vec T n) (m : Mat T n r) (v : Vec T r) :
    casteljau t d (fun i => add (mulVec m (p i)) v) = add (mulVec m (casteljau t d p)) v := by
  rw [casteljau_tri, casteljau_tri]
  have key : ∀ (k j : Nat), tri t k (fun i => add (mulVec m (p i)) v) j = add (mulVec m (tri t k p j)) v := by
    intro k
    induction k with
    | zero => intro j; rfl
    | succ k ih =>
      intro j
      rw [tri, tri, ih, ih]
      funext l
      have e : ∑ x, m x l * (tri t k p (j + 1) x * t + tri t k p j x * (1 - t)) =
          (∑ x, m x l * tri t k p (j + 1) x) * t + (∑ x, m x l * tri t k p j x) * (1 - t) := by
        rw [Finset.sum_mul, Finset.sum_mul, ← Finset.sum_add_distrib]
        exact Finset.sum_congr rfl fun x _ => by ring
      simp only [lerp_apply', add, vecOp_apply, mulVec_apply]
      rw [e]; ring
  exact key d 0

/-- C173. The curve stays in every half-space that the points are in. -/
theorem casteljau_hull [Field T] [LinearOrder T] [IsStrictOrderedRing T] {t : T} (h0 : 0 ≤ t) (h1 : t ≤ 1) (d : Nat)
    (p : Nat → Vec T n) (w : Vec T n) (c : T) (h : ∀ i ≤ d, ∑ l, w l * p i l ≤ c) :
    ∑ l, w l * casteljau t d p l ≤ c := by
  rw [casteljau_tri]
  have key : ∀ (k j : Nat), j + k ≤ d → ∑ l, w l * tri t k p j l ≤ c := by
    intro k
    induction k with
    | zero => intro j hj; exact h j hj
    | succ k ih =>
      intro j hj
      have e : ∑ l, w l * tri t (k + 1) p j l = t * ∑ l, w l * tri t k p (j + 1) l + (1 - t) * ∑ l, w l * tri t k p j l := by
        rw [Finset.mul_sum, Finset.mul_sum, ← Finset.sum_add_distrib]
        refine Finset.sum_congr rfl fun l _ => ?_
        rw [tri, lerp_apply']; ring
      rw [e]
      have := mul_le_mul_of_nonneg_left (ih (j + 1) (by omega)) h0
      have := mul_le_mul_of_nonneg_left (ih j (by omega)) (sub_nonneg.mpr h1)
      linarith
  exact key d 0 (by omega)

/-- C173. Cutting a curve at `t`: the points met on the way are those of the two pieces. The first piece is the curve from 0 to `t`,
the second the curve from `t` to 1; `l` and `r` are the arrays for the pieces, with anything in them before. -/
theorem casteljau_split [CommRing T] (s t : T) (d : Nat) (p l r : Nat → Vec T n) :
    casteljau s d (splitLoop t d 0 p l r).1 = casteljau (s * t) d p ∧
    casteljau s d (splitLoop t d 0 p l r).2 = casteljau (t + s * (1 - t)) d p := by
  obtain ⟨h1, h2⟩ := split_tri t d 0 p l r
  open Polynomial in
  constructor
  · rw [casteljau_tri, casteljau_tri, tri_congr s d _ (fun j => tri t j p 0) 0 (fun j _ hj => by
      rw [h1 j, if_pos (by omega), Nat.sub_zero])]
    funext i
    have key : ∀ k j, tri s k (fun j => tri t j p 0) j i =
        at0 (fun l => p l i) ((C (1 - t) + C t * X) ^ j * (C (1 - s) + C s * (C (1 - t) + C t * X)) ^ k) := by
      intro k
      induction k with
      | zero => intro j; rw [pow_zero, mul_one]; show tri t j p 0 i = _; rw [tri_poly, pow_zero, one_mul]
      | succ k ih =>
        intro j
        rw [tri, lerp_apply', ih, ih, mul_comm _ s, mul_comm _ (1 - s), ← at0_C, ← at0_C, ← at0_add]
        congr 1
        ring
    rw [key, tri_poly]
    congr 1
    simp only [C_sub, C_mul, C_1]
    ring
  · rw [casteljau_tri, casteljau_tri, tri_congr s d _ (fun j => tri t (d - j) p j) 0 (fun j _ hj => by
      rw [h2 j, if_pos (by omega)])]
    funext i
    have key : ∀ k j, j + k ≤ d → tri s k (fun j => tri t (d - j) p j) j i =
        at0 (fun l => p l i) (X ^ j * (C (1 - t) + C t * X) ^ (d - j - k) *
          (C (1 - s) * (C (1 - t) + C t * X) + C s * X) ^ k) := by
      intro k
      induction k with
      | zero => intro j _; rw [pow_zero, mul_one, Nat.sub_zero]; show tri t (d - j) p j i = _; rw [tri_poly]
      | succ k ih =>
        intro j hj
        rw [tri, lerp_apply', ih _ (by omega), ih _ (by omega), mul_comm _ s, mul_comm _ (1 - s), ← at0_C, ← at0_C, ← at0_add]
        congr 1
        rw [show d - j - k = d - j - (k + 1) + 1 by omega, show d - (j + 1) - k = d - j - (k + 1) by omega]
        ring
    rw [key d 0 (by omega), tri_poly]
    congr 1
    rw [Nat.sub_zero, Nat.sub_self]
    simp only [C_sub, C_add, C_mul, C_1]
    ring

/-- C173. The velocity: the curve of the differences of the points, times their number. -/
theorem casteljau_deriv (t : ℝ) (d : Nat) (p : Nat → Vec ℝ n) (i : Fin n) :
    HasDerivAt (fun t => casteljau t (d + 1) p i) ((d + 1) * casteljau t d (fun j => sub (p (j + 1)) (p j)) i) t := by
  have lin : ∀ (k j : Nat), tri t k (fun j => sub (p (j + 1)) (p j)) j i = tri t k p (j + 1) i - tri t k p j i := by
    intro k
    induction k with
    | zero => intro j; simp [tri, sub, vecOp_apply]
    | succ k ih =>
      intro j
      rw [tri, tri, tri, lerp_apply', lerp_apply', lerp_apply', ih, ih]; ring
  have key : ∀ (k j : Nat), HasDerivAt (fun t => tri t k p j i) (k * (tri t (k - 1) p (j + 1) i - tri t (k - 1) p j i)) t := by
    intro k
    induction k with
    | zero => intro j; simpa [tri] using hasDerivAt_const t (p j i)
    | succ k ih =>
      intro j
      have e : (fun t => tri t (k + 1) p j i) = fun t => tri t k p (j + 1) i * t + tri t k p j i * (1 - t) := by
        funext t; rw [tri, lerp_apply']
      rw [e]
      have := ((ih (j + 1)).mul (hasDerivAt_id t)).add ((ih j).mul ((hasDerivAt_const t (1 : ℝ)).sub (hasDerivAt_id t)))
      refine this.congr_deriv ?_
      simp only [Pi.sub_apply, id, Nat.add_sub_cancel, Nat.cast_add, Nat.cast_one]
      cases k with
      | zero => simp; ring
      | succ k =>
        have e' : ∀ j, tri t (k + 1) p j i = tri t k p (j + 1) i * t + tri t k p j i * (1 - t) := fun j => by
          rw [tri, lerp_apply']
        simp only [Nat.add_sub_cancel, e', Nat.cast_add, Nat.cast_one]
        ring
  have := key (d + 1) 0
  rw [casteljau_tri, lin]
  simp only [casteljau_tri]
  refine this.congr_deriv ?_
  simp

/-! ### Floating point -/

/-- C173. In floating point the ends are exact, and every point of the curve is off by at most `((1+u)^(3d) - 1)` times the sum of the
magnitudes. -/
theorem casteljau_float {R : Rounding} (t : FP R) (d : Nat) (p : Nat → Vec (FP R) n) (i : Fin n) :
    casteljau (0 : FP R) d p = p 0 ∧ casteljau (1 : FP R) d p = p d ∧
    |(casteljau t d p i).val -
        ∑ m ∈ Finset.range (d + 1), (d.choose m : ℝ) * (t.val ^ m * (1 - t.val) ^ (d - m)) * (p m i).val| ≤
      ((1 + R.u) ^ (3 * d) - 1) *
        ∑ m ∈ Finset.range (d + 1), (d.choose m : ℝ) * (|t.val| ^ m * |1 - t.val| ^ (d - m)) * |(p m i).val| := by
  have l0 : ∀ a b : Vec (FP R) n, lerp a b 0 = a := fun a b => by
    funext j; rw [lerp_apply', FP.mulZero, FP.subZero, FP.mulOne, FP.zeroAdd]
  have l1 : ∀ a b : Vec (FP R) n, lerp a b 1 = b := fun a b => by
    funext j; rw [lerp_apply', FP.mulOne, FP.subSelf, FP.mulZero, FP.addZero]
  refine ⟨?_, ?_, ?_⟩
  · rw [casteljau_tri]
    induction d with
    | zero => rfl
    | succ d ih => rw [tri, l0, ih]
  · rw [casteljau_tri]
    have : ∀ k j, tri (1 : FP R) k p j = p (j + k) := by
      intro k
      induction k with
      | zero => intro j; rfl
      | succ k ih => intro j; rw [tri, l1, ih]; congr 1; omega
    rw [this, Nat.zero_add]
  · -- the exact curve and the curve of the magnitudes
    have key : ∀ k j, Approx (tri t k p j i) (tri t.val k (fun l (_ : Fin 1) => (p l i).val) j 0)
        ((Polynomial.aeval (shift (T := ℝ)) ((Polynomial.C |1 - t.val| + Polynomial.C |t.val| * Polynomial.X) ^ k))
          (fun l => |(p l i).val|) j) (3 * k) := by
      intro k
      induction k with
      | zero => intro j; simpa [tri] using Approx.exact (p j i)
      | succ k ih =>
        intro j
        rw [tri, tri, lerp_apply', lerp_apply']
        have h1 : Approx (1 - t) (1 - t.val) |1 - t.val| 1 := ⟨by
          have := R.err (1 - t.val)
          rw [FP.val_sub, FP.val_one]
          simpa using this, le_rfl⟩
        have := ((ih (j + 1)).mul (Approx.exact t)).mono (show _ ≤ 3 * k + 2 by omega) le_rfl |>.add
          (((ih j).mul h1).mono (show _ ≤ 3 * k + 2 by omega) le_rfl)
        refine (this.mono (by omega) (le_of_eq ?_))
        rw [pow_succ' _ k, map_mul, Module.End.mul_apply]
        generalize (Polynomial.aeval (shift (T := ℝ))) ((Polynomial.C |1 - t.val| + Polynomial.C |t.val| * Polynomial.X) ^ k)
          (fun l => |(p l i).val|) = f
        simp [shift]
        ring
    have k0 := (key d 0).err
    rw [casteljau_tri]
    have e1 := casteljau_bernstein t.val d (fun l (_ : Fin 1) => (p l i).val) 0
    rw [casteljau_tri] at e1
    rw [e1] at k0
    exact k0.trans (le_of_eq (congrArg _ (at0_pow _ _ _ d)))

/-- C173. The same for the values of an IEEE type: with finite points the ends are the first and the last point, up to the sign of a
zero, and where no exception is raised the point of the curve is finite and as close as said. -/
theorem casteljau_ieee {F : Format} [ILibm F] (t : IVal F) (ht : t.Finite) (d : Nat) (p : Nat → Vec (IVal F) n)
    (hp : ∀ l i, (p l i).Finite) (i : Fin n) :
    IVal.Same (casteljau (0 : IVal F) d p i) (p 0 i) ∧ IVal.Same (casteljau (1 : IVal F) d p i) (p d i) ∧
    (¬(casteljau (.input t) d (fun l => ins (p l)) i).raised → (casteljau t d p i).Finite ∧
      |(casteljau t d p i).toReal -
          ∑ m ∈ Finset.range (d + 1), (d.choose m : ℝ) * (t.toReal ^ m * (1 - t.toReal) ^ (d - m)) * (p m i).toReal| ≤
        ((1 + F.u) ^ (3 * d) - 1) *
          ∑ m ∈ Finset.range (d + 1), (d.choose m : ℝ) * (|t.toReal| ^ m * |1 - t.toReal| ^ (d - m)) * |(p m i).toReal|) := by
  have fin : ∀ {x y : IVal F}, IVal.Same x y → y.Finite → x.Finite := by
    rintro x y (rfl | ⟨_, _, rfl, rfl⟩) h
    · exact h
    · trivial
  have tr : ∀ {x y z : IVal F}, IVal.Same x y → IVal.Same y z → IVal.Same x z := by
    rintro x y z (rfl | ⟨s, s', rfl, rfl⟩) h
    · exact h
    · rcases h with rfl | ⟨_, t', -, rfl⟩
      · exact .inr ⟨_, _, rfl, rfl⟩
      · exact .inr ⟨_, _, rfl, rfl⟩
  refine ⟨?_, ?_, fun h => ?_⟩
  · have : ∀ k j, IVal.Same (tri (0 : IVal F) k p j i) (p j i) := by
      intro k
      induction k with
      | zero => intro j; exact IVal.Same.refl _
      | succ k ih => intro j; exact tr ((ieee_lerp_ends _ _ i).1 (fin (ih (j + 1)) (hp _ _))) (ih j)
    rw [casteljau_tri]; exact this d 0
  · have : ∀ k j, IVal.Same (tri (1 : IVal F) k p j i) (p (j + k) i) := by
      intro k
      induction k with
      | zero => intro j; exact IVal.Same.refl _
      | succ k ih =>
        intro j
        have := tr ((ieee_lerp_ends (tri 1 k p j) (tri 1 k p (j + 1)) i).2.1 (fin (ih j) (hp _ _))) (ih (j + 1))
        rwa [show j + 1 + k = j + (k + 1) by omega] at this
    have := this d 0
    rw [Nat.zero_add] at this
    rw [casteljau_tri]; exact this
  · have r1 : ∀ k j i, Records (tri (.input t) k (fun l => ins (p l)) j i) (tri t k p j i) := by
      intro k
      induction k with
      | zero => intro j i; rfl
      | succ k ih => intro j i; exact records_ops.lerp (ih j) (ih (j + 1)) rfl i
    have r2 : ∀ k j i, Agrees (tri (.input t) k (fun l => ins (p l)) j i) (tri t.widen k (fun l i => (p l i).widen) j i) := by
      intro k
      induction k with
      | zero => intro j i; exact agrees_input (hp j i)
      | succ k ih => intro j i; exact agrees_ops.lerp (ih j) (ih (j + 1)) (agrees_input ht) i
    rw [casteljau_tri] at h
    obtain ⟨h1, h2⟩ := transfer (r1 d 0 i) (r2 d 0 i) h
    have h3 := (casteljau_float t.widen d (fun l i => (p l i).widen) i).2.2
    rw [casteljau_tri] at h3
    rw [casteljau_tri, h2]
    exact ⟨h1, h3⟩

/-! ### Cases -/

/-- A parabola: three points, cut in the middle. -/
example : casteljau (1 / 2 : ℚ) 2 (fun i => ![(i : ℚ), if i = 1 then 2 else 0]) = ![1, 1] := by
  funext i
  rw [casteljau_bernstein]
  fin_cases i <;> norm_num [Finset.sum_range_succ]

/-- The points of its first half. -/
example : (splitLoop (1 / 2 : ℚ) 2 0 (fun i => ![(i : ℚ), if i = 1 then 2 else 0]) (fun _ => 0) (fun _ => 0)).1 1 = ![1 / 2, 1] := by
  rw [(split_tri _ _ _ _ _ _).1]
  funext i
  fin_cases i <;> norm_num [tri, lerp_apply']

end Verif.Math
