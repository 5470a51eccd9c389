import Verif.Math.Rounding
import Verif.Math.MatrixLemmas

/-! Helper lemmas about floating-point numbers: exact identities, and the error of sums of products. -/

set_option autoImplicit false

namespace Verif.Math

variable {R : Rounding} {n : Nat}

namespace Rounding

theorem eq_zero {x : ℝ} : R.rnd x = 0 ↔ x = 0 := by
  refine ⟨fun h => ?_, fun h => by rw [h, R.zero]⟩
  have h1 := R.err x
  rw [h, zero_sub, abs_neg] at h1
  by_contra hx
  have := abs_pos.mpr hx
  have := R.u_lt
  nlinarith

theorem nonneg {x : ℝ} (h : 0 ≤ x) : 0 ≤ R.rnd x := by
  have := R.mono h; rwa [R.zero] at this

theorem le {x : ℝ} (h : 0 ≤ x) : R.rnd x ≤ (1 + R.u) * x := by
  have h1 := R.err x
  rw [abs_of_nonneg h, abs_le] at h1
  linarith [h1.2]

theorem ge {x : ℝ} (h : 0 ≤ x) : (1 - R.u) * x ≤ R.rnd x := by
  have h1 := R.err x
  rw [abs_of_nonneg h, abs_le] at h1
  linarith [h1.1]

theorem sq_le (x : ℝ) : R.rnd x ^ 2 ≤ ((1 + R.u) * x) ^ 2 := by
  have h1 := R.err x
  have h2 : |R.rnd x| ≤ (1 + R.u) * |x| := by
    have := abs_sub_abs_le_abs_sub (R.rnd x) x
    linarith
  have h3 : (1 + R.u) * |x| = |(1 + R.u) * x| := by
    rw [abs_mul, abs_of_nonneg (show 0 ≤ 1 + R.u by linarith [R.u_nonneg])]
  rw [h3] at h2
  exact sq_le_sq.mpr h2

theorem sq_ge (x : ℝ) : ((1 - R.u) * x) ^ 2 ≤ R.rnd x ^ 2 := by
  have h1 := R.err x
  have h2 : (1 - R.u) * |x| ≤ |R.rnd x| := by
    have := abs_sub_abs_le_abs_sub x (R.rnd x)
    rw [abs_sub_comm] at this
    linarith
  have h3 : (1 - R.u) * |x| = |(1 - R.u) * x| := by
    rw [abs_mul, abs_of_nonneg (show 0 ≤ 1 - R.u by linarith [R.u_lt])]
  rw [h3] at h2
  exact sq_le_sq.mpr h2

end Rounding

/-! ### Exact identities -/

namespace FP

@[simp] theorem val_zero : (0 : FP R).val = 0 := rfl
@[simp] theorem val_one : (1 : FP R).val = 1 := rfl
@[simp] theorem val_two : (2 : FP R).val = 2 := rfl
@[simp] theorem val_neg (a : FP R) : (-a).val = -a.val := rfl
theorem val_add (a b : FP R) : (a + b).val = R.rnd (a.val + b.val) := rfl
theorem val_sub (a b : FP R) : (a - b).val = R.rnd (a.val - b.val) := rfl
theorem val_mul (a b : FP R) : (a * b).val = R.rnd (a.val * b.val) := rfl
theorem val_div (a b : FP R) : (a / b).val = R.rnd (a.val / b.val) := rfl

variable (a b : FP R)

theorem addComm : a + b = b + a := FP.ext (by rw [val_add, val_add, _root_.add_comm])
theorem mulComm : a * b = b * a := FP.ext (by rw [val_mul, val_mul, _root_.mul_comm])
theorem zeroAdd : 0 + a = a := FP.ext (by rw [val_add, val_zero, _root_.zero_add, a.rep])
theorem addZero : a + 0 = a := FP.ext (by rw [val_add, val_zero, _root_.add_zero, a.rep])
theorem subZero : a - 0 = a := FP.ext (by rw [val_sub, val_zero, _root_.sub_zero, a.rep])
theorem subSelf : a - a = 0 := FP.ext (by rw [val_sub, _root_.sub_self, R.zero, val_zero])
theorem addNeg : a + -a = 0 := FP.ext (by rw [val_add, val_neg, _root_.add_neg_cancel, R.zero, val_zero])
theorem negSub : -(a - b) = b - a :=
  FP.ext (by rw [val_neg, val_sub, val_sub, ← R.odd, _root_.neg_sub])
theorem subNeg : a - b = a + -b := FP.ext (by rw [val_sub, val_add, val_neg, _root_.sub_eq_add_neg])
theorem negNeg : -(-a) = a := FP.ext (by rw [val_neg, val_neg, _root_.neg_neg])
theorem mulOne : a * 1 = a := FP.ext (by rw [val_mul, val_one, _root_.mul_one, a.rep])
theorem divOne : a / 1 = a := FP.ext (by rw [val_div, val_one, _root_.div_one, a.rep])
theorem mulZero : a * 0 = 0 := FP.ext (by rw [val_mul, val_zero, MulZeroClass.mul_zero, R.zero])
theorem zeroMul : 0 * a = 0 := by rw [mulComm, mulZero]
theorem negMul : -a * b = -(a * b) := FP.ext (by rw [val_neg, val_mul, val_mul, val_neg, _root_.neg_mul, R.odd])
theorem mulNeg : a * -b = -(a * b) := by rw [mulComm, negMul, mulComm]
theorem negAdd : -(a + b) = -a + -b :=
  FP.ext (by rw [val_neg, val_add, val_add, val_neg, val_neg, ← R.odd, _root_.neg_add])
theorem negZero : -(0 : FP R) = 0 := FP.ext (by simp)
theorem mulTwo : a * 2 = a + a :=
  FP.ext (by rw [val_mul, val_add, val_two, ← two_mul, _root_.mul_comm])
theorem twoVal : (a * 2).val = 2 * a.val := by
  rw [val_mul, val_two, _root_.mul_comm, R.two_mul, a.rep]
theorem twoMulMul : (a * 2) * b = (a * b) * 2 := FP.ext (by
  rw [val_mul, twoVal, twoVal, val_mul, _root_.mul_assoc, R.two_mul])
theorem twoAdd : a * 2 + b * 2 = (a + b) * 2 := FP.ext (by
  rw [val_add, twoVal, twoVal, twoVal, val_add, ← _root_.mul_add, R.two_mul])

theorem subEqZero : a - b = 0 ↔ a = b := by
  refine ⟨fun h => ?_, fun h => by rw [h, subSelf]⟩
  have h1 : R.rnd (a.val - b.val) = 0 := congrArg FP.val h
  rw [R.eq_zero] at h1
  exact FP.ext (by linarith)

end FP

/-! ### `dot` -/

theorem dot_zero_right (a : Vec (FP R) n) : dot a (fun _ => 0) = 0 := by
  unfold dot forLoop
  have : ∀ l : List (Fin n), l.foldl (fun (r : FP R) i => r + a i * 0) 0 = 0 := by
    intro l
    induction l with
    | nil => rfl
    | cons i l ih => rw [List.foldl_cons, FP.mulZero, FP.zeroAdd, ih]
  exact this _

theorem foldl_unit (f : Fin n → FP R) : ∀ (l : List (Fin n)) (s : FP R), (∀ i ∈ l, f i = 0) →
    l.foldl (fun r i => r + f i) s = s
  | [], _, _ => rfl
  | i :: l, s, h => by
    rw [List.foldl_cons, h i (by simp), FP.addZero, foldl_unit f l s fun j hj => h j (by simp [hj])]

/-- A sum with a single term that is not zero is that term. -/
theorem foldl_single (f : Fin n → FP R) (j : Fin n) (hf : ∀ i, i ≠ j → f i = 0) :
    forLoop n (fun i r => r + f i) 0 = f j := by
  unfold forLoop
  have key : ∀ l : List (Fin n), l.Nodup → j ∈ l → l.foldl (fun r i => r + f i) 0 = f j := by
    intro l
    induction l with
    | nil => intro _ h; cases h
    | cons i l ih =>
      intro hn hm
      rw [List.nodup_cons] at hn
      rw [List.foldl_cons]
      by_cases hij : i = j
      · subst hij
        rw [FP.zeroAdd, foldl_unit f l _ fun k hk => hf k fun e => hn.1 (e ▸ hk)]
      · rw [hf i hij, FP.addZero]
        exact ih hn.2 ((List.mem_cons.mp hm).resolve_left (Ne.symm hij))
  exact key _ (List.nodup_finRange n) (List.mem_finRange j)

/-- The loop commutes with a map that commutes with the additions. -/
theorem foldl_map (g : FP R → FP R) (hg0 : g 0 = 0) (hg : ∀ a b, g (a + b) = g a + g b) (f : Fin n → FP R) :
    forLoop n (fun i r => r + g (f i)) 0 = g (forLoop n (fun i r => r + f i) 0) := by
  unfold forLoop
  have : ∀ (l : List (Fin n)) (s : FP R),
      l.foldl (fun r i => r + g (f i)) (g s) = g (l.foldl (fun r i => r + f i) s) := by
    intro l
    induction l with
    | nil => intro s; rfl
    | cons i l ih => intro s; rw [List.foldl_cons, List.foldl_cons, ← hg, ih]
  have h := this (List.finRange n) 0
  rw [hg0] at h
  exact h

theorem foldl_val_nonneg (f : Fin n → FP R) (hf : ∀ i, 0 ≤ (f i).val) : ∀ (l : List (Fin n)) (s : FP R),
    0 ≤ s.val → s.val ≤ (l.foldl (fun r i => r + f i) s).val ∧
      ∀ i ∈ l, (f i).val ≤ (l.foldl (fun r i => r + f i) s).val
  | [], s, _ => ⟨le_rfl, by simp⟩
  | i :: l, s, hs => by
    rw [List.foldl_cons]
    have h1 : s.val ≤ (s + f i).val := by
      have := R.mono (show s.val ≤ s.val + (f i).val by linarith [hf i])
      rw [s.rep] at this; exact this
    have h2 : (f i).val ≤ (s + f i).val := by
      have := R.mono (show (f i).val ≤ s.val + (f i).val by linarith)
      rw [(f i).rep] at this; exact this
    obtain ⟨g1, g2⟩ := foldl_val_nonneg f hf l (s + f i) (hs.trans h1)
    refine ⟨h1.trans g1, fun j hj => ?_⟩
    rcases List.mem_cons.mp hj with rfl | hj
    · exact h2.trans g1
    · exact g2 j hj

/-- Error of a sum of products, one more term. -/
theorem step_err {u t M x p s y : ℝ} {k : Nat} (hu : 0 ≤ u) (hk : 1 ≤ k)
    (hs : |s - t| ≤ ((1 + u) ^ k - 1) * M) (ht : |t| ≤ M) (hp : |p - x| ≤ u * |x|)
    (hy : |y - (s + p)| ≤ u * |s + p|) :
    |y - (t + x)| ≤ ((1 + u) ^ (k + 1) - 1) * (M + |x|) := by
  have h1 : (1 : ℝ) ≤ (1 + u) ^ k := one_le_pow₀ (by linarith)
  have h2 : 1 + u ≤ (1 + u) ^ k := by
    calc 1 + u = (1 + u) ^ 1 := (pow_one _).symm
      _ ≤ _ := pow_le_pow_right₀ (by linarith) hk
  have hM : 0 ≤ M := (abs_nonneg t).trans ht
  have hx := abs_nonneg x
  have a1 : |s + p| ≤ (1 + u) ^ k * M + (1 + u) * |x| := by
    have e : s + p = (s - t) + (p - x) + (t + x) := by ring
    have b1 := abs_add_le ((s - t) + (p - x)) (t + x)
    have b2 := abs_add_le (s - t) (p - x)
    have b3 := abs_add_le t x
    rw [e]
    linarith
  have a2 : |y - (t + x)| ≤ |y - (s + p)| + |s - t| + |p - x| := by
    have e : y - (t + x) = (y - (s + p)) + (s - t) + (p - x) := by ring
    have b1 := abs_add_le ((y - (s + p)) + (s - t)) (p - x)
    have b2 := abs_add_le (y - (s + p)) (s - t)
    rw [e]; linarith
  have a3 : u * |s + p| ≤ u * ((1 + u) ^ k * M + (1 + u) * |x|) := mul_le_mul_of_nonneg_left a1 hu
  have a4 : u * (1 + u) * |x| + u * |x| ≤ ((1 + u) ^ (k + 1) - 1) * |x| := by
    have : u * (1 + u) + u ≤ (1 + u) ^ (k + 1) - 1 := by
      rw [pow_succ]; nlinarith
    nlinarith
  have a5 : ((1 + u) ^ (k + 1) - 1) * M = ((1 + u) ^ k - 1) * M + u * ((1 + u) ^ k * M) := by
    rw [pow_succ]; ring
  linarith

theorem foldl_err (a b : Vec (FP R) n) : ∀ (l : List (Fin n)) (s : FP R) (t M : ℝ) (k : Nat), 1 ≤ k →
    |s.val - t| ≤ ((1 + R.u) ^ k - 1) * M → |t| ≤ M →
    |(l.foldl (fun r i => r + a i * b i) s).val - (t + (l.map fun i => (a i).val * (b i).val).sum)| ≤
      ((1 + R.u) ^ (k + l.length) - 1) * (M + (l.map fun i => |(a i).val * (b i).val|).sum)
  | [], s, t, M, k, _, h, _ => by simpa using h
  | i :: l, s, t, M, k, hk, h, ht => by
    have h1 := step_err R.u_nonneg hk h ht (R.err ((a i).val * (b i).val)) (R.err (s.val + (a i * b i).val))
    have h2 : |t + (a i).val * (b i).val| ≤ M + |(a i).val * (b i).val| :=
      (abs_add_le _ _).trans (by linarith)
    have := foldl_err a b l (s + a i * b i) _ _ (k + 1) (by omega) h1 h2
    rw [List.foldl_cons, List.map_cons, List.map_cons, List.sum_cons, List.sum_cons, List.length_cons]
    rw [show k + (l.length + 1) = k + 1 + l.length by ring, ← add_assoc, ← add_assoc]
    exact this

theorem list_sum (f : Fin n → ℝ) : ((List.finRange n).map f).sum = ∑ i, f i := by
  rw [← List.ofFn_eq_map, List.sum_ofFn]

/-- The rounding error of `dot`. -/
theorem dot_err (a b : Vec (FP R) n) :
    |(dot a b).val - ∑ i, (a i).val * (b i).val| ≤
      ((1 + R.u) ^ n - 1) * ∑ i, |(a i).val * (b i).val| := by
  rw [← list_sum, ← list_sum]
  unfold dot forLoop
  cases n with
  | zero => simp
  | succ n =>
    rw [List.finRange_succ, List.foldl_cons, List.map_cons, List.map_cons, List.sum_cons, List.sum_cons]
    have h := foldl_err a b ((List.finRange n).map Fin.succ) (0 + a 0 * b 0) ((a 0).val * (b 0).val)
      |(a 0).val * (b 0).val| 1 le_rfl (by
        rw [FP.zeroAdd]
        have := R.err ((a 0).val * (b 0).val)
        rw [pow_one]
        have e : 1 + R.u - 1 = R.u := by ring
        rw [e]; exact this) le_rfl
    rw [List.length_map, List.length_finRange, add_comm 1 n] at h
    exact h

theorem foldl_ge (v : Vec (FP R) n) : ∀ (l : List (Fin n)) (s : FP R) (t : ℝ) (k : Nat), 1 ≤ k → 0 ≤ t →
    (1 - R.u) ^ k * t ≤ s.val →
    (1 - R.u) ^ (k + l.length) * (t + (l.map fun i => (v i).val * (v i).val).sum) ≤
      (l.foldl (fun r i => r + v i * v i) s).val
  | [], s, t, k, _, _, h => by simpa using h
  | i :: l, s, t, k, hk, ht, h => by
    have u0 := R.u_nonneg
    have u1 := R.u_lt
    have hx : 0 ≤ (v i).val * (v i).val := mul_self_nonneg _
    have hkp : 0 ≤ (1 - R.u) ^ k := pow_nonneg (by linarith) _
    have h2 : (1 - R.u) ^ k ≤ 1 - R.u := by
      calc (1 - R.u) ^ k ≤ (1 - R.u) ^ 1 := pow_le_pow_of_le_one (by linarith) (by linarith) hk
        _ = _ := pow_one _
    have hp : (1 - R.u) * ((v i).val * (v i).val) ≤ (v i * v i).val := R.ge hx
    have hs0 : 0 ≤ s.val := (mul_nonneg hkp ht).trans h
    have hp0 : 0 ≤ (v i * v i).val := R.nonneg hx
    have hy : (1 - R.u) * (s.val + (v i * v i).val) ≤ (s + v i * v i).val := R.ge (by linarith)
    have h1 : (1 - R.u) ^ (k + 1) * (t + (v i).val * (v i).val) ≤ (s + v i * v i).val := by
      refine le_trans ?_ hy
      rw [pow_succ]
      have : (1 - R.u) ^ k * (t + (v i).val * (v i).val) ≤ s.val + (v i * v i).val := by nlinarith
      nlinarith
    have := foldl_ge v l (s + v i * v i) _ (k + 1) (by omega) (by linarith) h1
    rw [List.foldl_cons, List.map_cons, List.sum_cons, List.length_cons,
      show k + (l.length + 1) = k + 1 + l.length by ring, ← add_assoc]
    exact this

/-- The computed sum of squares is within a factor of the exact one. -/
theorem dot_self_bounds (v : Vec (FP R) n) :
    (1 - R.u) ^ n * ∑ i, (v i).val * (v i).val ≤ (dot v v).val ∧
    (dot v v).val ≤ (1 + R.u) ^ n * ∑ i, (v i).val * (v i).val := by
  constructor
  · rw [← list_sum]
    unfold dot forLoop
    cases n with
    | zero => simp
    | succ n =>
      rw [List.finRange_succ, List.foldl_cons, List.map_cons, List.sum_cons]
      have h := foldl_ge v ((List.finRange n).map Fin.succ) (0 + v 0 * v 0) ((v 0).val * (v 0).val)
        1 le_rfl (mul_self_nonneg _) (by
          rw [FP.zeroAdd, pow_one]
          exact R.ge (mul_self_nonneg _))
      rw [List.length_map, List.length_finRange, add_comm 1 n] at h
      exact h
  · have h := dot_err v v
    have e : ∑ i, |(v i).val * (v i).val| = ∑ i, (v i).val * (v i).val :=
      Finset.sum_congr rfl fun i _ => abs_of_nonneg (mul_self_nonneg _)
    rw [e, abs_le] at h
    linarith [h.2]

/-! ### Computations that are a few operations away from the exact value -/

/-- `x` is `e` up to `k` roundings of terms with total magnitude `M`. -/
structure Approx (x : FP R) (e M : ℝ) (k : Nat) : Prop where
  err : |x.val - e| ≤ ((1 + R.u) ^ k - 1) * M
  mag : |e| ≤ M

namespace Approx

variable {x y : FP R} {e f M N : ℝ} {j k : Nat}

theorem pow_ge (R : Rounding) (k : Nat) : (1 : ℝ) ≤ (1 + R.u) ^ k := one_le_pow₀ (by linarith [R.u_nonneg])

theorem exact (x : FP R) : Approx x x.val |x.val| 0 := ⟨by simp, le_rfl⟩

theorem mono {k' : Nat} {M' : ℝ} (h : Approx x e M k) (hk : k ≤ k') (hM : M ≤ M') : Approx x e M' k' := by
  have h1 := pow_ge R k
  have h2 : (1 + R.u) ^ k ≤ (1 + R.u) ^ k' := pow_le_pow_right₀ (by linarith [R.u_nonneg]) hk
  have hM0 := (abs_nonneg e).trans h.mag
  refine ⟨h.err.trans ?_, h.mag.trans hM⟩
  exact mul_le_mul (by linarith) hM hM0 (by linarith)

theorem le (h : Approx x e M k) : |x.val| ≤ (1 + R.u) ^ k * M := by
  have h1 := abs_sub_abs_le_abs_sub x.val e
  have h2 := h.err
  have h3 := h.mag
  linarith

theorem neg (h : Approx x e M k) : Approx (-x) (-e) M k := by
  refine ⟨?_, by rw [abs_neg]; exact h.mag⟩
  rw [FP.val_neg, ← neg_sub', abs_neg]; exact h.err

/-- One rounding more. -/
theorem rounded {z g P : ℝ} {x : FP R} (hx : x.val = R.rnd z) (h : |z - g| ≤ ((1 + R.u) ^ k - 1) * P)
    (hg : |g| ≤ P) : Approx x g P (k + 1) := by
  refine ⟨?_, hg⟩
  have h1 := R.err z
  have h2 := abs_sub_abs_le_abs_sub z g
  have h3 := abs_add_le (R.rnd z - z) (z - g)
  rw [show R.rnd z - z + (z - g) = x.val - g by rw [hx]; ring] at h3
  have h4 : R.u * |z| ≤ R.u * ((1 + R.u) ^ k * P) := mul_le_mul_of_nonneg_left (by linarith) R.u_nonneg
  rw [pow_succ]
  linarith

theorem add (h1 : Approx x e M k) (h2 : Approx y f N k) : Approx (x + y) (e + f) (M + N) (k + 1) := by
  refine rounded (FP.val_add x y) ?_ ((abs_add_le _ _).trans (add_le_add h1.mag h2.mag))
  rw [show x.val + y.val - (e + f) = (x.val - e) + (y.val - f) by ring, mul_add]
  exact (abs_add_le _ _).trans (add_le_add h1.err h2.err)

theorem sub (h1 : Approx x e M k) (h2 : Approx y f N k) : Approx (x - y) (e - f) (M + N) (k + 1) := by
  rw [FP.subNeg, sub_eq_add_neg]
  exact h1.add h2.neg

theorem mul (h1 : Approx x e M j) (h2 : Approx y f N k) : Approx (x * y) (e * f) (M * N) (j + k + 1) := by
  have a1 := h1.le
  have a2 := h2.le
  have b1 := h1.mag
  have b2 := h2.mag
  have c1 := h1.err
  have c2 := h2.err
  have p1 := pow_ge R j
  have p2 := pow_ge R k
  have hM := (abs_nonneg e).trans b1
  have hN := (abs_nonneg f).trans b2
  refine rounded (FP.val_mul x y) ?_ ?_
  · rw [show x.val * y.val - e * f = (x.val - e) * y.val + e * (y.val - f) by ring]
    refine (abs_add_le _ _).trans ?_
    rw [abs_mul, abs_mul]
    have d1 : |x.val - e| * |y.val| ≤ (((1 + R.u) ^ j - 1) * M) * ((1 + R.u) ^ k * N) :=
      mul_le_mul c1 a2 (abs_nonneg _) ((abs_nonneg _).trans c1)
    have d2 : |e| * |y.val - f| ≤ M * (((1 + R.u) ^ k - 1) * N) := mul_le_mul b1 c2 (abs_nonneg _) hM
    rw [pow_add]
    nlinarith
  · rw [abs_mul]; exact mul_le_mul b1 b2 (abs_nonneg _) hM

theorem two (h : Approx x e M k) : Approx (x * 2) (e * 2) (M * 2) k := by
  constructor
  · rw [FP.twoVal, show 2 * x.val - e * 2 = (x.val - e) * 2 by ring, abs_mul, abs_of_pos (by norm_num : (0 : ℝ) < 2)]
    linarith [h.err]
  · rw [abs_mul, abs_of_pos (by norm_num : (0 : ℝ) < 2)]; linarith [h.mag]

theorem dot (a b : Vec (FP R) n) :
    Approx (Math.dot a b) (∑ i, (a i).val * (b i).val) (∑ i, |(a i).val * (b i).val|) n :=
  ⟨dot_err a b, Finset.abs_sum_le_sum_abs _ _⟩

end Approx

/-! ### matrices, whatever the components -/

section
variable {T : Type} {c r k : Nat}

theorem mulVec_dot [Zero T] [Add T] [Mul T] [Indet T] (m : Mat T c r) (v : Vec T c) :
    mulVec m v = fun j => dot (fun i => m i j) v := by
  unfold mulVec
  split
  · simp only [row_apply]
    funext i; fin_cases i <;> rfl
  · rw [forLoop_store]; simp only [row_apply]

theorem mulMat_dot [Zero T] [Add T] [Mul T] [Indet T] (a : Mat T c r) (b : Mat T k c) :
    mulMat a b = fun i j => dot (fun l => a l j) (b i) := by
  unfold mulMat
  simp only [inner_loop]
  funext i j
  rw [forLoop, outer_loop (fun j i => dot (row a j) (b i))]
  simp [row_apply]

end

end Verif.Math
