import Verif.Math.Powers
import Verif.Math.LongRunProps
import Mathlib.Data.BitVec
import Mathlib.Data.Nat.Fib.Basic
import Mathlib.Algebra.Polynomial.AlgebraMap
import Mathlib.Data.Fintype.Pi

/-!
C171: powers of matrices and quaternions by repeated squaring, linear recurrences, numbers of walks and polynomials of a matrix:
exact in every ring — whole numbers, unsigned integers with wrap-around —, exact in `float` and `double` while the numbers fit,
and with an error bound otherwise.
-/

set_option autoImplicit false

namespace Verif.Math

variable {T : Type} {n : Nat}

/-! ### Specification -/

/-- The walks of `k` steps from `i` to `j` in the graph with the edges `E`. -/
abbrev Walk (E : Fin n → Fin n → Bool) (k : Nat) (i j : Fin n) : Type :=
  {p : Fin (k + 1) → Fin n // p 0 = i ∧ p (Fin.last k) = j ∧ ∀ t : Fin k, E (p t.castSucc) (p t.succ) = true}

/-! ### Powers -/

theorem toM_mul [CommRing T] [Indet T] (a b : Mat T n n) : toM (mulMat a b) = toM a * toM b :=
  (matrix_ops a a b (fun _ => 0) 0).1

theorem toM_default [CommRing T] [Indet T] : toM (defaultMat : Mat T n n) = 1 :=
  (matrix_ops (defaultMat : Mat T n n) defaultMat (defaultMat : Mat T n n) (fun _ => 0) 0).2.2.2.2.2.2.1

theorem toM_add [CommRing T] [Indet T] (a b : Mat T n n) : toM (matAdd a b) = toM a + toM b :=
  (matrix_ops a b (defaultMat : Mat T n n) (fun _ => 0) 0).2.2.1

theorem toM_vec [CommRing T] [Indet T] (a : Mat T n n) (v : Vec T n) : mulVec a v = (toM a).mulVec v :=
  (matrix_ops a a (defaultMat : Mat T n n) v 0).2.1

/-- Repeated squaring in a monoid. -/
theorem square_step {M : Type} [Monoid M] (x : M) (e : Nat) :
    (if e % 2 = 1 then x else 1) * (x * x) ^ (e / 2) = x ^ e := by
  conv_rhs => rw [← Nat.mod_add_div e 2]
  rw [pow_add, pow_mul, ← sq]
  rcases Nat.mod_two_eq_zero_or_one e with h | h <;> simp [h]

theorem powLoop_ring [CommRing T] [Indet T] (e : Nat) : ∀ b r : Mat T n n, toM (powLoop b r e) = toM r * toM b ^ e := by
  induction e using Nat.strong_induction_on with
  | _ e ih =>
    intro b r
    rw [powLoop]
    split
    · next h => rw [h, pow_zero, mul_one]
    · next h =>
      rw [ih _ (Nat.div_lt_self (Nat.pos_of_ne_zero h) (by decide)), toM_mul, ← square_step (toM b) e, ← mul_assoc]
      congr 1
      split
      · rw [toM_mul]
      · rw [mul_one]

/-- C171. Repeated squaring computes the power, of every size and with every exponent, in every commutative ring; powers
multiply and compose as they should, the power of a transposed matrix is the transposed power, the determinant of the power is
the power of the determinant, and transforming with the power is transforming that many times. -/
theorem matPow_result [CommRing T] [Indet T] (a : Mat T n n) (e f : Nat) (v : Vec T n) :
    toM (matPow a e) = toM a ^ e ∧ matPow a 0 = defaultMat ∧ matPow a (e + 1) = mulMat a (matPow a e) ∧
    matPow a (e + f) = mulMat (matPow a e) (matPow a f) ∧ matPow a (e * f) = matPow (matPow a e) f ∧
    matPow (transpose a) e = transpose (matPow a e) ∧ mulVec (matPow a e) v = (mulVec a)^[e] v ∧
    (toM (matPow a e)).det = (toM a).det ^ e := by
  have key : ∀ (a : Mat T n n) (e : Nat), toM (matPow a e) = toM a ^ e := fun a e => by
    rw [matPow, powLoop_ring, toM_default, one_mul]
  have ht : ∀ a : Mat T n n, toM (transpose a) = (toM a).transpose := fun a => by
    rw [transpose_apply]; rfl
  refine ⟨key a e, toM_inj ?_, toM_inj ?_, toM_inj ?_, toM_inj ?_, toM_inj ?_, ?_, ?_⟩
  · rw [key, pow_zero, toM_default]
  · rw [toM_mul, key, key, pow_succ']
  · rw [toM_mul, key, key, key, pow_add]
  · rw [key, key, key, pow_mul]
  · rw [ht, key, key, ht, Matrix.transpose_pow]
  · induction e with
    | zero => rw [toM_vec, key, pow_zero, Matrix.one_mulVec]; rfl
    | succ e ih => rw [Function.iterate_succ_apply', ← ih, toM_vec, toM_vec, toM_vec, key, key, pow_succ', Matrix.mulVec_mulVec]
  · rw [key, Matrix.det_pow]

/-- C171. The power of a quaternion, in every commutative ring, and the formula of de Moivre: the power of a rotation turns by
that many times the angle about the same axis. -/
theorem quatPow_result :
    (∀ (T : Type) [CommRing T] (q : Quat T) (e : Nat), toQ (quatPow q e) = toQ q ^ e) ∧
    ∀ (θ : ℝ) (u : Vec ℝ 3), u 0 ^ 2 + u 1 ^ 2 + u 2 ^ 2 = 1 → ∀ e : Nat,
      quatPow ⟨Real.cos θ, Real.sin θ * u 0, Real.sin θ * u 1, Real.sin θ * u 2⟩ e =
        ⟨Real.cos (e * θ), Real.sin (e * θ) * u 0, Real.sin (e * θ) * u 1, Real.sin (e * θ) * u 2⟩ := by
  have hm : ∀ (T : Type) [CommRing T] (p q : Quat T), toQ (p.mul q) = toQ p * toQ q := fun T _ p q =>
    (quaternion_algebra p q q).2.2.1
  have loop : ∀ (T : Type) [CommRing T] (e : Nat) (b r : Quat T), toQ (quatPowLoop b r e) = toQ r * toQ b ^ e := by
    intro T _ e
    induction e using Nat.strong_induction_on with
    | _ e ih =>
      intro b r
      rw [quatPowLoop]
      split
      · next h => rw [h, pow_zero, mul_one]
      · next h =>
        rw [ih _ (Nat.div_lt_self (Nat.pos_of_ne_zero h) (by decide)), hm, ← square_step (toQ b) e, ← mul_assoc]
        congr 1
        split
        · rw [hm]
        · rw [mul_one]
  have h1 : ∀ (T : Type) [CommRing T], toQ (⟨1, 0, 0, 0⟩ : Quat T) = 1 := fun T _ => rfl
  have key : ∀ (T : Type) [CommRing T] (q : Quat T) (e : Nat), toQ (quatPow q e) = toQ q ^ e := fun T _ q e => by
    rw [quatPow, loop, h1, one_mul]
  have inj : ∀ p q : Quat ℝ, toQ p = toQ q → p = q := by
    rintro ⟨a, b, c, d⟩ ⟨a', b', c', d'⟩ h
    have := congrArg QuaternionAlgebra.re h; have := congrArg QuaternionAlgebra.imI h
    have := congrArg QuaternionAlgebra.imJ h; have := congrArg QuaternionAlgebra.imK h
    simp only [toQ] at *; subst_vars; rfl
  refine ⟨key, fun θ u hu e => inj _ _ ?_⟩
  rw [key]
  induction e with
  | zero => simp [toQ]; rfl
  | succ e ih =>
    rw [pow_succ, ih, ← hm]
    congr 1
    push_cast
    rw [add_mul, one_mul, Real.cos_add, Real.sin_add]
    simp only [Quat.mul, Quat.mk.injEq]
    refine ⟨?_, by ring, by ring, by ring⟩
    linear_combination (-(Real.sin (e * θ) * Real.sin θ)) * hu

/-! ### Recurrences -/

theorem companion_apply [Zero T] [One T] (c : Vec T (n + 1)) (i j : Fin (n + 1)) :
    companion c i j = if j = Fin.last n then c i else if i.val = j.val + 1 then 1 else 0 := by
  have h1 : ∀ (l : List (Fin (n + 1))) (m : Mat T (n + 1) (n + 1)),
      l.foldl (fun m i => store2 m i (Fin.last n) (c i)) m i j =
        if j = Fin.last n ∧ i ∈ l then c i else m i j := by
    intro l
    induction l with
    | nil => intro m; simp
    | cons a l ih =>
      intro m
      rw [List.foldl_cons, ih, store2_apply]
      by_cases hj : j = Fin.last n <;> by_cases hi : i ∈ l <;> by_cases ha : i = a <;> simp_all
  have h2 : ∀ (l : List (Fin n)) (m : Mat T (n + 1) (n + 1)),
      l.foldl (fun m (i : Fin n) => store2 m i.succ i.castSucc (1 : T)) m i j =
        if ∃ t ∈ l, i = t.succ ∧ j = t.castSucc then 1 else m i j := by
    intro l
    induction l with
    | nil => intro m; simp
    | cons a l ih =>
      intro m
      rw [List.foldl_cons, ih, store2_apply]
      by_cases h : ∃ t ∈ l, i = t.succ ∧ j = t.castSucc
      · rw [if_pos h, if_pos]; obtain ⟨t, ht, h⟩ := h; exact ⟨t, List.mem_cons_of_mem _ ht, h⟩
      · rw [if_neg h]
        by_cases ha : i = a.succ ∧ j = a.castSucc
        · rw [if_pos ha, if_pos ⟨a, List.mem_cons_self, ha⟩]
        · rw [if_neg ha, if_neg]
          rintro ⟨t, ht, h'⟩
          rcases List.mem_cons.mp ht with rfl | ht
          · exact ha h'
          · exact h ⟨t, ht, h'⟩
  unfold companion forLoop
  rw [h1, h2, diagonal_apply]
  by_cases hj : j = Fin.last n
  · simp [hj]
  · have hj' : j.val < n := by
      have := j.isLt; have : j.val ≠ n := fun h => hj (Fin.ext h); omega
    rw [if_neg (by simp [hj]), if_neg hj, ite_self]
    congr 1
    refine propext ⟨?_, fun h => ⟨⟨j, hj'⟩, List.mem_finRange _, Fin.ext h, Fin.ext rfl⟩⟩
    rintro ⟨t, -, rfl, rfl⟩; rfl

/-- C171. The power of the companion matrix gives the terms of the linear recurrence: `x` is any sequence with
`x(k+n+1) = Σ c[i] x(k+i)`, and term `k` is computed from the first `n + 1` terms. -/
theorem recurrence_result [CommRing T] [Indet T] (c : Vec T (n + 1)) (x : Nat → T)
    (hx : ∀ k, x (k + n + 1) = ∑ i : Fin (n + 1), c i * x (k + i)) (k : Nat) :
    recurrence c (fun i => x i) k = x k := by
  have step : ∀ k, mulVec (companion c) (fun i => x (k + i.val)) = fun i : Fin (n + 1) => x (k + 1 + i.val) := by
    intro k
    rw [mulVec_apply]
    funext j
    simp only [companion_apply]
    by_cases hj : j = Fin.last n
    · subst hj
      simp only [if_true, Fin.val_last]
      rw [show k + 1 + n = k + n + 1 by omega, hx]
    · have hj' : j.val + 1 < n + 1 := by
        have := j.isLt; have : j.val ≠ n := fun h => hj (Fin.ext h); omega
      simp only [hj, if_false]
      rw [Finset.sum_eq_single ⟨j.val + 1, hj'⟩]
      · simp only [if_true, one_mul]
        congr 1; omega
      · intro b _ hb
        rw [if_neg (fun h => hb (Fin.ext h)), zero_mul]
      · intro h; exact absurd (Finset.mem_univ _) h
  have iter : ∀ k, (mulVec (companion c))^[k] (fun i => x i.val) = fun i : Fin (n + 1) => x (k + i.val) := by
    intro k
    induction k with
    | zero => simp
    | succ k ih => rw [Function.iterate_succ_apply', ih, step]
  rw [recurrence, (matPow_result (companion c) k 0 (fun i => x i.val)).2.2.2.2.2.2.1, iter]
  simp

/-- C171. Fibonacci numbers with unsigned integers of any width: the number modulo `2^w`, for every index. -/
theorem fib_unsigned {w : Nat} [Indet (BitVec w)] (k : Nat) :
    (recurrence (n := 1) ![1, 1] ![0, 1] k : BitVec w).toNat = Nat.fib k % 2 ^ w := by
  have h := recurrence_result (n := 1) (T := BitVec w) ![1, 1] (fun k => (Nat.fib k : BitVec w)) (fun k => by
    rw [Fin.sum_univ_two, Nat.fib_add_two]
    simp) k
  have e : (fun i : Fin 2 => (Nat.fib i.val : BitVec w)) = ![0, 1] := by
    funext i; fin_cases i <;> simp
  rw [e] at h
  rw [h]
  simp

/-! ### Walks -/

theorem walk_succ (E : Fin n → Fin n → Bool) (k : Nat) (i j : Fin n) :
    Fintype.card (Walk E (k + 1) i j) = ∑ l, if E i l then Fintype.card (Walk E k l j) else 0 := by
  have eqv : Walk E (k + 1) i j ≃ Σ l : {l // E i l = true}, Walk E k l.val j :=
    { toFun := fun p => ⟨⟨p.val (Fin.succ 0), by
        have := p.property.2.2 0; rwa [show (0 : Fin (k + 1)).castSucc = 0 from rfl, p.property.1] at this⟩,
          ⟨fun t => p.val t.succ, rfl, p.property.2.1, fun t => by
            have := p.property.2.2 t.succ
            rwa [← Fin.succ_castSucc] at this⟩⟩
      invFun := fun q => ⟨Fin.cons i q.2.val, rfl, by
          rw [← Fin.succ_last, Fin.cons_succ]; exact q.2.property.2.1, fun t => by
          refine Fin.cases ?_ (fun t => ?_) t
          · rw [Fin.castSucc_zero, Fin.cons_zero, Fin.cons_succ, q.2.property.1]; exact q.1.property
          · rw [← Fin.succ_castSucc, Fin.cons_succ, Fin.cons_succ]; exact q.2.property.2.2 t⟩
      left_inv := fun p => by
        apply Subtype.ext
        funext t
        refine Fin.cases ?_ (fun t => ?_) t
        · exact p.property.1.symm
        · rfl
      right_inv := fun q => by
        obtain ⟨⟨l, hl⟩, ⟨p, h0, h1, h2⟩⟩ := q
        obtain rfl : l = p 0 := h0.symm
        rfl }
  rw [Fintype.card_congr eqv, Fintype.card_sigma, ← Finset.sum_filter]
  exact (Finset.sum_subtype _ (by simp) (fun l => Fintype.card (Walk E k l j))).symm

/-- C171. The powers of the matrix of a graph count its walks: with whole numbers the number of walks of `k` steps, with
unsigned integers of `w` bits that number modulo `2^w`. -/
theorem walks_result (E : Fin n → Fin n → Bool) (k : Nat) (i j : Fin n) :
    (∀ [Indet ℤ], matPow (fun i j => if E i j then (1 : ℤ) else 0) k i j = Fintype.card (Walk E k i j)) ∧
    ∀ (w : Nat) [Indet (BitVec w)],
      (matPow (fun i j => if E i j then (1 : BitVec w) else 0) k i j).toNat = Fintype.card (Walk E k i j) % 2 ^ w := by
  have key : ∀ (T : Type) [CommRing T] [Indet T] (k : Nat) (i j : Fin n),
      matPow (fun i j => if E i j then (1 : T) else 0) k i j = (Fintype.card (Walk E k i j) : T) := by
    intro T _ _ k
    induction k with
    | zero =>
      intro i j
      rw [(matPow_result _ 0 0 (fun _ => (0 : T))).2.1, defaultMat, diagonal_apply]
      by_cases h : i = j
      · subst h
        have : Fintype.card (Walk E 0 i i) = 1 := by
          rw [Fintype.card_eq_one_iff]
          refine ⟨⟨fun _ => i, rfl, rfl, fun t => t.elim0⟩, fun p => Subtype.ext (funext fun t => ?_)⟩
          rw [show t = 0 from Fin.ext (by omega)]; exact p.property.1
        simp [this]
      · have : Fintype.card (Walk E 0 i j) = 0 := by
          rw [Fintype.card_eq_zero_iff]
          exact ⟨fun p => h (p.property.1.symm.trans p.property.2.1)⟩
        rw [this, if_neg (fun h' => h (Fin.ext h'))]; simp
    | succ k ih =>
      intro i j
      have e := (matPow_result (fun i j => if E i j then (1 : T) else 0) k 1 (fun _ => (0 : T))).2.2.2.1
      have e1 : matPow (fun i j => if E i j then (1 : T) else 0) 1 = fun i j => if E i j then (1 : T) else 0 :=
        toM_inj (by rw [(matPow_result _ 1 0 (fun _ => (0 : T))).1, pow_one])
      rw [e, e1, mulMat_apply, walk_succ]
      push_cast
      refine Finset.sum_congr rfl fun l _ => ?_
      rw [ih l j]
      split <;> simp
  refine ⟨fun {_} => key ℤ k i j, fun w _ => ?_⟩
  rw [key (BitVec w) k i j]
  simp

/-! ### Polynomials -/

/-- C171. The scheme of Horner gives the polynomial of the matrix. -/
theorem horner_result [CommRing T] [Indet T] (a : Mat T n n) (cs : List T) :
    toM (horner a cs) = ∑ i : Fin cs.length, cs[i] • toM a ^ i.val := by
  have hd : ∀ s : T, toM (diagonal s : Mat T n n) = s • (1 : Matrix (Fin n) (Fin n) T) := fun s => by
    ext j i
    simp only [toM, diagonal_apply, Matrix.smul_apply, Matrix.one_apply, Fin.ext_iff, smul_eq_mul, mul_ite, mul_one, mul_zero,
      eq_comm]
  unfold horner
  induction cs with
  | nil => simp [hd]
  | cons c cs ih =>
    rw [List.reverse_cons, List.foldl_append, List.foldl_cons, List.foldl_nil, toM_add, toM_mul, ih, hd, Finset.sum_mul]
    show _ = ∑ i : Fin (cs.length + 1), _
    rw [Fin.sum_univ_succ, add_comm]
    congr 1
    refine Finset.sum_congr rfl fun i _ => ?_
    rw [smul_mul_assoc, ← pow_succ]; rfl

/-! ### Floating point -/

/-- C171. In floating point each entry of the power is off by at most `((1+u)^(size·exponent) - 1)` times the entry that the
magnitudes give, although the products are made in another order than one after the other. -/
theorem float_power {R : Rounding} [Indet (FP R)] (a : Mat (FP R) n n) (e : Nat) (i j : Fin n) :
    |(matPow a e i j).val - (realM a ^ e) j i| ≤ ((1 + R.u) ^ (n * e) - 1) * (absM a ^ e) j i := by
  have prod : ∀ (x y : Mat (FP R) n n) (E F M N : Matrix (Fin n) (Fin n) ℝ) (p q : Nat),
      (∀ i j, Approx (x i j) (E j i) (M j i) p) → (∀ i j, Approx (y i j) (F j i) (N j i) q) →
      ∀ i j, Approx (mulMat x y i j) ((E * F) j i) ((M * N) j i) (p + q + n) := by
    intro x y E F M N p q hx hy i j
    rw [mulMat_dot]
    exact Approx.dotOf (fun l => x l j) (y i) (fun l => E j l) (fun l => F l i) (fun l => M j l) (fun l => N l i) p q
      (fun l => hx l j) (fun l => hy i l)
  have loop : ∀ (e : Nat) (b r : Mat (FP R) n n) (t s : Nat), 1 ≤ t →
      (∀ i j, Approx (b i j) ((realM a ^ t) j i) ((absM a ^ t) j i) (n * (t - 1))) →
      (∀ i j, Approx (r i j) ((realM a ^ s) j i) ((absM a ^ s) j i) (n * s)) →
      ∀ i j, Approx (powLoop b r e i j) ((realM a ^ (s + t * e)) j i) ((absM a ^ (s + t * e)) j i) (n * (s + t * e)) := by
    intro e
    induction e using Nat.strong_induction_on with
    | _ e ih =>
      intro b r t s ht hb hr i j
      rw [powLoop]
      split
      · next h => rw [h, Nat.mul_zero, Nat.add_zero]; exact hr i j
      · next h =>
        have hbb : ∀ i j, Approx (mulMat b b i j) ((realM a ^ (t + t)) j i) ((absM a ^ (t + t)) j i) (n * (t + t - 1)) := by
          intro i j
          have := prod b b _ _ _ _ _ _ hb hb i j
          rw [← pow_add, ← pow_add] at this
          rwa [show n * (t + t - 1) = n * (t - 1) + n * (t - 1) + n by
            obtain ⟨t, rfl⟩ := Nat.exists_eq_add_of_le ht
            rw [show 1 + t + (1 + t) - 1 = t + t + 1 by omega, show 1 + t - 1 = t by omega]; ring]
        have lt := Nat.div_lt_self (Nat.pos_of_ne_zero h) (show 1 < 2 by decide)
        rcases Nat.mod_two_eq_zero_or_one e with hp | hp
        · rw [if_neg (by omega)]
          have := ih _ lt (mulMat b b) r (t + t) s (by omega) hbb hr i j
          have ee : (t + t) * (e / 2) = t * e := by
            have := Nat.mod_add_div e 2; rw [hp, Nat.zero_add] at this
            conv_rhs => rw [← this]
            ring
          rwa [ee] at this
        · rw [if_pos hp]
          have hrb : ∀ i j, Approx (mulMat r b i j) ((realM a ^ (s + t)) j i) ((absM a ^ (s + t)) j i) (n * (s + t)) := by
            intro i j
            have := prod r b _ _ _ _ _ _ hr hb i j
            rw [← pow_add, ← pow_add] at this
            rwa [show n * (s + t) = n * s + n * (t - 1) + n by
              obtain ⟨t, rfl⟩ := Nat.exists_eq_add_of_le ht
              rw [show 1 + t - 1 = t by omega]; ring]
          have := ih _ lt (mulMat b b) (mulMat r b) (t + t) (s + t) (by omega) hbb hrb i j
          have ee : s + t + (t + t) * (e / 2) = s + t * e := by
            have := Nat.mod_add_div e 2; rw [hp] at this
            conv_rhs => rw [← this]
            ring
          rwa [ee] at this
  have h1 : ∀ i j, Approx (a i j) ((realM a ^ 1) j i) ((absM a ^ 1) j i) (n * (1 - 1)) := fun i j => by
    rw [pow_one, pow_one, Nat.sub_self, Nat.mul_zero]; exact Approx.exact _
  have h0 : ∀ i j, Approx ((defaultMat : Mat (FP R) n n) i j) ((realM a ^ 0) j i) ((absM a ^ 0) j i) (n * 0) := fun i j => by
    rw [pow_zero, pow_zero, Nat.mul_zero, defaultMat, diagonal_apply, Matrix.one_apply]
    by_cases h : i = j
    · subst h
      simpa using Approx.exact (1 : FP R)
    · rw [if_neg (fun h' => h (Fin.ext h')), if_neg (fun h' => h h'.symm)]
      simpa using Approx.exact (0 : FP R)
  have := (loop e a defaultMat 1 0 le_rfl h1 h0 i j).err
  rwa [Nat.zero_add, Nat.one_mul] at this

theorem holds_one (F : Format) : Holds (1 : IVal F) 1 0 := by
  unfold Holds
  rw [Int.cast_one, zpow_zero, mul_one]
  exact ⟨trivial, rfl⟩

/-- The magnitudes of a product of matrices of integers are at most the product of the magnitudes. -/
theorem abs_mul_le {A B C D : Matrix (Fin n) (Fin n) ℤ} (h1 : ∀ i j, |A i j| ≤ C i j) (h2 : ∀ i j, |B i j| ≤ D i j)
    (i j : Fin n) : ∑ l, |A i l * B l j| ≤ (C * D) i j := by
  rw [Matrix.mul_apply]
  refine Finset.sum_le_sum fun l _ => ?_
  rw [abs_mul]
  exact mul_le_mul (h1 _ _) (h2 _ _) (abs_nonneg _) ((abs_nonneg _).trans (h1 _ _))

/-- C171. With whole numbers in `float` or `double` the power is exact, as long as the powers of the magnitudes, up to the power
asked for, have no more than the digits of the format. The loop squares once more than needed; whether that overflows does not
matter. -/
theorem whole_power {F : Format} [Indet (IVal F)] {a : Mat (IVal F) n n} {A : Matrix (Fin n) (Fin n) ℤ}
    (ha : ∀ i j, Holds (a i j) (A j i) 0) (e : Nat)
    (h : ∀ k ≤ e, ∀ i j, ((Matrix.of fun i j => |A i j|) ^ k) i j ≤ 2 ^ F.p) (i j : Fin n) :
    Holds (matPow a e i j) ((A ^ e) j i) 0 := by
  set B : Matrix (Fin n) (Fin n) ℤ := Matrix.of fun i j => |A i j| with hB
  have w0 : Within F (0 + 0) := ⟨by have := F.grid_neg; omega, by have := F.hemax; omega⟩
  have mag : ∀ (k : Nat) i j, |(A ^ k) i j| ≤ (B ^ k) i j := by
    intro k
    induction k with
    | zero => intro i j; rw [pow_zero, pow_zero, Matrix.one_apply]; split <;> simp
    | succ k ih =>
      intro i j
      rw [pow_succ, pow_succ, Matrix.mul_apply]
      exact (Finset.abs_sum_le_sum_abs _ _).trans (abs_mul_le ih (fun i j => le_of_eq (by simp [hB])) i j)
  have prod : ∀ (x y : Mat (IVal F) n n) (p q : Nat), p + q ≤ e → (∀ i j, Holds (x i j) ((A ^ p) j i) 0) →
      (∀ i j, Holds (y i j) ((A ^ q) j i) 0) → ∀ i j, Holds (mulMat x y i j) ((A ^ (p + q)) j i) 0 := by
    intro x y p q hpq hx hy i j
    rw [pow_add, Matrix.mul_apply]
    refine whole_mulMat (x := fun i j => (A ^ p) j i) (y := fun i j => (A ^ q) j i) hx hy w0 (fun i j => ?_) i j
    refine (abs_mul_le (mag p) (mag q) j i).trans ?_
    rw [← pow_add]; exact h _ hpq _ _
  have loop : ∀ (f : Nat) (b r : Mat (IVal F) n n) (t s : Nat), s + t * f = e →
      (f ≠ 0 → ∀ i j, Holds (b i j) ((A ^ t) j i) 0) → (∀ i j, Holds (r i j) ((A ^ s) j i) 0) →
      ∀ i j, Holds (powLoop b r f i j) ((A ^ e) j i) 0 := by
    intro f
    induction f using Nat.strong_induction_on with
    | _ f ih =>
      intro b r t s hs hb hr i j
      rw [powLoop]
      split
      · next hf => rw [hf, Nat.mul_zero, Nat.add_zero] at hs; rw [← hs]; exact hr i j
      · next hf =>
        have lt := Nat.div_lt_self (Nat.pos_of_ne_zero hf) (show 1 < 2 by decide)
        have hm := Nat.mod_add_div f 2
        have hbb : f / 2 ≠ 0 → ∀ i j, Holds (mulMat b b i j) ((A ^ (t + t)) j i) 0 := fun h2 => by
          refine prod b b t t ?_ (hb hf) (hb hf)
          have : t * 2 ≤ t * f := Nat.mul_le_mul_left _ (by omega)
          omega
        rcases Nat.mod_two_eq_zero_or_one f with hp | hp
        · rw [if_neg (by omega)]
          refine ih _ lt _ r (t + t) s ?_ hbb hr i j
          rw [← hs]; rw [hp, Nat.zero_add] at hm
          conv_rhs => rw [← hm]
          ring
        · rw [if_pos hp]
          have ht : t ≤ t * f := Nat.le_mul_of_pos_right _ (Nat.pos_of_ne_zero hf)
          refine ih _ lt _ _ (t + t) (s + t) ?_ hbb (prod r b s t (by omega) hr (hb hf)) i j
          rw [← hs]; rw [hp] at hm
          conv_rhs => rw [← hm]
          ring
  refine loop e a defaultMat 1 0 (by omega) (fun _ i j => by rw [pow_one]; exact ha i j) (fun i j => ?_) i j
  rw [pow_zero, defaultMat, diagonal_apply, Matrix.one_apply]
  by_cases hij : i = j
  · subst hij
    simp only [if_true]
    exact holds_one F
  · rw [if_neg (fun h' => hij (Fin.ext h')), if_neg (fun h' => hij h'.symm)]
    exact holds_zero 0

/-- C171. Fibonacci numbers in floating point are exact while the next one has no more than the digits of the format: in `float`
up to number 35, in `double` up to number 77. -/
theorem fib_float {F : Format} [Indet (IVal F)] (k : Nat) (h : Nat.fib (k + 1) ≤ 2 ^ F.p) :
    Holds (recurrence (n := 1) ![1, 1] ![0, 1] k : IVal F) (Nat.fib k) 0 := by
  let A : Matrix (Fin 2) (Fin 2) ℤ := !![0, 1; 1, 1]
  have hA : ∀ k : Nat, A ^ k = !![(Nat.fib (k + 1) : ℤ) - Nat.fib k, Nat.fib k; (Nat.fib k : ℤ), Nat.fib (k + 1)] := by
    intro k
    induction k with
    | zero => ext i j; fin_cases i <;> fin_cases j <;> simp
    | succ k ih =>
      rw [pow_succ, ih]
      have := Nat.fib_add_two (n := k)
      ext i j
      fin_cases i <;> fin_cases j <;> simp [A, this]
  have hB : (Matrix.of fun i j => |A i j|) = A := by ext i j; fin_cases i <;> fin_cases j <;> simp [A]
  have ha : ∀ i j, Holds (companion (n := 1) (![1, 1] : Vec (IVal F) 2) i j) (A j i) 0 := by
    intro i j
    rw [companion_apply]
    fin_cases i <;> fin_cases j <;> simp [A, holds_zero, holds_one]
  have bound : ∀ m ≤ k, ∀ i j, ((Matrix.of fun i j => |A i j|) ^ m) i j ≤ 2 ^ F.p := by
    intro m hm i j
    rw [hB, hA]
    have h1 : (Nat.fib (m + 1) : ℤ) ≤ 2 ^ F.p := by
      have := (Nat.fib_mono (Nat.succ_le_succ hm)).trans h
      exact_mod_cast this
    have h2 : (Nat.fib m : ℤ) ≤ Nat.fib (m + 1) := by exact_mod_cast Nat.fib_le_fib_succ
    have h3 : (0 : ℤ) ≤ Nat.fib m := Int.natCast_nonneg _
    fin_cases i <;> fin_cases j <;> simp <;> linarith
  have hp := whole_power ha k bound
  have w0 : Within F (0 + 0) := ⟨by have := F.grid_neg; omega, by have := F.hemax; omega⟩
  have hv : ∀ i, Holds ((![0, 1] : Vec (IVal F) 2) i) ((![0, 1] : Vec ℤ 2) i) 0 := by
    intro i; fin_cases i
    · exact holds_zero 0
    · exact holds_one F
  have hb := bound k le_rfl
  rw [hB] at hb
  have nn : ∀ i j, 0 ≤ (A ^ k) i j := by
    intro i j
    rw [hA]
    have h2 : (Nat.fib k : ℤ) ≤ Nat.fib (k + 1) := by exact_mod_cast Nat.fib_le_fib_succ
    fin_cases i <;> fin_cases j <;> simp
    linarith
  have := whole_mulVec (x := fun i j => (A ^ k) j i) hp hv w0 (fun j => by
    rw [Fin.sum_univ_two]
    simp only [Matrix.cons_val_zero, Matrix.cons_val_one, mul_zero, mul_one, abs_zero, zero_add]
    rw [abs_of_nonneg (nn j 1)]
    exact hb j 1) 0
  rw [Fin.sum_univ_two] at this
  simp only [Matrix.cons_val_zero, Matrix.cons_val_one, mul_zero, mul_one, zero_add] at this
  have e : (A ^ k) 0 1 = Nat.fib k := by rw [hA]; rfl
  rw [e] at this
  exact this

/-! ### Cases -/

/-- `float` and `double`: the largest Fibonacci numbers that the theorem covers. -/
example : Nat.fib (35 + 1) ≤ 2 ^ 24 ∧ ¬Nat.fib (36 + 1) ≤ 2 ^ 24 ∧ Nat.fib (77 + 1) ≤ 2 ^ 53 ∧ ¬Nat.fib (78 + 1) ≤ 2 ^ 53 := by
  decide +kernel

/-- A power with an exponent that is not a power of two. -/
example : matPow ![![1, 1], ![1, (0 : ℤ)]] 11 = ![![144, 89], ![89, 55]] := by decide +kernel

/-- A sequence of three terms: `x(k+3) = x(k) + x(k+1) + x(k+2)`. -/
example : recurrence ![1, 1, 1] ![0, 0, (1 : ℤ)] 10 = 81 := by decide +kernel

/-- `x(k+3) = 1 x(k) + 2 x(k+1) + 3 x(k+2)`: the order of the coefficients matters. -/
example : recurrence ![1, 2, 3] ![1, 1, (2 : ℤ)] 3 = 9 ∧ recurrence ![3, 2, 1] ![1, 1, (2 : ℤ)] 3 = 7 := by decide +kernel

/-- A rotation by a right angle, four times. -/
example : quatPow (⟨0, 1, 0, 0⟩ : Quat ℤ) 2 = ⟨-1, 0, 0, 0⟩ ∧ quatPow (⟨0, 1, 0, 0⟩ : Quat ℤ) 4 = ⟨1, 0, 0, 0⟩ := by
  constructor <;> (simp [quatPow, quatPowLoop, Quat.mul])

/-- `2 - 3 a + a²`. -/
example : horner ![![1, 1], ![0, (2 : ℤ)]] [2, -3, 1] = ![![0, 0], ![0, 0]] := by decide +kernel

end Verif.Math
