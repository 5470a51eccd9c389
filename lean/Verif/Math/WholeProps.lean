import Verif.Math.IeeeLemmas
import Verif.Math.MatrixProps
import Mathlib.LinearAlgebra.Matrix.Determinant.Basic
import Mathlib.Tactic.Linarith
import Mathlib.Tactic.Ring
import Mathlib.Algebra.Order.BigOperators.Group.Finset

/-!
# Whole numbers and fixed-point numbers are computed without error

Property theorems C162.  The components are `float` or `double`, or any format of the same kind.  If they hold
whole numbers, or multiples of one power of two, and the numbers in the exact computation stay within the `p` digits of
the format, the library computes the exact result: sums, scalar products, products of matrices, determinants,
products of quaternions, and lengths that are whole.  The reference is the computation with integers.

Mathlib's integers, their sums, and determinants are the specification.
-/

set_option autoImplicit false

namespace Verif.Math

variable {F : Format} {n c r k : Nat}

/-! ### Specification -/

/-- The value is the number `m * 2^e`. With `e = 0`: the whole number `m`. -/
def Holds (v : IVal F) (m e : ℤ) : Prop := v.Is (m * 2 ^ e)

/-- Multiples of `2^e` with `p` digits are within the range of the format. For `float` this is `-149 ≤ e ≤ 103`, for `double`
`-1074 ≤ e ≤ 970`. -/
def Within (F : Format) (e : ℤ) : Prop := F.grid ≤ e ∧ e + F.p ≤ F.emax

/-- The integer has no more than the digits of the format. -/
def Short (F : Format) (m : ℤ) : Prop := |m| ≤ 2 ^ F.p

/-! ### Single operations -/

theorem short_rnd {m e : ℤ} (hm : Short F m) (he : Within F e) :
    F.rnd (m * 2 ^ e) = m * 2 ^ e ∧ |(m : ℝ) * 2 ^ e| ≤ F.largest := by
  unfold Short at hm
  obtain ⟨he1, he2⟩ := he
  have h2 : (0 : ℝ) < 2 ^ e := by positivity
  have hmR : |(m : ℝ)| ≤ 2 ^ F.p := by exact_mod_cast hm
  have habs : |(m : ℝ) * 2 ^ e| ≤ 2 ^ (e + F.p) := by
    rw [abs_mul, abs_of_pos h2, zpow_add₀ (by norm_num), zpow_natCast, mul_comm]
    gcongr
  refine ⟨?_, habs.trans (F.pow_le_largest he2)⟩
  by_cases h0 : m = 0
  · simp [h0, F.rnd_zero]
  rcases habs.lt_or_eq with hlt | heq
  · rcases le_or_gt |(m : ℝ) * 2 ^ e| F.tiny with hs | hs
    · obtain ⟨d, hd⟩ := Int.le.dest he1
      refine F.rnd_grid (m * 2 ^ d) hs ?_
      push_cast
      rw [← hd, zpow_add₀ (by norm_num), zpow_natCast]; ring
    · rw [F.rnd_normal hs.le]
      have hpos : 0 < |(m : ℝ) * 2 ^ e| := F.tiny_pos.trans hs
      have hlog : Int.log 2 |(m : ℝ) * 2 ^ e| < e + F.p := by
        have := (binade hpos).1
        exact (zpow_lt_zpow_iff_right₀ (by norm_num : (1 : ℝ) < 2)).mp (this.trans_lt hlt)
      have hle : lastPlace F.p ((m : ℝ) * 2 ^ e) ≤ e := by unfold lastPlace; omega
      obtain ⟨d, hd⟩ := Int.le.dest hle
      refine roundTo_exact (m * 2 ^ d) ?_
      push_cast
      rw [mul_assoc, ← zpow_natCast, ← zpow_add₀ (by norm_num), add_comm (d : ℤ), hd]
  · have hg : F.grid ≤ e + F.p := by have := F.p_pos; omega
    rcases abs_choice ((m : ℝ) * 2 ^ e) with h | h
    · rw [← h, heq, F.pow_rep hg]
    · have h' : (m : ℝ) * 2 ^ e = -2 ^ (e + (F.p : ℤ)) := by linarith
      rw [h', F.rnd_neg, F.pow_rep hg]

theorem not_exc {z : ℝ} (h : F.rnd z = z ∧ |z| ≤ F.largest) : ¬F.Exc z := by
  rintro (h1 | h1)
  · rw [h.1] at h1; exact absurd h.2 (not_le.mpr h1)
  · exact h1.2 h.1

theorem add_exact {a b : IVal F} {x y : ℝ} (h1 : a.Is x) (h2 : b.Is y)
    (h : F.rnd (x + y) = x + y ∧ |x + y| ≤ F.largest) : (a + b).Is (x + y) := by
  have := add_is h1 h2 (by
    cases a with
    | num u hu => cases b with
      | num w hw =>
        obtain ⟨-, rfl⟩ := h1; obtain ⟨-, rfl⟩ := h2
        exact not_exc h
      | _ => exact id
    | inf => exact h1.1.elim
    | _ => exact id)
  rwa [F.rep_wide h.1] at this

theorem sub_exact {a b : IVal F} {x y : ℝ} (h1 : a.Is x) (h2 : b.Is y)
    (h : F.rnd (x - y) = x - y ∧ |x - y| ≤ F.largest) : (a - b).Is (x - y) := by
  have e : a - b = a + -b := rfl
  rw [e, sub_eq_add_neg]
  rw [sub_eq_add_neg] at h
  exact add_exact h1 (neg_is h2) h

theorem mul_exact {a b : IVal F} {x y : ℝ} (h1 : a.Is x) (h2 : b.Is y)
    (h : F.rnd (x * y) = x * y ∧ |x * y| ≤ F.largest) : (a * b).Is (x * y) := by
  have := mul_is h1 h2 (by
    cases a with
    | num u hu => cases b with
      | num w hw =>
        obtain ⟨-, rfl⟩ := h1; obtain ⟨-, rfl⟩ := h2
        exact not_exc h
      | inf => exact h2.1.elim
      | _ => exact id
    | zero => cases b with
      | inf => exact h2.1.elim
      | _ => exact id
    | inf => exact h1.1.elim
    | _ => exact id)
  rwa [F.rep_wide h.1] at this

theorem div_exact {a b : IVal F} {x y : ℝ} (h1 : a.Is x) (h2 : b.Is y) (hy : y ≠ 0)
    (h : F.rnd (x / y) = x / y ∧ |x / y| ≤ F.largest) : (a / b).Is (x / y) := by
  have := div_is h1 h2 (by
    cases b with
    | zero => obtain ⟨-, rfl⟩ := h2; exact absurd rfl hy
    | inf => exact h2.1.elim
    | nan => exact h2.1.elim
    | num w hw => cases a with
      | num u hu =>
        obtain ⟨-, rfl⟩ := h1; obtain ⟨-, rfl⟩ := h2
        exact not_exc h
      | _ => exact id)
  rwa [F.rep_wide h.1] at this

theorem sqrt_exact {a : IVal F} {x : ℝ} (h1 : a.Is x) (hx : 0 ≤ x)
    (h : F.rnd √x = √x ∧ |√x| ≤ F.largest) : a.sqrt.Is √x := by
  have := ieee_sqrt_is h1 (by
    cases a with
    | num u hu =>
      obtain ⟨-, rfl⟩ := h1
      rintro (h' | h')
      · exact absurd hx (not_le.mpr h')
      · exact not_exc h h'
    | inf => exact h1.1.elim
    | _ => exact id)
  rwa [F.rep_wide h.1] at this

theorem holds_zero (e : ℤ) : Holds (0 : IVal F) 0 e := by
  unfold Holds
  rw [Int.cast_zero, zero_mul]
  exact IVal.is_zero false

theorem Holds.neg {v : IVal F} {m e : ℤ} (h : Holds v m e) : Holds (-v) (-m) e := by
  unfold Holds at *; push_cast; rw [neg_mul]; exact neg_is h

theorem Holds.add {v w : IVal F} {a b e : ℤ} (h1 : Holds v a e) (h2 : Holds w b e) (he : Within F e)
    (h : Short F (a + b)) : Holds (v + w) (a + b) e := by
  unfold Holds at *
  have := short_rnd h he
  push_cast at this ⊢
  rw [add_mul] at this ⊢
  exact add_exact h1 h2 this

theorem Holds.sub {v w : IVal F} {a b e : ℤ} (h1 : Holds v a e) (h2 : Holds w b e) (he : Within F e)
    (h : Short F (a - b)) : Holds (v - w) (a - b) e := by
  unfold Holds at *
  have := short_rnd h he
  push_cast at this ⊢
  rw [sub_mul] at this ⊢
  exact sub_exact h1 h2 this

theorem Holds.mul {v w : IVal F} {a b d e : ℤ} (h1 : Holds v a d) (h2 : Holds w b e) (he : Within F (d + e))
    (h : Short F (a * b)) : Holds (v * w) (a * b) (d + e) := by
  unfold Holds at *
  have := short_rnd h he
  have e : ((a * b : ℤ) : ℝ) * 2 ^ (d + e) = (a * 2 ^ d) * (b * 2 ^ e) := by
    push_cast; rw [zpow_add₀ (by norm_num)]; ring
  rw [e] at this ⊢
  exact mul_exact h1 h2 this

theorem Holds.div {v w : IVal F} {q b d e : ℤ} (h1 : Holds v (q * b) d) (h2 : Holds w b e) (hb : b ≠ 0)
    (he : Within F (d - e)) (h : Short F q) : Holds (v / w) q (d - e) := by
  unfold Holds at *
  have := short_rnd h he
  have hb' : (b : ℝ) ≠ 0 := by exact_mod_cast hb
  have e : (q : ℝ) * 2 ^ (d - e) = (((q * b : ℤ) : ℝ) * 2 ^ d) / (b * 2 ^ e) := by
    push_cast; rw [zpow_sub₀ (by norm_num)]; field_simp
  rw [e] at this ⊢
  exact div_exact h1 h2 (by positivity) this

/-- Bounds on the integers of a computation, `b` being the bound of the last one. -/
def Bounded (v : IVal F) (m e : ℤ) (b : Nat) : Prop := 1 ≤ b ∧ (b ≤ 2 ^ F.p → Holds v m e ∧ |m| ≤ b)

theorem Bounded.congr {v : IVal F} {m e e' : ℤ} {b b' : Nat} (h : Bounded v m e b) (he : e = e') (hb : b = b') :
    Bounded v m e' b' := by subst he hb; exact h

theorem Bounded.add {v w : IVal F} {m m' e : ℤ} {b b' : Nat} (h1 : Bounded v m e b) (h2 : Bounded w m' e b')
    (he : Within F e) : Bounded (v + w) (m + m') e (b + b') := by
  refine ⟨by have := h1.1; omega, fun hb => ?_⟩
  obtain ⟨g1, l1⟩ := h1.2 (by omega)
  obtain ⟨g2, l2⟩ := h2.2 (by omega)
  have hl : |m + m'| ≤ ((b + b' : Nat) : ℤ) := by have := abs_add_le m m'; push_cast; linarith
  exact ⟨g1.add g2 he (hl.trans (by exact_mod_cast hb)), hl⟩

theorem Bounded.sub {v w : IVal F} {m m' e : ℤ} {b b' : Nat} (h1 : Bounded v m e b) (h2 : Bounded w m' e b')
    (he : Within F e) : Bounded (v - w) (m - m') e (b + b') := by
  refine ⟨by have := h1.1; omega, fun hb => ?_⟩
  obtain ⟨g1, l1⟩ := h1.2 (by omega)
  obtain ⟨g2, l2⟩ := h2.2 (by omega)
  have hl : |m - m'| ≤ ((b + b' : Nat) : ℤ) := by have := abs_sub m m'; push_cast; linarith
  exact ⟨g1.sub g2 he (hl.trans (by exact_mod_cast hb)), hl⟩

theorem Bounded.mul {v w : IVal F} {m m' d e : ℤ} {b b' : Nat} (h1 : Bounded v m d b) (h2 : Bounded w m' e b')
    (he : Within F (d + e)) : Bounded (v * w) (m * m') (d + e) (b * b') := by
  refine ⟨Nat.mul_pos h1.1 h2.1, fun hb => ?_⟩
  obtain ⟨g1, l1⟩ := h1.2 ((Nat.le_mul_of_pos_right b h2.1).trans hb)
  obtain ⟨g2, l2⟩ := h2.2 ((Nat.le_mul_of_pos_left b' h1.1).trans hb)
  have hl : |m * m'| ≤ ((b * b' : Nat) : ℤ) := by
    rw [abs_mul]; push_cast
    exact mul_le_mul l1 l2 (abs_nonneg _) (by positivity)
  exact ⟨g1.mul g2 he (hl.trans (by exact_mod_cast hb)), hl⟩

theorem bounded_of {v : IVal F} {m e : ℤ} {b : Nat} (hb : 1 ≤ b) (h : Holds v m e) (hm : |m| ≤ b) : Bounded v m e b :=
  ⟨hb, fun _ => ⟨h, hm⟩⟩

/-! ### Vectors -/

/-- C162. The operators of vectors work component by component without error: sum, difference, product, negation,
product with a number, and the quotient by a number that divides the components. -/
theorem whole_vectors [Indet (IVal F)] {a b : Vec (IVal F) n} {x y : Vec ℤ n} {s : IVal F} {t d e : ℤ} (ha : ∀ i, Holds (a i) (x i) e) :
    (Within F e → (∀ i, Holds (b i) (y i) e) →
      ((∀ i, Short F (x i + y i)) → ∀ i, Holds (add a b i) (x i + y i) e) ∧
      ((∀ i, Short F (x i - y i)) → ∀ i, Holds (sub a b i) (x i - y i) e)) ∧
    (∀ i, Holds (neg a i) (-x i) e) ∧
    (Within F (e + d) → (∀ i, Holds (b i) (y i) d) → (∀ i, Short F (x i * y i)) →
      ∀ i, Holds (mul a b i) (x i * y i) (e + d)) ∧
    (Within F (e + d) → Holds s t d → (∀ i, Short F (x i * t)) → ∀ i, Holds (mulS a s i) (x i * t) (e + d)) ∧
    (Within F (e - d) → Holds s t d → t ≠ 0 → (∀ i, x i = y i * t) → (∀ i, Short F (y i)) →
      ∀ i, Holds (divS a s i) (y i) (e - d)) := by
  refine ⟨fun he hb => ⟨fun h i => ?_, fun h i => ?_⟩, fun i => ?_, fun he hb h i => ?_, fun he hs h i => ?_,
    fun he hs ht hd h i => ?_⟩
  · unfold add; rw [vecOp_apply]; exact (ha i).add (hb i) he (h i)
  · unfold sub; rw [vecOp_apply]; exact (ha i).sub (hb i) he (h i)
  · rw [neg_apply]; exact (ha i).neg
  · unfold mul; rw [vecOp_apply]; exact (ha i).mul (hb i) he (h i)
  · unfold mulS; rw [vecOpS_apply]; exact (ha i).mul hs he (h i)
  · unfold divS; rw [vecOpS_apply]; exact Holds.div (by rw [← hd i]; exact ha i) hs ht he (h i)

theorem sum_loop {a b : Vec (IVal F) n} {x y : Vec ℤ n} {d e : ℤ} (he : Within F (d + e))
    (ha : ∀ i, Holds (a i) (x i) d) (hb : ∀ i, Holds (b i) (y i) e) :
    ∀ (l : List (Fin n)) (v : IVal F) (m : ℤ), Holds v m (d + e) → |m| + (l.map fun i => |x i * y i|).sum ≤ 2 ^ F.p →
      Holds (l.foldl (fun r i => r + a i * b i) v) (m + (l.map fun i => x i * y i).sum) (d + e)
  | [], v, m, hv, _ => by simpa using hv
  | i :: l, v, m, hv, hs => by
    rw [List.map_cons, List.sum_cons] at hs
    have hnn : 0 ≤ (l.map fun i => |x i * y i|).sum := List.sum_nonneg (by
      intro z hz
      obtain ⟨j, -, rfl⟩ := List.mem_map.mp hz
      exact abs_nonneg _)
    have h1 := abs_nonneg m
    have h2 := abs_nonneg (x i * y i)
    have h3 := abs_add_le m (x i * y i)
    have hm := (ha i).mul (hb i) he (show |x i * y i| ≤ 2 ^ F.p by linarith)
    have := sum_loop he ha hb l _ _ (hv.add hm he (show |_| ≤ _ by linarith)) (by linarith)
    rw [List.map_cons, List.sum_cons, ← add_assoc]
    exact this

/-- C162. The scalar product is exact if the products, taken without sign, add up to a number with the digits of the format. -/
theorem whole_dot {a b : Vec (IVal F) n} {x y : Vec ℤ n} {d e : ℤ} (ha : ∀ i, Holds (a i) (x i) d)
    (hb : ∀ i, Holds (b i) (y i) e) (he : Within F (d + e)) (h : ∑ i, |x i * y i| ≤ 2 ^ F.p) :
    Holds (dot a b) (∑ i, x i * y i) (d + e) := by
  have := sum_loop he ha hb (List.finRange n) 0 0 (holds_zero _) (by
    rw [abs_zero, zero_add, ← Fin.sum_univ_def]; exact h)
  rw [zero_add, ← Fin.sum_univ_def] at this
  exact this

/-- C162. The vector product. -/
theorem whole_cross {a b : Vec (IVal F) 3} {x y : Vec ℤ 3} {d e : ℤ} (ha : ∀ i, Holds (a i) (x i) d)
    (hb : ∀ i, Holds (b i) (y i) e) (he : Within F (d + e))
    (h : ∀ i j, i ≠ j → |x i * y j| + |x j * y i| ≤ 2 ^ F.p) :
    Holds (cross a b 0) (x 1 * y 2 - x 2 * y 1) (d + e) ∧ Holds (cross a b 1) (x 2 * y 0 - x 0 * y 2) (d + e) ∧
      Holds (cross a b 2) (x 0 * y 1 - x 1 * y 0) (d + e) := by
  have key : ∀ i j, i ≠ j → Holds (a i * b j - a j * b i) (x i * y j - x j * y i) (d + e) := by
    intro i j hij
    have := h i j hij
    have h1 := abs_nonneg (x i * y j)
    have h2 := abs_nonneg (x j * y i)
    have h3 := abs_sub (x i * y j) (x j * y i)
    exact ((ha i).mul (hb j) he (show |_| ≤ _ by linarith)).sub ((ha j).mul (hb i) he (show |_| ≤ _ by linarith)) he
      (show |_| ≤ _ by linarith)
  exact ⟨key 1 2 (by decide), key 2 0 (by decide), key 0 1 (by decide)⟩

theorem root_holds [ILibm F] {v : IVal F} {q e : ℤ} (hv : Holds v (q * q) (e + e)) (hq : 0 ≤ q) (hs : Short F q)
    (he : Within F e) : Holds (MathFns.sqrt v) q e := by
  unfold Holds at *
  have hq' : (0 : ℝ) ≤ q := by exact_mod_cast hq
  have e1 : √(((q * q : ℤ) : ℝ) * 2 ^ (e + e)) = q * 2 ^ e := by
    rw [show ((q * q : ℤ) : ℝ) * 2 ^ (e + e) = (q * 2 ^ e) * (q * 2 ^ e) by
      push_cast; rw [zpow_add₀ (by norm_num)]; ring]
    exact Real.sqrt_mul_self (by positivity)
  have := sqrt_exact hv (by push_cast; positivity) (by rw [e1]; exact short_rnd hs he)
  rwa [e1] at this

theorem square_short {q : ℤ} (h : q * q ≤ 2 ^ F.p) : Short F q := by
  unfold Short
  rw [abs_le]
  constructor <;> nlinarith

theorem squares_abs (x : Vec ℤ n) : ∑ i, |x i * x i| = ∑ i, x i * x i :=
  Finset.sum_congr rfl fun i _ => abs_mul_self (x i)

/-- C162. The length of a vector, if it is a whole number (or a multiple of the power of two): the free function and the member
function. -/
theorem whole_length [ILibm F] {a : Vec (IVal F) n} {x : Vec ℤ n} {q e : ℤ} (ha : ∀ i, Holds (a i) (x i) e)
    (he : Within F e) (he2 : Within F (e + e)) (hq : 0 ≤ q) (h : ∑ i, x i * x i = q * q) (hs : q * q ≤ 2 ^ F.p) :
    Holds (length a) q e ∧ Holds (lengthM a) q e := by
  have hdot : Holds (dot a a) (∑ i, x i * x i) (e + e) :=
    whole_dot ha ha he2 (by rw [squares_abs, h]; exact hs)
  have hr : ∀ v : IVal F, Holds v (∑ i, x i * x i) (e + e) → Holds (MathFns.sqrt v) q e := fun v hv =>
    root_holds (by rw [← h]; exact hv) hq (square_short hs) he
  refine ⟨hr _ hdot, ?_⟩
  have hsq : ∀ i, 0 ≤ x i * x i := fun i => mul_self_nonneg _
  have hm : ∀ i, |x i * x i| ≤ 2 ^ F.p → Holds (a i * a i) (x i * x i) (e + e) := fun i hi => (ha i).mul (ha i) he2 hi
  match n, a, x, ha, h, hdot, hr, hsq, hm with
  | 2, a, x, ha, h, hdot, hr, hsq, hm =>
    refine hr _ ?_
    rw [Fin.sum_univ_two] at h ⊢
    have h0 := hsq 0; have h1 := hsq 1
    exact (hm 0 (by rw [abs_mul_self]; linarith)).add (hm 1 (by rw [abs_mul_self]; linarith)) he2
      (by unfold Short; rw [abs_of_nonneg (by linarith)]; linarith)
  | 3, a, x, ha, h, hdot, hr, hsq, hm =>
    refine hr _ ?_
    rw [Fin.sum_univ_three] at h ⊢
    have h0 := hsq 0; have h1 := hsq 1; have h2 := hsq 2
    exact ((hm 0 (by rw [abs_mul_self]; linarith)).add (hm 1 (by rw [abs_mul_self]; linarith)) he2
      (by unfold Short; rw [abs_of_nonneg (by linarith)]; linarith)).add (hm 2 (by rw [abs_mul_self]; linarith)) he2
      (by unfold Short; rw [abs_of_nonneg (by linarith)]; linarith)
  | 4, a, x, ha, h, hdot, hr, hsq, hm =>
    refine hr _ ?_
    rw [Fin.sum_univ_four] at h ⊢
    have h0 := hsq 0; have h1 := hsq 1; have h2 := hsq 2; have h3 := hsq 3
    exact (((hm 0 (by rw [abs_mul_self]; linarith)).add (hm 1 (by rw [abs_mul_self]; linarith)) he2
      (by unfold Short; rw [abs_of_nonneg (by linarith)]; linarith)).add (hm 2 (by rw [abs_mul_self]; linarith)) he2
      (by unfold Short; rw [abs_of_nonneg (by linarith)]; linarith)).add (hm 3 (by rw [abs_mul_self]; linarith)) he2
      (by unfold Short; rw [abs_of_nonneg (by linarith)]; linarith)
  | 0, a, x, ha, h, hdot, hr, hsq, hm => exact hr _ hdot
  | 1, a, x, ha, h, hdot, hr, hsq, hm => exact hr _ hdot
  | n + 5, a, x, ha, h, hdot, hr, hsq, hm => exact hr _ hdot

/-- C162. The distance of two points, if it is a whole number. -/
theorem whole_distance [ILibm F] {a b : Vec (IVal F) n} {x y : Vec ℤ n} {q e : ℤ} (ha : ∀ i, Holds (a i) (x i) e)
    (hb : ∀ i, Holds (b i) (y i) e) (he : Within F e) (he2 : Within F (e + e)) (hq : 0 ≤ q)
    (h : ∑ i, (y i - x i) ^ 2 = q ^ 2) (hs : q ^ 2 ≤ 2 ^ F.p) : Holds (distance a b) q e := by
  have h' : ∑ i, (y i - x i) * (y i - x i) = q * q := by simpa only [sq] using h
  have hs' : q * q ≤ 2 ^ F.p := by rwa [sq] at hs
  refine (whole_length (x := fun i => y i - x i) (fun i => ?_) he he2 hq h' hs').2
  unfold sub; rw [vecOp_apply]
  refine (hb i).sub (ha i) he (square_short ?_)
  have := Finset.single_le_sum (f := fun i => (y i - x i) * (y i - x i)) (fun i _ => mul_self_nonneg _) (Finset.mem_univ i)
  linarith

/-! ### Matrices -/

/-- C162. Sum and difference of matrices, product with a number. -/
theorem whole_matrices {a b : Mat (IVal F) c r} {x y : Mat ℤ c r} {s : IVal F} {t d e : ℤ}
    (ha : ∀ i j, Holds (a i j) (x i j) e) :
    (Within F e → (∀ i j, Holds (b i j) (y i j) e) →
      ((∀ i j, Short F (x i j + y i j)) → ∀ i j, Holds (matAdd a b i j) (x i j + y i j) e) ∧
      ((∀ i j, Short F (x i j - y i j)) → ∀ i j, Holds (matSub a b i j) (x i j - y i j) e)) ∧
    (Within F (e + d) → Holds s t d → (∀ i j, Short F (x i j * t)) →
      ∀ i j, Holds (matMulS a s i j) (x i j * t) (e + d)) := by
  refine ⟨fun he hb => ⟨fun h i j => ?_, fun h i j => ?_⟩, fun he hs h i j => ?_⟩
  · unfold matAdd; rw [matOp_apply]; exact (ha i j).add (hb i j) he (h i j)
  · unfold matSub; rw [matOp_apply]; exact (ha i j).sub (hb i j) he (h i j)
  · unfold matMulS; rw [matOpS_apply]; exact (ha i j).mul hs he (h i j)

/-- C162. A matrix times a vector. `a i j` is the entry of column `i` and row `j`. -/
theorem whole_mulVec [Indet (IVal F)] {a : Mat (IVal F) c r} {v : Vec (IVal F) c} {x : Mat ℤ c r} {y : Vec ℤ c} {d e : ℤ}
    (ha : ∀ i j, Holds (a i j) (x i j) d) (hv : ∀ i, Holds (v i) (y i) e) (he : Within F (d + e))
    (h : ∀ j, ∑ i, |x i j * y i| ≤ 2 ^ F.p) (j : Fin r) : Holds (mulVec a v j) (∑ i, x i j * y i) (d + e) := by
  rw [mulVec_dot]; exact whole_dot (fun i => ha i j) hv he (h j)

/-- C162. The product of matrices. -/
theorem whole_mulMat [Indet (IVal F)] {a : Mat (IVal F) c r} {b : Mat (IVal F) k c} {x : Mat ℤ c r} {y : Mat ℤ k c} {d e : ℤ}
    (ha : ∀ i j, Holds (a i j) (x i j) d) (hb : ∀ i j, Holds (b i j) (y i j) e) (he : Within F (d + e))
    (h : ∀ i j, ∑ l, |x l j * y i l| ≤ 2 ^ F.p) (i : Fin k) (j : Fin r) :
    Holds (mulMat a b i j) (∑ l, x l j * y i l) (d + e) := by
  rw [mulMat_dot]; exact whole_dot (fun l => ha l j) (hb i) he (h i j)

/-- C162. The determinants are those of the matrices of integers: `2 B²`, `6 B³` or `24 B⁴` has the digits of the format, where `B`
bounds the entries. -/
theorem whole_det {B : Nat} (hB : 1 ≤ B) {e : ℤ} (he : Within F e) :
    (∀ (m : Mat (IVal F) 2 2) (x : Matrix (Fin 2) (Fin 2) ℤ), (∀ i j, Holds (m i j) (x j i) e ∧ |x j i| ≤ B) →
      Within F (2 * e) → 2 * B ^ 2 ≤ 2 ^ F.p → Holds (det2 m) x.det (2 * e)) ∧
    (∀ (m : Mat (IVal F) 3 3) (x : Matrix (Fin 3) (Fin 3) ℤ), (∀ i j, Holds (m i j) (x j i) e ∧ |x j i| ≤ B) →
      Within F (3 * e) → 6 * B ^ 3 ≤ 2 ^ F.p → Holds (det3 m) x.det (3 * e)) ∧
    (∀ (m : Mat (IVal F) 4 4) (x : Matrix (Fin 4) (Fin 4) ℤ), (∀ i j, Holds (m i j) (x j i) e ∧ |x j i| ≤ B) →
      Within F (4 * e) → 24 * B ^ 4 ≤ 2 ^ F.p → Holds (det4 m) x.det (4 * e)) := by
  have hin : ∀ {v : IVal F} {z : ℤ}, Holds v z e ∧ |z| ≤ B → Bounded v z e B := fun h => bounded_of hB h.1 h.2
  have hw : ∀ d : ℤ, Within F d ↔ (F.grid ≤ d ∧ d + F.p ≤ F.emax) := fun _ => Iff.rfl
  obtain ⟨w1, w2⟩ := he
  obtain ⟨c2, c3, c4⟩ := determinant_correct (T := ℤ)
  refine ⟨fun m x h hd hb => ?_, fun m x h hd hb => ?_, fun m x h hd hb => ?_⟩
  all_goals obtain ⟨v1, v2⟩ := hd
  · have hx : x.det = det2 (fun i j => x j i) := by rw [c2]; rfl
    have hm : Bounded (det2 m) (det2 fun i j => x j i) (2 * e) (2 * B ^ 2) := by
      apply Bounded.congr
      case h =>
        unfold det2
        repeat' first
          | with_reducible apply Bounded.add | with_reducible apply Bounded.sub | with_reducible apply Bounded.mul
          | exact hin (h _ _) | (rw [hw]; constructor <;> omega)
      all_goals ring
    rw [hx]; exact (hm.2 hb).1
  · have hx : x.det = det3 (fun i j => x j i) := by rw [c3]; rfl
    have hm : Bounded (det3 m) (det3 fun i j => x j i) (3 * e) (6 * B ^ 3) := by
      apply Bounded.congr
      case h =>
        unfold det3
        dsimp only
        repeat' first
          | with_reducible apply Bounded.add | with_reducible apply Bounded.sub | with_reducible apply Bounded.mul
          | exact hin (h _ _) | (rw [hw]; constructor <;> omega)
      all_goals ring
    rw [hx]; exact (hm.2 hb).1
  · have hx : x.det = det4 (fun i j => x j i) := by rw [c4]; rfl
    have hm : Bounded (det4 m) (det4 fun i j => x j i) (4 * e) (24 * B ^ 4) := by
      apply Bounded.congr
      case h =>
        unfold det4
        dsimp only
        repeat' first
          | with_reducible apply Bounded.add | with_reducible apply Bounded.sub | with_reducible apply Bounded.mul
          | exact hin (h _ _) | (rw [hw]; constructor <;> omega)
      all_goals ring
    rw [hx]; exact (hm.2 hb).1

/-- C162. `translate` and `scale` by whole numbers. -/
theorem whole_translate {m : Mat (IVal F) 4 4} {x : Mat ℤ 4 4} {v : Vec (IVal F) 3} {y : Vec ℤ 3} {e : ℤ}
    (hm : ∀ i j, Holds (m i j) (x i j) e) (hv : ∀ i, Holds (v i) (y i) 0) (he : Within F e)
    (h : ∀ j, |x 0 j * y 0| + |x 1 j * y 1| + |x 2 j * y 2| + |x 3 j| ≤ 2 ^ F.p) (j : Fin 4) :
    (∀ i : Fin 3, Holds (translate m v i.castSucc j) (x i.castSucc j) e) ∧
    Holds (translate m v 3 j) (x 0 j * y 0 + x 1 j * y 1 + x 2 j * y 2 + x 3 j) e ∧
    (∀ i : Fin 3, Holds (scale m v i.castSucc j) (x i.castSucc j * y i) e) ∧ Holds (scale m v 3 j) (x 3 j) e := by
  have hj := h j
  have h0 := abs_nonneg (x 0 j * y 0)
  have h1 := abs_nonneg (x 1 j * y 1)
  have h2 := abs_nonneg (x 2 j * y 2)
  have h3 := abs_nonneg (x 3 j)
  have l1 := abs_add_le (x 0 j * y 0) (x 1 j * y 1)
  have l2 := abs_add_le (x 0 j * y 0 + x 1 j * y 1) (x 2 j * y 2)
  have l3 := abs_add_le (x 0 j * y 0 + x 1 j * y 1 + x 2 j * y 2) (x 3 j)
  have he' : Within F (e + 0) := by rwa [add_zero]
  have hp : ∀ (i : Fin 4) (l : Fin 3), |x i j * y l| ≤ 2 ^ F.p → Holds (m i j * v l) (x i j * y l) e := fun i l hl => by
    have := (hm i j).mul (hv l) he' hl
    rwa [add_zero] at this
  have p0 := hp 0 0 (by linarith)
  have p1 := hp 1 1 (by linarith)
  have p2 := hp 2 2 (by linarith)
  refine ⟨fun i => ?_, ?_, fun i => ?_, hm 3 j⟩
  · fin_cases i
    · exact hm 0 j
    · exact hm 1 j
    · exact hm 2 j
  · show Holds (add (add (add (mulS (m 0) (v 0)) (mulS (m 1) (v 1))) (mulS (m 2) (v 2))) (m 3) j) _ _
    unfold add mulS
    simp only [vecOp_apply, vecOpS_apply]
    exact ((p0.add p1 he (show |_| ≤ _ by linarith)).add p2 he (show |_| ≤ _ by linarith)).add (hm 3 j) he
      (show |_| ≤ _ by linarith)
  · fin_cases i
    · show Holds (mulS (m 0) (v 0) j) _ _
      unfold mulS; rw [vecOpS_apply]; exact p0
    · show Holds (mulS (m 1) (v 1) j) _ _
      unfold mulS; rw [vecOpS_apply]; exact p1
    · show Holds (mulS (m 2) (v 2) j) _ _
      unfold mulS; rw [vecOpS_apply]; exact p2

/-! ### Quaternions -/

/-- The four components hold the four integers. -/
def HoldsQ (q : Quat (IVal F)) (w x y z e : ℤ) : Prop :=
  Holds q.w w e ∧ Holds q.x x e ∧ Holds q.y y e ∧ Holds q.z z e

/-- C162. The product of quaternions: Hamilton's rules, with the components of the two no more than `A` and `B`. -/
theorem whole_quat {p q : Quat (IVal F)} {w x y z w' x' y' z' d e : ℤ} {A B : Nat} (hA : 1 ≤ A) (hB : 1 ≤ B)
    (hp : HoldsQ p w x y z d) (hq : HoldsQ q w' x' y' z' e) (he : Within F (d + e))
    (lp : |w| ≤ A ∧ |x| ≤ A ∧ |y| ≤ A ∧ |z| ≤ A) (lq : |w'| ≤ B ∧ |x'| ≤ B ∧ |y'| ≤ B ∧ |z'| ≤ B)
    (h : 4 * (A * B) ≤ 2 ^ F.p) :
    HoldsQ (p.mul q) (w * w' - x * x' - y * y' - z * z') (w * x' + x * w' + y * z' - z * y')
      (w * y' - x * z' + y * w' + z * x') (w * z' + x * y' - y * x' + z * w') (d + e) := by
  obtain ⟨p1, p2, p3, p4⟩ := hp
  obtain ⟨q1, q2, q3, q4⟩ := hq
  obtain ⟨a1, a2, a3, a4⟩ := lp
  obtain ⟨b1, b2, b3, b4⟩ := lq
  have e1 := bounded_of hA p1 a1
  have e2 := bounded_of hA p2 a2
  have e3 := bounded_of hA p3 a3
  have e4 := bounded_of hA p4 a4
  have f1 := bounded_of hB q1 b1
  have f2 := bounded_of hB q2 b2
  have f3 := bounded_of hB q3 b3
  have f4 := bounded_of hB q4 b4
  have hs : ∀ {v : IVal F} {m : ℤ}, Bounded v m (d + e) (A * B + A * B + A * B + A * B) → Holds v m (d + e) :=
    fun g => (g.2 (by omega)).1
  refine ⟨hs ?_, ?_, hs ?_, hs ?_⟩
  · exact (((e1.mul f1 he).sub (e2.mul f2 he) he).sub (e3.mul f3 he) he).sub (e4.mul f4 he) he
  · rw [add_comm (w * x')]
    exact hs ((((e2.mul f1 he).add (e1.mul f2 he) he).add (e3.mul f4 he) he).sub (e4.mul f3 he) he)
  · exact (((e1.mul f3 he).sub (e2.mul f4 he) he).add (e3.mul f1 he) he).add (e4.mul f2 he) he
  · exact (((e1.mul f4 he).add (e2.mul f3 he) he).sub (e3.mul f2 he) he).add (e4.mul f1 he) he

/-! ### Laws that rounding breaks in general -/

/-- The two values are the same number. -/
def Same (v w : IVal F) : Prop := ∃ x : ℝ, v.Is x ∧ w.Is x

/-- C162. Transforming by a product of matrices is transforming twice, exactly. `A`, `B` and `C` bound the entries. -/
theorem whole_compose [Indet (IVal F)] {a : Mat (IVal F) c r} {b : Mat (IVal F) k c} {v : Vec (IVal F) k}
    {x : Mat ℤ c r} {y : Mat ℤ k c} {z : Vec ℤ k} {A B C : ℤ} (hc : 1 ≤ c) (hk : 1 ≤ k) (hA : 1 ≤ A) (hC : 1 ≤ C)
    (ha : ∀ i j, Holds (a i j) (x i j) 0 ∧ |x i j| ≤ A) (hb : ∀ i j, Holds (b i j) (y i j) 0 ∧ |y i j| ≤ B)
    (hv : ∀ i, Holds (v i) (z i) 0 ∧ |z i| ≤ C) (h : c * k * (A * B * C) ≤ 2 ^ F.p) (j : Fin r) :
    Same (mulVec (mulMat a b) v j) (mulVec a (mulVec b v) j) := by
  have hB : 0 ≤ B := (abs_nonneg _).trans (hb ⟨0, hk⟩ ⟨0, hc⟩).2
  have w0 : Within F (0 + 0) := ⟨by have := F.grid_neg; omega, by have := F.hemax; omega⟩
  have hc' : (1 : ℤ) ≤ c := by exact_mod_cast hc
  have hk' : (1 : ℤ) ≤ k := by exact_mod_cast hk
  have bound : ∀ {l : Nat} (f : Fin l → ℤ) (M : ℤ), (∀ i, |f i| ≤ M) → ∑ i, |f i| ≤ l * M := by
    intro l f M hf
    calc ∑ i, |f i| ≤ ∑ _i : Fin l, M := Finset.sum_le_sum fun i _ => hf i
      _ = l * M := by simp
  have hab : ∀ i j l, |x l j * y i l| ≤ A * B := fun i j l => by
    rw [abs_mul]; exact mul_le_mul (ha _ _).2 (hb _ _).2 (abs_nonneg _) (by linarith)
  have hbc : ∀ i l, |y i l * z i| ≤ B * C := fun i l => by
    rw [abs_mul]; exact mul_le_mul (hb _ _).2 (hv _).2 (abs_nonneg _) hB
  have hABC : 0 ≤ A * B * C := by positivity
  have n1 : c * (A * B) ≤ 2 ^ F.p := by
    refine le_trans ?_ h
    have : c * (A * B) * 1 ≤ c * (A * B) * (k * C) := by
      refine mul_le_mul_of_nonneg_left ?_ (by positivity)
      nlinarith
    nlinarith
  have n2 : k * (B * C) ≤ 2 ^ F.p := by
    refine le_trans ?_ h
    have : k * (B * C) * 1 ≤ k * (B * C) * (c * A) := by
      refine mul_le_mul_of_nonneg_left ?_ (by positivity)
      nlinarith
    nlinarith
  have hab' := whole_mulMat (fun i j => (ha i j).1) (fun i j => (hb i j).1) w0
    (fun i j => (bound _ _ (hab i j)).trans n1)
  have hbv' := whole_mulVec (fun i j => (hb i j).1) (fun i => (hv i).1) w0 (fun l => (bound _ _ fun i => hbc i l).trans n2)
  have w0' : Within F (0 + 0 + 0) := w0
  have m1 : ∀ i j, |∑ l, x l j * y i l| ≤ c * (A * B) := fun i j =>
    (Finset.abs_sum_le_sum_abs _ _).trans (bound _ _ (hab i j))
  have m2 : ∀ l, |∑ i, y i l * z i| ≤ k * (B * C) := fun l =>
    (Finset.abs_sum_le_sum_abs _ _).trans (bound _ _ fun i => hbc i l)
  have r1 := whole_mulVec hab' (fun i => (hv i).1) w0' (fun j => (bound _ (c * (A * B) * C) fun i => by
    rw [abs_mul]; exact mul_le_mul (m1 _ _) (hv _).2 (abs_nonneg _) (by positivity)).trans
      (le_trans (le_of_eq (by ring)) h)) j
  have r2 := whole_mulVec (fun i j => (ha i j).1) hbv' w0' (fun j => (bound _ (A * (k * (B * C))) fun i => by
    rw [abs_mul]; exact mul_le_mul (ha _ _).2 (m2 _) (abs_nonneg _) (by linarith)).trans
      (le_trans (le_of_eq (by ring)) h)) j
  refine ⟨_, r1, ?_⟩
  have e : ∑ i, (∑ l, x l j * y i l) * z i = ∑ l, x l j * ∑ i, y i l * z i := by
    simp only [Finset.sum_mul, Finset.mul_sum]
    rw [Finset.sum_comm]
    exact Finset.sum_congr rfl fun _ _ => Finset.sum_congr rfl fun _ _ => by ring
  rw [e]; exact r2

/-- C162. The vector product of whole vectors is perpendicular to both, exactly: the scalar products computed from it are zero. -/
theorem whole_perpendicular {a b : Vec (IVal F) 3} {x y : Vec ℤ 3} {A B : ℤ} (hA : 1 ≤ A) (hB : 1 ≤ B)
    (ha : ∀ i, Holds (a i) (x i) 0 ∧ |x i| ≤ A) (hb : ∀ i, Holds (b i) (y i) 0 ∧ |y i| ≤ B)
    (h : 6 * (A * A * B) ≤ 2 ^ F.p) (h' : 6 * (A * B * B) ≤ 2 ^ F.p) :
    (dot (cross a b) a).Is 0 ∧ (dot (cross a b) b).Is 0 := by
  have w0 : Within F (0 + 0) := ⟨by have := F.grid_neg; omega, by have := F.hemax; omega⟩
  have hxy : ∀ i j, |x i * y j| ≤ A * B := fun i j => by
    rw [abs_mul]; exact mul_le_mul (ha _).2 (hb _).2 (abs_nonneg _) (by linarith)
  have hAB : 2 * (A * B) ≤ 2 ^ F.p := by nlinarith [mul_pos (by linarith : 0 < A) (by linarith : 0 < B)]
  obtain ⟨c0, c1, c2⟩ := whole_cross (fun i => (ha i).1) (fun i => (hb i).1) w0
    (fun i j _ => (add_le_add (hxy i j) (hxy j i)).trans (by linarith))
  have hc : ∀ i, Holds (cross a b i) ((![x 1 * y 2 - x 2 * y 1, x 2 * y 0 - x 0 * y 2, x 0 * y 1 - x 1 * y 0] : Vec ℤ 3) i) 0 := by
    intro i; fin_cases i
    · exact c0
    · exact c1
    · exact c2
  have hd : ∀ i j, |x i * y j - x j * y i| ≤ 2 * (A * B) := fun i j =>
    (abs_sub _ _).trans (by have := hxy i j; have := hxy j i; linarith)
  have key : ∀ (u : Vec (IVal F) 3) (z : Vec ℤ 3) (M : ℤ), (∀ i, Holds (u i) (z i) 0 ∧ |z i| ≤ M) → 6 * (A * B * M) ≤ 2 ^ F.p →
      (x 1 * y 2 - x 2 * y 1) * z 0 + (x 2 * y 0 - x 0 * y 2) * z 1 + (x 0 * y 1 - x 1 * y 0) * z 2 = 0 →
      (dot (cross a b) u).Is 0 := by
    intro u z M hu hM h0
    have hm : ∀ i j l, |(x i * y j - x j * y i) * z l| ≤ 2 * (A * B) * M := fun i j l => by
      rw [abs_mul]; exact mul_le_mul (hd _ _) (hu _).2 (abs_nonneg _) (by positivity)
    have := whole_dot hc (fun i => (hu i).1) w0 (by
      rw [Fin.sum_univ_three]
      have g0 := hm 1 2 0; have g1 := hm 2 0 1; have g2 := hm 0 1 2
      simp only [Matrix.cons_val_zero, Matrix.cons_val_one, Matrix.cons_val]
      linarith)
    rw [Fin.sum_univ_three] at this
    simp only [Matrix.cons_val_zero, Matrix.cons_val_one, Matrix.cons_val] at this
    rw [h0] at this
    simpa [Holds] using this
  exact ⟨key a x A ha (by linarith) (by ring), key b y B hb (by linarith) (by ring)⟩

/-! ### The digits are needed -/

/-- C162. The bound cannot be improved: the integer after `2^p` is not a value of the format, so that the sum of `2^p` and `1` is not
computed exactly. -/
theorem whole_sharp (e : ℤ) : ¬∃ v : IVal F, Holds v (2 ^ F.p + 1) e := by
  rintro ⟨v, hv⟩
  have hr : roundTo F.p _ = _ := Is.rep hv
  have hp := F.p_pos
  have hpow : (0 : ℝ) < 2 ^ e := by positivity
  have hz : (((2 ^ F.p + 1 : ℤ) : ℝ)) * 2 ^ e = (2 ^ F.p + 1) * 2 ^ e := by push_cast; ring
  rw [hz] at hr
  have h1 : (1 : ℝ) < 2 ^ F.p := one_lt_pow₀ (by norm_num) (by omega)
  have hlog : Int.log 2 ((2 ^ F.p + 1 : ℝ) * 2 ^ e) = e + F.p := by
    refine log_of_binade ?_ ?_
    · rw [zpow_add₀ (by norm_num), zpow_natCast]; nlinarith
    · rw [zpow_add₀ (by norm_num), zpow_add₀ (by norm_num), zpow_natCast, zpow_one]; nlinarith
  have hl : lastPlace F.p ((2 ^ F.p + 1 : ℝ) * 2 ^ e) = e + 1 := by
    unfold lastPlace
    rw [abs_of_pos (by positivity), hlog]; ring
  unfold roundTo at hr
  rw [hl] at hr
  generalize rne _ = t at hr
  rw [zpow_add₀ (by norm_num), zpow_one] at hr
  have h2 : (t : ℝ) * 2 = 2 ^ F.p + 1 := by
    have : ((t : ℝ) * 2) * 2 ^ e = (2 ^ F.p + 1) * 2 ^ e := by linarith
    exact mul_right_cancel₀ hpow.ne' this
  have h3 : t * 2 = 2 ^ F.p + 1 := by exact_mod_cast h2
  obtain ⟨d, hd⟩ : ∃ d, F.p = d + 1 := ⟨F.p - 1, by omega⟩
  rw [hd, pow_succ] at h3
  omega

/-- C162. Every integer with the digits of the format is a value. -/
theorem whole_value {m e : ℤ} (hm : Short F m) (he : Within F e) : Holds (IVal.ofReal F false (m * 2 ^ e)) m e := by
  have h := short_rnd hm he
  have := IVal.ofReal_is (s := false) (z := (m : ℝ) * 2 ^ e) (by rw [h.1]; exact h.2)
  rwa [h.1] at this

/-! ### Examples -/

section Examples

theorem within_float {e : ℤ} (h1 : -149 ≤ e) (h2 : e ≤ 103) : Within Format.binary32 e := by
  unfold Within Format.grid Format.emin Format.binary32; constructor <;> push_cast <;> omega

theorem within_double {e : ℤ} (h1 : -1074 ≤ e) (h2 : e ≤ 970) : Within Format.binary64 e := by
  unfold Within Format.grid Format.emin Format.binary64; constructor <;> push_cast <;> omega

/-- A whole number as a `float`. -/
noncomputable def ofInt32 (m : ℤ) : IVal Format.binary32 := IVal.ofReal _ false (m * 2 ^ (0 : ℤ))

theorem ofInt32_holds {m : ℤ} (h : |m| ≤ 2 ^ 24) : Holds (ofInt32 m) m 0 := whole_value h (within_float (by omega) (by omega))

/-- A vector of whole numbers as a `float3`. -/
noncomputable def vec32 (x : Vec ℤ n) : Vec (IVal Format.binary32) n := fun i => ofInt32 (x i)

/-- The length of `(2, 3, 6)` is `7`, and `(1000, -2000, 3000) · (7, 8, 9) = 18000`, exactly. -/
example [ILibm Format.binary32] : (length (vec32 ![2, 3, 6])).Is 7 ∧ (lengthM (vec32 ![2, 3, 6])).Is 7 := by
  have h := whole_length (F := Format.binary32) (a := vec32 ![2, 3, 6]) (x := ![2, 3, 6]) (q := 7) (e := 0)
    (fun i => ofInt32_holds (by fin_cases i <;> simp)) (within_float (by omega) (by omega))
    (within_float (by omega) (by omega)) (by omega) (by simp [Fin.sum_univ_three])
    (by simp [Format.binary32])
  simpa [Holds] using h

example : (dot (vec32 ![1000, -2000, 3000]) (vec32 ![7, 8, 9])).Is 18000 := by
  have h := whole_dot (F := Format.binary32) (a := vec32 ![1000, -2000, 3000]) (b := vec32 ![7, 8, 9])
    (x := ![1000, -2000, 3000]) (y := ![7, 8, 9]) (d := 0) (e := 0)
    (fun i => ofInt32_holds (by fin_cases i <;> simp))
    (fun i => ofInt32_holds (by fin_cases i <;> simp)) (within_float (by omega) (by omega))
    (by simp [Fin.sum_univ_three, Format.binary32])
  simp [Fin.sum_univ_three] at h
  unfold Holds at h
  norm_num at h
  exact h

/-- Determinants of `float` matrices with entries up to 28, and of `double` matrices with entries up to 4000, are exact. -/
example (m : Mat (IVal Format.binary32) 4 4) (x : Matrix (Fin 4) (Fin 4) ℤ)
    (h : ∀ i j, Holds (m i j) (x j i) 0 ∧ |x j i| ≤ (28 : Nat)) : Holds (det4 m) x.det 0 :=
  (whole_det (by omega) (within_float (by omega) (by omega))).2.2 m x h (within_float (by omega) (by omega))
    (by simp [Format.binary32])

example (m : Mat (IVal Format.binary64) 4 4) (x : Matrix (Fin 4) (Fin 4) ℤ)
    (h : ∀ i j, Holds (m i j) (x j i) 0 ∧ |x j i| ≤ (4000 : Nat)) : Holds (det4 m) x.det 0 :=
  (whole_det (by omega) (within_double (by omega) (by omega))).2.2 m x h (within_double (by omega) (by omega))
    (by simp [Format.binary64])

/-- Such matrices exist, and not only the zero matrix. -/
example : ∀ i j : Fin 4, Holds (ofInt32 (if i = j then 5 else -3)) ((Matrix.of fun a b : Fin 4 => if b = a then (5 : ℤ) else -3) j i) 0 ∧
    |(Matrix.of fun a b : Fin 4 => if b = a then (5 : ℤ) else -3) j i| ≤ (28 : Nat) := by
  intro i j
  refine ⟨?_, ?_⟩
  · rw [Matrix.of_apply]; exact ofInt32_holds (by split <;> simp)
  · rw [Matrix.of_apply]; split <;> simp

/-- Coordinates in sixteenths: the distance of `(1/16, 2/16)` and `(4/16, 6/16)` is `5/16`. -/
example [ILibm Format.binary32] {a b : Vec (IVal Format.binary32) 2} (ha : ∀ i, Holds (a i) ((![1, 2] : Vec ℤ 2) i) (-4))
    (hb : ∀ i, Holds (b i) ((![4, 6] : Vec ℤ 2) i) (-4)) : (distance a b).Is (5 / 16) := by
  have h := whole_distance ha hb (within_float (by omega) (by omega)) (within_float (by omega) (by omega)) (q := 5)
    (by omega) (by simp [Fin.sum_univ_two]) (by simp [Format.binary32])
  unfold Holds at h
  norm_num at h
  exact h

end Examples

end Verif.Math
