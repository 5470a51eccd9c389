import Verif.Math.IeeeLemmas

/-! Helper lemmas: the operations when no result overflows, and the errors of small results. -/

set_option autoImplicit false

namespace Verif.Math

variable {F : Format} {n : Nat}

namespace Format

theorem rep_grid {x : ℝ} (h : F.rnd x = x) : ∃ k : ℤ, x = k * 2 ^ F.grid := by
  obtain ⟨j, hj⟩ := Int.le.dest (F.place_ge x)
  refine ⟨rne (x / 2 ^ F.place x) * 2 ^ j, ?_⟩
  conv_lhs => rw [← h]
  unfold rnd
  rw [show F.place x = F.grid + j by unfold grid; omega]
  push_cast
  rw [zpow_add₀ (by norm_num), zpow_natCast]; ring

/-- Sums of numbers of the format do not suffer from underflow. -/
theorem rnd_add_err {x y : ℝ} (hx : F.rnd x = x) (hy : F.rnd y = y) :
    |F.rnd (x + y) - (x + y)| ≤ F.u * |x + y| := by
  rcases lt_or_ge |x + y| F.tiny with h | h
  · obtain ⟨k, hk⟩ := rep_grid hx
    obtain ⟨l, hl⟩ := rep_grid hy
    rw [F.rnd_grid (k + l) h.le (by push_cast; rw [hk, hl]; ring), sub_self, abs_zero]
    exact mul_nonneg F.u_pos.le (abs_nonneg _)
  · exact F.rnd_err_normal h

theorem abs_rnd_le (x : ℝ) : |F.rnd x| ≤ (1 + F.u) * |x| + F.eta := by
  have h1 := F.rnd_err x
  have h2 := abs_sub_abs_le_abs_sub (F.rnd x) x
  linarith

end Format

theorem Is.rep' {v : IVal F} {y : ℝ} (h : v.Is y) : F.rnd y = y := by
  obtain ⟨h1, h2⟩ := h
  cases v with
  | nan => exact h1.elim
  | inf s => exact h1.elim
  | zero s => rw [← h2]; exact F.rnd_zero
  | num x hx => rw [← h2]; exact hx.2.1

theorem is_of_finite {v : IVal F} (h : v.Finite) : v.Is v.toReal := ⟨h, rfl⟩

theorem add_is' {a b : IVal F} {x y : ℝ} (h1 : a.Is x) (h2 : b.Is y) (he : |F.rnd (x + y)| ≤ F.largest) :
    (a + b).Is (F.rnd (x + y)) := by
  have r1 := Is.rep' h1
  have r2 := Is.rep' h2
  obtain ⟨f1, e1⟩ := h1
  obtain ⟨f2, e2⟩ := h2
  cases a with
  | nan => exact f1.elim
  | inf => exact f1.elim
  | zero s =>
    obtain rfl : 0 = x := e1
    rw [zero_add, r2]
    cases b with
    | nan => exact f2.elim
    | inf => exact f2.elim
    | zero t => exact ⟨trivial, e2⟩
    | num z hz => exact ⟨trivial, e2⟩
  | num w hw =>
    obtain rfl : w = x := e1
    cases b with
    | nan => exact f2.elim
    | inf => exact f2.elim
    | zero t =>
      obtain rfl : 0 = y := e2
      rw [add_zero, r1]; exact ⟨trivial, rfl⟩
    | num z hz =>
      obtain rfl : z = y := e2
      exact IVal.ofReal_is he

theorem mul_is' {a b : IVal F} {x y : ℝ} (h1 : a.Is x) (h2 : b.Is y) (he : |F.rnd (x * y)| ≤ F.largest) :
    (a * b).Is (F.rnd (x * y)) := by
  obtain ⟨f1, e1⟩ := h1
  obtain ⟨f2, e2⟩ := h2
  cases a with
  | nan => exact f1.elim
  | inf => exact f1.elim
  | zero s =>
    obtain rfl : 0 = x := e1
    rw [MulZeroClass.zero_mul, F.rnd_zero]
    cases b with
    | nan => exact f2.elim
    | inf => exact f2.elim
    | zero t => exact ⟨trivial, rfl⟩
    | num z hz => exact ⟨trivial, rfl⟩
  | num w hw =>
    obtain rfl : w = x := e1
    cases b with
    | nan => exact f2.elim
    | inf => exact f2.elim
    | zero t =>
      obtain rfl : 0 = y := e2
      rw [MulZeroClass.mul_zero, F.rnd_zero]; exact ⟨trivial, rfl⟩
    | num z hz =>
      obtain rfl : z = y := e2
      exact IVal.ofReal_is he

theorem div_is' {a b : IVal F} {x y : ℝ} (h1 : a.Is x) (h2 : b.Is y) (hy : y ≠ 0) (he : |F.rnd (x / y)| ≤ F.largest) :
    (a / b).Is (F.rnd (x / y)) := by
  obtain ⟨f1, e1⟩ := h1
  obtain ⟨f2, e2⟩ := h2
  cases a with
  | nan => exact f1.elim
  | inf => exact f1.elim
  | zero s =>
    obtain rfl : 0 = x := e1
    rw [zero_div, F.rnd_zero]
    cases b with
    | nan => exact f2.elim
    | inf => exact f2.elim
    | zero t => exact (hy e2.symm).elim
    | num z hz => exact ⟨trivial, rfl⟩
  | num w hw =>
    obtain rfl : w = x := e1
    cases b with
    | nan => exact f2.elim
    | inf => exact f2.elim
    | zero t => exact (hy e2.symm).elim
    | num z hz =>
      obtain rfl : z = y := e2
      exact IVal.ofReal_is he

theorem sqrt_is' {a : IVal F} {x : ℝ} (h : a.Is x) (h0 : 0 ≤ x) (he : |F.rnd (√x)| ≤ F.largest) :
    a.sqrt.Is (F.rnd (√x)) := by
  obtain ⟨f1, e1⟩ := h
  cases a with
  | nan => exact f1.elim
  | inf => exact f1.elim
  | zero s =>
    obtain rfl : 0 = x := e1
    rw [Real.sqrt_zero, F.rnd_zero]
    exact ⟨trivial, rfl⟩
  | num w hw =>
    obtain rfl : w = x := e1
    have e : (IVal.num w hw).sqrt = .ofReal F false (√w) := if_neg (not_lt.mpr h0)
    rw [e]
    exact IVal.ofReal_is he

/-! ### Sums of products -/

/-- One more term of a sum of products, with underflow. -/
theorem step_err_eta {u η t M x p s y : ℝ} {k : Nat} (hu : 0 ≤ u) (hη : 0 ≤ η) (hk : 1 ≤ k)
    (hs : |s - t| ≤ ((1 + u) ^ k - 1) * M + k * η * (1 + u) ^ k) (ht : |t| ≤ M) (hp : |p - x| ≤ u * |x| + η)
    (hy : |y - (s + p)| ≤ u * |s + p|) :
    |y - (t + x)| ≤ ((1 + u) ^ (k + 1) - 1) * (M + |x|) + (k + 1 : ℕ) * η * (1 + u) ^ (k + 1) := by
  have h1 : (1 : ℝ) ≤ (1 + u) ^ k := one_le_pow₀ (by linarith)
  have h2 : 1 + u ≤ (1 + u) ^ k := by
    calc 1 + u = (1 + u) ^ 1 := (pow_one _).symm
      _ ≤ _ := pow_le_pow_right₀ (by linarith) hk
  have hM : 0 ≤ M := (abs_nonneg t).trans ht
  have hx := abs_nonneg x
  set P := (1 + u) ^ k with hP
  have a1 : |s + p| ≤ P * M + k * η * P + (1 + u) * |x| + η := by
    have e : s + p = (s - t) + (p - x) + (t + x) := by ring
    have b1 := abs_add_le ((s - t) + (p - x)) (t + x)
    have b2 := abs_add_le (s - t) (p - x)
    have b3 := abs_add_le t x
    rw [e]
    linarith
  have a2 : |y - (t + x)| ≤ |y - (s + p)| + |s - t| + |p - x| := by
    have e : y - (t + x) = (y - (s + p)) + (s - t) + (p - x) := by ring
    have b1 := abs_add_le ((y - (s + p)) + (s - t)) (p - x)
    have b2 := abs_add_le (y - (s + p)) (s - t)
    rw [e]; linarith
  have a3 : u * |s + p| ≤ u * (P * M + k * η * P + (1 + u) * |x| + η) := mul_le_mul_of_nonneg_left a1 hu
  have a4 : u * (1 + u) * |x| + u * |x| ≤ (P * (1 + u) - 1) * |x| := by
    have : u * (1 + u) + u ≤ P * (1 + u) - 1 := by nlinarith
    nlinarith
  have a5 : η * (1 + u) ≤ η * (P * (1 + u)) := by
    have : 1 + u ≤ P * (1 + u) := by nlinarith
    exact mul_le_mul_of_nonneg_left this hη
  rw [pow_succ, ← hP]
  push_cast
  nlinarith

/-- The bound of a partial sum is below that of the whole. -/
theorem bound_mono {u η M M' : ℝ} {k k' : Nat} (hu : 0 ≤ u) (hη : 0 ≤ η) (hM : 0 ≤ M) (hMM : M ≤ M') (hk : k ≤ k') :
    (1 + u) ^ k * (M + k * η) ≤ (1 + u) ^ k' * (M' + k' * η) := by
  have h1 : (1 + u) ^ k ≤ (1 + u) ^ k' := pow_le_pow_right₀ (by linarith) hk
  have h2 : (k : ℝ) * η ≤ k' * η := mul_le_mul_of_nonneg_right (by exact_mod_cast hk) hη
  have h3 : 0 ≤ (k : ℝ) * η := by positivity
  exact mul_le_mul h1 (by linarith) (by linarith) (by positivity)

theorem foldl_range (a b : Vec (IVal F) n) (ha : ∀ i, (a i).Finite) (hb : ∀ i, (b i).Finite) (B : ℝ)
    (hB : B ≤ F.largest) :
    ∀ (l : List (Fin n)) (s : IVal F) (y t M : ℝ) (k : Nat), 1 ≤ k → s.Is y →
    |y - t| ≤ ((1 + F.u) ^ k - 1) * M + k * F.eta * (1 + F.u) ^ k → |t| ≤ M →
    (1 + F.u) ^ (k + l.length) * (M + (l.map fun i => |(a i).toReal * (b i).toReal|).sum +
      (k + l.length : ℕ) * F.eta) ≤ B →
    ∃ y', (l.foldl (fun r i => r + a i * b i) s).Is y' ∧
      |y' - (t + (l.map fun i => (a i).toReal * (b i).toReal).sum)| ≤
      ((1 + F.u) ^ (k + l.length) - 1) * (M + (l.map fun i => |(a i).toReal * (b i).toReal|).sum) +
        (k + l.length : ℕ) * F.eta * (1 + F.u) ^ (k + l.length)
  | [], s, y, t, M, k, _, hs, h, _, _ => ⟨y, hs, by simpa using h⟩
  | i :: l, s, y, t, M, k, hk, hs, h, ht, hb' => by
    have u0 := F.u_pos.le
    have e0 := F.eta_pos.le
    have hM : 0 ≤ M := (abs_nonneg t).trans ht
    set x := (a i).toReal * (b i).toReal with hx
    have hl : 0 ≤ (l.map fun i => |(a i).toReal * (b i).toReal|).sum :=
      List.sum_nonneg (by
        intro z hz
        obtain ⟨j, -, rfl⟩ := List.mem_map.mp hz
        exact abs_nonneg _)
    have hlen : (i :: l).length = l.length + 1 := rfl
    rw [List.map_cons, List.sum_cons, hlen, ← hx] at hb'
    -- the product
    have hp : |F.rnd x| ≤ F.largest := by
      refine (F.abs_rnd_le x).trans (le_trans ?_ (hb'.trans hB))
      have := bound_mono (k := 1) (k' := k + (l.length + 1)) (M := |x|)
        (M' := M + (|x| + (l.map fun i => |(a i).toReal * (b i).toReal|).sum)) u0 e0 (abs_nonneg _)
        (by linarith) (by omega)
      refine le_trans ?_ this
      rw [pow_one]; push_cast; nlinarith
    have m1 := mul_is' (is_of_finite (ha i)) (is_of_finite (hb i)) hp
    rw [← hx] at m1
    -- the sum
    have h1 := step_err_eta u0 e0 hk h ht (F.rnd_err x) (Format.rnd_add_err (Is.rep' hs) (Is.rep' m1))
    have h2 : |t + x| ≤ M + |x| := (abs_add_le _ _).trans (by linarith)
    have hy : |F.rnd (y + F.rnd x)| ≤ F.largest := by
      have h3 : |F.rnd (y + F.rnd x)| ≤ (1 + F.u) ^ (k + 1) * (M + |x| + (k + 1 : ℕ) * F.eta) := by
        have := abs_sub_abs_le_abs_sub (F.rnd (y + F.rnd x)) (t + x)
        linarith
      refine h3.trans (le_trans ?_ (hb'.trans hB))
      exact bound_mono u0 e0 (by linarith [abs_nonneg x]) (by linarith) (by omega)
    have s1 := add_is' hs m1 hy
    obtain ⟨y', g1, g2⟩ := foldl_range a b ha hb B hB l (s + a i * b i) _ (t + x) (M + |x|) (k + 1) (by omega) s1 h1 h2
      (by
        rw [show k + 1 + l.length = k + (l.length + 1) by ring]
        refine le_trans (le_of_eq ?_) hb'
        ring)
    refine ⟨y', g1, ?_⟩
    rw [List.map_cons, List.map_cons, List.sum_cons, List.sum_cons, hlen, ← hx]
    rw [show k + 1 + l.length = k + (l.length + 1) by ring, add_assoc, add_assoc] at g2
    exact g2

/-- `dot` of finite vectors that are not too large. -/
theorem dot_range (a b : Vec (IVal F) n) (ha : ∀ i, (a i).Finite) (hb : ∀ i, (b i).Finite)
    (h : (1 + F.u) ^ n * (∑ i, |(a i).toReal * (b i).toReal| + n * F.eta) ≤ F.largest) :
    ∃ y, (dot a b).Is y ∧ |y - ∑ i, (a i).toReal * (b i).toReal| ≤
      ((1 + F.u) ^ n - 1) * ∑ i, |(a i).toReal * (b i).toReal| + n * F.eta * (1 + F.u) ^ n := by
  have u0 := F.u_pos.le
  have e0 := F.eta_pos.le
  rw [← list_sum, ← list_sum]
  rw [← list_sum] at h
  unfold dot forLoop
  cases n with
  | zero => exact ⟨0, ⟨trivial, rfl⟩, by simp⟩
  | succ n =>
    rw [List.finRange_succ, List.map_cons, List.sum_cons] at h
    rw [List.finRange_succ, List.foldl_cons, List.map_cons, List.map_cons, List.sum_cons, List.sum_cons]
    set x := (a 0).toReal * (b 0).toReal with hx
    have hl : 0 ≤ (((List.finRange n).map Fin.succ).map fun i => |(a i).toReal * (b i).toReal|).sum :=
      List.sum_nonneg (by
        intro z hz
        obtain ⟨j, -, rfl⟩ := List.mem_map.mp hz
        exact abs_nonneg _)
    have hp : |F.rnd x| ≤ F.largest := by
      refine (F.abs_rnd_le x).trans (le_trans ?_ h)
      have := bound_mono (k := 1) (k' := n + 1) (M := |x|)
        (M' := |x| + (((List.finRange n).map Fin.succ).map fun i => |(a i).toReal * (b i).toReal|).sum) u0 e0
        (abs_nonneg _) (by linarith) (by omega)
      refine le_trans ?_ this
      rw [pow_one]; push_cast; nlinarith
    have m1 := mul_is' (is_of_finite (ha 0)) (is_of_finite (hb 0)) hp
    rw [← hx] at m1
    have s1 : ((0 : IVal F) + a 0 * b 0).Is (F.rnd x) := by
      have := add_is' (a := (0 : IVal F)) (x := 0) ⟨trivial, rfl⟩ m1 (by rw [zero_add, F.rnd_idem]; exact hp)
      rwa [zero_add, F.rnd_idem] at this
    have hlen : ((List.finRange n).map Fin.succ).length = n := by simp
    have := foldl_range a b ha hb _ le_rfl ((List.finRange n).map Fin.succ) (0 + a 0 * b 0) (F.rnd x) x |x| 1 le_rfl s1
      (by
        have := F.rnd_err x
        rw [pow_one]; push_cast
        nlinarith) le_rfl (by
        rw [hlen, add_comm 1 n]; exact h)
    rw [hlen, add_comm 1 n] at this
    exact this

end Verif.Math
