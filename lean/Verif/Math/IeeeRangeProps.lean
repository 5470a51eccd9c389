import Verif.Math.IeeeSelf

/-!
C100. Where `dot`, `length` and `normalize` on real `float`s and `double`s are accurate and where they are not.

Vocabulary: `F.tiny` is the least normal number (`std::numeric_limits<T>::min()`), `F.largest` the largest
finite one (`max()`), `F.u` the unit roundoff and `F.eta` half the least subnormal number (`denorm_min() / 2`).
-/

set_option autoImplicit false

namespace Verif.Math

variable {F : Format} {n : Nat}

/-- C100. `dot` of finite vectors whose products are not too large: the result is finite and its error has the
bound of C84 plus at most half the least subnormal number per term. -/
theorem ieee_dot_range (a b : Vec (IVal F) n) (ha : ∀ i, (a i).Finite) (hb : ∀ i, (b i).Finite)
    (h : (1 + F.u) ^ n * (∑ i, |(a i).toReal * (b i).toReal| + n * F.eta) ≤ F.largest) :
    (dot a b).Finite ∧ |(dot a b).toReal - ∑ i, (a i).toReal * (b i).toReal| ≤
      ((1 + F.u) ^ n - 1) * ∑ i, |(a i).toReal * (b i).toReal| + n * F.eta * (1 + F.u) ^ n := by
  obtain ⟨y, ⟨h1, rfl⟩, h2⟩ := dot_range a b ha hb h
  exact ⟨h1, h2⟩

theorem sqrt_normal {D : ℝ} (hD : F.rnd D = D) (h0 : 0 < D) : F.tiny ≤ √D := by
  obtain ⟨k, hk⟩ := Format.rep_grid hD
  have hg : (0 : ℝ) < 2 ^ F.grid := by positivity
  have hk1 : (1 : ℤ) ≤ k := by
    by_contra hlt
    have : (k : ℝ) ≤ 0 := by exact_mod_cast (by omega : k ≤ 0)
    nlinarith
  have hk2 : (1 : ℝ) ≤ k := by exact_mod_cast hk1
  refine Real.le_sqrt_of_sq_le ?_
  have h1 : F.tiny ^ 2 = 2 ^ (F.emin + F.emin) := by
    unfold Format.tiny; rw [sq, zpow_add₀ (by norm_num)]
  have h2 : (2 : ℝ) ^ (F.emin + F.emin) ≤ 2 ^ F.grid :=
    zpow_le_zpow_right₀ (by norm_num) (by unfold Format.grid Format.emin; have := F.hemax; omega)
  rw [h1]
  nlinarith

theorem largest_lt : F.largest < 2 ^ (F.emax + 1) := by
  unfold Format.largest
  rw [zpow_add₀ (by norm_num), zpow_one]
  have h1 : (0 : ℝ) < 2 ^ F.emax := by positivity
  have h2 : (0 : ℝ) < 2 ^ (1 - (F.p : ℤ)) := by positivity
  nlinarith

theorem sqrt_le_pow {D : ℝ} (hD : D ≤ F.largest) : √D ≤ 2 ^ (F.emax - 1) := by
  rw [Real.sqrt_le_left (by positivity)]
  refine (hD.trans largest_lt.le).trans ?_
  rw [sq, ← zpow_add₀ (by norm_num)]
  exact zpow_le_zpow_right₀ (by norm_num) (by have := F.hemax; have := F.hp; omega)

theorem rnd_pow_le {x : ℝ} {k : ℤ} (hk : F.grid ≤ k) (h : x ≤ 2 ^ k) : F.rnd x ≤ 2 ^ k := by
  have := F.rnd_mono h
  rwa [F.pow_rep hk] at this

theorem is_le_largest {v : IVal F} {y : ℝ} (h : v.Is y) : |y| ≤ F.largest := by
  obtain ⟨h1, h2⟩ := h
  have h0 : (0 : ℝ) ≤ F.largest := le_trans (by positivity) (F.pow_le_largest (le_refl F.emax))
  cases v with
  | nan => exact h1.elim
  | inf s => exact h1.elim
  | zero s => rw [← h2]; change |(0 : ℝ)| ≤ _; rw [abs_zero]; exact h0
  | num x hx => rw [← h2]; exact hx.2.2

/-- What is known of the computed length. -/
theorem length_range [ILibm F] (v : Vec (IVal F) n) (hv : ∀ i, (v i).Finite)
    (hlo : n * F.tiny ≤ ∑ i, (v i).toReal ^ 2)
    (hhi : (1 + F.u) ^ n * (∑ i, (v i).toReal ^ 2 + n * F.eta) ≤ F.largest) (hn : (1 + F.u) ^ (n + 1) ≤ 3 / 2) :
    ∃ L, (length v).Is L ∧ L ≤ 2 ^ (F.emax - 1) ∧ (0 < n → F.tiny ≤ L) ∧
      (1 - F.u) * √(2 - (1 + F.u) ^ (n + 1)) * √(∑ i, (v i).toReal ^ 2) ≤ L ∧
      L ≤ (1 + F.u) * √((1 + F.u) ^ (n + 1)) * √(∑ i, (v i).toReal ^ 2) := by
  have u0 := F.u_pos
  have u1 := F.u_le
  have e : ∑ i, |(v i).toReal * (v i).toReal| = ∑ i, (v i).toReal ^ 2 :=
    Finset.sum_congr rfl fun i _ => by rw [abs_of_nonneg (mul_self_nonneg _), sq]
  have e' : ∑ i, (v i).toReal * (v i).toReal = ∑ i, (v i).toReal ^ 2 :=
    Finset.sum_congr rfl fun i _ => (sq _).symm
  obtain ⟨D, hD, herr⟩ := dot_range v v hv hv (by rw [e]; exact hhi)
  rw [e, e'] at herr
  set S := ∑ i, (v i).toReal ^ 2 with hS
  have hS0 : 0 ≤ S := Finset.sum_nonneg fun i _ => sq_nonneg _
  have heta : n * F.eta ≤ F.u * S := by
    have : (n : ℝ) * F.eta = F.u * (n * F.tiny) := by unfold Format.eta; ring
    rw [this]; exact mul_le_mul_of_nonneg_left hlo u0.le
  have hp1 : (1 : ℝ) ≤ (1 + F.u) ^ n := one_le_pow₀ (by linarith)
  obtain ⟨g1, g2⟩ := abs_le.mp herr
  have heta' : n * F.eta * (1 + F.u) ^ n ≤ F.u * S * (1 + F.u) ^ n :=
    mul_le_mul_of_nonneg_right heta (by linarith)
  have d1 : (2 - (1 + F.u) ^ (n + 1)) * S ≤ D := by rw [pow_succ]; nlinarith
  have d2 : D ≤ (1 + F.u) ^ (n + 1) * S := by rw [pow_succ]; nlinarith
  have hc : 0 ≤ 2 - (1 + F.u) ^ (n + 1) := by linarith
  have hD0 : 0 ≤ D := (mul_nonneg hc hS0).trans d1
  have hDl : D ≤ F.largest := (le_abs_self D).trans (is_le_largest hD)
  have hsq := sqrt_le_pow hDl
  have hup : F.rnd (√D) ≤ 2 ^ (F.emax - 1) :=
    rnd_pow_le (by have := F.grid_neg; have := F.emax_ge; omega) hsq
  have hL := sqrt_is' hD hD0 (by
    rw [abs_of_nonneg (F.rnd_nonneg (Real.sqrt_nonneg _))]
    exact hup.trans (F.pow_le_largest (by omega)))
  have hpos : 0 < n → 0 < D := fun h => by
    have : 0 < S := lt_of_lt_of_le (mul_pos (by exact_mod_cast h) F.tiny_pos) hlo
    exact lt_of_lt_of_le (mul_pos (by linarith) this) d1
  have hrel : |F.rnd (√D) - √D| ≤ F.u * √D := by
    rcases hD0.lt_or_eq with h | h
    · have := F.rnd_err_normal ((sqrt_normal (Is.rep' hD) h).trans (le_abs_self _))
      rwa [abs_of_nonneg (Real.sqrt_nonneg D)] at this
    · rw [← h, Real.sqrt_zero, F.rnd_zero]; simp
  obtain ⟨r1, r2⟩ := abs_le.mp hrel
  refine ⟨F.rnd (√D), hL, hup, fun h => F.rnd_normal_ge (sqrt_normal (Is.rep' hD) (hpos h)), ?_, ?_⟩
  · have h1 : √(2 - (1 + F.u) ^ (n + 1)) * √S ≤ √D := by
      rw [← Real.sqrt_mul hc]; exact Real.sqrt_le_sqrt d1
    have h2 := mul_le_mul_of_nonneg_left h1 (show 0 ≤ 1 - F.u by linarith)
    rw [mul_assoc]; linarith
  · have h1 : √D ≤ √((1 + F.u) ^ (n + 1)) * √S := by
      rw [← Real.sqrt_mul (by positivity)]; exact Real.sqrt_le_sqrt d2
    have h2 := mul_le_mul_of_nonneg_left h1 (show 0 ≤ 1 + F.u by linarith)
    rw [mul_assoc]; linarith

/-- C100, the part that holds. `length`: for a vector with finite components whose sum of squares is neither
below `n` times the least normal number nor above the largest finite number (with room for rounding), the
length, computed either way, is finite and within a few units of relative error of the Euclidean length, and
so is the vector `normalize` returns from the exact unit vector: it is `k v` with `k` times the Euclidean
length close to 1, each component rounded once. -/
theorem ieee_length_range_partial [ILibm F] (v : Vec (IVal F) n) (hv : ∀ i, (v i).Finite) (h0 : 0 < n)
    (hlo : n * F.tiny ≤ ∑ i, (v i).toReal ^ 2)
    (hhi : (1 + F.u) ^ n * (∑ i, (v i).toReal ^ 2 + n * F.eta) ≤ F.largest) (hn : (1 + F.u) ^ (n + 1) ≤ 3 / 2) :
    lengthM v = length v ∧ normalizeM v = normalize v ∧ (length v).Finite ∧
    (1 - F.u) * √(2 - (1 + F.u) ^ (n + 1)) * √(∑ i, (v i).toReal ^ 2) ≤ (length v).toReal ∧
    (length v).toReal ≤ (1 + F.u) * √((1 + F.u) ^ (n + 1)) * √(∑ i, (v i).toReal ^ 2) ∧
    ∃ k : ℝ, 0 < k ∧
      (1 - F.u) / ((1 + F.u) * √((1 + F.u) ^ (n + 1))) ≤ k * √(∑ i, (v i).toReal ^ 2) ∧
      k * √(∑ i, (v i).toReal ^ 2) ≤ (1 + F.u) / ((1 - F.u) * √(2 - (1 + F.u) ^ (n + 1))) ∧
      ∀ i, (normalize v i).Finite ∧
        |(normalize v i).toReal - k * (v i).toReal| ≤ F.u * |k * (v i).toReal| + F.eta := by
  have u0 := F.u_pos
  have u1 := F.u_le
  obtain ⟨L, hL, l1, l2, l3, l4⟩ := length_range v hv hlo hhi hn
  have l2 := l2 h0
  have hLpos : 0 < L := F.tiny_pos.trans_le l2
  set S := ∑ i, (v i).toReal ^ 2 with hS
  set N := √S with hN
  have hSpos : 0 < S := lt_of_lt_of_le (mul_pos (by exact_mod_cast h0) F.tiny_pos) hlo
  have hNpos : 0 < N := Real.sqrt_pos.mpr hSpos
  set A := √((1 + F.u) ^ (n + 1)) with hA
  set B := √(2 - (1 + F.u) ^ (n + 1)) with hB
  have hApos : 0 < A := Real.sqrt_pos.mpr (by positivity)
  have hBge : (7 : ℝ) / 10 ≤ B := Real.le_sqrt_of_sq_le (by linarith)
  have hBpos : 0 < B := by linarith
  have q1 : 0 < (1 - F.u) * B := mul_pos (by linarith) hBpos
  have q2 : 0 < (1 + F.u) * A := mul_pos (by linarith) hApos
  -- the reciprocal
  have hinv1 : F.tiny ≤ 1 / L := by
    rw [le_div_iff₀ hLpos]
    have : F.tiny * 2 ^ (F.emax - 1) = 1 := by
      unfold Format.tiny Format.emin
      rw [← zpow_add₀ (by norm_num), show 1 - F.emax + (F.emax - 1) = 0 by ring, zpow_zero]
    calc F.tiny * L ≤ F.tiny * 2 ^ (F.emax - 1) := mul_le_mul_of_nonneg_left l1 F.tiny_pos.le
      _ = 1 := this
  have hinv2 : 1 / L ≤ 2 ^ (F.emax - 1) := by
    rw [div_le_iff₀ hLpos]
    have : (2 : ℝ) ^ (F.emax - 1) * F.tiny = 1 := by
      unfold Format.tiny Format.emin
      rw [← zpow_add₀ (by norm_num), show F.emax - 1 + (1 - F.emax) = 0 by ring, zpow_zero]
    calc (1 : ℝ) = 2 ^ (F.emax - 1) * F.tiny := this.symm
      _ ≤ _ := mul_le_mul_of_nonneg_left l2 (by positivity)
  have hinv : 0 < 1 / L := by positivity
  have hgrid : F.grid ≤ F.emax - 1 := by have := F.grid_neg; have := F.emax_ge; omega
  have hk := div_is' (a := (1 : IVal F)) (x := 1) ⟨trivial, rfl⟩ hL hLpos.ne' (by
    rw [abs_of_nonneg (F.rnd_nonneg hinv.le)]
    exact (rnd_pow_le hgrid hinv2).trans (F.pow_le_largest (by omega)))
  set k := F.rnd (1 / L) with hkdef
  have hkpos : 0 < k := F.tiny_pos.trans_le (F.rnd_normal_ge hinv1)
  have hrel := F.rnd_err_normal (hinv1.trans (le_abs_self _))
  rw [abs_of_pos hinv] at hrel
  obtain ⟨r1, r2⟩ := abs_le.mp hrel
  have k1 : (1 - F.u) * (1 / L) ≤ k := by linarith
  have k2 : k ≤ (1 + F.u) * (1 / L) := by linarith
  have c1 : (1 - F.u) / ((1 + F.u) * A) ≤ k * N := by
    rw [div_le_iff₀ q2]
    have a1 : (1 - F.u) * (1 / L) * L = 1 - F.u := by field_simp
    calc 1 - F.u = (1 - F.u) * (1 / L) * L := a1.symm
      _ ≤ k * L := mul_le_mul_of_nonneg_right k1 hLpos.le
      _ ≤ k * ((1 + F.u) * A * N) := mul_le_mul_of_nonneg_left l4 hkpos.le
      _ = _ := by ring
  have c2 : k * N ≤ (1 + F.u) / ((1 - F.u) * B) := by
    rw [le_div_iff₀ q1]
    have a1 : (1 + F.u) * (1 / L) * L = 1 + F.u := by field_simp
    calc k * N * ((1 - F.u) * B) = k * ((1 - F.u) * B * N) := by ring
      _ ≤ k * L := mul_le_mul_of_nonneg_left l3 hkpos.le
      _ ≤ (1 + F.u) * (1 / L) * L := mul_le_mul_of_nonneg_right k2 hLpos.le
      _ = _ := a1
  have c3 : (1 + F.u) / ((1 - F.u) * B) ≤ 4 := by
    rw [div_le_iff₀ q1]; nlinarith
  refine ⟨lengthM_ieee v, by unfold normalizeM normalize; rw [lengthM_ieee], hL.1, by rw [hL.2]; exact l3,
    by rw [hL.2]; exact l4, k, hkpos, c1, c2, fun i => ?_⟩
  have hvi : |(v i).toReal| ≤ N := by
    refine Real.le_sqrt_of_sq_le ?_
    rw [sq_abs]
    exact Finset.single_le_sum (f := fun i => (v i).toReal ^ 2) (fun j _ => sq_nonneg _) (Finset.mem_univ i)
  have hw : |(v i).toReal * k| ≤ 2 ^ (2 : ℤ) := by
    rw [abs_mul, abs_of_pos hkpos, mul_comm]
    calc k * |(v i).toReal| ≤ k * N := mul_le_mul_of_nonneg_left hvi hkpos.le
      _ ≤ 4 := c2.trans c3
      _ = 2 ^ (2 : ℤ) := by norm_num
  have hm := mul_is' (is_of_finite (hv i)) hk (by
    rw [F.rnd_abs]
    exact (rnd_pow_le (by have := F.grid_neg; omega) hw).trans (F.pow_le_largest F.emax_ge))
  rw [normalize_ieee]
  refine ⟨hm.1, ?_⟩
  rw [show (v i * (1 / length v)).toReal = F.rnd ((v i).toReal * k) from hm.2, mul_comm k]
  exact F.rnd_err _

/-! ### Outside that range -/

theorem rnd_below_eta {z : ℝ} (h0 : 0 ≤ z) (h : z ≤ F.eta) : F.rnd z = 0 := by
  have hpos : (0 : ℝ) < 2 ^ F.grid := by positivity
  have ht : z < F.tiny := by
    refine lt_of_le_of_lt h ?_
    unfold Format.eta
    have := F.u_le; have := F.tiny_pos
    nlinarith
  rw [F.rnd_small (by rwa [abs_of_nonneg h0])]
  have h1 : 0 ≤ z / 2 ^ F.grid := by positivity
  have h2 : z / 2 ^ F.grid ≤ 1 / 2 := by
    rw [div_le_iff₀ hpos]; rw [F.eta_eq] at h; linarith
  have hf : ⌊z / 2 ^ F.grid⌋ = 0 := by
    rw [Int.floor_eq_iff]; push_cast; constructor <;> linarith
  have : rne (z / 2 ^ F.grid) = 0 := by
    unfold rne
    have hfr : Int.fract (z / 2 ^ F.grid) = z / 2 ^ F.grid := by
      have := Int.floor_add_fract (z / 2 ^ F.grid); rw [hf] at this; simpa using this
    rw [hfr, hf]
    simp only [Even.zero, if_true]
    split_ifs <;> first | rfl | linarith
  rw [this]; simp

/-- C100. Below the range: if every component's square is at most half the least subnormal number (for `float`,
components up to 2^-75), `length` returns zero whatever the vector is, and `normalize` returns infinities
where the vector has a component other than zero and NaN where it is zero. -/
theorem ieee_length_underflow [ILibm F] (v : Vec (IVal F) n) (hv : ∀ i, (v i).Finite)
    (h : ∀ i, (v i).toReal ^ 2 ≤ F.eta) :
    length v = .zero false ∧ ∀ i, ((v i).toReal ≠ 0 → normalize v i = .inf (v i).minus) ∧
      ((v i).toReal = 0 → normalize v i = .nan) := by
  have hsq : ∀ i, v i * v i = .zero false := by
    intro i
    have hi := h i
    cases hvi : v i with
    | nan => exact absurd (hv i) (by rw [hvi]; exact id)
    | inf s => exact absurd (hv i) (by rw [hvi]; exact id)
    | zero s => change IVal.zero (s ^^ s) = _; simp
    | num x hx =>
      rw [hvi] at hi
      have hr : F.rnd (x * x) = 0 := rnd_below_eta (mul_self_nonneg x) (by rw [← sq]; exact hi)
      have : IVal.ofReal F false (x * x) = .zero (if x * x = 0 then false else decide (x * x < 0)) := dif_pos hr
      change IVal.ofReal F false (x * x) = _
      rw [this, decide_eq_false (not_lt.mpr (mul_self_nonneg x)), ite_self]
  have hd : dot v v = .zero false := foldl_zero _ hsq (List.finRange n)
  have hl : length v = .zero false := by rw [length_sqrt, hd]; rfl
  have hk : (1 : IVal F) / .zero false = .inf false := by
    change IVal.inf (decide ((1 : ℝ) < 0) ^^ false) = _
    rw [decide_eq_false (by norm_num)]; rfl
  refine ⟨hl, fun i => ?_⟩
  rw [normalize_ieee, hl, hk]
  cases hvi : v i with
  | nan => exact absurd (hv i) (by rw [hvi]; exact id)
  | inf s => exact absurd (hv i) (by rw [hvi]; exact id)
  | zero s => exact ⟨fun h => absurd rfl h, fun _ => rfl⟩
  | num x hx =>
    refine ⟨fun _ => ?_, fun h => absurd h hx.1⟩
    change IVal.inf (decide (x < 0) ^^ false) = .inf (decide (x < 0))
    rw [Bool.xor_false]

theorem rnd_overflow {z : ℝ} (h : (2 : ℝ) ^ (F.emax + 1) ≤ z) : ¬|F.rnd z| ≤ F.largest := by
  have h1 := F.rnd_mono h
  rw [F.pow_rep (by have := F.grid_neg; have := F.emax_ge; omega)] at h1
  have := largest_lt (F := F)
  rw [abs_of_pos (lt_of_lt_of_le (by positivity) h1)]
  linarith

/-- C100. Above the range: if the square of one component is beyond the largest exponent (for `float`, a
component from 2^64 up), `length` returns infinity although the vector's length is a perfectly ordinary number,
and `normalize` returns the zero vector. -/
theorem ieee_length_overflow [ILibm F] (v : Vec (IVal F) n) (hv : ∀ i, (v i).Finite) (j : Fin n)
    (h : (2 : ℝ) ^ (F.emax + 1) ≤ (v j).toReal ^ 2) :
    length v = .inf false ∧ ∀ i, normalize v i = .zero (v i).minus := by
  have hnn : ∀ i, IVal.NonNeg (v i * v i) := by
    intro i
    rcases IVal.sq_nonneg (v i) with h | h
    · exact absurd (hv i) (by rw [h]; exact id)
    · exact h
  have hj : v j * v j = .inf false := by
    cases hvj : v j with
    | nan => exact absurd (hv j) (by rw [hvj]; exact id)
    | inf s => exact absurd (hv j) (by rw [hvj]; exact id)
    | zero s =>
      rw [hvj] at h
      change (2 : ℝ) ^ (F.emax + 1) ≤ (0 : ℝ) ^ 2 at h
      have : (0 : ℝ) < 2 ^ (F.emax + 1) := by positivity
      rw [zero_pow (by norm_num)] at h
      linarith
    | num x hx =>
      rw [hvj] at h
      have hr : ¬|F.rnd (x * x)| ≤ F.largest := rnd_overflow (by rw [← sq]; exact h)
      have hr0 : F.rnd (x * x) ≠ 0 := by
        intro h0
        rw [h0, abs_zero] at hr
        exact hr (le_trans (by positivity) (F.pow_le_largest (le_refl F.emax)))
      have : IVal.ofReal F false (x * x) = .inf (decide (x * x < 0)) := (dif_neg hr0).trans (dif_neg hr)
      change IVal.ofReal F false (x * x) = _
      rw [this, decide_eq_false (not_lt.mpr (mul_self_nonneg x))]
  have hd : dot v v = .inf false := foldl_has_inf _ hnn j hj (List.finRange n) 0 nonneg_zero (List.mem_finRange j)
  have hl : length v = .inf false := by rw [length_sqrt, hd]; rfl
  have hk : (1 : IVal F) / .inf false = .zero false := by
    change IVal.zero (decide ((1 : ℝ) < 0) ^^ false) = _
    rw [decide_eq_false (by norm_num)]; rfl
  refine ⟨hl, fun i => ?_⟩
  rw [normalize_ieee, hl, hk]
  cases hvi : v i with
  | nan => exact absurd (hv i) (by rw [hvi]; exact id)
  | inf s => exact absurd (hv i) (by rw [hvi]; exact id)
  | zero s => change IVal.zero (s ^^ false) = .zero s; rw [Bool.xor_false]
  | num x hx =>
    change IVal.zero (decide (x < 0) ^^ false) = .zero (decide (x < 0))
    rw [Bool.xor_false]

/-- C100, what is wrong: in every format and every dimension there are vectors with finite components, other
than zero, of which `length` is zero and `normalize` is not finite, and vectors of which `length` is infinite
and `normalize` is zero. -/
theorem ieee_length_range_wrong [ILibm F] (m : Nat) :
    (∃ v : Vec (IVal F) (m + 1), (∀ i, (v i).Finite) ∧ (∃ i, (v i).toReal ≠ 0) ∧ length v = .zero false ∧
      ¬(normalize v 0).Finite) ∧
    (∃ v : Vec (IVal F) (m + 1), (∀ i, (v i).Finite) ∧ (∃ i, (v i).toReal ≠ 0) ∧ length v = .inf false ∧
      ∀ i, (normalize v i).toReal = 0) := by
  have g1 := F.grid_neg
  have g2 := F.emax_ge
  have hsmall := F.pow_Rep (k := F.grid) le_rfl (by omega)
  have hlarge := F.pow_Rep (k := F.emax) (by omega) le_rfl
  constructor
  · have hs : ((2 : ℝ) ^ F.grid) ^ 2 ≤ F.eta := by
      rw [F.eta_eq, sq]
      have : (2 : ℝ) ^ F.grid ≤ 1 / 2 := by
        calc (2 : ℝ) ^ F.grid ≤ 2 ^ (-1 : ℤ) := zpow_le_zpow_right₀ (by norm_num) g1
          _ = 1 / 2 := by norm_num
      have h0 : (0 : ℝ) < 2 ^ F.grid := by positivity
      nlinarith
    obtain ⟨h1, h2⟩ := ieee_length_underflow (n := m + 1) (fun _ => IVal.num (2 ^ F.grid) hsmall) (fun _ => trivial)
      (fun _ => hs)
    refine ⟨fun _ => .num (2 ^ F.grid) hsmall, fun _ => trivial, ⟨0, hsmall.1⟩, h1, ?_⟩
    rw [(h2 0).1 hsmall.1]; exact id
  · have hs : (2 : ℝ) ^ (F.emax + 1) ≤ ((2 : ℝ) ^ F.emax) ^ 2 := by
      rw [sq, ← zpow_add₀ (by norm_num)]
      exact zpow_le_zpow_right₀ (by norm_num) (by omega)
    obtain ⟨h1, h2⟩ := ieee_length_overflow (n := m + 1) (fun _ => IVal.num (2 ^ F.emax) hlarge) (fun _ => trivial) 0 hs
    refine ⟨fun _ => .num (2 ^ F.emax) hlarge, fun _ => trivial, ⟨0, hlarge.1⟩, h1, fun i => ?_⟩
    rw [h2 i]; rfl

/-! ### The hypotheses can be met -/

/-- For `float` vectors of dimension 3 with components (3, 4, 12) — length 13 — everything the theorem asks for
holds. -/
example : ∃ v : Vec (IVal .binary32) 3, (∀ i, (v i).Finite) ∧ ∑ i, (v i).toReal ^ 2 = 169 ∧
    (3 : ℕ) * Format.binary32.tiny ≤ ∑ i, (v i).toReal ^ 2 ∧
    (1 + Format.binary32.u) ^ 3 * (∑ i, (v i).toReal ^ 2 + (3 : ℕ) * Format.binary32.eta) ≤ Format.binary32.largest ∧
    (1 + Format.binary32.u) ^ (3 + 1) ≤ 3 / 2 := by
  have hrep : ∀ k : ℤ, 1 ≤ k → k < 16 → Format.binary32.Rep k := by
    intro k h1 h2
    have hk1 : (1 : ℝ) ≤ k := by exact_mod_cast h1
    have hk2 : (k : ℝ) < 16 := by exact_mod_cast h2
    refine ⟨by linarith, ?_, ?_⟩
    · unfold Format.rnd
      have hp : Format.binary32.place k ≤ 0 := by
        unfold Format.place Format.emin Format.binary32
        have : Int.log 2 |(k : ℝ)| ≤ 4 := by
          have h := (binade (show 0 < |(k : ℝ)| by rw [abs_of_pos]; all_goals linarith)).1
          rw [abs_of_pos (by linarith)] at h ⊢
          have : (2 : ℝ) ^ Int.log 2 (k : ℝ) < 2 ^ (4 : ℤ) := lt_of_le_of_lt h (by norm_num; exact hk2)
          exact ((zpow_lt_zpow_iff_right₀ (by norm_num : (1 : ℝ) < 2)).mp this).le
        have := max_le this (show (1 - 127 : ℤ) ≤ 4 by norm_num)
        push_cast
        omega
      obtain ⟨j, hj⟩ := Int.le.dest hp
      have e : (k : ℝ) / 2 ^ Format.binary32.place k = ((k * 2 ^ j : ℤ) : ℝ) := by
        rw [show Format.binary32.place k = -(j : ℤ) by omega, zpow_neg, zpow_natCast]
        push_cast
        field_simp
      rw [e, rne_int, ← e]
      field_simp
    · rw [abs_of_pos (by linarith)]
      refine hk2.le.trans ?_
      have := Format.binary32.pow_le_largest (k := 4) (by decide)
      norm_num at this ⊢; exact this
  refine ⟨![.num _ (hrep 3 (by norm_num) (by norm_num)), .num _ (hrep 4 (by norm_num) (by norm_num)),
    .num _ (hrep 12 (by norm_num) (by norm_num))], fun i => by fin_cases i <;> exact trivial, ?_⟩
  have hs : ∑ i, ((![.num _ (hrep 3 (by norm_num) (by norm_num)), .num _ (hrep 4 (by norm_num) (by norm_num)),
      .num _ (hrep 12 (by norm_num) (by norm_num))] : Vec (IVal .binary32) 3) i).toReal ^ 2 = 169 := by
    rw [Fin.sum_univ_three]
    change ((3 : ℤ) : ℝ) ^ 2 + ((4 : ℤ) : ℝ) ^ 2 + ((12 : ℤ) : ℝ) ^ 2 = 169
    norm_num
  rw [hs]
  have hu : Format.binary32.u ≤ 1 / 2 ^ 24 := by
    unfold Format.u Format.binary32; norm_num
  have hu0 := Format.binary32.u_pos
  have ht : Format.binary32.tiny ≤ 1 := by
    unfold Format.tiny Format.emin Format.binary32; norm_num
  have he : Format.binary32.eta ≤ 1 := by
    unfold Format.eta
    have := Format.binary32.tiny_pos
    nlinarith
  have hp3 : (1 + Format.binary32.u) ^ 3 ≤ (1 + 1 / 2 ^ 24) ^ 3 := pow_le_pow_left₀ (by linarith) (by linarith) 3
  have hp4 : (1 + Format.binary32.u) ^ 4 ≤ (1 + 1 / 2 ^ 24) ^ 4 := pow_le_pow_left₀ (by linarith) (by linarith) 4
  refine ⟨rfl, ?_, ?_, ?_⟩
  · push_cast; linarith
  · have hl := Format.binary32.pow_le_largest (k := 10) (by decide)
    have h1 : (1 + Format.binary32.u) ^ 3 ≤ 2 := hp3.trans (by norm_num)
    have h2 : 169 + ((3 : ℕ) : ℝ) * Format.binary32.eta ≤ 172 := by push_cast; linarith
    have h3 : (0 : ℝ) ≤ 169 + ((3 : ℕ) : ℝ) * Format.binary32.eta := by
      have := Format.binary32.eta_pos; positivity
    refine le_trans ?_ hl
    calc _ ≤ (2 : ℝ) * 172 := mul_le_mul h1 h2 h3 (by norm_num)
      _ ≤ _ := by norm_num
  · exact hp4.trans (by norm_num)

end Verif.Math
