import Verif.Math.IeeeSpecialProps

/-!
C103. Vectors along a coordinate axis: their length is computed without any error, but normalising them does
not always give the unit vector.
-/

set_option autoImplicit false

namespace Verif.Math

open IVal

variable {F : Format} {n : Nat}

theorem rne_of_near {t : ℝ} {m : ℤ} (h : |t - m| < 1 / 2) : rne t = m := by
  have h1 := rne_err t
  have h2 : |((rne t - m : ℤ) : ℝ)| < 1 := by
    push_cast
    calc |(rne t : ℝ) - m| = |((rne t : ℝ) - t) + (t - m)| := by congr 1; ring
      _ ≤ |(rne t : ℝ) - t| + |t - m| := abs_add_le _ _
      _ < 1 := by linarith
  have h3 : |rne t - m| < 1 := by exact_mod_cast h2
  have := Int.abs_lt_one_iff.mp h3
  omega

/-- Rounding a number whose binade and nearest multiple of the last place are known. -/
theorem rnd_eq_of_near {x : ℝ} {e m : ℤ} (he : F.emin ≤ e) (h1 : 2 ^ e ≤ x) (h2 : x < 2 ^ (e + 1))
    (hm : |x - m * 2 ^ (e - (F.p - 1))| < 2 ^ (e - (F.p - 1)) / 2) : F.rnd x = m * 2 ^ (e - (F.p - 1)) := by
  have hx : 0 < x := lt_of_lt_of_le (by positivity) h1
  have hl : Int.log 2 |x| = e := by rw [abs_of_pos hx]; exact log_of_binade h1 h2
  have hp : F.place x = e - (F.p - 1) := by unfold Format.place; rw [hl, max_eq_left he]
  have hpos : (0 : ℝ) < 2 ^ (e - ((F.p : ℤ) - 1)) := by positivity
  unfold Format.rnd
  rw [hp, rne_of_near (m := m)]
  have : x / 2 ^ (e - ((F.p : ℤ) - 1)) - m = (x - m * 2 ^ (e - ((F.p : ℤ) - 1))) / 2 ^ (e - ((F.p : ℤ) - 1)) := by
    field_simp
  rw [this, abs_div, abs_of_pos hpos, div_lt_iff₀ hpos]
  linarith

/-- The square root of the rounded square of a number is the number. -/
theorem sqrt_sq_exact {x : ℝ} (hx : F.rnd x = x) (h0 : 0 < x) (hlo : F.tiny ≤ x ^ 2) :
    F.rnd (√(F.rnd (x * x))) = x := by
  have u0 := F.u_pos
  have u1 := F.u_le
  have ht := F.tiny_pos
  set D := F.rnd (x * x) with hD
  rw [sq] at hlo
  have hDt : F.tiny ≤ D := F.rnd_normal_ge hlo
  have hD0 : 0 < D := ht.trans_le hDt
  have ht1 : F.tiny ≤ 1 := by
    unfold Format.tiny
    calc (2 : ℝ) ^ F.emin ≤ 2 ^ (0 : ℤ) := zpow_le_zpow_right₀ (by norm_num)
          (by unfold Format.emin; have := F.emax_ge; omega)
      _ = 1 := by norm_num
  have hxt : F.tiny ≤ x := by
    by_contra h
    push Not at h
    nlinarith
  obtain ⟨b1, b2⟩ := binade h0
  set e := Int.log 2 x with he
  have hemin : F.emin ≤ e := by
    unfold Format.tiny at hxt
    have := (zpow_lt_zpow_iff_right₀ (by norm_num : (1 : ℝ) < 2)).mp (hxt.trans_lt b2)
    omega
  -- x as a multiple of its last place
  have hplace : F.place x = e - (F.p - 1) := by
    unfold Format.place; rw [abs_of_pos h0, ← he, max_eq_left hemin]
  set q : ℝ := 2 ^ (e - ((F.p : ℤ) - 1)) with hq
  have hqpos : 0 < q := by positivity
  obtain ⟨m, hm⟩ : ∃ m : ℤ, x = m * q := ⟨rne (x / 2 ^ F.place x), by
    conv_lhs => rw [← hx]
    unfold Format.rnd; rw [hplace]⟩
  have hqu : q / 2 = F.u * 2 ^ e := by
    unfold Format.u
    rw [hq, ← zpow_add₀ (by norm_num), show e - ((F.p : ℤ) - 1) = (-(F.p : ℤ) + e) + 1 by ring,
      zpow_add₀ (by norm_num), zpow_one]
    ring
  have he1 : (2 : ℝ) ^ (e + 1) = 2 ^ e * 2 := by rw [zpow_add₀ (by norm_num), zpow_one]
  have hE : (0 : ℝ) < 2 ^ e := by positivity
  have htop : (2 : ℝ) ^ (e + 1) = ((2 ^ F.p : ℤ) : ℝ) * q := by
    rw [hq]; push_cast
    rw [← zpow_natCast (2 : ℝ) F.p, ← zpow_add₀ (by norm_num)]
    congr 1; ring
  have hmlt : m + 1 ≤ 2 ^ F.p := by
    have : (m : ℝ) * q < ((2 ^ F.p : ℤ) : ℝ) * q := by rw [← hm, ← htop]; exact b2
    have := lt_of_mul_lt_mul_right this hqpos.le
    have : m < 2 ^ F.p := by exact_mod_cast this
    omega
  have hxtop : x + q ≤ 2 ^ (e + 1) := by
    rw [htop, hm]
    have : ((m + 1 : ℤ) : ℝ) ≤ ((2 ^ F.p : ℤ) : ℝ) := by exact_mod_cast hmlt
    push_cast at this ⊢
    nlinarith
  -- the rounded square
  have herr := F.rnd_err_normal (hlo.trans (le_abs_self _))
  rw [← hD, abs_of_pos (mul_pos h0 h0)] at herr
  obtain ⟨g1, g2⟩ := abs_le.mp herr
  set z := √D with hz
  have hzpos : 0 < z := Real.sqrt_pos.mpr hD0
  have hzz : z * z = D := Real.mul_self_sqrt hD0.le
  have hzlow : (1 - F.u) * x ≤ z := by
    refine Real.le_sqrt_of_sq_le ?_
    have : (1 - F.u) ^ 2 ≤ 1 - F.u := by nlinarith
    calc ((1 - F.u) * x) ^ 2 = (1 - F.u) ^ 2 * (x * x) := by ring
      _ ≤ (1 - F.u) * (x * x) := mul_le_mul_of_nonneg_right this (mul_pos h0 h0).le
      _ ≤ D := by linarith
  have hdiff : (z - x) * (z + x) = D - x * x := by rw [← hzz]; ring
  have hsum : (2 - F.u) * x ≤ z + x := by linarith
  have hnear : |z - x| < q / 2 := by
    have h1 : |z - x| * (z + x) ≤ F.u * (x * x) := by
      rw [← abs_of_pos (show 0 < z + x by linarith), ← abs_mul, hdiff]; exact herr
    have h2 : |z - x| * ((2 - F.u) * x) ≤ F.u * (x * x) :=
      (mul_le_mul_of_nonneg_left hsum (abs_nonneg _)).trans h1
    have h3 : |z - x| * (2 - F.u) ≤ F.u * x := by
      have : |z - x| * (2 - F.u) * x ≤ F.u * x * x := by linarith
      exact le_of_mul_le_mul_right this h0
    have hx2 : x ≤ 2 ^ e * (2 - 2 * F.u) := by
      have : q = 2 * (F.u * 2 ^ e) := by linarith
      nlinarith
    rw [hqu]
    have h4 : |z - x| * (2 - F.u) < F.u * 2 ^ e * (2 - F.u) := by
      calc _ ≤ F.u * x := h3
        _ ≤ F.u * (2 ^ e * (2 - 2 * F.u)) := mul_le_mul_of_nonneg_left hx2 u0.le
        _ < _ := by
          have : 0 < F.u * 2 ^ e * F.u := by positivity
          nlinarith
    exact lt_of_mul_lt_mul_right h4 (by linarith)
  have hzge : (2 : ℝ) ^ e ≤ z := by
    refine Real.le_sqrt_of_sq_le ?_
    have h1 : ((2 : ℝ) ^ e) ^ 2 = 2 ^ (e + e) := by rw [sq, zpow_add₀ (by norm_num)]
    have h2 : (2 : ℝ) ^ (e + e) ≤ x * x := by rw [← h1, sq]; exact mul_self_le_mul_self hE.le b1
    have h3 := F.rnd_mono h2
    have hg : F.grid ≤ e + e := by
      have h4 : x * x < 2 ^ ((e + 1) + (e + 1)) := by
        rw [zpow_add₀ (by norm_num)]; exact mul_self_lt_mul_self h0.le b2
      have h5 : F.emin < (e + 1) + (e + 1) :=
        (zpow_lt_zpow_iff_right₀ (by norm_num : (1 : ℝ) < 2)).mp (lt_of_le_of_lt hlo h4)
      unfold Format.grid
      have := F.hp; omega
    rwa [F.pow_rep hg, ← hD, ← h1] at h3
  have hzlt : z < 2 ^ (e + 1) := by
    have := (abs_lt.mp hnear).2
    linarith
  rw [rnd_eq_of_near (m := m) hemin hzge hzlt (by rw [← hq, ← hm]; exact hnear), ← hq, ← hm]

/-- The sum of the squares of a vector with one component other than zero. -/
theorem axis_dot (v : Vec (IVal F) n) (j : Fin n) (h : ∀ i, i ≠ j → ∃ s, v i = .zero s) (hj : v j ≠ .nan) :
    dot v v = v j * v j := by
  have hs : Same (dot v v) (v j * v j) :=
    foldl_one_term (fun i => v i * v i) j (List.finRange n) false (List.nodup_finRange n) (List.mem_finRange j)
      (fun i _ hi => by obtain ⟨s, hs⟩ := h i hi; rw [hs]; exact ⟨_, rfl⟩)
  have hnn : NonNeg (dot v v) := foldl_nonneg (fun i => v i * v i) (fun i => by
      by_cases hi : i = j
      · rw [hi]; exact (sq_nonneg (v j)).resolve_left hj
      · obtain ⟨s, hs⟩ := h i hi
        exact (sq_nonneg (v i)).resolve_left (by rw [hs]; simp)) (List.finRange n) 0 nonneg_zero
  have hjj := (sq_nonneg (v j)).resolve_left hj
  rcases hs with h | ⟨s, t, h1, h2⟩
  · exact h
  · rw [h1, h2]
    rw [h1] at hnn; rw [h2] at hjj
    have : ∀ b, NonNeg (IVal.zero b : IVal F) → b = false := by
      rintro b (h | ⟨-, -, h⟩)
      · cases h
      · cases b
        · rfl
        · exact absurd rfl h
    rw [this s hnn, this t hjj]

/-- C103. The length of a vector along a coordinate axis is exactly the absolute value of its one component,
provided the square of that component is in range. -/
theorem ieee_axis_length [ILibm F] (v : Vec (IVal F) n) (j : Fin n) (h : ∀ i, i ≠ j → ∃ s, v i = .zero s)
    (hf : (v j).Finite) (hlo : F.tiny ≤ (v j).toReal ^ 2) (hhi : F.rnd ((v j).toReal ^ 2) ≤ F.largest) :
    (length v).Finite ∧ (length v).toReal = |(v j).toReal| ∧ lengthM v = length v := by
  set x := (v j).toReal with hx
  have hrep := Is.rep' (is_of_finite hf)
  rw [← hx] at hrep
  have hx0 : x ≠ 0 := by
    intro h0; rw [h0, zero_pow (by norm_num)] at hlo
    exact absurd hlo (not_le.mpr F.tiny_pos)
  have hd : (dot v v).Is (F.rnd (x * x)) := by
    rw [axis_dot v j h (by intro h'; rw [h'] at hf; exact hf)]
    refine mul_is' (is_of_finite hf) (is_of_finite hf) ?_
    rw [abs_of_nonneg (F.rnd_nonneg (mul_self_nonneg x)), ← sq]; exact hhi
  have hax : F.rnd |x| = |x| := by rw [← F.rnd_abs, hrep]
  have he : F.rnd (√(F.rnd (x * x))) = |x| := by
    have := sqrt_sq_exact hax (abs_pos.mpr hx0) (by rwa [sq_abs])
    rwa [abs_mul_abs_self] at this
  have hs := sqrt_is' hd (F.rnd_nonneg (mul_self_nonneg x)) (by
    rw [he, abs_abs]; exact is_le_largest ⟨hf, rfl⟩)
  rw [he] at hs
  exact ⟨hs.1, hs.2, lengthM_ieee v⟩

/-- C103, the part that holds: `normalize` of a vector along an axis whose component is plus or minus a power of
two in range is exactly plus or minus the unit vector. -/
theorem ieee_axis_normalize_partial [ILibm F] (v : Vec (IVal F) n) (j : Fin n) (k : ℤ)
    (h : ∀ i, i ≠ j → ∃ s, v i = .zero s) (hf : (v j).Finite) (hk : |(v j).toReal| = 2 ^ k)
    (h1 : F.emin ≤ k + k) (h2 : k + k ≤ F.emax) :
    (normalize v j = if (v j).toReal < 0 then -1 else 1) ∧ ∀ i, i ≠ j → ∃ s, normalize v i = .zero s := by
  set x := (v j).toReal with hx
  have hsq : x ^ 2 = 2 ^ (k + k) := by rw [← sq_abs, hk, sq, zpow_add₀ (by norm_num)]
  have hgk : F.grid ≤ k + k := by unfold Format.grid; have := F.hp; omega
  obtain ⟨l1, l2, -⟩ := ieee_axis_length v j h hf
    (by rw [← hx, hsq]; unfold Format.tiny; exact zpow_le_zpow_right₀ (by norm_num) h1)
    (by rw [← hx, hsq, F.pow_rep hgk]; exact F.pow_le_largest h2)
  rw [← hx, hk] at l2
  have hp : (0 : ℝ) < 2 ^ k := by positivity
  have hkm : F.grid ≤ -k ∧ -k ≤ F.emax := by
    unfold Format.emin at h1
    unfold Format.grid Format.emin; have := F.hp; have := F.hemax; omega
  have hinv : (1 : ℝ) / 2 ^ k = 2 ^ (-k) := by rw [zpow_neg, one_div]
  have hq : ((1 : IVal F) / length v).Is (2 ^ (-k)) := by
    have := div_is' (a := (1 : IVal F)) (x := 1) ⟨trivial, rfl⟩ ⟨l1, l2⟩ hp.ne' (by
      rw [hinv, F.pow_rep hkm.1, abs_of_pos (by positivity)]
      exact F.pow_le_largest hkm.2)
    rwa [hinv, F.pow_rep hkm.1] at this
  have hone : F.rnd 1 = 1 := F.one_Rep.2.1
  refine ⟨?_, fun i hi => ?_⟩
  · rw [normalize_ieee]
    cases hq' : (1 : IVal F) / length v with
    | nan => rw [hq'] at hq; exact hq.1.elim
    | inf s => rw [hq'] at hq; exact hq.1.elim
    | zero s =>
      rw [hq'] at hq
      have : (0 : ℝ) = 2 ^ (-k) := hq.2
      have hpos : (0 : ℝ) < 2 ^ (-k) := by positivity
      linarith
    | num w hw =>
      rw [hq'] at hq
      have hw' : w = 2 ^ (-k) := hq.2
      cases hvj : v j with
      | nan => rw [hvj] at hf; exact hf.elim
      | inf s => rw [hvj] at hf; exact hf.elim
      | zero s =>
        have : x = 0 := by rw [hx, hvj]; rfl
        rw [this, abs_zero] at hk; linarith
      | num y hy =>
        have hy' : y = x := by rw [hx, hvj]; rfl
        change ofReal F false (y * w) = _
        rw [hy', hw']
        have hxk : |x| * 2 ^ (-k) = 1 := by rw [hk, ← zpow_add₀ (by norm_num), add_neg_cancel, zpow_zero]
        by_cases hneg : x < 0
        · have : x * 2 ^ (-k) = -1 := by rw [abs_of_neg hneg] at hxk; linarith
          rw [this, if_pos hneg, ofReal_of_rep (F.neg_Rep F.one_Rep)]; rfl
        · have : x * 2 ^ (-k) = 1 := by rw [abs_of_nonneg (not_lt.mp hneg)] at hxk; exact hxk
          rw [this, if_neg hneg, ofReal_of_rep F.one_Rep]; rfl
  · rw [normalize_ieee]
    obtain ⟨s, hs⟩ := h i hi
    rw [hs]
    exact zero_mul_finite hq.1 s

/-- A vector along the first axis. -/
theorem axis_normalize_value [ILibm F] {x k w : ℝ} (hx : F.Rep x) (h0 : 0 < x) (hlo : F.tiny ≤ x ^ 2)
    (hhi : F.rnd (x ^ 2) ≤ F.largest) (hk : F.rnd (1 / x) = k) (hw : F.rnd (x * k) = w) (hk1 : k ≤ 1) (hw1 : |w| ≤ 1) :
    (normalize (![.num x hx, 0] : Vec (IVal F) 2) 0).toReal = w := by
  have hone : (1 : ℝ) ≤ F.largest := by
    have := F.pow_le_largest (k := 0) (by have := F.emax_ge; omega)
    simpa using this
  obtain ⟨l1, l2, -⟩ := ieee_axis_length (F := F) (![.num x hx, 0] : Vec (IVal F) 2) 0
    (fun i hi => by
      fin_cases i
      · exact absurd rfl hi
      · exact ⟨false, rfl⟩) trivial hlo hhi
  change _ = |x| at l2
  rw [abs_of_pos h0] at l2
  have hk0 : 0 ≤ k := by rw [← hk]; exact F.rnd_nonneg (by positivity)
  have hq : ((1 : IVal F) / length (![.num x hx, 0] : Vec (IVal F) 2)).Is k := by
    have := div_is' (a := (1 : IVal F)) (x := 1) ⟨trivial, rfl⟩ ⟨l1, l2⟩ h0.ne' (by
      rw [hk, abs_of_nonneg hk0]; linarith)
    rwa [hk] at this
  rw [normalize_ieee]
  have := mul_is' (a := .num x hx) (x := x) ⟨trivial, rfl⟩ hq (by rw [hw]; linarith)
  rw [hw] at this
  exact this.2

/-- C103, what is wrong: `normalize` of the `float` vector (41, 0) is (1 − 2⁻²⁴, 0), not (1, 0): the code
multiplies with the rounded reciprocal of the length instead of dividing by the length. Dividing would give 1
(41 / 41). -/
theorem ieee_axis_normalize_wrong [ILibm .binary32] : ∃ h : Format.binary32.Rep 41,
    (normalize (![.num 41 h, 0] : Vec (IVal .binary32) 2) 0).toReal = 1 - 2 ^ (-24 : ℤ) ∧
    normalize (![.num 41 h, 0] : Vec (IVal .binary32) 2) 0 ≠ 1 ∧
    (divS (![.num 41 h, 0] : Vec (IVal .binary32) 2) (length (![.num 41 h, 0] : Vec (IVal .binary32) 2)) 0).toReal = 1 := by
  have hemin : Format.binary32.emin = -126 := rfl
  have hp : ((Format.binary32.p : ℕ) : ℤ) = 24 := rfl
  have hl : (2 : ℝ) ^ (20 : ℤ) ≤ Format.binary32.largest := Format.binary32.pow_le_largest (by decide)
  have hl' : (1048576 : ℝ) ≤ Format.binary32.largest := by norm_num at hl; exact hl
  have r41 : Format.binary32.rnd 41 = 41 := by
    have := rnd_eq_of_near (F := .binary32) (x := 41) (e := 5) (m := 41 * 2 ^ 18) (by rw [hemin]; norm_num)
      (by norm_num) (by norm_num) (by rw [hp]; norm_num)
    rw [this, hp]; norm_num
  have rep : Format.binary32.Rep 41 := ⟨by norm_num, r41, by rw [abs_of_pos (by norm_num)]; linarith⟩
  have r1681 : Format.binary32.rnd (41 ^ 2) = 1681 := by
    have := rnd_eq_of_near (F := .binary32) (x := 41 ^ 2) (e := 10) (m := 1681 * 2 ^ 13) (by rw [hemin]; norm_num)
      (by norm_num) (by norm_num) (by rw [hp]; norm_num)
    rw [this, hp]; norm_num
  have rinv : Format.binary32.rnd (1 / 41) = 13094412 * 2 ^ (-29 : ℤ) := by
    have := rnd_eq_of_near (F := .binary32) (x := 1 / 41) (e := -6) (m := 13094412) (by rw [hemin]; norm_num)
      (by norm_num) (by norm_num) (by rw [hp]; norm_num [abs_lt])
    rw [this, hp]; norm_num
  have rres : Format.binary32.rnd (41 * (13094412 * 2 ^ (-29 : ℤ))) = 1 - 2 ^ (-24 : ℤ) := by
    have := rnd_eq_of_near (F := .binary32) (x := 41 * (13094412 * 2 ^ (-29 : ℤ))) (e := -1) (m := 16777215)
      (by rw [hemin]; norm_num) (by norm_num) (by norm_num) (by rw [hp]; norm_num [abs_lt])
    rw [this, hp]; norm_num
  have htiny : Format.binary32.tiny ≤ 41 ^ 2 := by
    unfold Format.tiny; rw [hemin]; norm_num
  have hval := axis_normalize_value (F := .binary32) rep (by norm_num) htiny (by rw [r1681]; linarith) rinv rres
    (by norm_num) (by norm_num [abs_le])
  refine ⟨rep, hval, ?_, ?_⟩
  · intro h
    rw [h] at hval
    have : (1 : ℝ) = 1 - 2 ^ (-24 : ℤ) := hval
    norm_num at this
  · obtain ⟨l1, l2, -⟩ := ieee_axis_length (F := .binary32) (![.num 41 rep, 0] : Vec (IVal .binary32) 2) 0
      (fun i hi => by
        fin_cases i
        · exact absurd rfl hi
        · exact ⟨false, rfl⟩) trivial htiny (by
          change Format.binary32.rnd (41 ^ 2) ≤ _
          rw [r1681]; linarith)
    change _ = |(41 : ℝ)| at l2
    rw [abs_of_pos (by norm_num)] at l2
    unfold divS; rw [vecOpS_apply]
    have hone : Format.binary32.rnd ((41 : ℝ) / 41) = 1 := by
      rw [div_self (by norm_num)]; exact Format.binary32.one_Rep.2.1
    have := div_is' (F := .binary32) (a := .num 41 rep) (x := 41) ⟨trivial, rfl⟩ ⟨l1, l2⟩ (by norm_num) (by
      rw [hone, abs_one]; linarith)
    rw [hone] at this
    exact this.2

/-- The hypotheses of the exact case can be met: (0, −4, 0). -/
example [ILibm .binary64] : ∃ v : Vec (IVal .binary64) 3, normalize v 1 = -1 := by
  have h4 : Format.binary64.Rep (-(2 ^ (2 : ℤ))) :=
    Format.neg_Rep _ (Format.binary64.pow_Rep (by decide) (by decide))
  refine ⟨![.zero true, .num _ h4, 0], ?_⟩
  have := (ieee_axis_normalize_partial (F := .binary64) ![.zero true, .num _ h4, 0] 1 2 (fun i hi => by
    fin_cases i
    · exact ⟨true, rfl⟩
    · exact absurd rfl hi
    · exact ⟨false, rfl⟩) trivial (by change |(-(2 ^ (2 : ℤ)) : ℝ)| = _; norm_num) (by decide) (by decide)).1
  rw [this, if_pos]
  change (-(2 ^ (2 : ℤ)) : ℝ) < 0
  norm_num

end Verif.Math
