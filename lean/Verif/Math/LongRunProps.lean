import Verif.Math.LongRun
import Verif.Math.FloatLawsProps
import Verif.Math.WholeProps
import Verif.Math.IeeeRange
import Mathlib.Data.Matrix.Mul
import Mathlib.Algebra.Quaternion
import Mathlib.Tactic.Positivity

/-!
C169: loops in floating point — how far a long sum, a stepped position, an average, and a chain of transformations or
rotations are from what exact arithmetic gives; what does not depend on rounding; and where a clock that advances by a fixed
step stands still.
-/

set_option autoImplicit false

namespace Verif.Math

variable {R : Rounding} {n : Nat}

/-! ### Specification -/

/-- Component `i` of the exact sum. -/
noncomputable def exactSum (vs : List (Vec (FP R) n)) (i : Fin n) : ℝ := (vs.map fun v => (v i).val).sum

/-- The sum of the magnitudes of component `i`. -/
noncomputable def absSum (vs : List (Vec (FP R) n)) (i : Fin n) : ℝ := (vs.map fun v => |(v i).val|).sum

/-- The entries as a matrix of real numbers: row `j`, column `p`. -/
def realM (m : Mat (FP R) n n) : Matrix (Fin n) (Fin n) ℝ := Matrix.of fun j p => (m p j).val

/-- The magnitudes of the entries. -/
def absM (m : Mat (FP R) n n) : Matrix (Fin n) (Fin n) ℝ := Matrix.of fun j p => |(m p j).val|

/-- The sum of the magnitudes of the coordinates. -/
def norm1 (q : Quat (FP R)) : ℝ := |q.w.val| + |q.x.val| + |q.y.val| + |q.z.val|

/-! ### Sums -/

theorem sum_cons [Indet (FP R)] (v : Vec (FP R) n) (vs : List (Vec (FP R) n)) (s : Vec (FP R) n) :
    sumLoop (v :: vs) s = sumLoop vs fun i => s i + v i := by
  simp only [sumLoop, List.foldl_cons, vecSelfOp_apply, Operand.at]

theorem sum_approx : ∀ (vs : List (Vec (FP R) n)) (s : Vec (FP R) n) (i : Fin n) (t S : ℝ) (k : Nat), Approx (s i) t S k →
    Approx (sumLoop vs s i) (t + exactSum vs i) (S + absSum vs i) (k + vs.length)
  | [], s, i, t, S, k, h => by simpa [sumLoop, exactSum, absSum] using h
  | v :: vs, s, i, t, S, k, h => by
    let _ : Indet (FP R) := ⟨fun _ => 0⟩
    rw [sum_cons]
    have := sum_approx vs (fun i => s i + v i) i _ _ _ (h.add ((Approx.exact (v i)).mono (Nat.zero_le k) le_rfl))
    simp only [exactSum, absSum, List.map_cons, List.sum_cons, List.length_cons] at this ⊢
    rw [show k + (vs.length + 1) = k + 1 + vs.length by ring, ← add_assoc, ← add_assoc]
    exact this

/-- C169. A sum accumulated with `+=`: off by at most `((1+u)ⁿ - 1)` times the sum of the magnitudes. -/
theorem long_sum (vs : List (Vec (FP R) n)) (s : Vec (FP R) n) (i : Fin n) :
    |(sumLoop vs s i).val - ((s i).val + exactSum vs i)| ≤
      ((1 + R.u) ^ vs.length - 1) * (|(s i).val| + absSum vs i) := by
  have := (sum_approx vs s i _ _ 0 (Approx.exact _)).err
  rwa [Nat.zero_add] at this

/-- C169. The order of the summands: two orders give sums that differ by at most twice that. -/
theorem long_sum_order (vs ws : List (Vec (FP R) n)) (h : vs.Perm ws) (s : Vec (FP R) n) (i : Fin n) :
    |(sumLoop vs s i).val - (sumLoop ws s i).val| ≤
      2 * (((1 + R.u) ^ vs.length - 1) * (|(s i).val| + absSum vs i)) := by
  have h1 := sum_approx vs s i _ _ 0 (Approx.exact _)
  have h2 := sum_approx ws s i _ _ 0 (Approx.exact _)
  have e1 : exactSum ws i = exactSum vs i := ((h.map fun v : Vec (FP R) n => (v i).val).sum_eq).symm
  have e2 : absSum ws i = absSum vs i := ((h.map fun v : Vec (FP R) n => |(v i).val|).sum_eq).symm
  rw [e1, e2, ← h.length_eq] at h2
  have := h1.apart h2
  rwa [Nat.zero_add] at this

/-- C169. Rounding or not, adding components that are not negative never lowers the sum, and larger summands never give a
smaller sum. -/
theorem long_sum_mono (vs ws : List (Vec (FP R) n)) (s : Vec (FP R) n) (i : Fin n) :
    ((∀ v ∈ ws, 0 ≤ (v i).val) → (sumLoop vs s i).val ≤ (sumLoop (vs ++ ws) s i).val) ∧
    (∀ t : Vec (FP R) n, List.Forall₂ (fun v w : Vec (FP R) n => (v i).val ≤ (w i).val) vs ws → (s i).val ≤ (t i).val →
      (sumLoop vs s i).val ≤ (sumLoop ws t i).val) := by
  let _ : Indet (FP R) := ⟨fun _ => 0⟩
  constructor
  · intro h
    have e : sumLoop (vs ++ ws) s = sumLoop ws (sumLoop vs s) := by unfold sumLoop; rw [List.foldl_append]
    rw [e]
    generalize sumLoop vs s = s
    clear e
    induction ws generalizing s with
    | nil => exact le_rfl
    | cons w ws ih =>
      rw [sum_cons]
      refine le_trans ?_ (ih (fun v hv => h v (List.mem_cons_of_mem _ hv)) _)
      have := R.mono (show (s i).val ≤ (s i).val + (w i).val by linarith [h w List.mem_cons_self])
      rwa [(s i).rep] at this
  · intro t h
    induction h generalizing s t with
    | nil => exact id
    | cons hv _ ih =>
      intro hst
      rw [sum_cons, sum_cons]
      exact ih _ _ (R.mono (add_le_add hst hv))

/-- C169. A position stepped with `p += v * dt`: off by at most `((1+u)ⁿ⁺¹ - 1)` times the magnitudes of the start and of the
steps. -/
theorem long_steps (vs : List (Vec (FP R) n)) (dt : FP R) (p : Vec (FP R) n) (i : Fin n) :
    |(stepLoop vs dt p i).val - ((p i).val + exactSum vs i * dt.val)| ≤
      ((1 + R.u) ^ (vs.length + 1) - 1) * (|(p i).val| + absSum vs i * |dt.val|) := by
  have key : ∀ (vs : List (Vec (FP R) n)) (p : Vec (FP R) n) (t S : ℝ) (k : Nat), 1 ≤ k → Approx (p i) t S k →
      Approx (stepLoop vs dt p i) (t + exactSum vs i * dt.val) (S + absSum vs i * |dt.val|) (k + vs.length) := by
    intro vs
    induction vs with
    | nil => intro p t S k _ h; simpa [stepLoop, exactSum, absSum] using h
    | cons v vs ih =>
      intro p t S k hk h
      have e : stepLoop (v :: vs) dt p = stepLoop vs dt fun i => p i + v i * dt := by
        simp only [stepLoop, List.foldl_cons, vecSelfOp_apply, Operand.at, mulS, vecOpS_apply]
      rw [e]
      have hm := ((Approx.exact (v i)).mul (Approx.exact dt)).mono (k' := k) (by omega) le_rfl
      have := ih (fun i => p i + v i * dt) _ _ _ (by omega) (h.add hm)
      simp only [exactSum, absSum, List.map_cons, List.sum_cons, List.length_cons, add_mul] at this ⊢
      rw [show k + (vs.length + 1) = k + 1 + vs.length by ring, ← add_assoc, ← add_assoc]
      exact this
  have := (key vs p _ _ 1 le_rfl ((Approx.exact (p i)).mono (Nat.zero_le 1) le_rfl)).err
  rwa [Nat.add_comm] at this

/-- C169. An average, the sum divided by `d`: off by at most `((1+u)ⁿ⁺¹ - 1)` times the sum of the magnitudes divided by
`|d|`. -/
theorem long_mean (vs : List (Vec (FP R) n)) (d : FP R) (hd : d.val ≠ 0) (i : Fin n) :
    |(meanLoop vs d i).val - exactSum vs i / d.val| ≤
      ((1 + R.u) ^ (vs.length + 1) - 1) * (absSum vs i / |d.val|) := by
  have h := sum_approx vs (splat 0) i 0 0 0 (by rw [splat_apply]; exact ⟨by simp, by simp⟩)
  rw [zero_add, zero_add, Nat.zero_add] at h
  have hd' : 0 < |d.val| := abs_pos.mpr hd
  refine (Approx.rounded (z := (sumLoop vs (splat 0) i).val / d.val) ?_ ?_ ?_).err
  · unfold meanLoop; rw [vecSelfOpS_apply]; rfl
  · rw [← sub_div, abs_div, ← mul_div_assoc]
    exact div_le_div_of_nonneg_right h.err hd'.le
  · rw [abs_div]; exact div_le_div_of_nonneg_right h.mag hd'.le

/-! ### Chains of transformations and rotations -/

/-- C169. One transformation after the other: each coordinate is off by at most `((1+u)^(size·count) - 1)` times the
coordinate that the magnitudes give. -/
theorem long_transform [Indet (FP R)] (ms : List (Mat (FP R) n n)) (v : Vec (FP R) n) (j : Fin n) :
    |(transformLoop ms v j).val - ((ms.map realM).reverse.prod.mulVec fun p => (v p).val) j| ≤
      ((1 + R.u) ^ (n * ms.length) - 1) * ((ms.map absM).reverse.prod.mulVec fun p => |(v p).val|) j := by
  have key : ∀ (ms : List (Mat (FP R) n n)) (v : Vec (FP R) n) (e M : Fin n → ℝ) (k : Nat),
      (∀ i, Approx (v i) (e i) (M i) k) → ∀ j, Approx (transformLoop ms v j) (((ms.map realM).reverse.prod.mulVec e) j)
        (((ms.map absM).reverse.prod.mulVec M) j) (k + n * ms.length) := by
    intro ms
    induction ms with
    | nil => intro v e M k h j; simpa [transformLoop] using h j
    | cons m ms ih =>
      intro v e M k h j
      have h1 : ∀ i, Approx (mulVec m v i) (((realM m).mulVec e) i) (((absM m).mulVec M) i) (k + n) := fun i => by
        rw [mulVec_dot]
        have := Approx.dotOf (fun p => m p i) v _ e _ M 0 k (fun p => Approx.exact _) h
        rwa [Nat.zero_add] at this
      have := ih (mulVec m v) _ _ _ h1 j
      simp only [List.map_cons, List.reverse_cons, List.prod_append, List.prod_cons, List.prod_nil, mul_one,
        ← Matrix.mulVec_mulVec, List.length_cons]
      rw [show k + n * (ms.length + 1) = k + n + n * ms.length by ring]
      exact this
  have := (key ms v _ _ 0 (fun i => Approx.exact _) j).err
  rwa [Nat.zero_add] at this

/-- C169. One rotation after the other: each coordinate of the product of `n + 1` quaternions is off by at most
`((1+u)⁴ⁿ - 1)` times the product of the sums of the magnitudes of their coordinates. -/
theorem long_turns (ps : List (Quat (FP R))) (q : Quat (FP R)) :
    let exact := (ps.map valQ).reverse.prod * valQ q
    let bound := ((1 + R.u) ^ (4 * ps.length) - 1) * ((ps.map norm1).prod * norm1 q)
    |(turnLoop ps q).w.val - exact.re| ≤ bound ∧ |(turnLoop ps q).x.val - exact.imI| ≤ bound ∧
    |(turnLoop ps q).y.val - exact.imJ| ≤ bound ∧ |(turnLoop ps q).z.val - exact.imK| ≤ bound := by
  let E : Quaternion ℝ → Quat ℝ := fun h => ⟨h.re, h.imI, h.imJ, h.imK⟩
  have hE : ∀ a b : Quaternion ℝ, E (a * b) = (E a).mul (E b) := fun a b => by
    simp only [E, Quat.mul, Quaternion.re_mul, Quaternion.imI_mul, Quaternion.imJ_mul, Quaternion.imK_mul, Quat.mk.injEq]
    refine ⟨trivial, ?_, trivial, trivial⟩; ring
  have key : ∀ (ps : List (Quat (FP R))) (q : Quat (FP R)) (e : Quaternion ℝ) (M : Quat ℝ) (k : Nat) (N : ℝ),
      ApproxQ q (E e) M k → M.w + M.x + M.y + M.z ≤ N → ∃ M' : Quat ℝ,
        ApproxQ (turnLoop ps q) (E ((ps.map valQ).reverse.prod * e)) M' (k + 4 * ps.length) ∧
        M'.w + M'.x + M'.y + M'.z ≤ (ps.map norm1).prod * N := by
    intro ps
    induction ps with
    | nil => intro q e M k N h hN; exact ⟨M, by simpa [turnLoop] using h, by simpa using hN⟩
    | cons p ps ih =>
      intro q e M k N h hN
      have hp : ApproxQ p (E (valQ p)) ⟨|p.w.val|, |p.x.val|, |p.y.val|, |p.z.val|⟩ 0 :=
        ⟨Approx.exact _, Approx.exact _, Approx.exact _, Approx.exact _⟩
      have h1 := hp.mul h
      rw [← hE] at h1
      have hs : (magQ ⟨|p.w.val|, |p.x.val|, |p.y.val|, |p.z.val|⟩ M).w + (magQ ⟨|p.w.val|, |p.x.val|, |p.y.val|, |p.z.val|⟩ M).x +
          (magQ ⟨|p.w.val|, |p.x.val|, |p.y.val|, |p.z.val|⟩ M).y + (magQ ⟨|p.w.val|, |p.x.val|, |p.y.val|, |p.z.val|⟩ M).z ≤
          norm1 p * N := by
        refine le_trans (le_of_eq ?_) (mul_le_mul_of_nonneg_left hN (by unfold norm1; positivity))
        simp only [magQ, norm1]; ring
      obtain ⟨M', h2, h3⟩ := ih (p.mul q) _ _ _ _ h1 hs
      refine ⟨M', ?_, ?_⟩
      · rw [List.length_cons, show k + 4 * (ps.length + 1) = 0 + k + 4 + 4 * ps.length by ring, List.map_cons,
          List.reverse_cons, List.prod_append, List.prod_singleton, mul_assoc]
        exact h2
      · rw [List.map_cons, List.prod_cons]; linarith
  obtain ⟨M', ⟨hw, hx, hy, hz⟩, hs⟩ := key ps q (valQ q) ⟨|q.w.val|, |q.x.val|, |q.y.val|, |q.z.val|⟩ 0 (norm1 q)
    ⟨Approx.exact _, Approx.exact _, Approx.exact _, Approx.exact _⟩ le_rfl
  have nw := (abs_nonneg _).trans hw.mag
  have nx := (abs_nonneg _).trans hx.mag
  have ny := (abs_nonneg _).trans hy.mag
  have nz := (abs_nonneg _).trans hz.mag
  rw [Nat.zero_add] at hw hx hy hz
  exact ⟨(hw.mono le_rfl (by linarith)).err, (hx.mono le_rfl (by linarith)).err, (hy.mono le_rfl (by linarith)).err,
    (hz.mono le_rfl (by linarith)).err⟩

/-! ### `float` and `double` as they are -/

/-- C169. Sums and steps with `float` or `double` components as they are — limited exponent, subnormal numbers, infinities,
NaN: if no operation of the loop raises an exception the result is finite and as close. -/
theorem ieee_long_sum {F : Format} (vs : List (Vec (IVal F) n)) (s : Vec (IVal F) n) (dt : IVal F)
    (hvs : ∀ v ∈ vs, ∀ i, (v i).Finite) (hs : ∀ i, (s i).Finite) (hdt : dt.Finite) (i : Fin n) :
    (¬(sumLoop (vs.map ins) (ins s) i).raised → (sumLoop vs s i).Finite ∧
      |(sumLoop vs s i).toReal - ((s i).toReal + (vs.map fun v => (v i).toReal).sum)| ≤
        ((1 + F.u) ^ vs.length - 1) * (|(s i).toReal| + (vs.map fun v => |(v i).toReal|).sum)) ∧
    (¬(stepLoop (vs.map ins) (.input dt) (ins s) i).raised → (stepLoop vs dt s i).Finite ∧
      |(stepLoop vs dt s i).toReal - ((s i).toReal + (vs.map fun v => (v i).toReal).sum * dt.toReal)| ≤
        ((1 + F.u) ^ (vs.length + 1) - 1) * (|(s i).toReal| + (vs.map fun v => |(v i).toReal|).sum * |dt.toReal|)) := by
  let _ : ILibm F := ⟨fun x => x, fun x => x⟩
  let _ : Libm F.wide := exampleLibm F.wide
  let w : Vec (IVal F) n → Vec (FP F.wide) n := fun v i => (v i).widen
  have rel1 : ∀ (vs : List (Vec (IVal F) n)) (a : Vec (Flagged F) n) (x : Vec (IVal F) n), (∀ i, Records (a i) (x i)) →
      (∀ i, Records (sumLoop (vs.map ins) a i) (sumLoop vs x i)) ∧
      (∀ i, Records (stepLoop (vs.map ins) (.input dt) a i) (stepLoop vs dt x i)) := by
    intro vs
    induction vs with
    | nil => intro a x h; exact ⟨h, h⟩
    | cons v vs ih =>
      intro a x h
      have e1 := (ih _ _ fun i => records_ops.add (h i) (rec_ins v i)).1
      have e2 := (ih _ (fun i => x i + v i * dt) fun i => records_ops.add (h i)
        (records_ops.mul (rec_ins v i) (rfl : Records (.input dt) dt))).2
      constructor
      · simpa only [sumLoop, List.map_cons, List.foldl_cons, vecSelfOp_apply, Operand.at] using e1
      · simpa only [stepLoop, List.map_cons, List.foldl_cons, vecSelfOp_apply, Operand.at, mulS, vecOpS_apply] using e2
  have rel2 : ∀ (vs : List (Vec (IVal F) n)), (∀ v ∈ vs, ∀ i, (v i).Finite) → ∀ (a : Vec (Flagged F) n) (x : Vec (FP F.wide) n),
      (∀ i, Agrees (a i) (x i)) →
      (∀ i, Agrees (sumLoop (vs.map ins) a i) (sumLoop (vs.map w) x i)) ∧
      (∀ i, Agrees (stepLoop (vs.map ins) (.input dt) a i) (stepLoop (vs.map w) dt.widen x i)) := by
    intro vs
    induction vs with
    | nil => intro _ a x h; exact ⟨h, h⟩
    | cons v vs ih =>
      intro hv a x h
      have hv' := agr_ins (hv v List.mem_cons_self)
      have hr : ∀ v ∈ vs, ∀ i, (v i).Finite := fun u hu => hv u (List.mem_cons_of_mem _ hu)
      have e1 := (ih hr _ _ fun i => agrees_ops.add (h i) (hv' i)).1
      have e2 := (ih hr _ _ fun i => agrees_ops.add (h i) (agrees_ops.mul (hv' i) (agrees_input hdt))).2
      constructor
      · simpa only [sumLoop, List.map_cons, List.foldl_cons, vecSelfOp_apply, Operand.at] using e1
      · simpa only [stepLoop, List.map_cons, List.foldl_cons, vecSelfOp_apply, Operand.at, mulS, vecOpS_apply] using e2
  have a1 := long_sum (vs.map w) (w s) i
  have a2 := long_steps (vs.map w) dt.widen (w s) i
  simp only [exactSum, absSum, List.map_map, List.length_map] at a1 a2
  refine ⟨fun h => ?_, fun h => ?_⟩
  · obtain ⟨h1, h2⟩ := transfer ((rel1 vs _ s (rec_ins s)).1 i) ((rel2 vs hvs _ _ (agr_ins hs)).1 i) h
    rw [h2]; exact ⟨h1, a1⟩
  · obtain ⟨h1, h2⟩ := transfer ((rel1 vs _ s (rec_ins s)).2 i) ((rel2 vs hvs _ _ (agr_ins hs)).2 i) h
    rw [h2]; exact ⟨h1, a2⟩

/-! ### Clocks -/

variable {F : Format}

theorem clock_succ (dt : IVal F) (k : Nat) (s : Vec (IVal F) n) :
    clockLoop dt (k + 1) s = fun i => clockLoop dt k s i + dt := by
  induction k generalizing s with
  | zero => simp only [clockLoop, vecSelfOpS_apply]
  | succ k ih => rw [clockLoop, ih]; rfl

/-- A step of at most half the spacing of the numbers is lost. -/
theorem rnd_stays {e : ℤ} (he : Within F e) {x : ℝ} (h0 : 0 ≤ x) (h1 : x ≤ 2 ^ e) :
    F.rnd (2 ^ (F.p + e) + x) = 2 ^ (F.p + e) ∧ (2 : ℝ) ^ (F.p + e) ≤ F.largest := by
  have hg : F.grid ≤ F.p + e := by have := he.1; omega
  have hl : (2 : ℝ) ^ (F.p + e) ≤ F.largest := F.pow_le_largest (by have := he.2; omega)
  refine ⟨le_antisymm ?_ ?_, hl⟩
  · have hp := F.hp
    have e2 : (0 : ℝ) < 2 ^ e := by positivity
    have hpow : (2 : ℝ) ^ (F.p + e) = 2 ^ (F.p - 1) * 2 ^ (e + 1) := by
      rw [← zpow_natCast, ← zpow_add₀ (by norm_num)]; congr 1; omega
    have hlt : (2 : ℝ) ^ e < 2 ^ (F.p + e) := zpow_lt_zpow_right₀ (by norm_num) (by omega)
    have hlog : Int.log 2 |(2 : ℝ) ^ (F.p + e) + 2 ^ e| = F.p + e := by
      rw [abs_of_pos (by positivity)]
      refine log_of_binade (by linarith) ?_
      rw [zpow_add_one₀ (by norm_num)]; linarith
    have hplace : F.place (2 ^ (F.p + e) + 2 ^ e) = e + 1 := by
      have : F.grid = F.emin - (F.p - 1) := rfl
      have := he.1
      unfold Format.place; rw [hlog, max_eq_left (by omega)]; omega
    have hq : ((2 : ℝ) ^ (F.p + e) + 2 ^ e) / 2 ^ (e + 1) = ((2 ^ (F.p - 1) : ℤ) : ℝ) + 1 / 2 := by
      rw [hpow, zpow_add_one₀ (by norm_num)]; push_cast; field_simp
    have hfl : ⌊((2 ^ (F.p - 1) : ℤ) : ℝ) + 1 / 2⌋ = 2 ^ (F.p - 1) := by
      rw [Int.floor_intCast_add]; norm_num
    have hr : F.rnd (2 ^ (F.p + e) + 2 ^ e) = 2 ^ (F.p + e) := by
      unfold Format.rnd
      rw [hplace, hq]
      have : rne (((2 ^ (F.p - 1) : ℤ) : ℝ) + 1 / 2) = 2 ^ (F.p - 1) := by
        unfold rne
        have hev : Even ((2 : ℤ) ^ (F.p - 1)) := by
          obtain ⟨d, hd⟩ : ∃ d, F.p - 1 = d + 1 := ⟨F.p - 2, by omega⟩
          rw [hd, pow_succ]; exact ⟨2 ^ d, by ring⟩
        rw [hfl, Int.fract_intCast_add]
        norm_num [hev]
      rw [this, hpow]; push_cast; ring
    rw [← hr]
    exact F.rnd_mono (by rw [hr]; linarith)
  · have := F.rnd_mono (show (2 : ℝ) ^ (F.p + e) ≤ 2 ^ (F.p + e) + x by linarith)
    rwa [F.pow_rep hg] at this

/-- C169. A clock that advances by a step of at most `2^e` never gets past `2^(p+e)`: past `2^24` when counting by ones in
`float`, past about 4.6 hours when counting milliseconds (`2^-10` seconds). -/
theorem clock_bounded {e : ℤ} (he : Within F e) {dt : IVal F} {x : ℝ} (hdt : dt.Is x) (h0 : 0 ≤ x) (h1 : x ≤ 2 ^ e)
    (s : Vec (IVal F) n) (i : Fin n) {y : ℝ} (hs : (s i).Is y) (hy : 0 ≤ y ∧ y ≤ 2 ^ (F.p + e)) (k : Nat) :
    ∃ z, (clockLoop dt k s i).Is z ∧ y ≤ z ∧ z ≤ 2 ^ (F.p + e) := by
  induction k with
  | zero => exact ⟨y, hs, le_rfl, hy.2⟩
  | succ k ih =>
    obtain ⟨z, hz, hz1, hz2⟩ := ih
    obtain ⟨r1, r2⟩ := rnd_stays he h0 h1
    have h3 : F.rnd (z + x) ≤ 2 ^ (F.p + e) := r1 ▸ F.rnd_mono (by linarith)
    have h4 : 0 ≤ F.rnd (z + x) := F.rnd_nonneg (by linarith [hy.1])
    rw [clock_succ]
    refine ⟨F.rnd (z + x), add_is' hz hdt (by rw [abs_of_nonneg h4]; linarith), ?_, h3⟩
    have h5 := F.rnd_mono (show z ≤ z + x by linarith)
    have : F.rnd z = z := Is.rep' hz
    linarith

/-- C169. A clock that advances by exactly `2^e` shows the number of steps, exactly, as long as that is at most `2^p`, and
`2^p` steps ever after. -/
theorem clock_stops {e : ℤ} (he : Within F e) {dt : IVal F} (hdt : Holds dt 1 e) (s : Vec (IVal F) n) (i : Fin n)
    (hs : Holds (s i) 0 e) (k : Nat) : Holds (clockLoop dt k s i) (min (k : ℤ) (2 ^ F.p)) e := by
  induction k with
  | zero =>
    have : min ((0 : ℕ) : ℤ) (2 ^ F.p) = 0 := min_eq_left (by positivity)
    rw [this]; exact hs
  | succ k ih =>
    rw [clock_succ]
    rcases lt_or_ge (k : ℤ) (2 ^ F.p) with h | h
    · rw [min_eq_left (by push_cast; omega)]
      rw [min_eq_left h.le] at ih
      push_cast
      exact ih.add hdt he (by unfold Short; rw [abs_of_nonneg (by positivity)]; omega)
    · rw [min_eq_right (by push_cast; omega)]
      rw [min_eq_right h] at ih
      unfold Holds at *
      have e1 : ((2 ^ F.p : ℤ) : ℝ) * 2 ^ e = 2 ^ (F.p + e) := by
        rw [zpow_add₀ (by norm_num), zpow_natCast]; push_cast; ring
      rw [e1] at ih ⊢
      rw [Int.cast_one, one_mul] at hdt
      obtain ⟨r1, r2⟩ := rnd_stays he (x := 2 ^ e) (by positivity) le_rfl
      have := add_is' ih hdt (by rw [r1, abs_of_pos (by positivity)]; exact r2)
      rwa [r1] at this

/-! ### Cases -/

/-- The factor of the bounds is about `n u` as long as that is small. -/
theorem growth {u : ℝ} (h0 : 0 ≤ u) (n : Nat) (h : n * u ≤ 1 / 2) : (1 + u) ^ n - 1 ≤ 2 * (n * u) := by
  rcases Nat.eq_zero_or_pos n with rfl | hn
  · simp
  have hn1 : (1 : ℝ) ≤ n := by exact_mod_cast hn
  have hu1 : u ≤ 1 / 2 := by nlinarith
  have hb := one_add_mul_le_pow (a := -u) (by linarith) n
  have hc : (1 + u) ^ n * (1 + -u) ^ n ≤ 1 := by
    rw [← mul_pow]; exact pow_le_one₀ (by nlinarith) (by nlinarith)
  have hd : (0 : ℝ) ≤ (1 + u) ^ n := by positivity
  have he : (1 + u) ^ n * (1 + n * -u) ≤ 1 := le_trans (mul_le_mul_of_nonneg_left hb hd) hc
  generalize (1 + u) ^ n = t at hd he ⊢
  rw [mul_neg] at he
  have hx : 0 ≤ n * u := by positivity
  generalize n * u = x at h hx he ⊢
  by_contra hlt
  rw [not_le] at hlt
  nlinarith [mul_pos (show 0 < t - (1 + 2 * x) by linarith) (show 0 < 1 - x by linarith), mul_nonneg hx (show 0 ≤ 1 - 2 * x by linarith)]

/-- A `float` vector counted up by ones from zero: after ten million steps it shows ten million; after twenty million it shows
16 777 216. -/
example : Holds (clockLoop (1 : IVal Format.binary32) 10000000 (splat 0 : Vec (IVal Format.binary32) 3) 1) 10000000 0 ∧
    Holds (clockLoop (1 : IVal Format.binary32) 20000000 (splat 0 : Vec (IVal Format.binary32) 3) 1) 16777216 0 := by
  have h1 : Holds (1 : IVal Format.binary32) 1 0 := by
    refine ⟨trivial, ?_⟩; rw [Int.cast_one, zpow_zero, mul_one]; rfl
  have h0 : Holds ((splat 0 : Vec (IVal Format.binary32) 3) 1) 0 0 := by rw [splat_apply]; exact holds_zero 0
  have hw : Within Format.binary32 0 := within_float (by omega) (by omega)
  exact ⟨clock_stops hw h1 _ 1 h0 10000000, clock_stops hw h1 _ 1 h0 20000000⟩

/-- A `float` clock in seconds, 600 steps in each: it never gets past 32768 seconds, about nine hours. -/
example (k : Nat) : ∃ z, (clockLoop (IVal.ofReal Format.binary32 false (1 / 600)) k (splat 0 : Vec (IVal Format.binary32) 2) 0).Is z ∧
    0 ≤ z ∧ z ≤ 32768 := by
  have hw : Within Format.binary32 (-9) := within_float (by omega) (by omega)
  have hp : Format.binary32.rnd (2 ^ (-9 : ℤ)) = 2 ^ (-9 : ℤ) := Format.binary32.pow_rep hw.1
  have h0 : 0 ≤ Format.binary32.rnd (1 / 600) := Format.binary32.rnd_nonneg (by norm_num)
  have h1 : Format.binary32.rnd (1 / 600) ≤ 2 ^ (-9 : ℤ) := hp ▸ Format.binary32.rnd_mono (by norm_num)
  have hl : (2 : ℝ) ^ (-9 : ℤ) ≤ Format.binary32.largest := Format.binary32.pow_le_largest (by decide)
  have e : (2 : ℝ) ^ ((Format.binary32.p : ℤ) + -9) = 32768 := by
    have : (Format.binary32.p : ℤ) = 24 := rfl
    rw [this]; norm_num
  have := clock_bounded hw (IVal.ofReal_is (s := false) (z := 1 / 600) (by rw [abs_of_nonneg h0]; exact h1.trans hl)) h0 h1
    (splat 0 : Vec (IVal Format.binary32) 2) 0 (y := 0) (by rw [splat_apply]; exact IVal.is_zero false) ⟨le_rfl, by positivity⟩ k
  rwa [e] at this

/-- The sum of a thousand `double` vectors with components of magnitude at most 1 is off by less than `10^-9`. -/
example (vs : List (Vec (FP double53) 3)) (hl : vs.length = 1000) (h : ∀ v ∈ vs, ∀ i, |(v i).val| ≤ 1) (i : Fin 3) :
    |(sumLoop vs (splat 0) i).val - exactSum vs i| ≤ 1 / 10 ^ 9 := by
  have h1 := long_sum vs (splat 0) i
  have ha : absSum vs i ≤ 1000 := by
    have := List.sum_le_card_nsmul (vs.map fun v => |(v i).val|) 1 (by
      intro x hx; obtain ⟨v, hv, rfl⟩ := List.mem_map.mp hx; exact h v hv i)
    rw [List.length_map, hl] at this
    unfold absSum; simpa using this
  have hu : (1 + double53.u) ^ vs.length - 1 ≤ 1 / 10 ^ 12 := by
    have hu : double53.u = (2 : ℝ) ^ (-53 : ℤ) := rfl
    have hn : (vs.length : ℝ) = 1000 := by rw [hl]; norm_num
    have := growth double53.u_nonneg vs.length (by rw [hn, hu]; norm_num)
    rw [hn] at this
    refine this.trans ?_
    rw [hu]; norm_num
  rw [splat_apply] at h1
  have h0 : 0 ≤ absSum vs i := (abs_nonneg _).trans (by
    have := (sum_approx vs (splat 0) i 0 0 0 (by rw [splat_apply]; exact ⟨by simp, by simp⟩)).mag
    rwa [zero_add, zero_add] at this)
  simp only [FP.val_zero, zero_add, abs_zero] at h1
  rw [splat_apply]
  refine h1.trans ((mul_le_mul hu ha h0 (by norm_num)).trans (by norm_num))

end Verif.Math
