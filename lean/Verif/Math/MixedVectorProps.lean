import Verif.Math.MixedVector
import Verif.Math.IntLengthProps

/-!
C109: operators between vectors of different component types.
-/

set_option autoImplicit false

namespace Verif.Math

variable {t : IntTy} {n : Nat}

/-- The component is the whole number `z`. -/
def Num.IsInt (b : Num) (z : ℤ) : Prop :=
  match b with
  | .int y => y = z
  | .real x => x = z

/-! ### Loops -/

theorem mixOp_iff (t : IntTy) (op : ArithOp) (a : Vec ℤ n) (b : Vec Num n) (r : Vec ℤ n) :
    mixOp t op a b = some r ↔ ∀ i, mixAt t op (a i) (b i) = some (r i) := by
  unfold mixOp; split
  · exact seq2 (fun i => mixAt t op (_ : Int) _) r
  · exact seq3 (fun i => mixAt t op (_ : Int) _) r
  · exact seq4 (fun i => mixAt t op (_ : Int) _) r
  · exact forLoopM_store _ _ _

theorem mixConv_iff (t : IntTy) (b : Vec Num n) (r : Vec ℤ n) :
    mixConv t b = some r ↔ ∀ i, (b i).cast t = some (r i) := by
  unfold mixConv; split
  · exact seq2 (fun i => Num.cast t _) r
  · exact seq3 (fun i => Num.cast t _) r
  · exact seq4 (fun i => Num.cast t _) r
  · exact forLoopM_store _ _ _

theorem mixSelfOp_iff (t : IntTy) (op : ArithOp) (a : Vec ℤ n) (b : Vec Num n) (r : Vec ℤ n) :
    mixSelfOp t op a b = some r ↔ ∀ i, mixAt t op (a i) (b i) = some (r i) := by
  rw [← forLoopM_self (fun i x => mixAt t op x (b i)) a r]
  unfold mixSelfOp
  split
  · rw [forLoopM]
    simp only [show List.finRange 2 = [0, 1] from by decide, List.foldlM_cons, List.foldlM_nil]
    simp
  · rw [forLoopM]
    simp only [show List.finRange 3 = [0, 1, 2] from by decide, List.foldlM_cons, List.foldlM_nil]
    simp
  · rw [forLoopM]
    simp only [show List.finRange 4 = [0, 1, 2, 3] from by decide, List.foldlM_cons, List.foldlM_nil]
    simp
  · rfl

theorem mixSelf_eq (t : IntTy) (op : ArithOp) (a : Vec ℤ n) (b : Vec Num n) :
    mixSelfOp t op a b = mixOp t op a b :=
  Option.ext fun r => by
    rw [mixOp_iff, mixSelfOp_iff]

theorem cast_isInt (hb : 1 ≤ t.bits) {b : Num} {z : ℤ} (h : b.IsInt z) (hz : t.Has z) : b.cast t = some z := by
  cases b with
  | int y => cases (show y = z from h); simp [Num.cast, IntTy.conv_of_has hb hz]
  | real x =>
    cases (show x = z from h)
    simp only [Num.cast, castReal, truncZ_int, if_pos hz]

/-! ### C109 -/

/-- Components of the right operand that are whole numbers and values of the left operand's type, which is signed
and of at least the width of `int`: `v op w` and `v op= w` are defined exactly if all exact results are values of
the type, and then give these. -/
theorem mixed_exact_partial (hb : 32 ≤ t.bits) (hs : t.signed = true) (op : ArithOp) (a : Vec ℤ n) (b : Vec Num n)
    (c : Vec ℤ n) (hc : ∀ i, (b i).IsInt (c i) ∧ t.Has (c i)) (r : Vec ℤ n) :
    (mixOp t op a b = some r ↔ ∀ i, op.Exact (a i) (c i) (r i) ∧ t.Has (r i)) ∧
      (mixSelfOp t op a b = some r ↔ ∀ i, op.Exact (a i) (c i) (r i) ∧ t.Has (r i)) := by
  have e : ∀ i, mixAt t op (a i) (b i) = some (r i) ↔ op.Exact (a i) (c i) (r i) ∧ t.Has (r i) := fun i => by
    unfold mixAt
    rw [cast_isInt (by omega) (hc i).1 (hc i).2]
    exact at_signed hb hs op _ _ _
  rw [mixSelf_eq]
  exact ⟨(mixOp_iff ..).trans (forall_congr' e), (mixOp_iff ..).trans (forall_congr' e)⟩

example : mixOp ⟨32, true⟩ .div (![10, -7] : Vec ℤ 2) ![.real 2, .int (-2)] = some ![5, 3] :=
  ((mixed_exact_partial (by decide) rfl .div _ _ ![2, -2]
    (by rw [Fin.forall_fin_two]; exact ⟨⟨by simp [Num.IsInt], by decide⟩, ⟨rfl, by decide⟩⟩) _).1).mpr
    (by decide)

/-- An unsigned left operand of at least the width of `int`, and a right operand of any integer type, whose
components may be negative or too large for the left operand's type: sums, differences and products are always
defined, and are the exact ones wherever these are values of the left operand's type.  (A signed offset may be
added to an unsigned vector.) -/
theorem mixed_unsigned_partial (hb : 32 ≤ t.bits) (hs : t.signed = false) (op : ArithOp) (hop : op ≠ .div)
    (a c : Vec ℤ n) :
    ∃ r, mixOp t op a (fun i => .int (c i)) = some r ∧ mixSelfOp t op a (fun i => .int (c i)) = some r ∧
      ∀ i, t.Has (r i) ∧ ∀ z, op.Exact (a i) (c i) z → r i ≡ z [ZMOD 2 ^ t.bits] ∧ (t.Has z → r i = z) := by
  have hb1 : 1 ≤ t.bits := by omega
  have key : ∀ i, ∃ x, mixAt t op (a i) (.int (c i)) = some x ∧ t.Has x ∧
      ∀ z, op.Exact (a i) (c i) z → x ≡ z [ZMOD 2 ^ t.bits] := fun i => by
    have hcm := IntTy.conv_modEq (t := t) (c i)
    have main : ∀ z z', op.Exact (a i) (t.conv (c i)) z' → op.Exact (a i) (c i) z →
        z' ≡ z [ZMOD 2 ^ t.bits] := by
      intro z z' h1 h2
      cases op with
      | add => cases h1; cases h2; exact Int.ModEq.add_left _ hcm
      | sub => cases h1; cases h2; exact Int.ModEq.sub_left _ hcm
      | mul => cases h1; cases h2; exact Int.ModEq.mul_left _ hcm
      | div => exact absurd rfl hop
    have ex : ∃ z', op.Exact (a i) (t.conv (c i)) z' := by
      cases op with
      | add => exact ⟨_, rfl⟩
      | sub => exact ⟨_, rfl⟩
      | mul => exact ⟨_, rfl⟩
      | div => exact absurd rfl hop
    obtain ⟨z', hz'⟩ := ex
    refine ⟨t.conv z', ?_, IntTy.conv_has hb1 _, fun z hz =>
      (IntTy.conv_modEq z').trans (main z z' hz' hz)⟩
    show op.at t (a i) (t.conv (c i)) = _
    exact (at_unsigned hb hs op _ _ _).mpr ⟨IntTy.conv_has hb1 _, z', hz', IntTy.conv_modEq z'⟩
  choose r h1 h2 h3 using key
  refine ⟨r, (mixOp_iff ..).mpr h1, (mixSelfOp_iff ..).mpr h1, fun i => ⟨h2 i, fun z hz => ⟨h3 i z hz, fun h => ?_⟩⟩⟩
  exact IntTy.has_unique hb1 (h2 i) h (h3 i z hz)

/-- `uvec2(10, 7) + ivec2(-3, 5)` is `(7, 12)`. -/
example : mixOp ⟨32, false⟩ .add (![10, 7] : Vec ℤ 2) (fun i => .int ((![-3, 5] : Vec ℤ 2) i)) = some ![7, 12] := by
  obtain ⟨r, h1, -, h3⟩ := mixed_unsigned_partial (t := ⟨32, false⟩) (by decide) rfl .add (by decide)
    (![10, 7] : Vec ℤ 2) ![-3, 5]
  rw [h1]
  congr 1
  funext i
  fin_cases i
  · exact ((h3 0).2 7 rfl).2 (by decide)
  · exact ((h3 1).2 12 rfl).2 (by decide)

/-- Converting a vector keeps components that are values of the new type, and otherwise gives integer components
modulo 2^bits; it is undefined exactly if a floating-point component lies outside the range. -/
theorem mixed_convert (hb : 1 ≤ t.bits) (b : Vec Num n) :
    (∀ c : Vec ℤ n, (∀ i, (b i).IsInt (c i) ∧ t.Has (c i)) → mixConv t b = some c) ∧
    (∀ c : Vec ℤ n, ∃ r, mixConv t (fun i => .int (c i)) = some r ∧
      ∀ i, t.Has (r i) ∧ r i ≡ c i [ZMOD 2 ^ t.bits]) ∧
    (mixConv t b = none ↔ ∃ i x, b i = .real x ∧ ¬ ∃ z : ℤ, t.Has z ∧ |x - z| < 1 ∧ |(z : ℝ)| ≤ |x|) := by
  refine ⟨fun c h => (mixConv_iff ..).mpr fun i => cast_isInt hb (h i).1 (h i).2,
    fun c => ⟨fun i => t.conv (c i), (mixConv_iff ..).mpr fun i => rfl, fun i =>
      ⟨IntTy.conv_has hb _, IntTy.conv_modEq _⟩⟩, ?_⟩
  have hreal : ∀ x : ℝ, (castReal t x = none ↔ ¬ ∃ z : ℤ, t.Has z ∧ |x - z| < 1 ∧ |(z : ℝ)| ≤ |x|) := by
    intro x
    have tr : ∀ z : ℤ, (|x - z| < 1 ∧ |(z : ℝ)| ≤ |x|) ↔ z = truncZ x := by
      intro z
      unfold truncZ
      split_ifs with h
      · rw [eq_comm, Int.floor_eq_iff]
        rw [abs_of_nonneg h, abs_lt]
        constructor
        · rintro ⟨⟨h1, h2⟩, h3⟩
          exact ⟨(le_abs_self _).trans h3, by linarith⟩
        · rintro ⟨h1, h2⟩
          have : (-1 : ℝ) < z := by linarith
          have hz : (0 : ℤ) ≤ z := by
            have : (-1 : ℤ) < z := by exact_mod_cast this
            omega
          have hz' : (0 : ℝ) ≤ z := by exact_mod_cast hz
          exact ⟨⟨by linarith, by linarith⟩, by rw [abs_of_nonneg hz']; exact h1⟩
      · rw [eq_comm, Int.ceil_eq_iff]
        push Not at h
        rw [abs_of_neg h, abs_lt]
        constructor
        · rintro ⟨⟨h1, h2⟩, h3⟩
          exact ⟨by linarith, by linarith [neg_le_abs (z : ℝ)]⟩
        · rintro ⟨h1, h2⟩
          have : (z : ℝ) < 1 := by linarith
          have hz : z ≤ (0 : ℤ) := by
            have : z < (1 : ℤ) := by exact_mod_cast this
            omega
          have hz' : (z : ℝ) ≤ 0 := by exact_mod_cast hz
          exact ⟨⟨by linarith, by linarith⟩, by rw [abs_of_nonpos hz']; linarith⟩
    unfold castReal
    split_ifs with h
    · simp only [false_iff, not_not]
      exact ⟨_, h, (tr _).mpr rfl⟩
    · simp only [true_iff]
      rintro ⟨z, hz, h'⟩
      exact h ((tr z).mp h' ▸ hz)
  constructor
  · intro h
    by_contra hn
    push Not at hn
    have : ∀ i, ∃ z, (b i).cast t = some z := fun i => by
      cases hbi : b i with
      | int z => exact ⟨_, rfl⟩
      | real x =>
        cases hx : castReal t x with
        | some z => exact ⟨z, hx⟩
        | none =>
          obtain ⟨z, h1, h2, h3⟩ := hn i x hbi
          exact absurd ⟨z, h1, h2, h3⟩ ((hreal x).mp hx)
    choose r hr using this
    rw [(mixConv_iff ..).mpr hr] at h
    cases h
  · rintro ⟨i, x, hbi, hx⟩
    cases hm : mixConv t b with
    | none => rfl
    | some r =>
      have := (mixConv_iff ..).mp hm i
      rw [hbi] at this
      rw [show Num.cast t (.real x) = castReal t x from rfl, (hreal x).mpr hx] at this
      cases this

example : mixConv ⟨8, false⟩ (![.int 300, .int (-1)] : Vec Num 2) = some ![44, 255] := rfl

/-- Results that are not the exact ones, although in the first three cases these are values of the left operand's
type: floating-point components between -1 and 1 count as 0, so that every product is 0 and every quotient undefined
(`ivec2(10, 10) * vec2(0.5, 0.5)` is `(0, 0)`); an 8-bit vector divided by 300 is divided by 44; the sum of a
vector of `int` and one of `std::int64_t` is undefined although it is representable; an unsigned 1 divided by -1
is not -1 modulo 2^32 but 0. -/
theorem mixed_wrong (hb : 1 ≤ t.bits) (a : Vec ℤ n) (x : Vec ℝ n) (hx : ∀ i, -1 < x i ∧ x i < 1) :
    (mixOp t .mul a (fun i => .real (x i)) = some (fun _ => 0) ∧
      (0 < n → mixOp t .div a (fun i => .real (x i)) = none)) ∧
    (mixOp ⟨8, true⟩ .div (![100, 100] : Vec ℤ 2) ![.int 300, .int 300] = some ![2, 2] ∧
      ArithOp.div.Exact 100 300 0) ∧
    (mixOp ⟨32, true⟩ .add (![-1, 0] : Vec ℤ 2) ![.int (2 ^ 31), .int 0] = none ∧
      ArithOp.add.Exact (-1) (2 ^ 31) (2 ^ 31 - 1) ∧ (⟨32, true⟩ : IntTy).Has (2 ^ 31 - 1)) ∧
    (mixOp ⟨32, false⟩ .div (![1, 0] : Vec ℤ 2) ![.int (-1), .int 1] = some ![0, 0] ∧
      ArithOp.div.Exact 1 (-1) (-1)) := by
  refine ⟨?_, ⟨rfl, by decide⟩, ⟨rfl, by decide, by decide⟩, ⟨rfl, by decide⟩⟩
  have h1 : ∀ i, mixAt t .mul (a i) (.real (x i)) = some 0 := fun i => by
    have := (intOpS_iff t .mul (fun _ : Fin 1 => a i) 0 (fun _ => 0))
    have h := (int_scale_wrong hb (fun _ : Fin 1 => a i) (x i) (hx i).1 (hx i).2).1
    unfold intOpReal at h
    unfold mixAt
    show (castReal t (x i)).bind _ = _
    cases hc : castReal t (x i) with
    | none => rw [hc] at h; cases h
    | some s =>
      rw [hc] at h
      exact (intOpS_iff t .mul (fun _ : Fin 1 => a i) s (fun _ => 0)).mp h 0
  refine ⟨(mixOp_iff ..).mpr h1, fun hn => ?_⟩
  cases hm : mixOp t .div a (fun i => .real (x i)) with
  | none => rfl
  | some r =>
    have h2 := (mixOp_iff ..).mp hm ⟨0, hn⟩
    have h := (int_scale_wrong hb (fun _ : Fin 1 => a ⟨0, hn⟩) (x ⟨0, hn⟩) (hx _).1 (hx _).2).2 (by decide)
    unfold intOpReal at h
    unfold mixAt at h2
    change (castReal t (x ⟨0, hn⟩)).bind _ = _ at h2
    cases hc : castReal t (x ⟨0, hn⟩) with
    | none => rw [hc] at h2; cases h2
    | some s =>
      rw [hc] at h h2
      have h3 := (intOpS_iff t .div (fun _ : Fin 1 => a ⟨0, hn⟩) s (fun _ => r ⟨0, hn⟩)).mpr (fun _ => h2)
      change intOpS t .div (fun _ : Fin 1 => a ⟨0, hn⟩) s = none at h
      rw [h] at h3
      cases h3

end Verif.Math
