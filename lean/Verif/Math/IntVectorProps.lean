import Verif.Math.IntVectorLemmas

/-!
Integer vectors: what the operations compute and when they are undefined.

The specification is integer arithmetic: `ArithOp.Exact op x y z` says that `z` is the mathematical result,
`t.Has z` that `z` is a value of type `t`, `≡ [ZMOD 2 ^ bits]` is congruence.
-/

set_option autoImplicit false

namespace Verif.Math

variable {n : Nat} {t : IntTy}

/-! ### C90: component-wise operations -/

/-- Signed components of at least 32 bits: `+ - * /`, with a vector, with a scalar, and in place (also of a
vector with itself), give the exact results, and are undefined precisely if some exact result is not a value
of the type (or a divisor is zero). -/
theorem int_vector_signed [Indet ℤ] (hb : 32 ≤ t.bits) (hs : t.signed = true) (op : ArithOp) (a b r : Vec ℤ n)
    (s : ℤ) :
    (intOp t op a b = some r ↔ ∀ i, op.Exact (a i) (b i) (r i) ∧ t.Has (r i)) ∧
    (intSelfOp t op a (.other b) = some r ↔ ∀ i, op.Exact (a i) (b i) (r i) ∧ t.Has (r i)) ∧
    (intSelfOp t op a .itself = some r ↔ ∀ i, op.Exact (a i) (a i) (r i) ∧ t.Has (r i)) ∧
    (intOpS t op a s = some r ↔ ∀ i, op.Exact (a i) s (r i) ∧ t.Has (r i)) ∧
    (intNeg t a = some r ↔ ∀ i, r i = -a i ∧ t.Has (r i)) := by
  refine ⟨?_, ?_, ?_, ?_, ?_⟩
  · simp only [intOp_iff, at_signed hb hs]
  · simp only [intSelfOp_iff, at_signed hb hs]; rfl
  · simp only [intSelfOp_iff, at_signed hb hs]; rfl
  · simp only [intOpS_iff, at_signed hb hs]
  · simp only [intNeg_iff, negAt, IntTy.promote_wide hb, Option.map_eq_some_iff, IntTy.result_signed hs]
    refine forall_congr' fun i => ?_
    constructor
    · rintro ⟨w, ⟨rfl, hw⟩, h⟩
      rw [IntTy.conv_of_has (by omega) hw] at h
      exact ⟨h.symm, h ▸ hw⟩
    · rintro ⟨h1, h2⟩
      exact ⟨r i, ⟨h1.symm, h2⟩, IntTy.conv_of_has (by omega) h2⟩

/-- `ivec3(2147483647, 1, 7) + ivec3(0, 1, -9)` is defined, with `1` for the first component it is not. -/
example : intOp ⟨32, true⟩ .add ![2147483647, 1, 7] ![0, 1, -9] = some ![2147483647, 2, -2] ∧
    intOp ⟨32, true⟩ .add ![2147483647, 1, 7] ![1, 1, -9] = none := by decide +kernel

/-- The least value cannot be negated and not be divided by -1. -/
example : @intNeg ⟨32, true⟩ ⟨fun _ => 7⟩ 2 ![-2147483648, 0] = none ∧
    intOp ⟨32, true⟩ .div ![-2147483648, 9] ![-1, -2] = none ∧
    intOp ⟨32, true⟩ .div ![-2147483647, 9] ![-1, -2] = some ![2147483647, -4] := by decide +kernel

/-- Unsigned components of at least 32 bits: the results are those values of the type that are congruent to the
exact results modulo 2^bits; only division by zero is undefined. -/
theorem int_vector_unsigned [Indet ℤ] (hb : 32 ≤ t.bits) (hs : t.signed = false) (op : ArithOp) (a b r : Vec ℤ n)
    (s : ℤ) :
    (intOp t op a b = some r ↔
      ∀ i, t.Has (r i) ∧ ∃ z, op.Exact (a i) (b i) z ∧ r i ≡ z [ZMOD 2 ^ t.bits]) ∧
    (intSelfOp t op a (.other b) = some r ↔
      ∀ i, t.Has (r i) ∧ ∃ z, op.Exact (a i) (b i) z ∧ r i ≡ z [ZMOD 2 ^ t.bits]) ∧
    (intSelfOp t op a .itself = some r ↔
      ∀ i, t.Has (r i) ∧ ∃ z, op.Exact (a i) (a i) z ∧ r i ≡ z [ZMOD 2 ^ t.bits]) ∧
    (intOpS t op a s = some r ↔
      ∀ i, t.Has (r i) ∧ ∃ z, op.Exact (a i) s z ∧ r i ≡ z [ZMOD 2 ^ t.bits]) ∧
    (intNeg t a = some r ↔ ∀ i, t.Has (r i) ∧ r i ≡ -a i [ZMOD 2 ^ t.bits]) ∧
    ((op = .div → ∀ i, b i ≠ 0) → ∃ x, intOp t op a b = some x) := by
  have hb1 : 1 ≤ t.bits := by omega
  refine ⟨?_, ?_, ?_, ?_, ?_, ?_⟩
  · simp only [intOp_iff, at_unsigned hb hs]
  · simp only [intSelfOp_iff, at_unsigned hb hs]; rfl
  · simp only [intSelfOp_iff, at_unsigned hb hs]; rfl
  · simp only [intOpS_iff, at_unsigned hb hs]
  · simp only [intNeg_iff, negAt, IntTy.promote_wide hb, IntTy.result_unsigned hs, Option.map_some,
      Option.some.injEq]
    refine forall_congr' fun i => ?_
    constructor
    · intro h; rw [← h]
      exact ⟨IntTy.conv_has hb1 _, (IntTy.conv_modEq _).trans (Int.mod_modEq _ _)⟩
    · rintro ⟨h1, h2⟩
      exact IntTy.has_unique hb1 (IntTy.conv_has hb1 _) h1
        ((IntTy.conv_modEq _).trans ((Int.mod_modEq _ _).trans h2.symm))
  · intro h
    have : ∀ i, ∃ z, op.Exact (a i) (b i) z := by
      intro i
      cases op with
      | div => exact ⟨_, h rfl i, rfl⟩
      | _ => exact ⟨_, rfl⟩
    choose z hz using this
    refine ⟨fun i => t.conv (z i), ?_⟩
    rw [intOp_iff]
    intro i
    rw [at_unsigned hb hs]
    exact ⟨IntTy.conv_has hb1 _, z i, hz i, IntTy.conv_modEq _⟩

/-- `uvec2(1, 7) - uvec2(2, 3)`. -/
example : intOp ⟨32, false⟩ .sub ![1, 7] ![2, 3] = some ![4294967295, 4] := by decide +kernel

/-- Components narrower than `int`: arithmetic takes place in `int`, so only the range of `int` limits it, and the
result is stored modulo 2^bits.  For `int8_t`, `uint8_t` and `int16_t`, `+ - *` are always defined. -/
theorem int_vector_narrow [Indet ℤ] (hb : t.bits < 32) (hb1 : 1 ≤ t.bits) (op : ArithOp) (a b r : Vec ℤ n) (s : ℤ) :
    (intOp t op a b = some r ↔ ∀ i, t.Has (r i) ∧
      ∃ z, op.Exact (a i) (b i) z ∧ -2 ^ 31 ≤ z ∧ z < 2 ^ 31 ∧ r i ≡ z [ZMOD 2 ^ t.bits]) ∧
    (intSelfOp t op a (.other b) = some r ↔ ∀ i, t.Has (r i) ∧
      ∃ z, op.Exact (a i) (b i) z ∧ -2 ^ 31 ≤ z ∧ z < 2 ^ 31 ∧ r i ≡ z [ZMOD 2 ^ t.bits]) ∧
    (intSelfOp t op a .itself = some r ↔ ∀ i, t.Has (r i) ∧
      ∃ z, op.Exact (a i) (a i) z ∧ -2 ^ 31 ≤ z ∧ z < 2 ^ 31 ∧ r i ≡ z [ZMOD 2 ^ t.bits]) ∧
    (intOpS t op a s = some r ↔ ∀ i, t.Has (r i) ∧
      ∃ z, op.Exact (a i) s z ∧ -2 ^ 31 ≤ z ∧ z < 2 ^ 31 ∧ r i ≡ z [ZMOD 2 ^ t.bits]) ∧
    ((∀ i, t.Has (a i)) → (intNeg t a = some r ↔ ∀ i, t.Has (r i) ∧ r i ≡ -a i [ZMOD 2 ^ t.bits])) ∧
    (t.bits < 16 ∨ t.signed = true ∧ t.bits = 16 → op ≠ .div → (∀ i, t.Has (a i) ∧ t.Has (b i)) →
      ∃ x, intOp t op a b = some x) := by
  refine ⟨by simp only [intOp_iff, at_narrow hb hb1], by simp only [intSelfOp_iff, at_narrow hb hb1]; rfl,
    by simp only [intSelfOp_iff, at_narrow hb hb1]; rfl, by simp only [intOpS_iff, at_narrow hb hb1], ?_, ?_⟩
  · intro ha
    simp only [intNeg_iff, negAt, IntTy.promote_narrow hb, Option.map_eq_some_iff,
      IntTy.result_signed (t := ⟨32, true⟩) rfl]
    refine forall_congr' fun i => ?_
    have h31 : IntTy.Has ⟨32, true⟩ (-a i) := by
      have h := ha i
      have p1 : (2 : ℤ) ^ t.bits ≤ 2 ^ 31 := pow_le_pow_right₀ (by norm_num) (by omega)
      have p2 : (2 : ℤ) ^ (t.bits - 1) ≤ 2 ^ 30 := pow_le_pow_right₀ (by norm_num) (by omega)
      rw [IntTy.has_int]
      unfold IntTy.Has IntTy.lo IntTy.hi at h
      cases hsg : t.signed <;> simp only [hsg, Bool.false_eq_true, if_false, if_true] at h <;> omega
    constructor
    · rintro ⟨w, ⟨rfl, _⟩, h⟩
      rw [← h]; exact ⟨IntTy.conv_has hb1 _, IntTy.conv_modEq _⟩
    · rintro ⟨h1, h2⟩
      exact ⟨-a i, ⟨rfl, h31⟩, IntTy.has_unique hb1 (IntTy.conv_has hb1 _) h1 ((IntTy.conv_modEq _).trans h2.symm)⟩
  intro hk hop hr
  have hbd : ∀ z, t.Has z → -2 ^ 15 ≤ z ∧ z ≤ 2 ^ 15 - 1 := by
    intro z hz
    have h15 : t.bits < 16 → (2 : ℤ) ^ t.bits ≤ 2 ^ 15 := fun h => pow_le_pow_right₀ (by norm_num) (by omega)
    have h14 : (2 : ℤ) ^ (t.bits - 1) ≤ 2 ^ 15 := pow_le_pow_right₀ (by norm_num) (by omega)
    unfold IntTy.Has IntTy.lo IntTy.hi at hz
    cases hsg : t.signed <;> simp only [hsg, Bool.false_eq_true, if_false, if_true, false_and, or_false] at hz hk
    · have := h15 hk; omega
    · omega
  have : ∀ i, ∃ z, op.Exact (a i) (b i) z ∧ -2 ^ 31 ≤ z ∧ z < 2 ^ 31 := by
    intro i
    obtain ⟨h1, h2⟩ := hr i
    have h1 := hbd _ h1
    have h2 := hbd _ h2
    cases op with
    | div => exact absurd rfl hop
    | add => exact ⟨_, rfl, by omega, by omega⟩
    | sub => exact ⟨_, rfl, by omega, by omega⟩
    | mul => exact ⟨_, rfl, by nlinarith, by nlinarith⟩
  choose z hz using this
  refine ⟨fun i => t.conv (z i), ?_⟩
  rw [intOp_iff]
  intro i
  rw [at_narrow hb hb1]
  exact ⟨IntTy.conv_has hb1 _, z i, (hz i).1, (hz i).2.1, (hz i).2.2, IntTy.conv_modEq _⟩

/-- `Vector<std::int8_t, 2>(100, -100) + (100, -100)` wraps around. -/
example : intOp ⟨8, true⟩ .add ![100, -100] ![100, -100] = some ![-56, 56] := by decide +kernel

/-- The product of unsigned 16-bit components is undefined although unsigned arithmetic never overflows. -/
theorem int_vector_uint16_wrong :
    (∀ i : Fin 2, (⟨16, false⟩ : IntTy).Has ((![65535, 65535] : Vec ℤ 2) i)) ∧
    intOp ⟨16, false⟩ .mul (![65535, 65535] : Vec ℤ 2) ![65535, 65535] = none := by
  constructor <;> decide +kernel

/-! ### C91: dot, cross, reflect, faceforward -/

/-- The sum of the first `k` products. -/
def partialDot (a b : Vec ℤ n) (k : Nat) : ℤ := (((List.finRange n).take k).map fun i => a i * b i).sum

theorem list_sum_int (f : Fin n → ℤ) : ((List.finRange n).map f).sum = ∑ i, f i := by
  rw [← List.ofFn_eq_map, List.sum_ofFn]

/-- Signed components of at least 32 bits: `dot` is the exact dot product, defined precisely if all products and
all partial sums are values of the type; which holds if the sum of the absolute products is. -/
theorem int_dot_signed (hb : 32 ≤ t.bits) (hs : t.signed = true) (a b : Vec ℤ n) :
    (∀ r, intDot t a b = some r ↔ (∀ i, t.Has (a i * b i)) ∧ (∀ k, k ≤ n → t.Has (partialDot a b k)) ∧
      r = ∑ i, a i * b i) ∧
    (∑ i, |a i * b i| ≤ t.hi → intDot t a b = some (∑ i, a i * b i)) := by
  have hp : (0 : ℤ) < 2 ^ (t.bits - 1) := by positivity
  have h0 : t.Has 0 := by unfold IntTy.Has IntTy.lo IntTy.hi; simp only [hs, if_true]; omega
  have main : ∀ r, intDot t a b = some r ↔ (∀ i, t.Has (a i * b i)) ∧
      (∀ k, k ≤ n → t.Has (partialDot a b k)) ∧ r = ∑ i, a i * b i := by
    intro r
    unfold intDot forLoopM partialDot
    rw [foldlM_dot_signed a b hb hs, list_sum_int, zero_add]
    simp only [List.mem_finRange, true_implies, List.length_finRange, zero_add]
    refine and_congr_right fun _ => and_congr_left fun _ => ?_
    constructor
    · intro h k hk
      rcases Nat.eq_zero_or_pos k with rfl | hk1
      · simpa using h0
      · exact h k hk1 hk
    · intro h k _ hk; exact h k hk
  refine ⟨main, fun h => (main _).mpr ⟨?_, ?_, rfl⟩⟩
  · intro i
    have h1 : |a i * b i| ≤ ∑ i, |a i * b i| :=
      Finset.single_le_sum (f := fun i => |a i * b i|) (fun _ _ => abs_nonneg _) (Finset.mem_univ i)
    have h2 := abs_le.mp (h1.trans h)
    unfold IntTy.Has IntTy.lo IntTy.hi at *
    simp only [hs, if_true] at *
    omega
  · intro k _
    have h1 : |partialDot a b k| ≤ ∑ i, |a i * b i| := by
      rw [← list_sum_int fun i => |a i * b i|]
      unfold partialDot
      calc |(((List.finRange n).take k).map fun i => a i * b i).sum|
          ≤ (((List.finRange n).take k).map fun i => |a i * b i|).sum := by
            induction (List.finRange n).take k with
            | nil => simp
            | cons x l ih =>
              simp only [List.map_cons, List.sum_cons]
              exact (abs_add_le _ _).trans (by omega)
        _ ≤ ((List.finRange n).map fun i => |a i * b i|).sum := by
            refine List.Sublist.sum_le_sum ((List.take_sublist _ _).map _) ?_
            intro x hx
            obtain ⟨i, _, rfl⟩ := List.mem_map.mp hx
            exact abs_nonneg _
    have h2 := abs_le.mp (h1.trans h)
    unfold IntTy.Has IntTy.lo IntTy.hi at *
    simp only [hs, if_true] at *
    omega

/-- Whether `dot` is defined depends on the order of the components. -/
example : intDot ⟨32, true⟩ ![2147483647, -1, 1] ![1, 1, 1] = some 2147483647 ∧
    intDot ⟨32, true⟩ ![2147483647, 1, -1] ![1, 1, 1] = none := by decide +kernel

/-- Unsigned components of at least 32 bits, and components of 8 bits or signed of 16 bits: `dot` is always
defined and is the value of the type congruent to the dot product. -/
theorem int_dot_modular (hk : 32 ≤ t.bits ∧ t.signed = false ∨ 1 ≤ t.bits ∧ t.bits < 16 ∨
    t.signed = true ∧ t.bits = 16) (a b : Vec ℤ n) (hr : ∀ i, t.Has (a i) ∧ t.Has (b i)) :
    ∃ r, intDot t a b = some r ∧ t.Has r ∧ r ≡ ∑ i, a i * b i [ZMOD 2 ^ t.bits] := by
  have hb1 : 1 ≤ t.bits := by omega
  have h0 : t.Has 0 := by
    have h1 : (0 : ℤ) < 2 ^ (t.bits - 1) := by positivity
    have h2 : (0 : ℤ) < 2 ^ t.bits := by positivity
    unfold IntTy.Has IntTy.lo IntTy.hi; cases t.signed <;> simp <;> omega
  have fin : (∃ s, (List.finRange n).foldlM (fun r i => mulAcc t r (a i) (b i)) 0 = some s ∧ t.Has s ∧
      s ≡ 0 + ((List.finRange n).map fun i => a i * b i).sum [ZMOD 2 ^ t.bits]) →
      ∃ r, intDot t a b = some r ∧ t.Has r ∧ r ≡ ∑ i, a i * b i [ZMOD 2 ^ t.bits] := by
    rintro ⟨s, h1, h2, h3⟩
    rw [list_sum_int, zero_add] at h3
    exact ⟨s, h1, h2, h3⟩
  rcases hk with ⟨hb, hs⟩ | hk
  · exact fin (foldlM_dot_unsigned a b hb hs _ 0 h0)
  · refine fin (foldlM_dot_narrow a b (by omega) hb1 ?_ _ 0 h0)
    have hbd : ∀ z, t.Has z → -2 ^ 15 ≤ z ∧ z ≤ 2 ^ 15 - 1 := by
      intro z hz
      have h15 : t.bits < 16 → (2 : ℤ) ^ t.bits ≤ 2 ^ 15 := fun h => pow_le_pow_right₀ (by norm_num) (by omega)
      have h14 : t.bits ≤ 16 → (2 : ℤ) ^ (t.bits - 1) ≤ 2 ^ 15 := fun h =>
        pow_le_pow_right₀ (by norm_num) (by omega)
      unfold IntTy.Has IntTy.lo IntTy.hi at hz
      cases hsg : t.signed <;> simp only [hsg, Bool.false_eq_true, if_false, if_true, false_and, or_false] at hz hk
      · have := h15 hk.2; omega
      · have := h14 (by omega); omega
    intro i r hrr
    have h1 := hbd _ (hr i).1
    have h2 := hbd _ (hr i).2
    have h3 := hbd _ hrr
    have l1 : -2 ^ 30 ≤ a i * b i := by nlinarith
    have l2 : a i * b i ≤ 2 ^ 30 := by nlinarith
    refine ⟨⟨by omega, by omega⟩, by omega, by omega⟩

example : intDot ⟨32, false⟩ ![65536, 3] ![65536, 2] = some 6 ∧
    intDot ⟨8, true⟩ ![100, 3] ![2, 2] = some (-50) := by decide +kernel

/-- Signed components of at least 32 bits: `cross`, `reflect` and `faceforward` give the exact results (computed with
integers of any size), and are defined precisely if all intermediate results are values of the type. -/
theorem int_geometry_exact [Indet ℤ] (hb : 32 ≤ t.bits) (hs : t.signed = true) :
    (∀ a b r : Vec ℤ 3, intCross t a b = some r ↔
      (∀ i j, i ≠ j → t.Has (a i * b j)) ∧ (∀ i, t.Has (r i)) ∧
      r = ![a 1 * b 2 - a 2 * b 1, a 2 * b 0 - a 0 * b 2, a 0 * b 1 - a 1 * b 0]) ∧
    (∀ v k r : Vec ℤ n, intReflect t v k = some r ↔
      (∀ i, t.Has (v i * k i)) ∧ (∀ m, m ≤ n → t.Has (partialDot v k m)) ∧
      (∀ i, t.Has (k i * ∑ j, v j * k j) ∧ t.Has (k i * (∑ j, v j * k j) * 2) ∧ t.Has (r i) ∧
        r i = v i - 2 * (∑ j, v j * k j) * k i)) ∧
    (∀ v i k r : Vec ℤ n, intFaceforward t v i k = some r ↔
      (∀ j, t.Has (k j * i j)) ∧ (∀ m, m ≤ n → t.Has (partialDot k i m)) ∧
      if ∑ j, k j * i j < 0 then r = v else r = -v ∧ ∀ j, t.Has (-v j)) := by
  have hdot : ∀ (a b : Vec ℤ n) r, intDot t a b = some r ↔ (∀ i, t.Has (a i * b i)) ∧
      (∀ k, k ≤ n → t.Has (partialDot a b k)) ∧ r = ∑ i, a i * b i := fun a b r => (int_dot_signed hb hs a b).1 r
  refine ⟨?_, ?_, ?_⟩
  · intro a b r
    have hc : ∀ w x y z q, crossAt t w x y z = some q ↔
        t.Has (w * x) ∧ t.Has (y * z) ∧ t.Has q ∧ q = w * x - y * z := by
      intro w x y z q
      unfold crossAt ArithOp.eval
      rw [IntTy.promote_wide hb]
      simp only [Option.bind_eq_bind, Option.bind_eq_some_iff, Option.map_eq_some_iff,
        IntTy.result_signed hs]
      constructor
      · rintro ⟨p, ⟨rfl, h1⟩, u, ⟨rfl, h2⟩, s, ⟨rfl, hs'⟩, rfl⟩
        rw [IntTy.conv_of_has (by omega) hs']
        exact ⟨h1, h2, hs', rfl⟩
      · rintro ⟨h1, h2, h3, rfl⟩
        exact ⟨_, ⟨rfl, h1⟩, _, ⟨rfl, h2⟩, _, ⟨rfl, h3⟩, IntTy.conv_of_has (by omega) h3⟩
    unfold intCross
    simp only [Option.bind_eq_bind, Option.bind_eq_some_iff, hc]
    constructor
    · rintro ⟨x, ⟨h1, h2, h3, rfl⟩, y, ⟨h4, h5, h6, rfl⟩, z, ⟨h7, h8, h9, rfl⟩, h⟩
      cases h
      refine ⟨?_, ?_, rfl⟩
      · intro i j hij
        fin_cases i <;> fin_cases j <;> first | exact absurd rfl hij | assumption
      · intro i; fin_cases i <;> assumption
    · rintro ⟨h1, h2, rfl⟩
      exact ⟨_, ⟨h1 1 2 (by decide), h1 2 1 (by decide), h2 0, rfl⟩,
        _, ⟨h1 2 0 (by decide), h1 0 2 (by decide), h2 1, rfl⟩,
        _, ⟨h1 0 1 (by decide), h1 1 0 (by decide), h2 2, rfl⟩, rfl⟩
  · intro v k r
    unfold intReflect
    have h2 : t.conv 2 = 2 := by
      refine IntTy.conv_of_has (by omega) ?_
      have : (2 : ℤ) ^ 31 ≤ 2 ^ (t.bits - 1) := pow_le_pow_right₀ (by norm_num) (by omega)
      unfold IntTy.Has IntTy.lo IntTy.hi; simp only [hs, if_true]; omega
    simp only [Option.bind_eq_bind, Option.bind_eq_some_iff, intOpS_iff, intOp_iff, at_signed hb hs, h2, hdot]
    constructor
    · rintro ⟨d, ⟨hd1, hd2, rfl⟩, p, hp, q, hq, hr⟩
      refine ⟨hd1, hd2, fun i => ?_⟩
      have e1 : p i = k i * ∑ j, v j * k j := (hp i).1
      have e2 : q i = p i * 2 := (hq i).1
      have e3 : r i = v i - q i := (hr i).1
      refine ⟨e1 ▸ (hp i).2, e1 ▸ e2 ▸ (hq i).2, (hr i).2, ?_⟩
      rw [e3, e2, e1]; ring
    · rintro ⟨h3, h4, h5⟩
      refine ⟨_, ⟨h3, h4, rfl⟩, fun i => k i * ∑ j, v j * k j, fun i => ⟨rfl, (h5 i).1⟩,
        fun i => k i * (∑ j, v j * k j) * 2, fun i => ⟨rfl, (h5 i).2.1⟩, fun i => ⟨?_, (h5 i).2.2.1⟩⟩
      show r i = v i - k i * (∑ j, v j * k j) * 2
      rw [(h5 i).2.2.2]; ring
  · intro v i k r
    unfold intFaceforward
    simp only [Option.bind_eq_bind, Option.bind_eq_some_iff, hdot]
    have hneg := (int_vector_signed hb hs .add v v r 0).2.2.2.2
    constructor
    · rintro ⟨d, ⟨h1, h2, rfl⟩, h⟩
      refine ⟨h1, h2, ?_⟩
      split_ifs at h ⊢ with hd
      · cases h; rfl
      · have h := hneg.mp h
        exact ⟨funext fun j => (h j).1, fun j => (h j).1 ▸ (h j).2⟩
    · rintro ⟨h1, h2, h⟩
      refine ⟨_, ⟨h1, h2, rfl⟩, ?_⟩
      split_ifs at h ⊢ with hd
      · rw [h]; rfl
      · exact hneg.mpr fun j => by rw [h.1]; exact ⟨rfl, h.2 j⟩

example : intCross ⟨32, true⟩ ![1, 2, 3] ![4, 5, 6] = some ![-3, 6, -3] ∧
    intReflect ⟨32, true⟩ ![3, -4] ![0, 1] = some ![3, 4] ∧
    @intFaceforward ⟨32, true⟩ ⟨fun _ => 7⟩ 2 ![1, 2] ![0, -1] ![0, 1] = some ![1, 2] := by decide +kernel

/-- Unsigned components: `faceforward` negates whatever the incident vector is. -/
theorem int_faceforward_unsigned_wrong [Indet ℤ] (hb : 32 ≤ t.bits) (hs : t.signed = false) (v i k : Vec ℤ n)
    (hr : ∀ j, t.Has (k j) ∧ t.Has (i j)) : intFaceforward t v i k = intNeg t v := by
  obtain ⟨r, h1, h2, _⟩ := int_dot_modular (Or.inl ⟨hb, hs⟩) k i hr
  unfold intFaceforward
  rw [h1]
  have := ((IntTy.has_unsigned hs).mp h2).1
  simp only [Option.bind_eq_bind, Option.bind_some]
  rw [if_neg (by omega)]

end Verif.Math
