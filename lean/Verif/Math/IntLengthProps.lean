import Verif.Math.IntVectorProps

/-!
`length()` of integer vectors, fractional scalars, and integer percentages of `lerp`.

The specification is the Euclidean length `√(∑ vᵢ²)` in the reals and its integer part.
-/

set_option autoImplicit false

namespace Verif.Math

variable {n : Nat} {t : IntTy}

/-! ### C92: length -/

/-- The sum of the squares of the components, in ℤ. -/
def sumSq (v : Vec ℤ n) : ℤ := ∑ i, v i * v i

theorem sumSq_nonneg (v : Vec ℤ n) : 0 ≤ sumSq v := Finset.sum_nonneg fun i _ => mul_self_nonneg (v i)

theorem has_nonneg_signed (hs : t.signed = true) {z : ℤ} (hz : 0 ≤ z) : t.Has z ↔ z ≤ t.hi := by
  have : (0 : ℤ) < 2 ^ (t.bits - 1) := by positivity
  unfold IntTy.Has IntTy.lo IntTy.hi; simp only [hs, if_true]
  constructor
  · exact And.right
  · intro h; exact ⟨by omega, h⟩

/-- Accumulating squares in a signed type `P`: the exact sum, if that is a value of the type. -/
theorem squares_signed (hs : t.promote.signed = true) (l : List ℤ) (h0 : t.promote.Has 0) (s : ℤ) :
    squares t l = some s ↔ s = (l.map fun x => x * x).sum ∧ t.promote.Has (l.map fun x => x * x).sum := by
  have nonneg : ∀ l : List ℤ, 0 ≤ (l.map fun x => x * x).sum := fun l =>
    List.sum_nonneg (by intro x hx; obtain ⟨y, _, rfl⟩ := List.mem_map.mp hx; exact mul_self_nonneg y)
  have step : ∀ (l : List ℤ) (r s : ℤ), 0 ≤ r → t.promote.Has r →
      (l.foldlM (fun r y => do
        let q ← ArithOp.mul.eval t y y
        t.promote.result (r + q)) r = some s ↔
        s = r + (l.map fun x => x * x).sum ∧ t.promote.Has (r + (l.map fun x => x * x).sum)) := by
    intro l
    induction l with
    | nil =>
      intro r s hr hh
      simp only [List.foldlM_nil, List.map_nil, List.sum_nil, add_zero]
      constructor
      · intro h; cases h; exact ⟨rfl, hh⟩
      · rintro ⟨rfl, _⟩; rfl
    | cons x l ih =>
      intro r s hr hh
      have hx := mul_self_nonneg x
      have hl := nonneg l
      rw [List.foldlM_cons, Option.bind_eq_bind, Option.bind_eq_some_iff]
      simp only [ArithOp.eval, Option.bind_eq_some_iff, IntTy.result_signed hs, List.map_cons, List.sum_cons]
      rw [← add_assoc]
      constructor
      · rintro ⟨y, ⟨q, ⟨rfl, h1⟩, rfl, h2⟩, h3⟩
        exact (ih _ _ (by omega) h2).mp h3
      · rintro ⟨rfl, h⟩
        have h' := (has_nonneg_signed hs (by omega)).mp h
        have hq : t.promote.Has (x * x) := (has_nonneg_signed hs hx).mpr (by omega)
        have hr' : t.promote.Has (r + x * x) := (has_nonneg_signed hs (by omega)).mpr (by omega)
        exact ⟨_, ⟨_, ⟨rfl, hq⟩, rfl, hr'⟩, (ih _ _ (by omega) hr').mpr ⟨rfl, h⟩⟩
  cases l with
  | nil =>
    simp only [squares, List.map_nil, List.sum_nil]
    constructor
    · intro h; cases h; exact ⟨rfl, h0⟩
    · rintro ⟨rfl, _⟩; rfl
  | cons x l =>
    have hx := mul_self_nonneg x
    have hl := nonneg l
    simp only [squares, ArithOp.eval, Option.bind_eq_bind, Option.bind_eq_some_iff, IntTy.result_signed hs]
    constructor
    · rintro ⟨p, ⟨rfl, hp⟩, h⟩
      have := (step l _ _ hx hp).mp h
      simpa using this
    · intro h
      rw [List.map_cons, List.sum_cons] at h
      have h' := (has_nonneg_signed hs (by omega)).mp h.2
      have hp : t.promote.Has (x * x) := (has_nonneg_signed hs hx).mpr (by omega)
      refine ⟨_, ⟨rfl, hp⟩, ?_⟩
      exact (step l _ s hx hp).mpr h

/-- Accumulating squares in an unsigned type. -/
theorem squares_unsigned (hb : 32 ≤ t.bits) (hs : t.signed = false) (l : List ℤ) :
    squares t l = some ((l.map fun x => x * x).sum % 2 ^ t.bits) := by
  have step : ∀ (l : List ℤ) (r : ℤ),
      l.foldlM (fun r y => do
        let q ← ArithOp.mul.eval t y y
        t.promote.result (r + q)) (r % 2 ^ t.bits) = some ((r + (l.map fun x => x * x).sum) % 2 ^ t.bits) := by
    intro l
    induction l with
    | nil => intro r; simp
    | cons x l ih =>
      intro r
      rw [List.foldlM_cons]
      simp only [ArithOp.eval, IntTy.promote_wide hb, IntTy.result_unsigned hs, Option.bind_eq_bind,
        Option.bind_some] at ih ⊢
      rw [← Int.add_emod, ih, List.map_cons, List.sum_cons, add_assoc]
  cases l with
  | nil => simp [squares]
  | cons x l =>
    have := step l (x * x)
    simp only [squares, ArithOp.eval, IntTy.promote_wide hb, IntTy.result_unsigned hs, Option.bind_eq_bind,
      Option.bind_some] at this ⊢
    rw [this, List.map_cons, List.sum_cons]

theorem list_map_vec2 (v : Vec ℤ 2) : ([v 0, v 1].map fun x => x * x).sum = sumSq v := by
  simp [sumSq, Fin.sum_univ_succ]
theorem list_map_vec3 (v : Vec ℤ 3) : ([v 0, v 1, v 2].map fun x => x * x).sum = sumSq v := by
  simp [sumSq, Fin.sum_univ_succ]
theorem list_map_vec4 (v : Vec ℤ 4) : ([v 0, v 1, v 2, v 3].map fun x => x * x).sum = sumSq v := by
  simp [sumSq, Fin.sum_univ_succ]

theorem partialSq_le (v : Vec ℤ n) (k : Nat) : 0 ≤ partialDot v v k ∧ partialDot v v k ≤ sumSq v := by
  have hnn : ∀ x ∈ (List.finRange n).map fun i => v i * v i, 0 ≤ x := by
    intro x hx; obtain ⟨i, _, rfl⟩ := List.mem_map.mp hx; exact mul_self_nonneg _
  constructor
  · refine List.sum_nonneg fun x hx => ?_
    obtain ⟨i, _, rfl⟩ := List.mem_map.mp hx; exact mul_self_nonneg _
  · unfold sumSq; rw [← list_sum_int]
    exact List.Sublist.sum_le_sum ((List.take_sublist _ _).map _) hnn

/-- The argument of the square root, signed components of at least 32 bits. -/
theorem lengthArg_signed (hb : 32 ≤ t.bits) (hs : t.signed = true) (v : Vec ℤ n) (s : ℤ) :
    lengthArg t v = some s ↔ s = sumSq v ∧ sumSq v ≤ t.hi := by
  have hp := IntTy.promote_wide hb
  have h0 : t.promote.Has 0 := by
    have : (0 : ℤ) < 2 ^ (t.bits - 1) := by positivity
    rw [hp]; unfold IntTy.Has IntTy.lo IntTy.hi; simp only [hs, if_true]; omega
  have hsp : t.promote.signed = true := by rw [hp]; exact hs
  have gen : ∀ (n : Nat) (v : Vec ℤ n), forLoopM n (fun i r => mulAcc t r (v i) (v i)) 0 = some s ↔
      s = sumSq v ∧ sumSq v ≤ t.hi := by
    intro n v
    have h := (int_dot_signed hb hs v v).1 s
    unfold intDot at h
    rw [h]
    constructor
    · rintro ⟨_, h2, h3⟩
      refine ⟨h3, ?_⟩
      have := h2 n le_rfl
      unfold partialDot at this
      rw [List.take_of_length_le (by simp), list_sum_int] at this
      exact this.2
    · rintro ⟨h1, h2⟩
      refine ⟨fun i => ?_, fun k _ => ?_, h1⟩
      · have : v i * v i ≤ sumSq v :=
          Finset.single_le_sum (f := fun i => v i * v i) (fun _ _ => mul_self_nonneg _) (Finset.mem_univ i)
        exact (has_nonneg_signed hs (mul_self_nonneg _)).mpr (by omega)
      · have := partialSq_le v k
        exact (has_nonneg_signed hs this.1).mpr (by omega)
  unfold lengthArg
  split
  · rw [squares_signed hsp _ h0, list_map_vec2, has_nonneg_signed hsp (sumSq_nonneg _), hp]
  · rw [squares_signed hsp _ h0, list_map_vec3, has_nonneg_signed hsp (sumSq_nonneg _), hp]
  · rw [squares_signed hsp _ h0, list_map_vec4, has_nonneg_signed hsp (sumSq_nonneg _), hp]
  · exact gen _ _

/-- The argument of the square root, unsigned components of at least 32 bits. -/
theorem lengthArg_unsigned (hb : 32 ≤ t.bits) (hs : t.signed = false) (v : Vec ℤ n) :
    lengthArg t v = some (sumSq v % 2 ^ t.bits) := by
  have gen : ∀ (n : Nat) (v : Vec ℤ n), forLoopM n (fun i r => mulAcc t r (v i) (v i)) 0 =
      some (sumSq v % 2 ^ t.bits) := by
    intro n v
    have h0 : t.Has 0 := (IntTy.has_unsigned hs).mpr ⟨le_rfl, by positivity⟩
    obtain ⟨r, h1, h2, h3⟩ := foldlM_dot_unsigned v v hb hs (List.finRange n) 0 h0
    rw [list_sum_int, zero_add] at h3
    have : r = sumSq v % 2 ^ t.bits := by
      obtain ⟨g1, g2⟩ := (IntTy.has_unsigned hs).mp h2
      rw [← Int.emod_eq_of_lt g1 g2]; exact h3
    rw [← this]; exact h1
  unfold lengthArg
  split
  · rw [squares_unsigned hb hs, list_map_vec2]
  · rw [squares_unsigned hb hs, list_map_vec3]
  · rw [squares_unsigned hb hs, list_map_vec4]
  · exact gen _ _

theorem rne_near {y : ℝ} {k : ℤ} (h : |y - k| < 1 / 2) : rne y = k := by
  have h1 := rne_err y
  have h2 : |((rne y : ℤ) : ℝ) - k| < 1 := by
    calc |((rne y : ℤ) : ℝ) - k| = |(((rne y : ℤ) : ℝ) - y) + (y - k)| := by ring_nf
      _ ≤ |((rne y : ℤ) : ℝ) - y| + |y - k| := abs_add_le _ _
      _ < 1 := by linarith
  have h3 : |rne y - k| < 1 := by exact_mod_cast h2
  have := Int.abs_lt_one_iff.mp h3
  omega

theorem sqrt_is {m q : ℕ} (h1 : q * q ≤ m) (h2 : m < (q + 1) * (q + 1)) : Nat.sqrt m = q :=
  (Nat.eq_sqrt.mpr ⟨h1, h2⟩).symm

theorem floor_sqrt (m : ℕ) : ⌊√(m : ℝ)⌋ = (Nat.sqrt m : ℤ) := by
  rw [Int.floor_eq_iff]
  constructor
  · exact Real.le_sqrt_of_sq_le (by exact_mod_cast (by rw [pow_two]; exact Nat.sqrt_le m))
  · rw [Real.sqrt_lt' (by positivity)]
    exact_mod_cast (by rw [pow_two]; exact Nat.lt_succ_sqrt m)

theorem sqrtInt_floor {z : ℤ} (h0 : 0 ≤ z) (h : z < 2 ^ 51) :
    ∃ x, sqrtInt z = some x ∧ truncZ x = ⌊√(z : ℝ)⌋ := by
  obtain ⟨m, rfl⟩ := Int.eq_ofNat_of_zero_le h0
  refine ⟨double.rnd (√(double.rnd ((m : ℤ) : ℝ))), by unfold sqrtInt; rw [if_neg (by omega)], ?_⟩
  rw [rnd_int (by rw [abs_of_nonneg h0]; omega)]
  have := sqrt_floor m (by exact_mod_cast h)
  push_cast
  rw [this, floor_sqrt]

theorem floor_sqrt_le {z : ℤ} (h0 : 0 ≤ z) : 0 ≤ ⌊√(z : ℝ)⌋ ∧ ⌊√(z : ℝ)⌋ ≤ z := by
  obtain ⟨m, rfl⟩ := Int.eq_ofNat_of_zero_le h0
  push_cast
  rw [floor_sqrt]
  exact ⟨by positivity, by exact_mod_cast Nat.sqrt_le_self m⟩

/-- `int` components (and wider signed ones whose squares add up to less than 2^51): `length()` is the integer
part of the Euclidean length if the sum of squares is a value of the type, and undefined otherwise.  Any number
of components but four.  Missing: other component types, see the theorems below. -/
theorem int_length_signed_partial (hb : 32 ≤ t.bits) (hs : t.signed = true) (v : Vec ℤ n)
    (hw : t.bits = 32 ∨ sumSq v < 2 ^ 51) :
    intLength t v = if sumSq v ≤ t.hi then some ⌊√(∑ i, (v i : ℝ) ^ 2)⌋ else none := by
  have hcast : (∑ i, (v i : ℝ) ^ 2) = ((sumSq v : ℤ) : ℝ) := by
    unfold sumSq; push_cast; exact Finset.sum_congr rfl fun i _ => pow_two _
  rw [hcast]
  split_ifs with h
  · have h1 := (lengthArg_signed hb hs v (sumSq v)).mpr ⟨rfl, h⟩
    have h51 : sumSq v < 2 ^ 51 := by
      rcases hw with hw | hw
      · unfold IntTy.hi at h; simp only [hs, hw, if_true] at h; omega
      · exact hw
    obtain ⟨x, h2, h3⟩ := sqrtInt_floor (sumSq_nonneg v) h51
    have h4 := floor_sqrt_le (sumSq_nonneg v)
    unfold intLength castReal
    rw [h1]
    simp only [Option.bind_eq_bind, Option.bind_some, h2, h3]
    rw [if_pos ((has_nonneg_signed hs h4.1).mpr (by omega))]
  · have : lengthArg t v = none := by
      cases hl : lengthArg t v with
      | none => rfl
      | some s => exact absurd ((lengthArg_signed hb hs v s).mp hl).2 h
    unfold intLength; rw [this]; rfl

/-- `ivec2(3, 4)`, `ivec3(1, 1, 1)`, and `ivec2(46341, 0)` whose square is 2^31 + 4633. -/
example : intLength ⟨32, true⟩ ![3, 4] = some 5 ∧ intLength ⟨32, true⟩ ![1, 1, 1] = some 1 ∧
    intLength ⟨32, true⟩ ![46341, 0] = none := by
  refine ⟨?_, ?_, ?_⟩ <;>
    rw [int_length_signed_partial (by decide) rfl _ (Or.inl rfl)]
  · rw [if_pos (by decide +kernel)]
    have h : (∑ i, (((![3, 4] : Vec ℤ 2) i : ℤ) : ℝ) ^ 2) = ((25 : ℕ) : ℝ) := by
      norm_num [Fin.sum_univ_succ]
    rw [h, floor_sqrt, sqrt_is (q := 5) (by norm_num) (by norm_num)]; rfl
  · rw [if_pos (by decide +kernel)]
    have h : (∑ i, (((![1, 1, 1] : Vec ℤ 3) i : ℤ) : ℝ) ^ 2) = ((3 : ℕ) : ℝ) := by
      norm_num [Fin.sum_univ_succ]
    rw [h, floor_sqrt, sqrt_is (q := 1) (by norm_num) (by norm_num)]; rfl
  · rw [if_neg (by decide +kernel)]

/-- 32-bit unsigned components: the sum of squares is taken modulo 2^32 before the root. -/
theorem int_length_unsigned_partial (hb : t.bits = 32) (hs : t.signed = false) (v : Vec ℤ n) :
    intLength t v = some ⌊√((sumSq v % 2 ^ 32 : ℤ) : ℝ)⌋ ∧
    (sumSq v < 2 ^ 32 → intLength t v = some ⌊√(∑ i, (v i : ℝ) ^ 2)⌋) := by
  have hcast : (∑ i, (v i : ℝ) ^ 2) = ((sumSq v : ℤ) : ℝ) := by
    unfold sumSq; push_cast; exact Finset.sum_congr rfl fun i _ => pow_two _
  have main : intLength t v = some ⌊√((sumSq v % 2 ^ 32 : ℤ) : ℝ)⌋ := by
    have h1 := lengthArg_unsigned (by omega) hs v
    rw [hb] at h1
    have hn : 0 ≤ sumSq v % 2 ^ 32 := Int.emod_nonneg _ (by norm_num)
    have hl : sumSq v % 2 ^ 32 < 2 ^ 32 := Int.emod_lt_of_pos _ (by norm_num)
    obtain ⟨x, h2, h3⟩ := sqrtInt_floor hn (by omega)
    have h4 := floor_sqrt_le hn
    unfold intLength castReal
    rw [h1]
    simp only [Option.bind_eq_bind, Option.bind_some, h2, h3]
    rw [if_pos ((IntTy.has_unsigned hs).mpr ⟨h4.1, by rw [hb]; omega⟩)]
  refine ⟨main, fun h => ?_⟩
  rw [main, Int.emod_eq_of_lt (sumSq_nonneg v) h, hcast]

/-- `uvec2(65536, 0)` has length 0. -/
theorem int_length_unsigned_wrong : intLength ⟨32, false⟩ (![65536, 0] : Vec ℤ 2) = some 0 := by
  rw [(int_length_unsigned_partial rfl rfl _).1,
    show sumSq (![65536, 0] : Vec ℤ 2) % 2 ^ 32 = 0 by decide +kernel]
  simp

/-- Components narrower than `int`, two or three of them: the sum of squares is an `int`; the length is the integer
part of the Euclidean length if that is a value of the component type, and undefined otherwise. -/
theorem int_length_narrow_partial (hb : t.bits < 32) (v : Vec ℤ n) (hn : n = 2 ∨ n = 3) :
    intLength t v = if sumSq v < 2 ^ 31 ∧ t.Has ⌊√(∑ i, (v i : ℝ) ^ 2)⌋ then
      some ⌊√(∑ i, (v i : ℝ) ^ 2)⌋ else none := by
  have hcast : (∑ i, (v i : ℝ) ^ 2) = ((sumSq v : ℤ) : ℝ) := by
    unfold sumSq; push_cast; exact Finset.sum_congr rfl fun i _ => pow_two _
  rw [hcast]
  have hp := IntTy.promote_narrow hb
  have hsp : t.promote.signed = true := by rw [hp]
  have h0 : t.promote.Has 0 := by rw [hp]; decide
  have harg : ∀ s, lengthArg t v = some s ↔ s = sumSq v ∧ sumSq v < 2 ^ 31 := by
    intro s
    have hh : t.promote.Has (sumSq v) ↔ sumSq v < 2 ^ 31 := by
      have := sumSq_nonneg v
      rw [hp, IntTy.has_int]; omega
    rcases hn with rfl | rfl
    · rw [← hh, ← list_map_vec2]; exact squares_signed hsp [v 0, v 1] h0 s
    · rw [← hh, ← list_map_vec3]; exact squares_signed hsp [v 0, v 1, v 2] h0 s
  by_cases h : sumSq v < 2 ^ 31
  · have h1 := (harg _).mpr ⟨rfl, h⟩
    obtain ⟨x, h2, h3⟩ := sqrtInt_floor (sumSq_nonneg v) (by omega)
    unfold intLength castReal
    rw [h1]
    simp only [Option.bind_eq_bind, Option.bind_some, h2, h3]
    by_cases hh : t.Has ⌊√((sumSq v : ℤ) : ℝ)⌋
    · rw [if_pos hh, if_pos ⟨h, hh⟩]
    · rw [if_neg hh, if_neg (fun h' => hh h'.2)]
  · have : lengthArg t v = none := by
      cases hl : lengthArg t v with
      | none => rfl
      | some s => exact absurd ((harg s).mp hl).2 h
    rw [if_neg (fun h' => h h'.1)]
    unfold intLength; rw [this]; rfl

/-- `Vector<std::int8_t, 2>(127, 127).length()` is undefined: 179 is not an 8-bit value.  With five components
the sum wraps around as well: the length of `(16, 0, 0, 0, 0)` is 0. -/
theorem int_length_narrow_wrong : intLength ⟨8, true⟩ (![127, 127] : Vec ℤ 2) = none ∧
    intLength ⟨8, true⟩ (![16, 0, 0, 0, 0] : Vec ℤ 5) = some 0 := by
  constructor
  · rw [int_length_narrow_partial (by decide) _ (Or.inl rfl), if_neg]
    rintro ⟨_, h⟩
    have e : (∑ i, (((![127, 127] : Vec ℤ 2) i : ℤ) : ℝ) ^ 2) = ((32258 : ℕ) : ℝ) := by
      norm_num [Fin.sum_univ_succ]
    rw [e, floor_sqrt, sqrt_is (q := 179) (by norm_num) (by norm_num)] at h
    revert h; decide
  · have h1 : lengthArg ⟨8, true⟩ (![16, 0, 0, 0, 0] : Vec ℤ 5) = some 0 := by decide +kernel
    obtain ⟨x, h2, h3⟩ := sqrtInt_floor (z := 0) le_rfl (by norm_num)
    unfold intLength castReal
    rw [h1]
    simp only [Option.bind_eq_bind, Option.bind_some, h2, h3]
    simp [IntTy.Has, IntTy.lo, IntTy.hi]

/-- 64-bit components: the root of a number above 2^53 may be rounded up to the next integer; the vector
`(95536, 268444912)` is shorter than 268444929 but its `length()` is 268444929. -/
theorem int_length_wide_wrong :
    intLength ⟨64, true⟩ (![95536, 268444912] : Vec ℤ 2) = some 268444929 ∧
    ⌊√(∑ i, (((![95536, 268444912] : Vec ℤ 2) i : ℤ) : ℝ) ^ 2)⌋ = 268444928 := by
  have hS : sumSq (![95536, 268444912] : Vec ℤ 2) = 268444929 ^ 2 - 1 := by decide +kernel
  constructor
  · have h1 := (lengthArg_signed (t := ⟨64, true⟩) (by decide) rfl (![95536, 268444912] : Vec ℤ 2) _).mpr
      ⟨rfl, by rw [hS]; decide +kernel⟩
    have hrt : double.rnd (√((268444929 ^ 2 - 1 : ℤ) : ℝ)) = 268444929 := by
      have h0 : (0 : ℝ) ≤ √((268444929 ^ 2 - 1 : ℤ) : ℝ) := Real.sqrt_nonneg _
      have hsq : √((268444929 ^ 2 - 1 : ℤ) : ℝ) ^ 2 = 268444929 ^ 2 - 1 := by
        rw [Real.sq_sqrt (by norm_num)]; norm_num
      set y := √((268444929 ^ 2 - 1 : ℤ) : ℝ)
      have hlt : y < 268444929 := by nlinarith
      have hgt : 268444929 - 1 / 2 ^ 28 < y := by nlinarith
      have hlog : Int.log 2 |y| = 28 := by
        rw [abs_of_nonneg h0]
        exact log_of_binade (by norm_num; linarith) (by norm_num; linarith)
      have hlp : lastPlace 53 y = -24 := by unfold lastPlace; rw [hlog]; norm_num
      show roundTo 53 y = 268444929
      unfold roundTo
      rw [hlp]
      have hr : rne (y / 2 ^ (-24 : ℤ)) = 268444929 * 2 ^ 24 := by
        refine rne_near ?_
        rw [abs_lt, zpow_neg, div_inv_eq_mul]
        norm_num
        constructor <;> linarith
      rw [hr]; push_cast; norm_num
    have hin : double.rnd ((268444929 ^ 2 - 1 : ℤ) : ℝ) = ((268444929 ^ 2 - 1 : ℤ) : ℝ) := by
      show roundTo 53 _ = _
      have hlog : Int.log 2 |((268444929 ^ 2 - 1 : ℤ) : ℝ)| = 56 := by
        rw [abs_of_nonneg (by norm_num)]
        exact log_of_binade (by norm_num) (by norm_num)
      refine roundTo_exact 4503917494113440 ?_
      unfold lastPlace; rw [hlog]; norm_num
    unfold intLength sqrtInt castReal
    rw [h1, hS]
    have ht : truncZ 268444929 = 268444929 := by
      unfold truncZ; rw [if_pos (by norm_num)]; exact_mod_cast Int.floor_intCast (268444929 : ℤ)
    simp only [Option.bind_eq_bind, Option.bind_some]
    rw [if_neg (by norm_num), hin, hrt]
    simp only [Option.bind_some, ht]
    rw [if_pos (by decide)]
  · have e : (∑ i, (((![95536, 268444912] : Vec ℤ 2) i : ℤ) : ℝ) ^ 2) = ((72062679905815040 : ℕ) : ℝ) := by
      norm_num [Fin.sum_univ_succ]
    rw [e, floor_sqrt, sqrt_is (q := 268444928) (by norm_num) (by norm_num)]; rfl

/-- Four components: the return type is deduced, so the result is not converted: it is the Euclidean length as a
`double`, correct to the last place. -/
theorem int_length4_partial (hb : 32 ≤ t.bits) (hs : t.signed = true) (v : Vec ℤ 4) (h : sumSq v ≤ t.hi)
    (h53 : sumSq v ≤ 2 ^ 53) :
    ∃ x, intLength4 t v = some x ∧
      |x - √(∑ i, (v i : ℝ) ^ 2)| ≤ 2 ^ (-53 : ℤ) * √(∑ i, (v i : ℝ) ^ 2) := by
  have hcast : (∑ i, (v i : ℝ) ^ 2) = ((sumSq v : ℤ) : ℝ) := by
    unfold sumSq; push_cast; exact Finset.sum_congr rfl fun i _ => pow_two _
  rw [hcast]
  have h1 := (lengthArg_signed hb hs v (sumSq v)).mpr ⟨rfl, h⟩
  refine ⟨double.rnd (√(double.rnd ((sumSq v : ℤ) : ℝ))), ?_, ?_⟩
  · unfold intLength4 sqrtInt
    rw [h1]
    simp only [Option.bind_eq_bind, Option.bind_some]
    rw [if_neg (not_lt.mpr (sumSq_nonneg v))]
  · rw [rnd_int (by rw [abs_of_nonneg (sumSq_nonneg v)]; exact h53)]
    have := double.err (√((sumSq v : ℤ) : ℝ))
    rw [abs_of_nonneg (Real.sqrt_nonneg _)] at this
    exact this

/-- `ivec4(1, 1, 1, 0).length()` is not an integer, while `ivec3(1, 1, 1).length()` is 1. -/
theorem int_length4_wrong : ∃ x, intLength4 ⟨32, true⟩ (![1, 1, 1, 0] : Vec ℤ 4) = some x ∧ ∀ z : ℤ, x ≠ z := by
  obtain ⟨x, h1, h2⟩ := int_length4_partial (t := ⟨32, true⟩) (by decide) rfl (![1, 1, 1, 0] : Vec ℤ 4)
    (by decide +kernel) (by decide +kernel)
  refine ⟨x, h1, ?_⟩
  have e : (∑ i, (((![1, 1, 1, 0] : Vec ℤ 4) i : ℤ) : ℝ) ^ 2) = 3 := by
    norm_num [Fin.sum_univ_succ]
  rw [e] at h2
  have s0 : (0 : ℝ) ≤ √3 := Real.sqrt_nonneg _
  have s2 : √3 ^ 2 = (3 : ℝ) := Real.sq_sqrt (by norm_num)
  have l1 : (1.7 : ℝ) < √3 := by nlinarith
  have l2 : √3 < (1.8 : ℝ) := by nlinarith
  have hu : (2 : ℝ) ^ (-53 : ℤ) ≤ 1 / 100 := by norm_num
  have h3 := abs_le.mp (h2.trans (mul_le_mul hu l2.le s0 (by norm_num)))
  rintro z rfl
  have a1 : (1 : ℝ) < z := by linarith
  have a2 : (z : ℝ) < 2 := by linarith
  have b1 : (1 : ℤ) < z := by exact_mod_cast a1
  have b2 : z < 2 := by exact_mod_cast a2
  omega

/-! ### C93: floating-point scalars -/

theorem truncZ_int (z : ℤ) : truncZ z = z := by
  unfold truncZ; split_ifs
  · exact Int.floor_intCast z
  · exact Int.ceil_intCast z

/-- An integer vector and a floating-point scalar that is a whole number and a value of the component type: the
operation is the exact one, if its results are values of the type. -/
theorem int_scale_partial (hb : 32 ≤ t.bits) (hs : t.signed = true) (op : ArithOp) (a r : Vec ℤ n) (s : ℤ)
    (h : t.Has s) : intOpReal t op a s = some r ↔ ∀ i, op.Exact (a i) s (r i) ∧ t.Has (r i) := by
  unfold intOpReal castReal
  rw [truncZ_int, if_pos h]
  simp only [Option.bind_eq_bind, Option.bind_some, intOpS_iff, at_signed hb hs]

example : intOpReal ⟨32, true⟩ .mul (![10, -7] : Vec ℤ 2) ((3 : ℤ) : ℝ) = some ![30, -21] :=
  (int_scale_partial (by decide) rfl .mul _ _ 3 (by decide)).mpr (by decide)

/-- A scalar between -1 and 1 is converted to 0 first: multiplying by it gives the zero vector whatever the
vector is (0.5 times 10 is 0), dividing by it is undefined. -/
theorem int_scale_wrong (hb : 1 ≤ t.bits) (a : Vec ℤ n) (s : ℝ) (h1 : -1 < s) (h2 : s < 1) :
    intOpReal t .mul a s = some (fun _ => 0) ∧ (0 < n → intOpReal t .div a s = none) := by
  have h0 : t.Has 0 := by
    have := IntTy.conv_has hb 0
    have e : t.conv 0 = 0 := by unfold IntTy.conv; split_ifs <;> simp
    rwa [e] at this
  have hp0 : t.promote.result 0 = some 0 := by
    unfold IntTy.promote IntTy.result
    split_ifs <;> simp_all
    rename_i h3; exact absurd h3 (by decide)
  have e : t.conv 0 = 0 := by unfold IntTy.conv; split_ifs <;> simp
  have ht : truncZ s = 0 := by
    unfold truncZ; split_ifs with h
    · rw [Int.floor_eq_iff]; exact ⟨by exact_mod_cast h, by push_cast; linarith⟩
    · rw [Int.ceil_eq_iff]; exact ⟨by push_cast; linarith, by push_cast; linarith⟩
  have hc : castReal t s = some 0 := by unfold castReal; rw [ht, if_pos h0]
  constructor
  · unfold intOpReal
    rw [hc]
    simp only [Option.bind_eq_bind, Option.bind_some, intOpS_iff]
    intro i
    simp [ArithOp.at, ArithOp.eval, hp0, e]
  · intro hn
    unfold intOpReal
    rw [hc]
    simp only [Option.bind_eq_bind, Option.bind_some]
    cases hr : intOpS t .div a 0 with
    | none => rfl
    | some r =>
      have := (intOpS_iff t .div a 0 r).mp hr ⟨0, hn⟩
      simp [ArithOp.at, ArithOp.eval] at this

example : intOpReal ⟨32, true⟩ .mul (![10, 10] : Vec ℤ 2) (1 / 2) = some (fun _ => 0) :=
  (int_scale_wrong (by decide) _ _ (by norm_num) (by norm_num)).1

/-- `z` is the number `s` without its fraction. -/
def IsTrunc (s : ℝ) (z : ℤ) : Prop := |(z : ℝ)| ≤ |s| ∧ |s| < |(z : ℝ)| + 1 ∧ 0 ≤ (z : ℝ) * s

theorem truncZ_is (s : ℝ) : IsTrunc s (truncZ s) := by
  unfold truncZ IsTrunc
  split_ifs with h
  · have h1 := Int.floor_le s
    have h2 := Int.lt_floor_add_one s
    have h3 : (0 : ℝ) ≤ (⌊s⌋ : ℤ) := by exact_mod_cast Int.floor_nonneg.2 h
    rw [abs_of_nonneg h, abs_of_nonneg h3]
    exact ⟨h1, h2, mul_nonneg h3 h⟩
  · push Not at h
    have h1 := Int.le_ceil s
    have h2 := Int.ceil_lt_add_one s
    have h3 : ((⌈s⌉ : ℤ) : ℝ) ≤ 0 := by exact_mod_cast Int.ceil_le.2 (by simpa using h.le)
    rw [abs_of_neg h, abs_of_nonpos h3]
    exact ⟨by linarith, by linarith, mul_nonneg_of_nonpos_of_nonpos h3 h.le⟩

theorem trunc_unique {s : ℝ} {z : ℤ} (h : IsTrunc s z) : truncZ s = z := by
  obtain ⟨h1, h2, h3⟩ := h
  unfold truncZ
  split_ifs with h
  · rw [Int.floor_eq_iff]
    rw [abs_of_nonneg h] at h1 h2
    by_cases hz : (z : ℝ) < 0
    · have hs : s = 0 := by nlinarith
      have : (z : ℝ) ≤ -1 := by
        have : z < 0 := by exact_mod_cast hz
        have : z ≤ -1 := by omega
        exact_mod_cast this
      rw [abs_of_neg hz] at h1
      linarith
    · push Not at hz
      rw [abs_of_nonneg hz] at h1 h2
      exact ⟨h1, h2⟩
  · push Not at h
    rw [Int.ceil_eq_iff]
    rw [abs_of_neg h] at h1 h2
    by_cases hz : 0 < (z : ℝ)
    · nlinarith
    · push Not at hz
      rw [abs_of_nonpos hz] at h1 h2
      exact ⟨by linarith, by linarith⟩

/-- C93, what the code does with every scalar and every component type: the scalar acts as the integer left when its
fraction is dropped, and the call is undefined if that is not a value of the component type. -/
theorem int_scale_exact (op : ArithOp) (a : Vec ℤ n) (s : ℝ) (z : ℤ) (hz : IsTrunc s z) :
    (t.Has z → intOpReal t op a s = intOpS t op a z) ∧ (¬ t.Has z → intOpReal t op a s = none) ∧
    (32 ≤ t.bits → t.signed = true → ∀ r, intOpReal t op a s = some r ↔
      t.Has z ∧ ∀ i, op.Exact (a i) z (r i) ∧ t.Has (r i)) := by
  have hc : castReal t s = if t.Has z then some z else none := by
    unfold castReal; rw [trunc_unique hz]
  have h1 : t.Has z → intOpReal t op a s = intOpS t op a z := fun h => by
    unfold intOpReal; rw [hc, if_pos h]; rfl
  have h2 : ¬ t.Has z → intOpReal t op a s = none := fun h => by
    unfold intOpReal; rw [hc, if_neg h]; rfl
  refine ⟨h1, h2, fun hb hs r => ?_⟩
  by_cases h : t.Has z
  · rw [h1 h, intOpS_iff]
    simp only [at_signed hb hs, h, true_and]
  · rw [h2 h]
    simp [h]

/-- -2.5 acts as -2. -/
example : IsTrunc (-2.5) (-2) ∧
    intOpReal ⟨32, true⟩ .mul (![10, -7] : Vec ℤ 2) (-2.5) = some ![-20, 14] := by
  have h : IsTrunc (-2.5) (-2) := by
    refine ⟨?_, ?_, ?_⟩ <;> norm_num [abs_of_pos, abs_of_neg]
  exact ⟨h, ((int_scale_exact (t := ⟨32, true⟩) .mul _ _ _ h).2.2 (by decide) rfl _).2 (by decide)⟩

/-! ### C94: lerp with an integer percentage -/

/-- `lerp` with a percentage of an integer type: `v1 + percent * (v2 - v1)`, if `1 - percent` is a value of the
type in which it is computed (always for percentages 0 and 1). -/
theorem lerp_int_partial (v1 v2 : Vec ℝ n) (p : ℤ) (h : t.promote.Has (1 - p)) :
    lerpInt t v1 v2 p = some (fun i => v1 i + p * (v2 i - v1 i)) := by
  have hr : t.promote.result (1 - p) = some (1 - p) := by
    cases hs : t.promote.signed with
    | true => exact (IntTy.result_signed hs).mpr ⟨rfl, h⟩
    | false =>
      rw [IntTy.result_unsigned hs]
      obtain ⟨h1, h2⟩ := (IntTy.has_unsigned hs).mp h
      rw [Int.emod_eq_of_lt h1 h2]
  unfold lerpInt
  rw [hr]
  simp only [Option.bind_eq_bind, Option.bind_some, Option.pure_def, Option.some.injEq]
  rw [add_eq, mulS_eq, mulS_eq]
  funext i
  simp only [Pi.add_apply, Pi.smul_apply, smul_eq_mul]
  push_cast; ring

example : lerpInt ⟨32, true⟩ ![1, 10] ![3, 20] 2 = some (fun i => (![5, 30] : Vec ℝ 2) i) := by
  rw [lerp_int_partial _ _ _ (by decide)]
  congr 1; funext i; fin_cases i <;> norm_num

/-- An unsigned percentage (of at least 32 bits) greater than 1: `1 - percent` wraps around, and the result is
off by 2^bits times the first vector. -/
theorem lerp_unsigned_wrong (v1 v2 : Vec ℝ n) (p : ℤ) (hb : 32 ≤ t.bits) (hs : t.signed = false) (hp : t.Has p)
    (h2 : 2 ≤ p) : lerpInt t v1 v2 p = some (fun i => v1 i + p * (v2 i - v1 i) + 2 ^ t.bits * v1 i) := by
  obtain ⟨_, hlt⟩ := (IntTy.has_unsigned hs).mp hp
  have e : (1 - p) % 2 ^ t.bits = 1 - p + 2 ^ t.bits := by
    rw [← Int.add_emod_right, Int.emod_eq_of_lt (by omega) (by omega)]
  unfold lerpInt
  rw [IntTy.promote_wide hb, IntTy.result_unsigned hs, e]
  simp only [Option.bind_eq_bind, Option.bind_some, Option.pure_def, Option.some.injEq]
  rw [add_eq, mulS_eq, mulS_eq]
  funext i
  simp only [Pi.add_apply, Pi.smul_apply, smul_eq_mul]
  push_cast; ring

/-- C94, for every integer type and every percentage: right for types narrower than `int`; for wider signed types right
unless `1 - percent` overflows, as it does for the two lowest values, and then undefined; for wider unsigned
types right for 0 and 1 and otherwise off by 2^bits times the first vector. -/
theorem lerp_int_exact (v1 v2 : Vec ℝ n) (p : ℤ) (hb1 : 1 ≤ t.bits) (hp : t.Has p) :
    (t.bits < 32 → lerpInt t v1 v2 p = some (fun i => v1 i + p * (v2 i - v1 i))) ∧
    (32 ≤ t.bits → t.signed = true →
      (-2 ^ (t.bits - 1) + 2 ≤ p → lerpInt t v1 v2 p = some (fun i => v1 i + p * (v2 i - v1 i))) ∧
      (p < -2 ^ (t.bits - 1) + 2 → lerpInt t v1 v2 p = none)) ∧
    (32 ≤ t.bits → t.signed = false →
      (p ≤ 1 → lerpInt t v1 v2 p = some (fun i => v1 i + p * (v2 i - v1 i))) ∧
      (2 ≤ p → lerpInt t v1 v2 p = some (fun i => v1 i + p * (v2 i - v1 i) + 2 ^ t.bits * v1 i))) := by
  refine ⟨fun hb => lerp_int_partial v1 v2 p ?_, fun hb hs => ⟨fun h => lerp_int_partial v1 v2 p ?_, fun h => ?_⟩,
    fun hb hs => ⟨fun h => lerp_int_partial v1 v2 p ?_, lerp_unsigned_wrong v1 v2 p hb hs hp⟩⟩
  · rw [IntTy.promote_narrow hb, IntTy.has_int]
    obtain ⟨h1, h2⟩ := hp
    have hpow : (2 : ℤ) ^ t.bits ≤ 2 ^ 31 := pow_le_pow_right₀ (by norm_num) (by omega)
    have hpow1 : (2 : ℤ) ^ (t.bits - 1) ≤ 2 ^ 30 := pow_le_pow_right₀ (by norm_num) (by omega)
    unfold IntTy.lo at h1
    unfold IntTy.hi at h2
    cases ht : t.signed <;> simp only [ht, if_true, Bool.false_eq_true, if_false] at h1 h2 <;> constructor <;> omega
  · rw [IntTy.promote_wide hb]
    obtain ⟨h1, h2⟩ := hp
    unfold IntTy.lo at h1
    unfold IntTy.hi at h2
    unfold IntTy.Has IntTy.lo IntTy.hi
    simp only [hs, if_true] at h1 h2 ⊢
    constructor <;> omega
  · unfold lerpInt
    rw [IntTy.promote_wide hb]
    have : t.result (1 - p) = none := by
      cases hr : t.result (1 - p) with
      | none => rfl
      | some z =>
        obtain ⟨rfl, h3⟩ := (IntTy.result_signed hs).1 hr
        have := h3.2
        unfold IntTy.hi at this
        simp only [hs, if_true] at this
        omega
    rw [this]; rfl
  · rw [IntTy.promote_wide hb, IntTy.has_unsigned hs]
    obtain ⟨h1, h2⟩ := (IntTy.has_unsigned hs).1 hp
    have : (1 : ℤ) < 2 ^ t.bits := one_lt_pow₀ (by norm_num) (by omega)
    constructor <;> omega

/-- Between two equal vectors everything should be that vector. -/
example : lerpInt ⟨32, false⟩ (![1] : Vec ℝ 1) ![1] 2 = some (fun _ => 4294967297) := by
  rw [lerp_unsigned_wrong _ _ _ (by decide) rfl (by decide) (by norm_num)]
  congr 1; funext i; fin_cases i; norm_num

end Verif.Math
