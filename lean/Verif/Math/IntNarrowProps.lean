import Verif.Math.IntVectorProps

/-!
Integer vectors: `dot`, `cross`, `reflect` and `faceforward` of components that wrap around, that is, of unsigned
components and of components narrower than `int`.

The specification is integer arithmetic modulo 2^bits, as in `IntVectorProps.lean`.
-/

set_option autoImplicit false

namespace Verif.Math

variable {n : Nat} {t : IntTy}

/-- The types whose arithmetic never overflows: unsigned types of at least 32 bits, types of less than 16 bits and
`int16_t`. Only `uint16_t` and the signed types of at least 32 bits are missing. -/
def Wraps (t : IntTy) : Prop :=
  32 ≤ t.bits ∧ t.signed = false ∨ 1 ≤ t.bits ∧ t.bits < 16 ∨ t.signed = true ∧ t.bits = 16

instance (t : IntTy) : Decidable (Wraps t) := inferInstanceAs (Decidable (_ ∨ _))

theorem wraps_bits (hk : Wraps t) : 1 ≤ t.bits := by unfold Wraps at hk; omega

/-- Values of the narrow types among them are small. -/
theorem wraps_bound (hk : Wraps t) (hb : t.bits < 32) {z : ℤ} (hz : t.Has z) : -2 ^ 15 ≤ z ∧ z ≤ 2 ^ 15 - 1 := by
  have hk : t.bits < 16 ∨ t.signed = true ∧ t.bits = 16 := by
    rcases hk with h | h | h
    · omega
    · exact .inl h.2
    · exact .inr h
  have h15 : t.bits < 16 → (2 : ℤ) ^ t.bits ≤ 2 ^ 15 := fun h => pow_le_pow_right₀ (by norm_num) (by omega)
  have h14 : (2 : ℤ) ^ (t.bits - 1) ≤ 2 ^ 15 := pow_le_pow_right₀ (by norm_num) (by omega)
  unfold IntTy.Has IntTy.lo IntTy.hi at hz
  cases hsg : t.signed <;> simp only [hsg, Bool.false_eq_true, if_false, if_true, false_and, or_false] at hz hk
  · have := h15 hk; omega
  · omega

theorem wraps_cases (hk : Wraps t) : 32 ≤ t.bits ∧ t.signed = false ∨ t.bits < 32 := by
  rcases hk with h | h | h
  · exact .inl h
  · right; omega
  · right; omega

/-- `+ - *` of such a type: always defined, congruent to the exact result. -/
theorem wraps_at (hk : Wraps t) (op : ArithOp) (hop : op ≠ .div) {x y z : ℤ} (hx : t.Has x) (hy : t.Has y)
    (hz : op.Exact x y z) : op.at t x y = some (t.conv z) := by
  have hb1 := wraps_bits hk
  rcases wraps_cases hk with ⟨hb, hs⟩ | hb
  · rw [at_unsigned hb hs]
    exact ⟨IntTy.conv_has hb1 _, z, hz, IntTy.conv_modEq _⟩
  · rw [at_narrow hb hb1]
    have h1 := wraps_bound hk hb hx
    have h2 := wraps_bound hk hb hy
    refine ⟨IntTy.conv_has hb1 _, z, hz, ?_, ?_, IntTy.conv_modEq _⟩
    all_goals
      cases op with
      | div => exact absurd rfl hop
      | add => cases hz; omega
      | sub => cases hz; omega
      | mul => cases hz; nlinarith

theorem wraps_neg (hk : Wraps t) {x : ℤ} (hx : t.Has x) : negAt t x = some (t.conv (-x)) := by
  have hb1 := wraps_bits hk
  unfold negAt
  rcases wraps_cases hk with ⟨hb, hs⟩ | hb
  · rw [IntTy.promote_wide hb, IntTy.result_unsigned hs]
    exact congrArg some (IntTy.has_unique hb1 (IntTy.conv_has hb1 _) (IntTy.conv_has hb1 _)
      ((IntTy.conv_modEq _).trans ((Int.mod_modEq _ _).trans (IntTy.conv_modEq _).symm)))
  · have h1 := wraps_bound hk hb hx
    rw [IntTy.promote_narrow hb, (IntTy.result_signed rfl).mpr ⟨rfl, IntTy.has_int.mpr ⟨by omega, by omega⟩⟩]
    rfl

theorem wraps_cross (hk : Wraps t) {w x y z : ℤ} (hw : t.Has w) (hx : t.Has x) (hy : t.Has y) (hz : t.Has z) :
    crossAt t w x y z = some (t.conv (w * x - y * z)) := by
  have hb1 := wraps_bits hk
  unfold crossAt ArithOp.eval
  rcases wraps_cases hk with ⟨hb, hs⟩ | hb
  · rw [IntTy.promote_wide hb]
    simp only [IntTy.result_unsigned hs, Option.bind_eq_bind, Option.bind_some, Option.map_some]
    refine congrArg some (IntTy.has_unique hb1 (IntTy.conv_has hb1 _) (IntTy.conv_has hb1 _) ?_)
    exact (IntTy.conv_modEq _).trans ((Int.mod_modEq _ _).trans
      (((Int.mod_modEq _ _).sub (Int.mod_modEq _ _)).trans (IntTy.conv_modEq _).symm))
  · have h1 := wraps_bound hk hb hw
    have h2 := wraps_bound hk hb hx
    have h3 := wraps_bound hk hb hy
    have h4 := wraps_bound hk hb hz
    have l1 : -(2 ^ 30 - 2 ^ 15) ≤ w * x := by nlinarith
    have l2 : w * x ≤ 2 ^ 30 := by nlinarith
    have l3 : -(2 ^ 30 - 2 ^ 15) ≤ y * z := by nlinarith
    have l4 : y * z ≤ 2 ^ 30 := by nlinarith
    rw [IntTy.promote_narrow hb,
      (IntTy.result_signed (z := w * x) rfl).mpr ⟨rfl, IntTy.has_int.mpr ⟨by omega, by omega⟩⟩,
      (IntTy.result_signed (z := y * z) rfl).mpr ⟨rfl, IntTy.has_int.mpr ⟨by omega, by omega⟩⟩]
    simp only [Option.bind_eq_bind, Option.bind_some]
    rw [(IntTy.result_signed (z := w * x - y * z) rfl).mpr ⟨rfl, IntTy.has_int.mpr ⟨by omega, by omega⟩⟩]
    rfl

/-- C91 for unsigned components of at least 32 bits, components of 8 bits and `int16_t`: `cross`, `reflect` and
`faceforward` are always defined. The components of the results are the values of the type congruent to the exact ones;
`faceforward` decides by the sign of what `dot` returns, which is the exact dot product if that is a value of the type. -/
theorem int_geometry_modular [Indet ℤ] (hk : Wraps t) :
    (∀ a b : Vec ℤ 3, (∀ i, t.Has (a i) ∧ t.Has (b i)) → ∃ r, intCross t a b = some r ∧
      ∀ i, t.Has (r i) ∧
        r i ≡ (![a 1 * b 2 - a 2 * b 1, a 2 * b 0 - a 0 * b 2, a 0 * b 1 - a 1 * b 0] : Vec ℤ 3) i
          [ZMOD 2 ^ t.bits]) ∧
    (∀ v k : Vec ℤ n, (∀ i, t.Has (v i) ∧ t.Has (k i)) → ∃ r, intReflect t v k = some r ∧
      ∀ i, t.Has (r i) ∧ r i ≡ v i - 2 * (∑ j, v j * k j) * k i [ZMOD 2 ^ t.bits]) ∧
    (∀ v i k : Vec ℤ n, (∀ j, t.Has (v j) ∧ t.Has (i j) ∧ t.Has (k j)) → ∃ d r, intDot t k i = some d ∧
      intFaceforward t v i k = some r ∧
      (if d < 0 then r = v else ∀ j, t.Has (r j) ∧ r j ≡ - v j [ZMOD 2 ^ t.bits]) ∧
      (t.Has (∑ j, k j * i j) → d = ∑ j, k j * i j)) := by
  have hb1 := wraps_bits hk
  refine ⟨?_, ?_, ?_⟩
  · intro a b h
    have c := fun i j k l => wraps_cross hk (h i).1 (h j).2 (h k).1 (h l).2
    unfold intCross
    rw [c 1 2 2 1, c 2 0 0 2, c 0 1 1 0]
    refine ⟨_, rfl, fun i => ?_⟩
    fin_cases i <;> exact ⟨IntTy.conv_has hb1 _, IntTy.conv_modEq _⟩
  · intro v k h
    obtain ⟨d, hd, hd1, hd2⟩ := int_dot_modular (t := t) hk v k h
    have e1 : intOpS t .mul k d = some fun i => t.conv (k i * d) :=
      (intOpS_iff _ _ _ _ _).2 fun i => wraps_at hk .mul (by decide) (h i).2 hd1 rfl
    have e2 : intOpS t .mul (fun i => t.conv (k i * d)) (t.conv 2) =
        some fun i => t.conv (t.conv (k i * d) * t.conv 2) :=
      (intOpS_iff _ _ _ _ _).2 fun i =>
        wraps_at hk .mul (by decide) (IntTy.conv_has hb1 _) (IntTy.conv_has hb1 _) rfl
    have e3 : intOp t .sub v (fun i => t.conv (t.conv (k i * d) * t.conv 2)) =
        some fun i => t.conv (v i - t.conv (t.conv (k i * d) * t.conv 2)) :=
      (intOp_iff _ _ _ _ _).2 fun i => wraps_at hk .sub (by decide) (h i).1 (IntTy.conv_has hb1 _) rfl
    unfold intReflect
    rw [hd]
    simp only [Option.bind_eq_bind, Option.bind_some, e1, e2, e3]
    refine ⟨_, rfl, fun i => ⟨IntTy.conv_has hb1 _, (IntTy.conv_modEq _).trans ?_⟩⟩
    have s1 : t.conv (k i * d) ≡ k i * ∑ j, v j * k j [ZMOD 2 ^ t.bits] :=
      (IntTy.conv_modEq _).trans ((Int.ModEq.refl _).mul hd2)
    have s2 : t.conv (t.conv (k i * d) * t.conv 2) ≡ k i * (∑ j, v j * k j) * 2 [ZMOD 2 ^ t.bits] :=
      (IntTy.conv_modEq _).trans (s1.mul (IntTy.conv_modEq _))
    have := (Int.ModEq.refl (v i)).sub s2
    have e : v i - 2 * (∑ j, v j * k j) * k i = v i - k i * (∑ j, v j * k j) * 2 := by ring
    rw [e]; exact this
  · intro v i k h
    obtain ⟨d, hd, hd1, hd2⟩ := int_dot_modular (t := t) hk k i fun j => ⟨(h j).2.2, (h j).2.1⟩
    have e1 : intNeg t v = some fun j => t.conv (- v j) :=
      (intNeg_iff _ _ _).2 fun j => wraps_neg hk (h j).1
    refine ⟨d, if d < 0 then v else fun j => t.conv (- v j), hd, ?_, ?_,
      fun h1 => IntTy.has_unique hb1 hd1 h1 hd2⟩
    · unfold intFaceforward
      rw [hd]
      simp only [Option.bind_eq_bind, Option.bind_some]
      split
      · rfl
      · exact e1
    · split
      · rfl
      · exact fun j => ⟨IntTy.conv_has hb1 _, IntTy.conv_modEq _⟩

/-- Narrow signed components: `faceforward` takes the wrong side whenever the dot product has just left the range of the
type, because `dot` returns a negative number. -/
theorem int_faceforward_narrow_wrong [Indet ℤ] (hk : Wraps t) (hs : t.signed = true) (v i k : Vec ℤ n)
    (hr : ∀ j, t.Has (k j) ∧ t.Has (i j)) (h1 : 2 ^ (t.bits - 1) ≤ ∑ j, k j * i j)
    (h2 : ∑ j, k j * i j < 2 ^ t.bits) : intFaceforward t v i k = some v := by
  have hb1 := wraps_bits hk
  obtain ⟨d, hd, hd1, hd2⟩ := int_dot_modular (t := t) hk k i hr
  have hp := IntTy.two_pow_half hb1
  have : d = (∑ j, k j * i j) - 2 ^ t.bits := by
    refine IntTy.has_unique hb1 hd1 ?_ (hd2.trans ?_)
    · unfold IntTy.Has IntTy.lo IntTy.hi; simp only [hs, if_true]; omega
    · exact (Int.modEq_iff_dvd.2 ⟨-1, by ring⟩)
  unfold intFaceforward
  rw [hd]
  simp only [Option.bind_eq_bind, Option.bind_some]
  rw [if_pos (by omega)]
  rfl

/-! ### `uint16_t` -/

/-- The type `uint16_t`. -/
def u16 : IntTy := ⟨16, false⟩

theorem u16_has {z : ℤ} : u16.Has z ↔ 0 ≤ z ∧ z < 65536 := by
  unfold u16 IntTy.Has IntTy.lo IntTy.hi; simp; omega

theorem u16_conv (z : ℤ) : u16.conv z = z % 65536 := rfl

/-- One step of `dot`. -/
theorem u16_mulAcc {r a b : ℤ} (hr : u16.Has r) (ha : u16.Has a) (hb : u16.Has b) :
    mulAcc u16 r a b = if r + a * b < 2 ^ 31 then some ((r + a * b) % 65536) else none := by
  rw [u16_has] at *
  have h0 : 0 ≤ a * b := mul_nonneg ha.1 hb.1
  split
  · rename_i h
    rw [mulAcc_narrow (by decide) (by decide)]
    refine ⟨⟨by omega, by omega⟩, ⟨by omega, h⟩, u16_has.2 (by omega), Int.mod_modEq _ _⟩
  · rename_i h
    cases hm : mulAcc u16 r a b with
    | none => rfl
    | some s =>
      have := (mulAcc_narrow (by decide) (by decide) _ _ _ _).1 hm
      omega

theorem u16_foldl (a b : Vec ℤ n) (hr : ∀ i, u16.Has (a i) ∧ u16.Has (b i)) :
    ∀ (l : List (Fin n)) (s r : ℤ), l.foldlM (fun r i => mulAcc u16 r (a i) (b i)) (s % 65536) = some r ↔
      (∀ k, (h : k < l.length) → (s + ((l.take k).map fun i => a i * b i).sum) % 65536 + a l[k] * b l[k] < 2 ^ 31) ∧
      r = (s + (l.map fun i => a i * b i).sum) % 65536
  | [], s, r => by simp [eq_comm]
  | i :: l, s, r => by
    rw [List.foldlM_cons, u16_mulAcc (u16_has.2 (by omega)) (hr i).1 (hr i).2]
    split
    · rename_i h
      have e : (s % 65536 + a i * b i) % 65536 = (s + a i * b i) % 65536 := by omega
      simp only [Option.bind_eq_bind, Option.bind_some]
      rw [e, u16_foldl a b hr l]
      simp only [List.map_cons, List.sum_cons, ← add_assoc]
      refine and_congr_left fun _ => ?_
      constructor
      · intro h1 k hk
        cases k with
        | zero => simpa using h
        | succ k => simpa [← add_assoc] using h1 k (by simpa using hk)
      · intro h1 k hk
        have h2 : (s + (((i :: l).take (k + 1)).map fun i => a i * b i).sum) % 65536 + a l[k] * b l[k] < 2 ^ 31 :=
          h1 (k + 1) (by simpa using hk)
        simpa [← add_assoc] using h2
    · rename_i h
      constructor
      · intro h1; simp at h1
      · rintro ⟨h1, -⟩
        have h2 : (s + (((i :: l).take 0).map fun i => a i * b i).sum) % 65536 + a i * b i < 2 ^ 31 := h1 0 (by simp)
        exact absurd (by simpa using h2) h

/-- C91 for `uint16_t`: `dot` is the value of the type congruent to the dot product, and is undefined precisely if a
product, added to what has been accumulated modulo 2^16, leaves the range of `int`. -/
theorem int_dot_uint16 (a b : Vec ℤ n) (hr : ∀ i, u16.Has (a i) ∧ u16.Has (b i)) (r : ℤ) :
    intDot u16 a b = some r ↔ (∀ i : Fin n, partialDot a b i % 2 ^ 16 + a i * b i < 2 ^ 31) ∧
      r = (∑ i, a i * b i) % 2 ^ 16 := by
  have h := u16_foldl a b hr (List.finRange n) 0 r
  rw [list_sum_int] at h
  simp only [zero_add, Int.zero_emod] at h
  unfold intDot forLoopM
  rw [h]
  refine and_congr_left fun _ => ⟨fun h1 i => ?_, fun h1 k hk => ?_⟩
  · have := h1 i (by simp)
    simpa [partialDot] using this
  · have := h1 ⟨k, by simpa using hk⟩
    simpa [partialDot] using this

/-- `cross`: undefined precisely if a product leaves the range of `int`. -/
theorem int_cross_uint16 (a b r : Vec ℤ 3) (hr : ∀ i, u16.Has (a i) ∧ u16.Has (b i)) :
    intCross u16 a b = some r ↔ (∀ i j, i ≠ j → a i * b j < 2 ^ 31) ∧
      ∀ i, r i = (![a 1 * b 2 - a 2 * b 1, a 2 * b 0 - a 0 * b 2, a 0 * b 1 - a 1 * b 0] : Vec ℤ 3) i % 2 ^ 16 := by
  have hc : ∀ w x y z q, u16.Has w → u16.Has x → u16.Has y → u16.Has z → (crossAt u16 w x y z = some q ↔
      w * x < 2 ^ 31 ∧ y * z < 2 ^ 31 ∧ q = (w * x - y * z) % 2 ^ 16) := by
    intro w x y z q hw hx hy hz
    rw [u16_has] at hw hx hy hz
    have g1 : 0 ≤ w * x := mul_nonneg hw.1 hx.1
    have g2 : 0 ≤ y * z := mul_nonneg hy.1 hz.1
    unfold crossAt ArithOp.eval
    rw [show u16.promote = ⟨32, true⟩ from rfl]
    simp only [Option.bind_eq_bind, Option.bind_eq_some_iff, Option.map_eq_some_iff,
      IntTy.result_signed, IntTy.has_int]
    constructor
    · rintro ⟨p, ⟨rfl, h1⟩, u, ⟨rfl, h2⟩, s, ⟨rfl, h3⟩, rfl⟩
      exact ⟨h1.2, h2.2, rfl⟩
    · rintro ⟨h1, h2, rfl⟩
      exact ⟨_, ⟨rfl, by omega, h1⟩, _, ⟨rfl, by omega, h2⟩, _, ⟨rfl, by omega, by omega⟩, rfl⟩
  have c := fun i j k l q => hc _ _ _ _ q (hr i).1 (hr j).2 (hr k).1 (hr l).2
  unfold intCross
  simp only [Option.bind_eq_bind, Option.bind_eq_some_iff, c]
  constructor
  · rintro ⟨x, ⟨h1, h2, rfl⟩, y, ⟨h4, h5, rfl⟩, z, ⟨h7, h8, rfl⟩, h⟩
    cases h
    refine ⟨?_, ?_⟩
    · intro i j hij
      fin_cases i <;> fin_cases j <;> first | exact absurd rfl hij | assumption
    · intro i; fin_cases i <;> rfl
  · rintro ⟨h1, h2⟩
    refine ⟨_, ⟨h1 1 2 (by decide), h1 2 1 (by decide), rfl⟩, _, ⟨h1 2 0 (by decide), h1 0 2 (by decide), rfl⟩,
      _, ⟨h1 0 1 (by decide), h1 1 0 (by decide), rfl⟩, ?_⟩
    refine congrArg some (funext fun i => ?_)
    rw [h2]; fin_cases i <;> rfl

/-- `reflect` and `faceforward`: undefined precisely if `dot` is, or, for `reflect`, if a product of its result with a
component leaves the range of `int`. `faceforward` always negates. -/
theorem int_geometry_uint16 [Indet ℤ] (v k i : Vec ℤ n) (hr : ∀ j, u16.Has (v j) ∧ u16.Has (k j) ∧ u16.Has (i j))
    (r : Vec ℤ n) :
    (intReflect u16 v k = some r ↔ (∀ j : Fin n, partialDot v k j % 2 ^ 16 + v j * k j < 2 ^ 31) ∧
      (∀ j, k j * ((∑ j, v j * k j) % 2 ^ 16) < 2 ^ 31) ∧
      ∀ j, r j = (v j - 2 * (∑ j, v j * k j) * k j) % 2 ^ 16) ∧
    (intFaceforward u16 v i k = some r ↔ (∀ j : Fin n, partialDot k i j % 2 ^ 16 + k j * i j < 2 ^ 31) ∧
      ∀ j, r j = (- v j) % 2 ^ 16) := by
  have hat : ∀ (op : ArithOp) x y z q, op.Exact x y z → op ≠ .div → (op.at u16 x y = some q ↔
      (-2 ^ 31 ≤ z ∧ z < 2 ^ 31) ∧ q = z % 2 ^ 16) := by
    intro op x y z q hz hop
    rw [at_narrow (by decide) (by decide)]
    have hu : ∀ z', op.Exact x y z' → z' = z := by
      intro z' h; cases op <;> simp_all [ArithOp.Exact]
    constructor
    · rintro ⟨h1, z', h2, h3, h4, h5⟩
      obtain rfl := hu z' h2
      rw [u16_has] at h1
      refine ⟨⟨h3, h4⟩, ?_⟩
      have : q % 2 ^ 16 = z' % 2 ^ 16 := h5
      omega
    · rintro ⟨⟨h1, h2⟩, rfl⟩
      exact ⟨u16_has.2 (by omega), z, hz, h1, h2, Int.mod_modEq _ _⟩
  have hdot := fun (a b : Vec ℤ n) (h : ∀ i, u16.Has (a i) ∧ u16.Has (b i)) r => int_dot_uint16 a b h r
  constructor
  · unfold intReflect
    have hmul : ∀ x y q, ArithOp.mul.at u16 x y = some q ↔ (-2 ^ 31 ≤ x * y ∧ x * y < 2 ^ 31) ∧ q = (x * y) % 2 ^ 16 :=
      fun x y q => hat .mul x y _ q rfl (by decide)
    have hsub : ∀ x y q, ArithOp.sub.at u16 x y = some q ↔ (-2 ^ 31 ≤ x - y ∧ x - y < 2 ^ 31) ∧ q = (x - y) % 2 ^ 16 :=
      fun x y q => hat .sub x y _ q rfl (by decide)
    simp only [Option.bind_eq_bind, Option.bind_eq_some_iff, intOpS_iff, intOp_iff, hmul, hsub,
      hdot v k fun j => ⟨(hr j).1, (hr j).2.1⟩, show u16.conv 2 = 2 from rfl]
    generalize hS : ∑ j, v j * k j = S
    have key : ∀ j, (v j - (k j * (S % 2 ^ 16)) % 2 ^ 16 * 2 % 2 ^ 16) % 2 ^ 16 = (v j - 2 * S * k j) % 2 ^ 16 := by
      intro j
      have s1 : (k j * (S % 2 ^ 16)) % 2 ^ 16 ≡ k j * S [ZMOD 2 ^ 16] :=
        (Int.mod_modEq _ _).trans ((Int.ModEq.refl _).mul (Int.mod_modEq _ _))
      have s2 := (Int.ModEq.refl (v j)).sub
        ((Int.mod_modEq ((k j * (S % 2 ^ 16)) % 2 ^ 16 * 2) (2 ^ 16)).trans (s1.mul_right 2))
      have e : v j - 2 * S * k j = v j - k j * S * 2 := by ring
      rw [e]; exact s2
    constructor
    · rintro ⟨d, ⟨h1, rfl⟩, p, hp, q, hq, h2⟩
      refine ⟨h1, fun j => (hp j).1.2, fun j => ?_⟩
      rw [(h2 j).2, (hq j).2, (hp j).2, key]
    · rintro ⟨h1, h2, h3⟩
      refine ⟨_, ⟨h1, rfl⟩, fun j => (k j * (S % 2 ^ 16)) % 2 ^ 16, fun j => ⟨⟨?_, h2 j⟩, rfl⟩,
        fun j => (k j * (S % 2 ^ 16)) % 2 ^ 16 * 2 % 2 ^ 16, fun j => ⟨by beta_reduce; omega, rfl⟩,
        fun j => ⟨by have := u16_has.1 (hr j).1; beta_reduce; omega, by rw [h3, key]⟩⟩
      · have : 0 ≤ k j * (S % 2 ^ 16) := mul_nonneg (u16_has.1 (hr j).2.1).1 (by omega)
        omega
  · unfold intFaceforward
    have hneg : ∀ x q, u16.Has x → (negAt u16 x = some q ↔ q = (-x) % 2 ^ 16) := by
      intro x q hx
      rw [u16_has] at hx
      unfold negAt
      rw [show u16.promote = ⟨32, true⟩ from rfl,
        (IntTy.result_signed rfl).mpr ⟨rfl, IntTy.has_int.mpr ⟨by omega, by omega⟩⟩]
      simp only [Option.map_some, Option.some.injEq]
      exact eq_comm
    simp only [Option.bind_eq_bind, Option.bind_eq_some_iff, hdot k i fun j => ⟨(hr j).2.1, (hr j).2.2⟩]
    have hn : intNeg u16 v = some r ↔ ∀ j, r j = (- v j) % 2 ^ 16 := by
      rw [intNeg_iff]
      exact forall_congr' fun j => hneg _ _ (hr j).1
    constructor
    · rintro ⟨d, ⟨h1, rfl⟩, h2⟩
      rw [if_neg (by omega)] at h2
      exact ⟨h1, hn.1 h2⟩
    · rintro ⟨h1, h2⟩
      refine ⟨_, ⟨h1, rfl⟩, ?_⟩
      rw [if_neg (by omega)]
      exact hn.2 h2

/-! ### Cases -/

/-- `faceforward` of `int8_t` vectors: the dot product 200 arrives as -56; with 100 the result is right. -/
example : Wraps ⟨8, true⟩ ∧ @intFaceforward ⟨8, true⟩ ⟨fun _ => 7⟩ 2 ![1, 2] ![100, 0] ![2, 0] = some ![1, 2] ∧
    @intFaceforward ⟨8, true⟩ ⟨fun _ => 7⟩ 2 ![1, 2] ![100, 0] ![1, 0] = some ![-1, -2] := by decide +kernel

/-- `cross` and `reflect` of `int8_t` and unsigned vectors wrap around. -/
example : intCross ⟨8, true⟩ ![100, 2, 3] ![4, 5, 6] = some ![-3, -76, -20] ∧
    intReflect ⟨32, false⟩ ![3, 4] ![0, 1] = some ![3, 4294967292] := by decide +kernel

/-- The last product of `dot` may be too large or not, depending on what has been accumulated. -/
example : intDot u16 ![46340, 2, 1] ![46340, 3, 4] = some 43034 ∧
    intDot u16 ![65535, 46340] ![1, 46341] = none ∧ intDot u16 ![1, 46340] ![1, 46341] = some 23829 ∧
    intCross u16 ![1, 2, 3] ![4, 5, 6] = some ![65533, 6, 65533] ∧
    intReflect u16 ![3, 4] ![0, 1] = some ![3, 65532] := by decide +kernel

end Verif.Math
