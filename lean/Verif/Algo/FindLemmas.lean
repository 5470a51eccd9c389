import Verif.Algo.Find
import Mathlib.Tactic.Linarith
import Mathlib.Tactic.Ring

/-! # Lemmas about the model of `find` -/

set_option autoImplicit false

namespace Verif.Algo

/-- `idx` is the first of the positions `< l` with `g`, or `l`. -/
def FirstOf (g : Nat → Bool) (l idx : Nat) : Prop :=
  idx ≤ l ∧ (∀ j < idx, g j = false) ∧ (idx < l → g idx = true)

theorem countrZero_first {bits : Nat} (m : BitVec bits) : FirstOf m.getLsbD bits (countrZero m) := by
  unfold countrZero
  refine ⟨?_, ?_, ?_⟩
  · have := List.findIdx_le_length (p := fun i => m.getLsbD i) (xs := List.range bits)
    simpa using this
  · intro j hj
    have := List.not_of_lt_findIdx (xs := List.range bits) (p := fun i => m.getLsbD i) hj
    simpa using this
  · intro h
    have := List.findIdx_getElem (xs := List.range bits) (p := fun i => m.getLsbD i) (w := by simpa using h)
    simpa using this

theorem mask_first {bits l q : Nat} {m : BitVec bits} {g : Nat → Bool} (hq : 0 < q) (hl : l * q = bits)
    (hm : ∀ p < bits, m.getLsbD p = g (p / q)) : FirstOf g l (countrZero m / q) := by
  obtain ⟨h1, h2, h3⟩ := countrZero_first m
  refine ⟨?_, ?_, ?_⟩
  · apply Nat.div_le_of_le_mul; rw [Nat.mul_comm, hl]; exact h1
  · intro j hj
    have hj' : j * q < countrZero m := by
      have := (Nat.le_div_iff_mul_le hq).1 (Nat.succ_le_of_lt hj)
      rw [Nat.succ_mul] at this; omega
    have h := h2 (j * q) hj'
    rw [hm _ (by omega), Nat.mul_div_cancel _ hq] at h
    exact h
  · intro h
    have h' : countrZero m < bits := by
      exact Nat.lt_of_lt_of_eq ((Nat.div_lt_iff_lt_mul hq).1 h) hl
    rw [← hm _ h']; exact h3 h'

theorem mask_first' {bits l : Nat} {m : BitVec bits} {g : Nat → Bool} (hl : l ≤ bits)
    (hm : ∀ p < bits, m.getLsbD p = (decide (p < l) && g p)) :
    FirstOf g l (if m = 0#bits then l else countrZero m) := by
  obtain ⟨h1, h2, h3⟩ := countrZero_first m
  split
  · rename_i h0
    refine ⟨Nat.le_refl _, fun j hj => ?_, fun h => absurd h (by omega)⟩
    have := hm j (by omega)
    rw [h0] at this
    simpa [hj] using this.symm
  · rename_i h0
    have hlt : countrZero m < bits := by
      refine Nat.lt_of_le_of_ne h1 fun e => h0 ?_
      apply BitVec.eq_of_getLsbD_eq
      intro i hi
      rw [h2 i (by omega)]; simp
    have hb := h3 hlt
    rw [hm _ hlt] at hb
    simp only [Bool.and_eq_true, decide_eq_true_eq] at hb
    refine ⟨by omega, fun j hj => ?_, fun _ => hb.2⟩
    have := h2 j hj
    rw [hm _ (by omega)] at this
    simpa [show j < l by omega] using this

theorem toMask_bit {bits : Nat} (bs : List Bool) {p : Nat} (hp : p < bits) :
    (toMask bits bs).getLsbD p = bs.getD p false := by
  unfold toMask
  rw [BitVec.getLsbD_setWidth]
  simp [hp]

theorem movemask_bit (w k : Nat) (v : List Byte) (p : Nat) :
    (movemask w k v).getD p false = (decide (p < w / k) && (v.getD (p * k + (k - 1)) 0).msb) := by
  unfold movemask
  by_cases h : p < w / k
  · simp [List.getD_eq_getElem?_getD, h]
  · simp [List.getD_eq_getElem?_getD, h]

theorem cmpeq_byte (w k : Nat) (a b : List Byte) {p : Nat} (hp : p < w) :
    ((cmpeq w k a b).getD p 0).msb = decide (slice a (p / k * k) k = slice b (p / k * k) k) := by
  unfold cmpeq
  simp only [List.getD_eq_getElem?_getD, List.getElem?_map, List.getElem?_range hp, Option.map_some,
    Option.getD_some]
  split <;> rename_i h
  · rw [decide_eq_true h]; rfl
  · rw [decide_eq_false h]; rfl

theorem length_slice (bs : List Byte) (off n : Nat) (h : off + n ≤ bs.length) : (slice bs off n).length = n := by
  unfold slice; simp; omega

theorem slice_slice (bs : List Byte) (off n o k : Nat) (h : o + k ≤ n) :
    slice (slice bs off n) o k = slice bs (off + o) k := by
  unfold slice
  rw [List.drop_take, List.take_take, List.drop_drop, Nat.min_eq_left (by omega)]

theorem slice_set1 {w k j : Nat} {value : List Byte} (hv : value.length = k) (hj : j * k + k ≤ w) :
    slice (set1 w k value) (j * k) k = value := by
  apply List.ext_getElem
  · rw [length_slice _ _ _ (by simp [set1]; omega), hv]
  · intro i h1 h2
    simp only [slice, set1, List.getElem_take, List.getElem_drop, List.getElem_map, List.getElem_range]
    rw [Nat.mul_comm j k, Nat.mul_add_mod, Nat.mod_eq_of_lt (by omega)]
    simp [List.getD_eq_getElem?_getD, h2]

/-- Element comparison by representation. -/
def elemEq (m : Mem) (k off : Nat) (value : List Byte) (j : Nat) : Bool :=
  decide (slice m.bytes (off + j * k) k = value)

theorem bits_spec {m : Mem} {w k kk off bits : Nat} {value : List Byte} (hk : 0 < k) (hkk : kk = 1 ∨ kk = k)
    (hw : k ∣ w) (hv : value.length = k) {p : Nat} (hp : p < bits) :
    (toMask bits (movemask w kk (cmpeq w k (slice m.bytes off w) (set1 w k value)))).getLsbD p =
      (decide (p < w / kk) && elemEq m k off value (p * kk / k)) := by
  rw [toMask_bit _ hp, movemask_bit]
  by_cases h : p < w / kk
  · simp only [h, decide_true, Bool.true_and]
    have hkk0 : 0 < kk := by omega
    have h1 : p * kk + kk ≤ w := by
      have := (Nat.le_div_iff_mul_le hkk0).1 (Nat.succ_le_of_lt h)
      rw [Nat.succ_mul] at this; exact this
    have e : (p * kk + (kk - 1)) / k = p * kk / k := by
      rcases hkk with rfl | rfl
      · simp
      · rw [Nat.mul_div_cancel _ hk, Nat.mul_comm, Nat.mul_add_div hk, Nat.div_eq_of_lt (by omega)]; rfl
    rw [cmpeq_byte _ _ _ _ (by omega), e]
    have h2 : p * kk / k * k + k ≤ w := by
      obtain ⟨c, rfl⟩ := hw
      have : p * kk / k < c := by
        apply (Nat.div_lt_iff_lt_mul hk).2
        rw [Nat.mul_comm c k]; omega
      calc p * kk / k * k + k = (p * kk / k + 1) * k := by ring
        _ ≤ c * k := Nat.mul_le_mul_right _ this
        _ = k * c := Nat.mul_comm _ _
    rw [slice_slice _ _ _ _ _ h2, slice_set1 hv h2, elemEq]
  · simp [h]

theorem loadVec_some {m : Mem} {w off : Nat} (ha : (m.base + off) % w = 0) (hb : off + w ≤ m.bytes.length) :
    loadVec m w off = .ok (slice m.bytes off w) := by
  unfold loadVec; rw [if_neg (by omega), if_neg (by simpa using ha)]

/-- The element sizes `find` supports, FD 79. -/
def SizeOk (k : Nat) : Prop := k = 1 ∨ k = 2 ∨ k = 4 ∨ k = 8

theorem findSimd_spec {isa : Isa} (hi : isa ≠ .scalar) {k : Nat} (hk : SizeOk k) {m : Mem} {off : Nat}
    {value : List Byte} (hv : value.length = k) (ha : (m.base + off) % isa.width = 0)
    (hb : off + isa.width ≤ m.bytes.length) :
    ∃ idx, findSimd isa k m off value = .ok idx ∧ FirstOf (elemEq m k off value) (isa.width / k) idx := by
  cases isa with
  | scalar => exact absurd rfl hi
  | avx2 =>
    have hl := loadVec_some (w := 32) ha hb
    rcases hk with rfl | rfl | rfl | rfl <;> (rw [findSimd, hl]; refine ⟨_, rfl, ?_⟩)
    · have := mask_first (l := 32) (q := 1) (g := elemEq m 1 off value) (by omega) rfl
        (m := toMask 32 (movemask 32 1 (cmpeq 32 1 (slice m.bytes off 32) (set1 32 1 value)))) fun p hp => by
          rw [bits_spec (by omega) (.inl rfl) (by decide) hv hp]; simp [hp]
      rwa [Nat.div_one] at this
    · have := mask_first (l := 16) (q := 2) (g := elemEq m 2 off value) (by omega) rfl
        (m := toMask 32 (movemask 32 1 (cmpeq 32 2 (slice m.bytes off 32) (set1 32 2 value)))) fun p hp => by
          rw [bits_spec (by omega) (.inl rfl) (by decide) hv hp]; simp [hp]
      rwa [Nat.shiftRight_eq_div_pow]
    · have := mask_first (l := 8) (q := 1) (g := elemEq m 4 off value) (by omega) rfl
        (m := toMask 8 (movemask 32 4 (cmpeq 32 4 (slice m.bytes off 32) (set1 32 4 value)))) fun p hp => by
          rw [bits_spec (by omega) (.inr rfl) (by decide) hv hp]; simp [hp]
      rwa [Nat.div_one] at this
    · exact mask_first' (l := 4) (by omega) fun p hp => by
        rw [bits_spec (by omega) (.inr rfl) (by decide) hv hp]; simp
  | sse2 =>
    have hl := loadVec_some (w := 16) ha hb
    rcases hk with rfl | rfl | rfl | rfl <;> (rw [findSimd, hl]; refine ⟨_, rfl, ?_⟩)
    · have := mask_first (l := 16) (q := 1) (g := elemEq m 1 off value) (by omega) rfl
        (m := toMask 16 (movemask 16 1 (cmpeq 16 1 (slice m.bytes off 16) (set1 16 1 value)))) fun p hp => by
          rw [bits_spec (by omega) (.inl rfl) (by decide) hv hp]; simp [hp]
      rwa [Nat.div_one] at this
    · have := mask_first (l := 8) (q := 2) (g := elemEq m 2 off value) (by omega) rfl
        (m := toMask 16 (movemask 16 1 (cmpeq 16 2 (slice m.bytes off 16) (set1 16 2 value)))) fun p hp => by
          rw [bits_spec (by omega) (.inl rfl) (by decide) hv hp]; simp [hp]
      rwa [Nat.shiftRight_eq_div_pow]
    · exact mask_first' (l := 4) (by omega) fun p hp => by
        rw [bits_spec (by omega) (.inr rfl) (by decide) hv hp]; simp
    · exact mask_first' (l := 2) (by omega) fun p hp => by
        rw [bits_spec (by omega) (.inr rfl) (by decide) hv hp]; simp

theorem findSimd_misaligned {isa : Isa} (hi : isa ≠ .scalar) {k : Nat} (hk : SizeOk k) {m : Mem} {off : Nat}
    {value : List Byte} (ha : (m.base + off) % isa.width ≠ 0) (hb : off + isa.width ≤ m.bytes.length) :
    findSimd isa k m off value = .error .misaligned := by
  have hl : loadVec m isa.width off = .error .misaligned := by
    unfold loadVec; rw [if_neg (by omega), if_pos ha]
  cases isa with
  | scalar => exact absurd rfl hi
  | avx2 =>
    have hl' : loadVec m 32 off = .error .misaligned := hl
    rcases hk with rfl | rfl | rfl | rfl <;> (rw [findSimd, hl']; rfl)
  | sse2 =>
    have hl' : loadVec m 16 off = .error .misaligned := hl
    rcases hk with rfl | rfl | rfl | rfl <;> (rw [findSimd, hl']; rfl)

/-- Element `i` of the range. -/
def elem (m : Mem) (k i : Nat) : List Byte := slice m.bytes (i * k) k

theorem findTail_spec {eqv : List Byte → List Byte → Bool} {k last : Nat} {m : Mem} {value : List Byte}
    (hlen : m.bytes.length = last * k) (fuel c : Nat) (hc : c ≤ last) (hf : last - c < fuel) :
    ∃ r, findTail eqv k last m value fuel c = .ok r ∧ c ≤ r ∧ r ≤ last ∧
      (∀ j, c ≤ j → j < r → eqv (elem m k j) value = false) ∧ (r < last → eqv (elem m k r) value = true) := by
  induction fuel generalizing c with
  | zero => omega
  | succ fuel ih =>
    unfold findTail
    by_cases h : c = last
    · subst h
      exact ⟨c, by simp, Nat.le_refl _, Nat.le_refl _, fun j h1 h2 => by omega, fun h => by omega⟩
    · have hr : readElem m k c = .ok (elem m k c) := by
        unfold readElem
        rw [if_pos]; rfl
        rw [hlen]
        calc c * k + k = (c + 1) * k := by ring
          _ ≤ last * k := Nat.mul_le_mul_right _ (by omega)
      rw [if_pos h, hr]
      by_cases he : eqv (elem m k c) value = true
      · exact ⟨c, by simp [he], Nat.le_refl _, hc, fun j h1 h2 => by omega, fun _ => he⟩
      · obtain ⟨r, h1, h2, h3, h4, h5⟩ := ih (c + 1) (by omega) (by omega)
        refine ⟨r, by simp only [he]; exact h1, by omega, h3, fun j hj1 hj2 => ?_, h5⟩
        rcases Nat.eq_or_lt_of_le hj1 with rfl | h
        · simpa using he
        · exact h4 j h hj2

theorem width_div {isa : Isa} {k : Nat} (hk : SizeOk k) : isa.width / k * k = isa.width ∧ 0 < isa.width / k := by
  cases isa <;> rcases hk with rfl | rfl | rfl | rfl <;> decide

/-- The block loop, for every `==`: elements in whole vectors are compared by representation, the rest by `eqv`. -/
theorem findBlocks_any {eqv : List Byte → List Byte → Bool} {isa : Isa} (hi : isa ≠ .scalar) {k last : Nat}
    (hk : SizeOk k) {m : Mem} {value : List Byte} (hv : value.length = k) (hlen : m.bytes.length = last * k)
    (ha : m.base % isa.width = 0)
    {test : Nat → Bool} (ht : ∀ i v, isa.width / k ∣ v → i < v → v ≤ last → test i = decide (elem m k i = value))
    (ht' : ∀ i v, isa.width / k ∣ v → v ≤ i → i < last → last < v + isa.width / k → test i = eqv (elem m k i) value)
    (fuel c : Nat) (hcd : isa.width / k ∣ c) (hc : c ≤ last) (hf : last - c < fuel) :
    ∃ r, findBlocks eqv isa k last m value fuel c = .ok r ∧ c ≤ r ∧ r ≤ last ∧
      (∀ j, c ≤ j → j < r → test j = false) ∧ (r < last → test r = true) := by
  obtain ⟨hw, hw0⟩ := width_div (isa := isa) hk
  induction fuel generalizing c with
  | zero => omega
  | succ fuel ih =>
    unfold findBlocks
    by_cases h : c + isa.width / k ≤ last
    · rw [if_pos h]
      have ha' : (m.base + c * k) % isa.width = 0 := by
        obtain ⟨d, rfl⟩ := hcd
        have : isa.width / k * d * k = isa.width * d := by rw [Nat.mul_right_comm, hw]
        rw [this, Nat.add_mul_mod_self_left]; exact ha
      have hb' : c * k + isa.width ≤ m.bytes.length := by
        rw [hlen, ← hw, ← Nat.add_mul]; exact Nat.mul_le_mul_right _ h
      obtain ⟨idx, e, h1, h2, h3⟩ := findSimd_spec hi hk hv ha' hb'
      have hel : ∀ j, elemEq m k (c * k) value j = decide (elem m k (c + j) = value) := by
        intro j; unfold elemEq elem; rw [Nat.add_mul]
      rw [e]
      by_cases hx : idx = isa.width / k
      · obtain ⟨r, g1, g2, g3, g4, g5⟩ := ih (c + isa.width / k) (Nat.dvd_add hcd (Nat.dvd_refl _)) h (by omega)
        refine ⟨r, by simp only [hx]; simpa using g1, by omega, g3, fun j hj1 hj2 => ?_, g5⟩
        by_cases hj : j < c + isa.width / k
        · have := h2 (j - c) (by omega)
          rw [hel, show c + (j - c) = j by omega] at this
          rw [ht j _ (Nat.dvd_add hcd (Nat.dvd_refl _)) (by omega) h]; exact this
        · exact g4 j (by omega) hj2
      · refine ⟨c + idx, by simp [hx], by omega, by omega, fun j hj1 hj2 => ?_, fun hr => ?_⟩
        · have := h2 (j - c) (by omega)
          rw [hel, show c + (j - c) = j by omega] at this
          rw [ht j _ (Nat.dvd_add hcd (Nat.dvd_refl _)) (by omega) h]; exact this
        · have := h3 (by omega)
          rw [hel] at this
          rw [ht _ _ (Nat.dvd_add hcd (Nat.dvd_refl _)) (by omega) h]; exact this
    · rw [if_neg h]
      obtain ⟨r, h1, h2, h3, h4, h5⟩ := findTail_spec (eqv := eqv) (value := value) hlen (fuel + 1) c hc hf
      refine ⟨r, h1, h2, h3, fun j hj1 hj2 => ?_, fun hr => ?_⟩
      · rw [ht' j c hcd hj1 (by omega) (by omega)]; exact h4 j hj1 hj2
      · rw [ht' r c hcd h2 hr (by omega)]; exact h5 hr

/-- The block loop: where the vector comparison agrees with `eqv` on the elements of the range. -/
theorem findBlocks_spec {eqv : List Byte → List Byte → Bool} {isa : Isa} (hi : isa ≠ .scalar) {k last : Nat}
    (hk : SizeOk k) {m : Mem} {value : List Byte} (hv : value.length = k) (hlen : m.bytes.length = last * k)
    (ha : m.base % isa.width = 0)
    (heq : ∀ i < last, eqv (elem m k i) value = decide (elem m k i = value))
    (fuel c : Nat) (hcd : isa.width / k ∣ c) (hc : c ≤ last) (hf : last - c < fuel) :
    ∃ r, findBlocks eqv isa k last m value fuel c = .ok r ∧ c ≤ r ∧ r ≤ last ∧
      (∀ j, c ≤ j → j < r → eqv (elem m k j) value = false) ∧ (r < last → eqv (elem m k r) value = true) :=
  findBlocks_any hi hk hv hlen ha (test := fun i => eqv (elem m k i) value)
    (fun i _ _ h1 h2 => heq i (by omega)) (fun _ _ _ _ _ _ => rfl) fuel c hcd hc hf

end Verif.Algo
