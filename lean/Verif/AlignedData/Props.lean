import Verif.AlignedData.Model
import Mathlib.Tactic.Linarith
import Mathlib.Tactic.Ring

/-! # Properties of `AlignedData` -/

set_option autoImplicit false

namespace Verif.AD

theorem accepts_iff (a : Nat) : accepts a = true ↔ ∃ k, a = 2 ^ k := by
  unfold accepts
  by_cases h : a = 0
  · subst h
    simp only [bne_self_eq_false, Bool.false_and, Bool.false_eq_true, false_iff, not_exists]
    intro k; have := Nat.pow_pos (n := k) (show 0 < 2 by omega); omega
  · have := Nat.and_sub_one_eq_zero_iff_isPowerOfTwo h
    simp only [Bool.and_eq_true, bne_iff_ne, ne_eq, h, not_false_eq_true, beq_iff_eq, true_and]
    exact this

theorem roundUp_spec (n a : Nat) (ha : 0 < a) : a ∣ roundUp n a ∧ n ≤ roundUp n a ∧ roundUp n a < n + a := by
  unfold roundUp
  refine ⟨Dvd.intro_left _ rfl, ?_, ?_⟩
  · have h := Nat.div_add_mod (n + a - 1) a
    have h2 := Nat.mod_lt (n + a - 1) ha
    rw [Nat.mul_comm] at h; omega
  · have h := Nat.div_add_mod (n + a - 1) a
    rw [Nat.mul_comm] at h; omega

/-- C98, what holds.  `Align` is accepted if and only if it is a power of two.  For an array of `AlignedData<T, Align>`
objects anywhere the type may be placed: `data()` of each element is a multiple of `Align`, its `sizeof(T)` bytes lie
inside the element, so those of different elements do not overlap, and less than `Align` bytes are wasted.  If moreover
`alignof(T)` is not greater than `Align` (the full claim is without this), constructing a `T` is always defined, gives
the storage its representation, and touches nothing else; the default constructor zeroes the storage and touches
nothing else. -/
theorem aligned_data_partial (t : Ty) (align : Nat) (ht : accepts t.align = true) :
    (accepts align = true ↔ ∃ k, align = 2 ^ k) ∧
    ∀ a, accepts align = true → a % (dataTy t align).align = 0 → ∀ i,
      let e := element (dataTy t align) a i
      data e % align = 0 ∧ address e = data e ∧
      (e ≤ data e ∧ data e + t.size ≤ e + (dataTy t align).size ∧ (dataTy t align).size < t.size + align) ∧
      (∀ j p, i ≠ j → data e ≤ p → p < data e + t.size →
        ¬(data (element (dataTy t align) a j) ≤ p ∧ p < data (element (dataTy t align) a j) + t.size)) ∧
      (∀ m p, construct0 t m e p = if data e ≤ p ∧ p < data e + t.size then 0 else m p) ∧
      (t.align ≤ align → ∀ m bytes, ∃ m', construct t m e bytes = some m' ∧
        (∀ k, k < t.size → m' (data e + k) = bytes k) ∧
        ∀ p, ¬(data e ≤ p ∧ p < data e + t.size) → m' p = m p) := by
  refine ⟨accepts_iff align, ?_⟩
  intro a hacc ha i
  obtain ⟨k, hk⟩ := (accepts_iff _).mp hacc
  obtain ⟨l, hl⟩ := (accepts_iff _).mp ht
  have hpos : 0 < align := by rw [hk]; exact Nat.pow_pos (by omega)
  obtain ⟨r1, r2, r3⟩ := roundUp_spec t.size align hpos
  have ha' : align ∣ a := Nat.dvd_of_mod_eq_zero ha
  have he : align ∣ element (dataTy t align) a i := by
    refine (Nat.dvd_add_right ha').mpr ?_
    exact Dvd.dvd.mul_left r1 i
  refine ⟨Nat.mod_eq_zero_of_dvd he, rfl, ⟨le_refl _, ?_, r3⟩, ?_, fun _ _ => rfl, ?_⟩
  · exact Nat.add_le_add_left r2 _
  · intro j p hij h1 h2 ⟨h3, h4⟩
    unfold data address element dataTy at h1 h2 h3 h4
    simp only at h1 h2 h3 h4
    rcases Nat.lt_or_gt_of_ne hij with h | h
    · have : (i + 1) * roundUp t.size align ≤ j * roundUp t.size align := Nat.mul_le_mul_right _ h
      rw [Nat.add_mul, Nat.one_mul] at this
      omega
    · have : (j + 1) * roundUp t.size align ≤ i * roundUp t.size align := Nat.mul_le_mul_right _ h
      rw [Nat.add_mul, Nat.one_mul] at this
      omega
  · intro hle m bytes
    have hd : t.align ∣ align := by
      rw [hk, hl] at hle ⊢
      exact pow_dvd_pow 2 ((Nat.pow_le_pow_iff_right (by omega)).mp hle)
    have h0 : data (element (dataTy t align) a i) % t.align = 0 := Nat.mod_eq_zero_of_dvd (hd.trans he)
    unfold construct constructAt
    rw [if_pos h0]
    refine ⟨_, rfl, fun k hk => ?_, fun p hp => ?_⟩
    · rw [if_pos ⟨by omega, by omega⟩]
      congr 1; omega
    · rw [if_neg hp]
      unfold construct0
      exact if_neg hp

/-- `AlignedData<char[5], 4>` occupies 8 bytes. -/
example : (dataTy ⟨5, 1⟩ 4).size = 8 ∧ accepts 4 = true ∧ accepts 6 = false := by decide

/-- C98 is false for every `Align` below `alignof(T)`: it is accepted, but at address `Align`, where an `AlignedData`
may be placed, constructing the `T` is undefined. -/
theorem aligned_data_wrong (t : Ty) (align : Nat) (h : accepts align = true)
    (hlt : align < t.align) (m : Mem) (bytes : Nat → UInt8) :
    align % (dataTy t align).align = 0 ∧ construct t m align bytes = none := by
  obtain ⟨k, hk⟩ := (accepts_iff _).mp h
  have hpos : 0 < align := by rw [hk]; exact Nat.pow_pos (by omega)
  refine ⟨Nat.mod_self _, ?_⟩
  unfold construct constructAt data address
  rw [if_neg]
  rw [Nat.mod_eq_of_lt hlt]; omega

/-- `AlignedData<double, 4>`. -/
example (m : Mem) : construct ⟨8, 8⟩ m 4 (fun _ => 1) = none :=
  (aligned_data_wrong ⟨8, 8⟩ 4 (by decide) (by decide) m _).2

end Verif.AD
