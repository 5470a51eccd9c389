import Verif.Algo.Builds
import Verif.Hal.SimdProps

/-!
C146: enabling instruction sets, the calls of `find` and `reverse` that compile and the instructions used.
-/

set_option autoImplicit false

namespace Verif.Algo.Builds

open Verif.Simd

/-- Some macro of this instruction set or of a later one is defined. -/
def On (e : Defs) (i : Isa) : Prop := ∃ j, rank i ≤ rank j ∧ e j = true

theorem use_on (e : Defs) (i : Isa) : use e i = true ↔ On e i := simd_use_iff e i

theorem On.mono {e : Defs} {i j : Isa} (h : On e i) (hr : rank j ≤ rank i) : On e j := by
  obtain ⟨k, hk, he⟩ := h
  exact ⟨k, le_trans hr hk, he⟩

/-- The elements of a call lie one behind the other and the policy lets `find` use vectors. -/
def Call.Vector (c : Call) : Prop := c.cat = .contiguous ∧ c.unsequenced = true

/-- An intrinsic of a set that is not enabled. -/
def Foreign (e : Defs) (l : List Isa) : Prop := ∃ i ∈ l, ¬On e i

/-- C146, `find`, exactly: which calls compile. -/
theorem find_compiles_exact (e : Defs) (c : Call) :
    (∃ l, find e c = some l) ↔
      c.comparable = true ∧ (On e .sse2 → c.Vector → c.common = true ∧ (c.size = 1 ∨ c.size = 2 ∨ c.size = 4 ∨ c.size = 8)) := by
  have h2 := use_on e .sse2
  have ha := use_on e .avx2
  have mono : On e .avx2 → On e .sse2 := fun h => h.mono (by decide)
  unfold find findSimd Call.Vector
  dsimp only
  by_cases o2 : On e .sse2
  · rw [h2.mpr o2]
    simp only [Bool.or_true, if_true, o2, true_implies]
    by_cases hv : c.cat = .contiguous ∧ c.unsequenced = true
    · rw [if_pos hv]
      simp only [hv, and_self, true_implies]
      by_cases hsz : c.size = 1 ∨ c.size = 2 ∨ c.size = 4 ∨ c.size = 8
      · rw [if_pos hsz]
        by_cases hc : c.common = true ∧ c.comparable = true
        · rw [if_pos hc]
          simp only [hc.1, hc.2, hsz, and_self, iff_true]
          rcases hsz with h | h | h | h <;> rw [h] <;> cases use e .avx2 <;> exact ⟨_, rfl⟩
        · rw [if_neg hc]
          simp only [reduceCtorEq, exists_false, false_iff]
          tauto
      · rw [if_neg hsz]
        simp only [reduceCtorEq, exists_false, false_iff]
        tauto
    · rw [if_neg hv]
      simp only [hv, false_implies, and_true]
      cases c.comparable <;> simp
  · have n2 : use e .sse2 = false := by rw [← Bool.not_eq_true, h2]; exact o2
    have na : use e .avx2 = false := by rw [← Bool.not_eq_true, ha]; exact fun h => o2 (mono h)
    rw [n2, na]
    simp only [Bool.or_false, Bool.false_eq_true, if_false, o2, false_implies, and_true]
    cases c.comparable <;> simp

/-- C146, `find`, exactly: it uses an intrinsic of an instruction set that is not enabled for elements of eight bytes in a
build with SSE2 but without SSE4.1, and nowhere else. -/
theorem find_instructions_exact (e : Defs) (c : Call) (l : List Isa) (h : find e c = some l) :
    Foreign e l ↔ On e .sse2 ∧ ¬On e .sse41 ∧ c.Vector ∧ c.size = 8 := by
  have h2 := use_on e .sse2
  have ha := use_on e .avx2
  have m1 : On e .avx2 → On e .avx := fun h => h.mono (by decide)
  have m2 : On e .avx2 → On e .sse41 := fun h => h.mono (by decide)
  have m3 : On e .sse2 → On e .sse := fun h => h.mono (by decide)
  have m4 : On e .avx2 → On e .sse2 := fun h => h.mono (by decide)
  unfold find findSimd at h
  dsimp only at h
  unfold Foreign Call.Vector
  by_cases o2 : On e .sse2
  · rw [h2.mpr o2] at h
    simp only [Bool.or_true, if_true] at h
    by_cases hv : c.cat = .contiguous ∧ c.unsequenced = true
    · rw [if_pos hv] at h
      by_cases hsz : c.size = 1 ∨ c.size = 2 ∨ c.size = 4 ∨ c.size = 8
      · rw [if_pos hsz] at h
        by_cases hc : c.common = true ∧ c.comparable = true
        · rw [if_pos hc] at h
          by_cases oa : On e .avx2
          · rw [ha.mpr oa] at h
            rcases hsz with hs | hs | hs | hs <;> simp [hs] at h <;> subst h <;> simp [m1 oa, m2 oa, oa]
          · have na : use e .avx2 = false := by rw [← Bool.not_eq_true, ha]; exact oa
            rw [na] at h
            rcases hsz with hs | hs | hs | hs <;> simp [hs] at h <;> subst h <;> simp [m3 o2, o2, hs, hv]
        · rw [if_neg hc] at h; cases h
      · rw [if_neg hsz] at h; cases h
    · rw [if_neg hv] at h
      simp only [hv, false_and, and_false, iff_false]
      split at h
      · cases h; simp
      · cases h
  · have n2 : use e .sse2 = false := by rw [← Bool.not_eq_true, h2]; exact o2
    have na : use e .avx2 = false := by rw [← Bool.not_eq_true, ha]; exact fun h => o2 (m4 h)
    rw [n2, na] at h
    simp only [Bool.or_false, Bool.false_eq_true, if_false] at h
    simp only [o2, false_and, iff_false]
    split at h
    · cases h; simp
    · cases h

/-- C146, `reverse`, exactly: which calls compile. -/
theorem reverse_compiles_exact (e : Defs) (c : Call) :
    (∃ l, reverse e c = some l) ↔
      c.swappable = true ∧ 2 ≤ c.cat.rank ∧
      (On e .sse3 → c.cat = .contiguous → c.common = true ∧ (c.size = 1 ∨ c.size = 2 ∧ ¬On e .avx2)) := by
  have h3 := use_on e .sse3
  have ha := use_on e .avx2
  have mono : On e .avx2 → On e .sse3 := fun h => h.mono (by decide)
  unfold reverse reverseSimd
  dsimp only
  simp only [Option.map_eq_some_iff]
  have swap : ∀ x : Option (List Isa), (∃ l a, x = some a ∧ Isa.sse2 :: a = l) ↔ x.isSome = true := by
    intro x; cases x <;> simp
  rw [swap]
  by_cases o3 : On e .sse3
  · rw [h3.mpr o3]
    simp only [Bool.or_true, if_true, o3, true_implies]
    by_cases hv : c.cat = .contiguous
    · rw [if_pos hv]
      simp only [hv, true_implies]
      have hr : 2 ≤ Category.contiguous.rank := by decide
      simp only [hr, true_and]
      by_cases oa : On e .avx2
      · rw [ha.mpr oa]
        simp only [oa, if_true, not_true, and_false, or_false]
        by_cases hs : c.size = 1
        · simp only [hs, true_or, if_true, and_true]
          by_cases hc : c.common = true ∧ c.swappable = true
          · simp [hc]
          · rw [if_neg hc]; simp only [Option.isSome_none, Bool.false_eq_true, false_iff]; tauto
        · simp only [hs, if_false, and_false, iff_false, false_or]
          split <;> simp
      · have na : use e .avx2 = false := by rw [← Bool.not_eq_true, ha]; exact oa
        rw [na]
        simp only [oa, not_false_eq_true, and_true, Bool.false_eq_true, if_false]
        by_cases hs : c.size = 1 ∨ c.size = 2
        · have hs' : c.size = 1 ∨ c.size = 2 ∨ c.size = 4 ∨ c.size = 8 := by tauto
          rw [if_pos hs']
          by_cases hc : c.common = true ∧ c.swappable = true
          · rw [if_pos hc]
            rcases hs with h | h <;> simp [h, hc]
          · rw [if_neg hc]; simp only [Option.isSome_none, Bool.false_eq_true, false_iff]; tauto
        · simp only [hs, and_false, iff_false]
          push Not at hs
          rw [if_neg hs.1, if_neg hs.2]
          split <;> simp
    · rw [if_neg hv]
      simp only [hv, false_implies, and_true]
      split
      · rename_i h; simp [h.2]; exact h.1
      · rename_i h; simp only [Option.isSome_none, Bool.false_eq_true, false_iff]; exact fun h' => h ⟨h'.2, h'.1⟩
  · have n3 : use e .sse3 = false := by rw [← Bool.not_eq_true, h3]; exact o3
    have na : use e .avx2 = false := by rw [← Bool.not_eq_true, ha]; exact fun h => o3 (mono h)
    rw [n3, na]
    simp only [Bool.or_false, Bool.false_eq_true, if_false, o3, false_implies, and_true]
    split
    · rename_i h; simp [h.2]; exact h.1
    · rename_i h; simp only [Option.isSome_none, Bool.false_eq_true, false_iff]; exact fun h' => h ⟨h'.2, h'.1⟩

/-- C146, `reverse`, exactly: the header needs SSE2 in every build, and bytes need SSSE3 in a build with SSE3. -/
theorem reverse_instructions_exact (e : Defs) (c : Call) (l : List Isa) (h : reverse e c = some l) :
    Foreign e l ↔ ¬On e .sse2 ∨ (On e .sse3 ∧ ¬On e .ssse3 ∧ c.cat = .contiguous ∧ c.size = 1) := by
  have h3 := use_on e .sse3
  have ha := use_on e .avx2
  have m1 : On e .avx2 → On e .avx := fun h => h.mono (by decide)
  have m2 : On e .avx2 → On e .ssse3 := fun h => h.mono (by decide)
  have m3 : On e .sse3 → On e .sse2 := fun h => h.mono (by decide)
  have m4 : On e .avx2 → On e .sse3 := fun h => h.mono (by decide)
  unfold reverse reverseSimd at h
  dsimp only at h
  rw [Option.map_eq_some_iff] at h
  obtain ⟨k, h, rfl⟩ := h
  unfold Foreign
  by_cases o3 : On e .sse3
  · rw [h3.mpr o3] at h
    simp only [Bool.or_true, if_true] at h
    by_cases hv : c.cat = .contiguous
    · rw [if_pos hv] at h
      split at h
      · split at h
        · by_cases oa : On e .avx2
          · rw [ha.mpr oa] at h
            simp only [if_true] at h
            split at h
            · cases h; simp [m1 oa, m2 oa, oa, m3 o3]
            · cases h
          · have na : use e .avx2 = false := by rw [← Bool.not_eq_true, ha]; exact oa
            rw [na] at h
            simp only [Bool.false_eq_true, if_false] at h
            split at h
            · rename_i hs; cases h; simp [m3 o3, o3, hs, hv]
            · rename_i hs
              split at h
              · cases h; simp [m3 o3, hs]
              · cases h
        · cases h
      · cases h
    · rw [if_neg hv] at h
      split at h
      · cases h; simp [m3 o3, hv]
      · cases h
  · have n3 : use e .sse3 = false := by rw [← Bool.not_eq_true, h3]; exact o3
    have na : use e .avx2 = false := by rw [← Bool.not_eq_true, ha]; exact fun h => o3 (m4 h)
    rw [n3, na] at h
    simp only [Bool.or_false, Bool.false_eq_true, if_false] at h
    split at h
    · cases h; simp [o3]
    · cases h

/-- C146, what holds. The full claim is "whatever is enabled, the same calls compile, and only enabled instruction sets are
used". It holds for `find` with iterators of one type over elements of 1, 2 and 4 bytes, for every call of `find` that is
not contiguous or has another policy, and for `reverse` of bytes when SSSE3 or more is enabled. -/
theorem builds_partial (e : Defs) (c : Call) :
    (c.comparable = true → c.Vector → c.common = true → c.size = 1 ∨ c.size = 2 ∨ c.size = 4 →
      ∃ l, find e c = some l ∧ ∀ i ∈ l, On e i) ∧
    (c.comparable = true → ¬c.Vector → ∃ l, find e c = some l ∧ ∀ i ∈ l, On e i) ∧
    (c.swappable = true → c.cat = .contiguous → c.common = true → c.size = 1 → On e .ssse3 →
      ∃ l, reverse e c = some l ∧ ∀ i ∈ l, On e i) := by
  have nf : ∀ l, ¬Foreign e l → ∀ i ∈ l, On e i := fun l h i hi => by
    by_contra hn; exact h ⟨i, hi, hn⟩
  refine ⟨fun h1 h2 h3 h4 => ?_, fun h1 h2 => ?_, fun h1 h2 h3 h4 h5 => ?_⟩
  · obtain ⟨l, hl⟩ := (find_compiles_exact e c).mpr ⟨h1, fun _ _ => ⟨h3, by tauto⟩⟩
    refine ⟨l, hl, nf l ?_⟩
    rw [find_instructions_exact e c l hl]
    rintro ⟨-, -, -, h⟩
    omega
  · obtain ⟨l, hl⟩ := (find_compiles_exact e c).mpr ⟨h1, fun _ h => absurd h h2⟩
    refine ⟨l, hl, nf l ?_⟩
    rw [find_instructions_exact e c l hl]
    exact fun h => h2 h.2.2.1
  · obtain ⟨l, hl⟩ := (reverse_compiles_exact e c).mpr ⟨h1, by rw [h2]; decide, fun _ _ => ⟨h3, .inl h4⟩⟩
    refine ⟨l, hl, nf l ?_⟩
    rw [reverse_instructions_exact e c l hl]
    rintro (h | h)
    · exact h (h5.mono (by decide))
    · exact h.2.1 h5

/-- C146. Disagreements: in every build with AVX2, `reverse` does not compile for contiguous elements of any size but one byte,
which it does without; in every build with SSE2, `find` does not compile for contiguous elements of other sizes than 1, 2, 4
and 8 or with a sentinel, which it does without; `find` with SSE2 and `reverse` with SSE3 use instructions that were not
enabled. -/
theorem builds_wrong (e : Defs) (c : Call) :
    (On e .avx2 → c.cat = .contiguous → c.size ≠ 1 → reverse e c = none ∧
      (c.swappable = true → ∃ l, reverse (fun _ => false) c = some l)) ∧
    (On e .sse2 → c.Vector → c.common = false ∨ c.size ∉ [1, 2, 4, 8] → find e c = none ∧
      (c.comparable = true → ∃ l, find (fun _ => false) c = some l)) ∧
    (∀ l, On e .sse2 → ¬On e .sse41 → c.Vector → c.size = 8 → find e c = some l → Foreign e l) ∧
    (∀ l, On e .sse3 → ¬On e .ssse3 → c.cat = .contiguous → c.size = 1 → reverse e c = some l → Foreign e l) := by
  have off : ∀ i, ¬On (fun _ => false) i := fun i ⟨_, _, h⟩ => by cases h
  have none_of : ∀ (x : Option (List Isa)), (¬∃ l, x = some l) → x = none := fun x h => by
    cases x with
    | none => rfl
    | some l => exact absurd ⟨l, rfl⟩ h
  refine ⟨fun h1 h2 h3 => ⟨none_of _ fun h => ?_, fun hs => ?_⟩, fun h1 h2 h3 => ⟨none_of _ fun h => ?_, fun hs => ?_⟩,
    fun l h1 h2 h3 h4 h5 => (find_instructions_exact e c l h5).mpr ⟨h1, h2, h3, h4⟩,
    fun l h1 h2 h3 h4 h5 => (reverse_instructions_exact e c l h5).mpr (.inr ⟨h1, h2, h3, h4⟩)⟩
  · have := ((reverse_compiles_exact e c).mp h).2.2 (h1.mono (by decide)) h2
    tauto
  · exact (reverse_compiles_exact _ c).mpr ⟨hs, by rw [h2]; decide, fun h => absurd h (off _)⟩
  · have := ((find_compiles_exact e c).mp h).2 h1 h2
    rcases h3 with h3 | h3
    · rw [h3] at this; exact absurd this.1 (by simp)
    · apply h3; simp; tauto
  · exact (find_compiles_exact _ c).mpr ⟨hs, fun h => absurd h (off _)⟩

/-! ### Cases -/

/-- A range of `int`s in an array: `find` compiles in the tests' build (AVX2), `reverse` does not. -/
def ints : Call := ⟨.contiguous, true, true, 4, true, true⟩

example : find (fun i => i = .avx2) ints = some [.avx, .avx2, .avx] ∧ reverse (fun i => i = .avx2) ints = none ∧
    reverse (fun _ => false) ints = some [.sse2] := by decide
example : On (fun i => i = .avx2) .sse2 ∧ ints.Vector := ⟨⟨.avx2, by decide, by decide⟩, rfl, rfl⟩
example : find (fun i => i = .sse2) { ints with size := 8 } = some [.sse2, .sse41, .sse2] := by decide
example : reverse (fun i => i = .sse3) { ints with size := 1 } = some [.sse2, .sse2, .sse2, .ssse3, .ssse3, .sse2, .sse2] := by
  decide
example : reverse (fun i => i = .ssse3) { ints with cat := .forward } = none := by decide

end Verif.Algo.Builds
