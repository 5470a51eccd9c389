import Verif.Hal.Simd
import Mathlib.Data.Nat.Bitwise
import Mathlib.Tactic.IntervalCases

/-! # Properties of the SIMD configuration -/

set_option autoImplicit false

namespace Verif.Simd

/-- The order in which the instruction sets extend one another. -/
def rank : Isa → Nat
  | .mmx => 0 | .sse => 1 | .sse2 => 2 | .sse3 => 3 | .ssse3 => 4
  | .sse41 => 5 | .sse42 => 6 | .avx => 7 | .avx2 => 8 | .avx512f => 9

/-- Each block finds the macro of its instruction set defined if the user or the block before defined it. -/
theorem block_use (i : Isa) (next : Option Isa) (s : PP) :
    (block i next s).use = Function.update s.use i (some (s.enable i)) := by
  unfold block
  cases s.enable i <;> rfl

theorem block_enable (i n : Isa) (s : PP) :
    (block i (some n) s).enable = Function.update s.enable n (s.enable n || s.enable i) := by
  unfold block
  cases h : s.enable i
  · simp
  · simp

theorem use_eq (e : Defs) :
    (use e .avx512f = e .avx512f) ∧
    (use e .avx2 = (e .avx2 || use e .avx512f)) ∧
    (use e .avx = (e .avx || use e .avx2)) ∧
    (use e .sse42 = (e .sse42 || use e .avx)) ∧
    (use e .sse41 = (e .sse41 || use e .sse42)) ∧
    (use e .ssse3 = (e .ssse3 || use e .sse41)) ∧
    (use e .sse3 = (e .sse3 || use e .ssse3)) ∧
    (use e .sse2 = (e .sse2 || use e .sse3)) ∧
    (use e .sse = (e .sse || use e .sse2)) ∧
    (use e .mmx = (e .mmx || use e .sse)) := by
  unfold use blocks
  simp only [block_use, block_enable, Function.update_apply]
  simp

/-- C80. Whatever the user defines: an instruction set is in use exactly when it or one that extends it was enabled. -/
theorem simd_use_iff (e : Defs) (i : Isa) : use e i = true ↔ ∃ j, rank i ≤ rank j ∧ e j = true := by
  obtain ⟨h9, h8, h7, h6, h5, h4, h3, h2, h1, h0⟩ := use_eq e
  have all : ∀ P : Isa → Prop, (∃ j, P j) ↔ P .mmx ∨ P .sse ∨ P .sse2 ∨ P .sse3 ∨ P .ssse3 ∨ P .sse41 ∨ P .sse42 ∨
      P .avx ∨ P .avx2 ∨ P .avx512f := by
    intro P
    constructor
    · rintro ⟨j, hj⟩; cases j <;> simp [hj]
    · rintro (h | h | h | h | h | h | h | h | h | h) <;> exact ⟨_, h⟩
  rw [all]
  cases i
  · rw [h0, h1, h2, h3, h4, h5, h6, h7, h8, h9]; simp [rank]
  · rw [h1, h2, h3, h4, h5, h6, h7, h8, h9]; simp [rank]
  · rw [h2, h3, h4, h5, h6, h7, h8, h9]; simp [rank]
  · rw [h3, h4, h5, h6, h7, h8, h9]; simp [rank]
  · rw [h4, h5, h6, h7, h8, h9]; simp [rank]
  · rw [h5, h6, h7, h8, h9]; simp [rank]
  · rw [h6, h7, h8, h9]; simp [rank]
  · rw [h7, h8, h9]; simp [rank]
  · rw [h8, h9]; simp [rank]
  · rw [h9]; simp [rank]

/-- C80. Enabling an instruction set enables all its predecessors. -/
theorem simd_downward_closed (e : Defs) (i j : Isa) (h : use e i = true) (hj : rank j ≤ rank i) : use e j = true := by
  rw [simd_use_iff] at h ⊢
  obtain ⟨k, hk, he⟩ := h
  exact ⟨k, le_trans hj hk, he⟩

theorem flag_eq (i : Isa) : flag i = 2 ^ rank i := by cases i <;> rfl

theorem testBit_toNat (b : Bool) (i : Isa) (k : Nat) : (b.toNat * flag i).testBit k = (b && decide (rank i = k)) := by
  rw [flag_eq]
  cases b
  · simp
  · simp [Nat.testBit_two_pow]

theorem testBit_flagSet (b : Isa → Bool) (i : Isa) : (flagSet b).testBit (rank i) = b i := by
  unfold flagSet
  simp only [Nat.testBit_or, testBit_toNat]
  cases i <;> simp [rank]

/-- C80. The flag sets report exactly the instruction sets in use, and those the compiler supports: testing with
`enabled_simd & flag` gives the flag or nothing. -/
theorem simd_flags (e c : Defs) (i : Isa) :
    (andE (enabled e) (flag i) = if use e i then flag i else 0) ∧
    (andE (supported c) (flag i) = if c i then flag i else 0) := by
  have key : ∀ b : Isa → Bool, andE (flagSet b) (flag i) = if b i then flag i else 0 := by
    intro b
    unfold andE
    rw [flag_eq, Nat.and_two_pow, testBit_flagSet]
    cases b i <;> simp
  refine ⟨key _, ?_⟩
  unfold supported
  rw [key]
  simp [has]

/-- C80. The operators are union and intersection of flag sets. -/
theorem simd_operators (a b : Isa → Bool) :
    orE (flagSet a) (flagSet b) = flagSet (fun i => a i || b i) ∧
    andE (flagSet a) (flagSet b) = flagSet (fun i => a i && b i) := by
  have high : ∀ (f : Isa → Bool) (k : Nat), (flagSet f).testBit k =
      (f .mmx && decide (0 = k) || f .sse && decide (1 = k) || f .sse2 && decide (2 = k) || f .sse3 && decide (3 = k) ||
        f .ssse3 && decide (4 = k) || f .sse41 && decide (5 = k) || f .sse42 && decide (6 = k) ||
        f .avx && decide (7 = k) || f .avx2 && decide (8 = k) || f .avx512f && decide (9 = k)) := by
    intro f k
    unfold flagSet
    simp only [Nat.testBit_or, testBit_toNat]
    rfl
  have cover : ∀ k : Nat, (∃ i, rank i = k) ∨ ∀ f : Isa → Bool, (flagSet f).testBit k = false := by
    intro k
    by_cases hk : k < 10
    · left
      interval_cases k
      exacts [⟨.mmx, rfl⟩, ⟨.sse, rfl⟩, ⟨.sse2, rfl⟩, ⟨.sse3, rfl⟩, ⟨.ssse3, rfl⟩, ⟨.sse41, rfl⟩, ⟨.sse42, rfl⟩,
        ⟨.avx, rfl⟩, ⟨.avx2, rfl⟩, ⟨.avx512f, rfl⟩]
    · right
      intro f
      rw [high]
      have h : ∀ n, n < 10 → decide (n = k) = false := fun n hn => decide_eq_false (by omega)
      simp [h 0, h 1, h 2, h 3, h 4, h 5, h 6, h 7, h 8, h 9]
  constructor <;> apply Nat.eq_of_testBit_eq <;> intro k
  · unfold orE
    rw [Nat.testBit_or]
    rcases cover k with ⟨i, rfl⟩ | h
    · simp only [testBit_flagSet]
    · simp [h]
  · unfold andE
    rw [Nat.testBit_and]
    rcases cover k with ⟨i, rfl⟩ | h
    · simp only [testBit_flagSet]
    · simp [h]

/-! ### Cases -/

example : use (fun i => i == .sse3) .sse2 = true ∧ use (fun i => i == .sse3) .ssse3 = false := by decide
example : enabled (fun i => i == .sse3) = 0xf := by decide

end Verif.Simd
