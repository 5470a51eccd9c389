import Verif.Math.Alias
import Mathlib.Tactic.Ring
import Mathlib.Tactic.Linarith

/-! # Properties: operands that are the object itself or a part of it -/

set_option autoImplicit false

namespace Verif.Alias

variable {α : Type}

/-! ### Specification -/

/-- Objects of `n` cells at `a` and `b` are the same or do not overlap. -/
def SameOrApart (n a b : Nat) : Prop := a = b ∨ a + n ≤ b ∨ b + n ≤ a

/-- `m'` is `m` with `x op w` in place of each cell `x` of the `n` cells from `a`, where `w i` is the operand of the `i`-th. -/
def Updated (op : α → α → α) (n a : Nat) (w : Nat → α) (m m' : Mem α) : Prop :=
  (∀ i, i < n → m' (a + i) = op (m (a + i)) (w i)) ∧ ∀ q, q < a ∨ a + n ≤ q → m' q = m q

/-! ### Preparations -/

theorem loop_succ (n : Nat) (body : Nat → Mem α → Mem α) (m : Mem α) : loop (n + 1) body m = body n (loop n body m) := by
  simp [loop, List.range_succ]

theorem vecOp_eq (op : α → α → α) (n a b : Nat) (m : Mem α) : vecOp op n a b m = vec op n a b m := by
  unfold vecOp
  split <;> rfl

theorem vecOpS_eq (op : α → α → α) (n a : Nat) (s : α) (m : Mem α) : vecOpS op n a s m = vecS op n a s m := by
  unfold vecOpS
  split <;> rfl

theorem vecS_updated (op : α → α → α) (n a : Nat) (s : α) (m : Mem α) :
    Updated op n a (fun _ => s) m (vecS op n a s m) := by
  induction n with
  | zero => exact ⟨fun i hi => absurd hi (by omega), fun _ _ => rfl⟩
  | succ n ih =>
    unfold vecS at ih ⊢
    rw [loop_succ]
    generalize loop n (compS op a s) m = k at ih ⊢
    refine ⟨fun i hi => ?_, fun q hq => ?_⟩
    · unfold compS put
      by_cases h : i = n
      · subst h
        rw [if_pos rfl, ih.2 _ (Or.inr (Nat.le_refl _))]
      · rw [if_neg (by omega), ih.1 i (by omega)]
    · unfold compS put
      rw [if_neg (by omega), ih.2 q (by omega)]

theorem vec_updated (op : α → α → α) (n a b : Nat) (h : SameOrApart n a b) (m : Mem α) :
    Updated op n a (fun i => m (b + i)) m (vec op n a b m) := by
  induction n with
  | zero => exact ⟨fun i hi => absurd hi (by omega), fun _ _ => rfl⟩
  | succ n ih =>
    have h' : SameOrApart n a b := by unfold SameOrApart at h ⊢; omega
    specialize ih h'
    unfold vec at ih ⊢
    rw [loop_succ]
    generalize loop n (comp op a b) m = k at ih ⊢
    refine ⟨fun i hi => ?_, fun q hq => ?_⟩
    · unfold comp put
      by_cases hn : i = n
      · subst hn
        rw [if_pos rfl, ih.2 (a + i) (Or.inr (Nat.le_refl _)), ih.2 (b + i) (by unfold SameOrApart at h; omega)]
      · rw [if_neg (by omega), ih.1 i (by omega)]
    · unfold comp put
      rw [if_neg (by omega), ih.2 q (by omega)]

/-- The cell `i` of column `c` of a matrix. -/
theorem split_index {c r i : Nat} (hi : i < (c + 1) * r) : i < c * r ∨ ∃ j, j < r ∧ i = c * r + j := by
  rw [Nat.succ_mul] at hi
  by_cases h : i < c * r
  · exact Or.inl h
  · exact Or.inr ⟨i - c * r, by omega, by omega⟩

theorem matS_updated (op : α → α → α) (c r a : Nat) (s : α) (m : Mem α) :
    Updated op (c * r) a (fun _ => s) m (loop c (fun i => vecOpS op r (a + i * r) s) m) := by
  induction c with
  | zero => exact ⟨fun i hi => absurd hi (by omega), fun _ _ => rfl⟩
  | succ c ih =>
    rw [loop_succ]
    have hc := vecS_updated op r (a + c * r) s (loop c (fun i => vecOpS op r (a + i * r) s) m)
    rw [vecOpS_eq]
    refine ⟨fun i hi => ?_, fun q hq => ?_⟩
    · rcases split_index hi with h | ⟨j, hj, rfl⟩
      · rw [hc.2 _ (by omega), ih.1 i h]
      · rw [← Nat.add_assoc, hc.1 j hj, ih.2 _ (by omega)]
    · rw [Nat.succ_mul] at hq
      rw [hc.2 q (by omega), ih.2 q (by omega)]

theorem mat_updated (op : α → α → α) (c r a b : Nat) (h : SameOrApart (c * r) a b) (m : Mem α) :
    Updated op (c * r) a (fun i => m (b + i)) m (mat op c r a b m) := by
  induction c with
  | zero => exact ⟨fun i hi => absurd hi (by omega), fun _ _ => rfl⟩
  | succ c ih =>
    rw [Nat.succ_mul] at h
    have h' : SameOrApart (c * r) a b := by unfold SameOrApart at h ⊢; omega
    specialize ih h'
    unfold mat at ih ⊢
    rw [loop_succ]
    have hc := vec_updated op r (a + c * r) (b + c * r) (by unfold SameOrApart at h ⊢; omega)
      (loop c (fun i => vecOp op r (a + i * r) (b + i * r)) m)
    rw [vecOp_eq]
    refine ⟨fun i hi => ?_, fun q hq => ?_⟩
    · rcases split_index hi with h1 | ⟨j, hj, rfl⟩
      · rw [hc.2 _ (by omega), ih.1 i h1]
      · rw [← Nat.add_assoc, hc.1 j hj, ih.2 _ (by omega)]
        dsimp only
        rw [← Nat.add_assoc, ih.2 _ (by unfold SameOrApart at h; omega)]
    · rw [Nat.succ_mul] at hq
      rw [hc.2 q (by omega), ih.2 q (by omega)]

/-! ### C156 -/

/-- C156, vectors. `v op= w` gives each component the value `v[i] op w[i]` of the old components and changes nothing else,
whether `w` is another vector, the vector `v` itself or another column of the same matrix. `v op= x` does the same for
every number `x` in memory, also one of the components of `v`. -/
theorem alias_vector (op : α → α → α) (n a : Nat) (m : Mem α) :
    (∀ b, SameOrApart n a b → Updated op n a (fun i => m (b + i)) m (vecOp op n a b m)) ∧
    ∀ p, Updated op n a (fun _ => m p) m (vecCell op n a p m) := by
  refine ⟨fun b h => ?_, fun p => ?_⟩
  · rw [vecOp_eq]; exact vec_updated op n a b h m
  · unfold vecCell
    dsimp only
    rw [vecOpS_eq]; exact vecS_updated op n a (m p) m

/-- C156, matrices. The same for matrices: the operand of `k += l` may be `k` itself, the number in `k /= x` may be one of
its components. -/
theorem alias_matrix (op : α → α → α) (c r a : Nat) (m : Mem α) :
    (∀ b, SameOrApart (c * r) a b → Updated op (c * r) a (fun i => m (b + i)) m (mat op c r a b m)) ∧
    ∀ p, Updated op (c * r) a (fun _ => m p) m (matCell op c r a p m) :=
  ⟨fun b h => mat_updated op c r a b h m, fun p => matS_updated op c r a (m p) m⟩

/-- C156, a number of a vector and a vector of a matrix: dividing a vector by one of its components makes that component
`x / x` and a column taken from itself is `x - x` everywhere, for any division and subtraction. -/
theorem alias_self (div sub : α → α → α) (n a k : Nat) (hk : k < n) (m : Mem α) :
    vecCell div n a (a + k) m (a + k) = div (m (a + k)) (m (a + k)) ∧
    (∀ i, i < n → vecCell div n a (a + k) m (a + i) = div (m (a + i)) (m (a + k))) ∧
    ∀ i, i < n → vecOp sub n a a m (a + i) = sub (m (a + i)) (m (a + i)) :=
  ⟨((alias_vector div n a m).2 (a + k)).1 k hk, fun i hi => ((alias_vector div n a m).2 (a + k)).1 i hi,
    fun i hi => ((alias_vector sub n a m).1 a (Or.inl rfl)).1 i hi⟩

/-! ### The hypotheses can be met -/

section Examples

/-- `v /= v[0]` for `(4, 8, 12)`, and `k[1] -= k[0]` in a matrix with the columns `(1, 2)`, `(10, 20)`. -/
example : (List.range 3).map (vecCell (α := Nat) (· / ·) 3 0 0 fun q => [4, 8, 12].getD q 0) = [1, 2, 3] ∧
    SameOrApart 2 2 0 ∧
    (List.range 4).map (vecOp (α := Int) (· - ·) 2 2 0 fun q => [1, 2, 10, 20].getD q 0) = [1, 2, 9, 18] :=
  ⟨by decide, by unfold SameOrApart; omega, by decide⟩

/-- `k += k` for a matrix of two columns of five components. -/
example : (List.range 10).map (mat (α := Nat) (· + ·) 2 5 0 0 id) = [0, 2, 4, 6, 8, 10, 12, 14, 16, 18] := by decide

end Examples

end Verif.Alias
