import Verif.Core.ReverseIterator
import Mathlib.Order.Compare
import Mathlib.Tactic.Linarith

/-! # Properties of `ReverseIterator` -/

set_option autoImplicit false

namespace Verif.RevIt

variable {α : Type}

/-- The iterator at position `i` of the reversed sequence of `n` elements: made from the underlying iterator that is
`i` steps before the end. -/
def at_ (n i : Nat) : It := ⟨n - i⟩

theorem move_ok {n p : Nat} {k : Int} (h0 : 0 ≤ (p : Int) + k) (h1 : (p : Int) + k ≤ n) :
    move n p k = some ((p : Int) + k).toNat := if_pos ⟨h0, h1⟩

theorem move_none {n p : Nat} {k : Int} (h : (p : Int) + k < 0 ∨ (n : Int) < (p : Int) + k) : move n p k = none := by
  unfold move
  exact if_neg (by omega)

theorem star_at (xs : List α) {i : Nat} (h : i ≤ xs.length) : (at_ xs.length i).star xs = xs.reverse[i]? := by
  unfold at_ It.star
  simp only
  by_cases hi : i < xs.length
  · rw [move_ok (by omega) (by omega), List.getElem?_reverse hi]
    simp only [Option.bind_some, deref]
    congr 1
    omega
  · rw [move_none (by omega), List.getElem?_eq_none (by simp; omega)]
    rfl

theorem add_at {n i : Nat} (h : i ≤ n) (k : Int) :
    (at_ n i).add n k = if 0 ≤ (i : Int) + k ∧ (i : Int) + k ≤ n then some (at_ n ((i : Int) + k).toNat) else none := by
  unfold It.add at_
  split
  · rename_i hc
    rw [move_ok (by simp only; omega) (by simp only; omega)]
    simp only [Option.map_some, Option.some.injEq, It.mk.injEq]
    omega
  · rename_i hc
    rw [move_none (by simp only; omega)]; rfl

/-- C54. `*`, `->`, `[]`, `+`, `-`, `++`, `--` and difference are those of the reversed sequence: for an iterator at position
`i` of it, with undefined behaviour exactly when the reversed sequence is left. -/
theorem reverse_iterator_laws (xs : List α) {i j : Nat} (hi : i ≤ xs.length) (hj : j ≤ xs.length) :
    (at_ xs.length i).star xs = xs.reverse[i]? ∧
    (∀ k : Int, (at_ xs.length i).add xs.length k =
      if 0 ≤ (i : Int) + k ∧ (i : Int) + k ≤ xs.length then some (at_ xs.length ((i : Int) + k).toNat) else none) ∧
    (∀ k : Int, (at_ xs.length i).sub xs.length k = (at_ xs.length i).add xs.length (-k) ∧
      It.rsub xs.length k (at_ xs.length i) = (at_ xs.length i).add xs.length (-k)) ∧
    (at_ xs.length i).inc xs.length = (at_ xs.length i).add xs.length 1 ∧
    (at_ xs.length i).dec xs.length = (at_ xs.length i).add xs.length (-1) ∧
    (at_ xs.length i).postInc xs.length = ((at_ xs.length i).add xs.length 1).map (fun r => (at_ xs.length i, r)) ∧
    (at_ xs.length i).postDec xs.length = ((at_ xs.length i).add xs.length (-1)).map (fun r => (at_ xs.length i, r)) ∧
    (∀ k : Int, (at_ xs.length i).index xs k = if 0 ≤ (i : Int) + k then xs.reverse[((i : Int) + k).toNat]? else none) ∧
    ((at_ xs.length i).arrow xs.length).bind (fun p => xs[p]?) = xs.reverse[i]? ∧
    (at_ xs.length j).diff (at_ xs.length i) = (j : Int) - i ∧
    ((at_ xs.length i).eq (at_ xs.length j) = true ↔ i = j) := by
  refine ⟨star_at xs hi, add_at hi, fun k => ?_, rfl, rfl, rfl, rfl, fun k => ?_, star_at xs hi, ?_, ?_⟩
  · simp [It.sub, It.rsub, It.add]
  · unfold It.index
    rw [add_at hi]
    by_cases h0 : 0 ≤ (i : Int) + k
    · rw [if_pos h0]
      by_cases h1 : (i : Int) + k ≤ xs.length
      · rw [if_pos ⟨h0, h1⟩]
        exact star_at xs (by omega)
      · rw [if_neg (by omega), List.getElem?_eq_none (by simp; omega)]
        rfl
    · rw [if_neg (by omega), if_neg h0]
      rfl
  · simp only [It.diff, at_]; omega
  · simp only [It.eq, at_, beq_iff_eq]; omega

/-- C54. Iterating from the reversed end to the reversed beginning yields the elements in opposite order. -/
theorem reverse_iterator_traverses (xs : List α) {fuel : Nat} (hf : xs.length < fuel) :
    traverse xs fuel ⟨xs.length⟩ ⟨0⟩ = some xs.reverse := by
  have : ∀ (fuel i : Nat), i ≤ xs.length → xs.length - i < fuel →
      traverse xs fuel (at_ xs.length i) ⟨0⟩ = some (xs.reverse.drop i) := by
    intro fuel
    induction fuel with
    | zero => intro i _ h; omega
    | succ fuel ih =>
      intro i hi hf
      unfold traverse
      by_cases he : i = xs.length
      · rw [if_pos (by simp [It.eq, at_, he]), List.drop_eq_nil_of_le (by simp [he])]
      · have hi' : i < xs.length := by omega
        rw [if_neg (by simp [It.eq, at_]; omega), star_at xs hi]
        have hinc : (at_ xs.length i).inc xs.length = some (at_ xs.length (i + 1)) := by
          show (at_ xs.length i).add xs.length 1 = _
          rw [add_at hi, if_pos ⟨by omega, by omega⟩]
          rfl
        rw [hinc]
        have hr : i < xs.reverse.length := by simpa using hi'
        rw [List.getElem?_eq_getElem hr]
        simp only [Option.bind_eq_bind, Option.bind_some]
        rw [ih (i + 1) (by omega) (by omega)]
        simp only [Option.bind_some]
        rw [List.drop_eq_getElem_cons hr]
        rfl
  have h := this fuel 0 (by omega) (by omega)
  simpa [at_] using h

/-- C55, what holds. The full claim is "`a < b` exactly when `b` is reached from `a` by incrementing"; only "neither is
less exactly when they are equal" and "one of two different iterators is less" remain. -/
theorem reverse_iterator_order_partial {n i j : Nat} (hi : i ≤ n) (hj : j ≤ n) :
    ((at_ n i).cmp (at_ n j) = .eq ↔ i = j) ∧
    ((at_ n i).cmp (at_ n j) = .lt ↔ (at_ n j).cmp (at_ n i) = .gt) := by
  unfold It.cmp at_
  simp only [compare_eq_iff_eq, compare_lt_iff_lt, compare_gt_iff_gt]
  exact ⟨by omega, trivial⟩

/-- C55 is false for all pairs: `a < b` holds exactly when `a` is reached from `b`, not `b` from `a`. -/
theorem reverse_iterator_order_wrong {n i j : Nat} :
    ((at_ n i).cmp (at_ n j) = .lt ↔ (at_ n j).diff (at_ n i) < 0) ∧
    ((at_ n i).cmp (at_ n j) = .gt ↔ (at_ n j).diff (at_ n i) > 0) := by
  unfold It.cmp It.diff at_
  simp only [compare_lt_iff_lt, compare_gt_iff_gt]
  omega

/-- C55. Comparing iterators of different types (`iterator` with `const_iterator`) is wrong the same way, and undefined
for the reversed end: a position before the first element is formed. -/
theorem reverse_iterator_mixed_wrong {n i j : Nat} (hi : i ≤ n) (hj : j ≤ n) :
    ((at_ n i).eqMixed n (at_ n j) = none ↔ i = n ∨ j = n) ∧
    ((at_ n i).cmpMixed n (at_ n j) = none ↔ i = n ∨ j = n) ∧
    (i < n → j < n → (at_ n i).eqMixed n (at_ n j) = some (decide (i = j)) ∧
      (at_ n i).cmpMixed n (at_ n j) = some (compare j i)) := by
  have ha : ∀ k ≤ n, (at_ n k).arrow n = if k = n then none else some (n - k - 1) := by
    intro k hk
    unfold It.arrow at_
    split
    · rw [move_none (by simp only; omega)]
    · rw [move_ok (by simp only; omega) (by simp only; omega)]
      simp only [Option.some.injEq]
      omega
  unfold It.eqMixed It.cmpMixed
  rw [ha i hi, ha j hj]
  refine ⟨?_, ?_, fun h1 h2 => ?_⟩
  · by_cases h1 : i = n <;> by_cases h2 : j = n <;> simp [h1, h2]
  · by_cases h1 : i = n <;> by_cases h2 : j = n <;> simp [h1, h2]
  · rw [if_neg (by omega), if_neg (by omega)]
    refine ⟨?_, ?_⟩
    · simp only [Option.bind_eq_bind, Option.bind_some]
      show some _ = _
      congr 1
      by_cases h : i = j
      · simp [h]
      · have : ¬ n - i - 1 = n - j - 1 := by omega
        simp [h, this]
    · simp only [Option.bind_eq_bind, Option.bind_some]
      show some _ = _
      congr 1
      rcases lt_trichotomy i j with h | h | h
      · rw [compare_gt_iff_gt.2 (show n - j - 1 < n - i - 1 by omega), compare_gt_iff_gt.2 h]
      · subst h; simp
      · rw [compare_lt_iff_lt.2 (show n - i - 1 < n - j - 1 by omega), compare_lt_iff_lt.2 h]

/-! ### Cases -/

example : traverse [1, 2, 3] 4 ⟨3⟩ ⟨0⟩ = some [3, 2, 1] := by decide
/-- The first of two reversed positions is not less than the second. -/
example : (at_ 3 0).cmp (at_ 3 1) = .gt := by decide
example : (at_ 3 0).eqMixed 3 (at_ 3 3) = none := by decide

end Verif.RevIt
