import Verif.Core.ConstIterator
import Mathlib.Order.Compare
import Mathlib.Tactic.Linarith

/-! # Properties of `ConstIterator` -/

set_option autoImplicit false

namespace Verif.ConstIt

open Verif.RevIt (move deref)

variable {α : Type}

/-- C97. The wrapper at position `i` of a sequence behaves like a pointer to constant elements at this position: it
reads element `i`, moves by adding to the position (undefined outside the sequence), and subtracts and compares as the
positions do, also against an underlying iterator. -/
theorem const_iterator_laws (xs : List α) {i j : Nat} (hi : i ≤ xs.length) :
    (It.of i).star xs = xs[i]? ∧ xs[(It.of i).arrow]? = xs[i]? ∧
    (∀ k : Int, (It.of i).add xs.length k =
      if 0 ≤ (i : Int) + k ∧ (i : Int) + k ≤ xs.length then some (It.of ((i : Int) + k).toNat) else none) ∧
    (∀ k : Int, (It.of i).sub xs.length k =
      if 0 ≤ (i : Int) - k ∧ (i : Int) - k ≤ xs.length then some (It.of ((i : Int) - k).toNat) else none) ∧
    (It.of i).inc xs.length = (if i < xs.length then some (It.of (i + 1)) else none) ∧
    (It.of i).dec xs.length = (if 0 < i then some (It.of (i - 1)) else none) ∧
    (It.of i).postInc xs.length = (if i < xs.length then some (It.of i, It.of (i + 1)) else none) ∧
    (It.of i).postDec xs.length = (if 0 < i then some (It.of i, It.of (i - 1)) else none) ∧
    (∀ k : Int, (It.of i).index xs k = if 0 ≤ (i : Int) + k then xs[((i : Int) + k).toNat]? else none) ∧
    (It.of j).diff (It.of i) = (j : Int) - i ∧ (It.of j).diffUnder i = (j : Int) - i ∧
    underDiff j (It.of i) = (j : Int) - i ∧
    ((It.of i).eq (It.of j) = true ↔ i = j) ∧ ((It.of i).eqUnder j = true ↔ i = j) ∧
    ((It.of i).lt (It.of j) = true ↔ i < j) ∧ ((It.of i).gt (It.of j) = true ↔ j < i) ∧
    ((It.of i).le (It.of j) = true ↔ i ≤ j) ∧ ((It.of i).ge (It.of j) = true ↔ j ≤ i) ∧
    ((It.of i).cmp (It.of j) = .lt ↔ i < j) ∧ ((It.of i).cmp (It.of j) = .eq ↔ i = j) ∧
    ((It.of i).cmp (It.of j) = .gt ↔ j < i) := by
  have hm : ∀ k : Int, move xs.length i k =
      if 0 ≤ (i : Int) + k ∧ (i : Int) + k ≤ xs.length then some ((i : Int) + k).toNat else none := fun _ => rfl
  have hadd : ∀ k : Int, (It.of i).add xs.length k =
      if 0 ≤ (i : Int) + k ∧ (i : Int) + k ≤ xs.length then some (It.of ((i : Int) + k).toNat) else none := by
    intro k
    show (move xs.length i k).map It.of = _
    rw [hm]; split_ifs <;> rfl
  have hinc : (It.of i).inc xs.length = (if i < xs.length then some (It.of (i + 1)) else none) := by
    show (It.of i).add xs.length 1 = _
    rw [hadd]
    by_cases h : i < xs.length
    · rw [if_pos h, if_pos (by omega)]; rfl
    · rw [if_neg h, if_neg (by omega)]
  have hdec : (It.of i).dec xs.length = (if 0 < i then some (It.of (i - 1)) else none) := by
    show (It.of i).add xs.length (-1) = _
    rw [hadd]
    by_cases h : 0 < i
    · rw [if_pos h, if_pos (by omega)]
      congr 2; omega
    · rw [if_neg h, if_neg (by omega)]
  refine ⟨rfl, rfl, hadd, ?_, hinc, hdec, ?_, ?_, ?_, rfl, rfl, rfl, ?_, ?_, ?_, ?_, ?_, ?_, ?_, ?_, ?_⟩
  · intro k
    show (It.of i).add xs.length (-k) = _
    rw [hadd]; rfl
  · unfold It.postInc; rw [hinc]; split_ifs <;> rfl
  · unfold It.postDec; rw [hdec]; split_ifs <;> rfl
  · intro k
    show (move xs.length i k).bind (deref xs) = _
    rw [hm]
    by_cases h0 : 0 ≤ (i : Int) + k
    · rw [if_pos h0]
      by_cases h1 : (i : Int) + k ≤ xs.length
      · rw [if_pos ⟨h0, h1⟩]; rfl
      · rw [if_neg (by omega), List.getElem?_eq_none (by omega)]; rfl
    · rw [if_neg h0, if_neg (by omega)]; rfl
  · exact beq_iff_eq.trans eq_comm
  · exact beq_iff_eq
  · exact decide_eq_true_iff
  · exact decide_eq_true_iff
  · exact decide_eq_true_iff
  · exact decide_eq_true_iff
  · exact compare_lt_iff_lt
  · exact compare_eq_iff_eq
  · exact compare_gt_iff_gt

example : (It.of 1).star [7, 8, 9] = some 8 ∧ (It.of 1).index [7, 8, 9] (-1) = some 7 ∧
    (It.of 3).inc 3 = none := by decide

/-- C97. Iterating from the beginning to the end visits every element once, in order. -/
theorem const_iterator_traverses (xs : List α) {fuel : Nat} (hf : xs.length < fuel) :
    traverse xs fuel (It.of 0) (It.of xs.length) = some xs := by
  have : ∀ (fuel i : Nat), i ≤ xs.length → xs.length - i < fuel →
      traverse xs fuel (It.of i) (It.of xs.length) = some (xs.drop i) := by
    intro fuel
    induction fuel with
    | zero => intro i _ h; omega
    | succ fuel ih =>
      intro i hi hf
      have laws := const_iterator_laws xs (j := xs.length) hi
      have heq := laws.2.2.2.2.2.2.2.2.2.2.2.2.1
      have hinc := laws.2.2.2.2.1
      unfold traverse
      by_cases he : i = xs.length
      · rw [if_pos (heq.mpr he), he, List.drop_length]
      · have hi' : i < xs.length := by omega
        rw [if_neg (fun h => he (heq.mp h)), laws.1, hinc, if_pos hi', List.getElem?_eq_getElem hi']
        simp only [Option.bind_eq_bind, Option.bind_some]
        rw [ih (i + 1) (by omega) (by omega)]
        simp only [Option.bind_some]
        rw [List.drop_eq_getElem_cons hi']
        rfl
  simpa using this fuel 0 (by omega) (by omega)

example : traverse [3, 1, 2] 4 (It.of 0) (It.of 3) = some [3, 1, 2] := by decide

/-- C97. `make_const_iterator` gives an iterator through which the elements cannot be changed, of the same kind of
reference; it leaves an iterator alone exactly if that is so already. -/
theorem const_iterator_const (r : Ref) :
    isConstant (madeReference r) = true ∧
    (madeReference r = .lvalue true ↔ ∃ c, r = .lvalue c) ∧ (madeReference r = .rvalue true ↔ ∃ c, r = .rvalue c) ∧
    (isConstant r = true ↔ r = .lvalue true ∨ r = .rvalue true) := by
  rcases r with (_ | _) | (_ | _) <;> simp [madeReference, isConstant, constReference]

example : madeReference (.lvalue false) = .lvalue true := by decide

end Verif.ConstIt
