import Verif.Math.Matrix
import Verif.Math.VectorLemmas
import Mathlib.LinearAlgebra.Matrix.Determinant.Basic
import Mathlib.Tactic.Ring

/-! Helper lemmas: what the matrix loops compute. -/

set_option autoImplicit false

namespace Verif.Math

variable {T : Type} {c r : Nat}

/-- The mathematical matrix (rows first). -/
def toM (m : Mat T c r) : Matrix (Fin r) (Fin c) T := fun j i => m i j

theorem store2_apply (m : Mat T c r) (i : Fin c) (j : Fin r) (x : T) (i' : Fin c) (j' : Fin r) :
    store2 m i j x i' j' = if i' = i ∧ j' = j then x else m i' j' := by
  unfold store2 store
  by_cases h : i' = i
  · subst h; by_cases h2 : j' = j <;> simp [h2]
  · simp [h]

theorem foldl_diag [Zero T] (s : T) : ∀ (l : List (Fin (min c r))) (m : Mat T c r) (i : Fin c) (j : Fin r),
    l.foldl (fun m k => store2 m (Fin.castLE (Nat.min_le_left c r) k)
      (Fin.castLE (Nat.min_le_right c r) k) s) m i j =
    if ∃ k ∈ l, k.val = i.val ∧ k.val = j.val then s else m i j
  | [], m, i, j => by simp
  | k :: l, m, i, j => by
    rw [List.foldl_cons, foldl_diag s l, store2_apply]
    by_cases h : ∃ k ∈ l, k.val = i.val ∧ k.val = j.val
    · rw [if_pos h, if_pos]
      obtain ⟨k', h1, h2⟩ := h
      exact ⟨k', by simp [h1], h2⟩
    · rw [if_neg h]
      by_cases h2 : k.val = i.val ∧ k.val = j.val
      · rw [if_pos, if_pos ⟨k, by simp, h2⟩]
        exact ⟨Fin.ext h2.1.symm, Fin.ext h2.2.symm⟩
      · rw [if_neg, if_neg]
        · rintro ⟨k', h3, h4⟩
          rcases List.mem_cons.mp h3 with rfl | h3
          · exact h2 h4
          · exact h ⟨k', h3, h4⟩
        · rintro ⟨rfl, h4⟩
          exact h2 ⟨rfl, by rw [h4]; rfl⟩

theorem diagonal_apply [Zero T] (s : T) (i : Fin c) (j : Fin r) :
    (diagonal s : Mat T c r) i j = if i.val = j.val then s else 0 := by
  unfold diagonal
  split
  · fin_cases i <;> fin_cases j <;> rfl
  · rw [forLoop, foldl_diag, splat_apply]
    by_cases h : i.val = j.val
    · rw [if_pos h, if_pos]
      exact ⟨⟨i.val, Nat.lt_min.mpr ⟨i.isLt, h ▸ j.isLt⟩⟩, List.mem_finRange _, rfl, h⟩
    · rw [if_neg h, if_neg]
      rintro ⟨k, _, h1, h2⟩
      exact h (h1.symm.trans h2)

theorem matOpS_apply [Zero T] (op : T → T → T) (m : Mat T c r) (s : T) :
    matOpS op m s = fun i j => op (m i j) s := by
  unfold matOpS
  split
  · simp only [vecOpS_apply]
    funext i; fin_cases i <;> rfl
  · rw [forLoop_store]; simp only [vecOpS_apply]

theorem matOp_apply [Zero T] (op : T → T → T) (a b : Mat T c r) :
    matOp op a b = fun i j => op (a i j) (b i j) := by
  unfold matOp
  split
  · simp only [vecOp_apply]
    funext i; fin_cases i <;> rfl
  · rw [forLoop_store]; simp only [vecOp_apply]

theorem matSelfOpS_apply (op : T → T → T) (m : Mat T c r) (s : T) :
    matSelfOpS op m s = fun i j => op (m i j) s := by
  unfold matSelfOpS
  simp only [vecSelfOpS_apply]
  exact forLoop_self (fun _ (v : Vec T r) => fun j => op (v j) s) m

theorem matSelfOp_apply (op : T → T → T) (m : Mat T c r) (b : Option (Mat T c r)) :
    matSelfOp op m b = fun i j => op (m i j) ((b.getD m) i j) := by
  unfold matSelfOp
  simp only [vecSelfOp_apply]
  cases b with
  | some b => exact forLoop_self (fun i (v : Vec T r) => fun j => op (v j) (b i j)) m
  | none => exact forLoop_self (fun _ (v : Vec T r) => fun j => op (v j) (v j)) m

theorem matNeg_apply [Zero T] [Neg T] [Indet T] (m : Mat T c r) : matNeg m = fun i j => -(m i j) := by
  unfold matNeg
  split
  · simp only [neg_apply]
    funext i; fin_cases i <;> rfl
  · rw [forLoop_store]; simp only [neg_apply]

theorem row_apply [Indet T] (m : Mat T c r) (j : Fin r) : row m j = fun i => m i j := by
  unfold row
  split
  · funext i; fin_cases i <;> rfl
  · rw [forLoop_store]

theorem matAssign_apply [Zero T] [Indet T] (m : Mat T c r) : matAssign m = m := by
  unfold matAssign
  split
  · funext i; fin_cases i <;> rfl
  · rw [forLoop_store]

theorem mulVec_apply [CommSemiring T] [Indet T] (m : Mat T c r) (v : Vec T c) :
    mulVec m v = fun j => ∑ i, m i j * v i := by
  unfold mulVec
  split
  · simp only [row_apply, dot_eq]
    funext i; fin_cases i <;> rfl
  · rw [forLoop_store]; simp only [row_apply, dot_eq]

theorem inner_loop {k : Nat} (f : Fin k → T) (j : Fin r) (m : Mat T k r) :
    forLoop k (fun i m => store2 m i j (f i)) m = fun i => store (m i) j (f i) := by
  have := forLoop_self (fun i (v : Vec T r) => store v j (f i)) m
  exact this

theorem outer_loop {k : Nat} (f : Fin r → Fin k → T) : ∀ (l : List (Fin r)) (m : Mat T k r) (i : Fin k)
    (j : Fin r), l.foldl (fun m j => fun i => store (m i) j (f j i)) m i j =
      if j ∈ l then f j i else m i j
  | [], m, i, j => by simp
  | j' :: l, m, i, j => by
    rw [List.foldl_cons, outer_loop f l]
    by_cases h : j ∈ l
    · simp [h]
    · by_cases h2 : j = j'
      · subst h2; simp [h, store]
      · simp [h, h2, store]

theorem mulMat_apply [CommSemiring T] [Indet T] {k : Nat} (a : Mat T c r) (b : Mat T k c) :
    mulMat a b = fun i j => ∑ l, a l j * b i l := by
  unfold mulMat
  simp only [inner_loop]
  funext i j
  rw [forLoop, outer_loop (fun j i => dot (row a j) (b i))]
  simp [row_apply, dot_eq]

theorem transpose_apply [Zero T] [One T] (m : Mat T c r) : transpose m = fun j i => m i j := by
  unfold transpose
  simp only [inner_loop]
  funext j i
  rw [forLoop, outer_loop (fun i j => m i j)]
  simp

theorem outerProduct_apply [CommRing T] {n1 n2 : Nat} (v1 : Vec T n1) (v2 : Vec T n2) :
    outerProduct v1 v2 = fun i j => v1 j * v2 i := by
  unfold outerProduct
  rw [forLoop_store]
  funext i; rw [mulS, vecOpS_apply]

theorem hadamard_apply [Ring T] (m1 m2 : Mat T c r) : hadamard m1 m2 = fun i j => m1 i j * m2 i j := by
  unfold hadamard
  rw [forLoop_store]
  funext i; rw [mul, vecOp_apply]

end Verif.Math
