import Verif.Math.Vector

/-! Helper lemmas: what the loops compute. -/

set_option autoImplicit false

namespace Verif.Math

variable {T : Type} {n : Nat}

theorem foldl_store (f : Fin n → T) : ∀ (l : List (Fin n)) (r : Vec T n) (j : Fin n),
    l.foldl (fun r i => store r i (f i)) r j = if j ∈ l then f j else r j
  | [], r, j => by simp
  | i :: l, r, j => by
    rw [List.foldl_cons, foldl_store f l]
    by_cases h : j ∈ l
    · simp [h]
    · by_cases h2 : j = i
      · subst h2; simp [h, store]
      · simp [h, h2, store]

theorem forLoop_store (f : Fin n → T) (r : Vec T n) :
    forLoop n (fun i r => store r i (f i)) r = f := by
  funext j
  rw [forLoop, foldl_store]
  simp

theorem foldl_self (f : Fin n → T → T) : ∀ (l : List (Fin n)), l.Nodup → ∀ (r : Vec T n) (j : Fin n),
    l.foldl (fun r i => store r i (f i (r i))) r j = if j ∈ l then f j (r j) else r j
  | [], _, r, j => by simp
  | i :: l, hl, r, j => by
    rw [List.nodup_cons] at hl
    rw [List.foldl_cons, foldl_self f l hl.2]
    by_cases h : j ∈ l
    · have : j ≠ i := fun e => hl.1 (e ▸ h)
      simp [h, this, store]
    · by_cases h2 : j = i
      · subst h2; simp [h, store]
      · simp [h, h2, store]

theorem forLoop_self (f : Fin n → T → T) (r : Vec T n) :
    forLoop n (fun i r => store r i (f i (r i))) r = fun i => f i (r i) := by
  funext j
  rw [forLoop, foldl_self f _ (List.nodup_finRange n)]
  simp

theorem foldl_sum [AddCommMonoid T] (f : Fin n → T) : ∀ (l : List (Fin n)) (s : T),
    l.foldl (fun s i => s + f i) s = s + (l.map f).sum
  | [], s => by simp
  | i :: l, s => by
    rw [List.foldl_cons, foldl_sum f l]
    simp [add_assoc]

theorem forLoop_sum [AddCommMonoid T] (f : Fin n → T) :
    forLoop n (fun i s => s + f i) 0 = ∑ i, f i := by
  rw [forLoop, foldl_sum, zero_add, ← List.ofFn_eq_map, List.sum_ofFn]

theorem vecOp_apply [Zero T] (op : T → T → T) (a b : Vec T n) : vecOp op a b = fun i => op (a i) (b i) := by
  unfold vecOp
  split
  · funext i; fin_cases i <;> rfl
  · funext i; fin_cases i <;> rfl
  · funext i; fin_cases i <;> rfl
  · rw [forLoop_store]

theorem vecOpS_apply [Zero T] (op : T → T → T) (a : Vec T n) (s : T) :
    vecOpS op a s = fun i => op (a i) s := by
  unfold vecOpS
  split
  · funext i; fin_cases i <;> rfl
  · funext i; fin_cases i <;> rfl
  · funext i; fin_cases i <;> rfl
  · rw [forLoop_store]

theorem vecSelfOp_apply (op : T → T → T) (a : Vec T n) (b : Operand T n) :
    vecSelfOp op a b = fun i => op (a i) (b.at a i) := by
  unfold vecSelfOp
  split
  · funext i; rename_i a b; cases b <;> fin_cases i <;> simp [store, Operand.at]
  · funext i; rename_i a b; cases b <;> fin_cases i <;> simp [store, Operand.at]
  · funext i; rename_i a b; cases b <;> fin_cases i <;> simp [store, Operand.at]
  · cases b with
    | other v => exact forLoop_self (fun i x => op x (v i)) a
    | itself => exact forLoop_self (fun i x => op x x) a

theorem vecSelfOpS_apply (op : T → T → T) (a : Vec T n) (s : T) :
    vecSelfOpS op a s = fun i => op (a i) s := by
  unfold vecSelfOpS
  split
  · funext i; fin_cases i <;> simp [store]
  · funext i; fin_cases i <;> simp [store]
  · funext i; fin_cases i <;> simp [store]
  · exact forLoop_self (fun i x => op x s) a

theorem neg_apply [Neg T] [Indet T] (a : Vec T n) : neg a = fun i => -(a i) := by
  unfold neg
  split
  · funext i; fin_cases i <;> rfl
  · funext i; fin_cases i <;> rfl
  · funext i; fin_cases i <;> rfl
  · rw [forLoop_store]

theorem splat_apply (s : T) : (splat s : Vec T n) = fun _ => s := by
  unfold splat
  split
  · funext i; fin_cases i <;> rfl
  · funext i; fin_cases i <;> rfl
  · funext i; fin_cases i <;> rfl
  · rfl

theorem assign_apply [Indet T] (v : Vec T n) : assign v = v := by
  unfold assign
  split
  · funext i; fin_cases i <;> rfl
  · funext i; fin_cases i <;> rfl
  · funext i; fin_cases i <;> rfl
  · rw [forLoop_store]

theorem add_eq [AddMonoid T] (a b : Vec T n) : add a b = a + b := vecOp_apply _ a b
theorem sub_eq [SubNegMonoid T] (a b : Vec T n) : sub a b = a - b := vecOp_apply _ a b
theorem neg_eq [Neg T] [Indet T] (a : Vec T n) : neg a = -a := neg_apply a
theorem mulS_eq [CommRing T] (a : Vec T n) (s : T) : mulS a s = s • a := by
  rw [mulS, vecOpS_apply]; funext i; exact mul_comm _ _
theorem divS_eq [Field T] (a : Vec T n) (s : T) : divS a s = s⁻¹ • a := by
  rw [divS, vecOpS_apply]; funext i; exact (div_eq_inv_mul _ _)
theorem dot_eq [CommSemiring T] (a b : Vec T n) : dot a b = ∑ i, a i * b i :=
  forLoop_sum fun i => a i * b i

theorem lengthM_eq (v : Vec ℝ n) : lengthM v = Real.sqrt (∑ i, v i * v i) := by
  unfold lengthM
  split
  · rw [Fin.sum_univ_two, sqrt_real]
  · rw [Fin.sum_univ_three, sqrt_real]
  · rw [Fin.sum_univ_four, sqrt_real]
  · rw [forLoop_sum fun i => _, sqrt_real]

theorem length_eq (v : Vec ℝ n) : length v = Real.sqrt (∑ i, v i * v i) := by rw [length, dot_eq, sqrt_real]

theorem cross_eq [CommRing T] (a b : Vec T 3) : cross a b =
    ![a 1 * b 2 - a 2 * b 1, a 2 * b 0 - a 0 * b 2, a 0 * b 1 - a 1 * b 0] := rfl

end Verif.Math
