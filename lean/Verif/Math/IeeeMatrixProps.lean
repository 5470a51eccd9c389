import Verif.Math.IeeeDetProps

/-!
C141. What NaN, the infinities and the two zeros do to matrices and quaternions with `float` or `double`
components.
-/

set_option autoImplicit false

namespace Verif.Math

open IVal

variable {F : Format} {c r k n : Nat}

/-! ### Helpers -/

theorem isZero_mul {x : IVal F} (h : x.Finite) : IsZero (0 * x) := by
  cases x with
  | nan => exact h.elim
  | inf s => exact h.elim
  | zero s => exact ⟨_, rfl⟩
  | num y hy => exact ⟨_, rfl⟩

theorem nan_zero_mul {x : IVal F} (h : ¬x.Finite) : 0 * x = .nan := by
  cases x with
  | nan => rfl
  | inf s => rfl
  | zero s => exact absurd trivial h
  | num y hy => exact absurd trivial h

/-- Zeros added to anything but −0 leave it. -/
theorem foldl_keep (f : Fin n → IVal F) (x : IVal F) (hx : x ≠ .zero true) : ∀ l : List (Fin n),
    (∀ i ∈ l, IsZero (f i)) → l.foldl (fun r i => r + f i) x = x
  | [], _ => rfl
  | i :: l, h => by
    obtain ⟨s, hs⟩ := h i List.mem_cons_self
    have : x + .zero s = x := by
      cases x with
      | nan => rfl
      | inf t => rfl
      | zero t =>
        cases t
        · rfl
        · exact absurd rfl hx
      | num y hy => rfl
    rw [List.foldl_cons, hs, this]
    exact foldl_keep f x hx l fun i hi => h i (List.mem_cons_of_mem _ hi)

theorem plus_zero_ne (x : IVal F) : .zero false + x ≠ .zero true := by
  cases x with
  | nan => intro h; cases h
  | inf t => intro h; cases h
  | zero t => intro h; cases h
  | num y hy => intro h; cases h

/-- A sum with a single term that is not a zero. -/
theorem foldl_lone (f : Fin n → IVal F) (j : Fin n) : ∀ l : List (Fin n), l.Nodup → j ∈ l →
    (∀ i ∈ l, i ≠ j → IsZero (f i)) → l.foldl (fun r i => r + f i) (.zero false) = .zero false + f j
  | i :: l, hn, hj, h => by
    rw [List.nodup_cons] at hn
    rw [List.foldl_cons]
    by_cases e : i = j
    · subst e
      exact foldl_keep f _ (plus_zero_ne _) l fun i' hi' =>
        h i' (List.mem_cons_of_mem _ hi') fun e => hn.1 (e ▸ hi')
    · obtain ⟨s, hs⟩ := h i List.mem_cons_self e
      rw [hs]
      exact foldl_lone f j l hn.2 ((List.mem_cons.mp hj).resolve_left (Ne.symm e)) fun i' hi' =>
        h i' (List.mem_cons_of_mem _ hi')

theorem dot_single (a b : Vec (IVal F) n) (j : Fin n) (h : ∀ i, i ≠ j → IsZero (a i * b i)) :
    dot a b = 0 + a j * b j :=
  foldl_lone (fun i => a i * b i) j _ (List.nodup_finRange n) (List.mem_finRange j) fun i _ => h i

theorem dot_has_nan (a b : Vec (IVal F) n) (j : Fin n) (h : a j * b j = .nan) : dot a b = .nan :=
  foldl_has_nan (fun i => a i * b i) j h _ _ (List.mem_finRange j)

/-! ### The vocabulary of the statements -/

/-- `y` is `x`, except that it is +0 where `x` is −0. -/
def PlusZero (x y : IVal F) : Prop := (x = .zero true ∧ y = .zero false) ∨ (x ≠ .zero true ∧ y = x)

/-- What a computation gives that needs the factors `others` to be finite: the value `x` (−0 turned into +0) if
they are, NaN if one of them is not. -/
def Survives (x : IVal F) (others : IVal F → Prop) (y : IVal F) : Prop :=
  ((∀ o, others o → o.Finite) → PlusZero x y) ∧ ((∃ o, others o ∧ ¬o.Finite) → y = .nan)

theorem plusZero_add (x : IVal F) : PlusZero x (0 + x) := by
  cases x with
  | nan => exact Or.inr ⟨(by intro h; cases h), rfl⟩
  | inf t => exact Or.inr ⟨(by intro h; cases h), rfl⟩
  | zero t =>
    cases t
    · exact Or.inr ⟨(by intro h; cases h), rfl⟩
    · exact Or.inl ⟨rfl, rfl⟩
  | num y hy => exact Or.inr ⟨(by intro h; cases h), rfl⟩

/-- The dot product with a row or column of the identity. -/
theorem dot_unit (a b : Vec (IVal F) n) (j : Fin n) (ha : ∀ i, a i = if i.val = j.val then 1 else 0) :
    Survives (b j) (fun o => ∃ i, i ≠ j ∧ o = b i) (dot a b) := by
  have h1 : a j * b j = b j := by rw [ha j, if_pos rfl, mulComm, mulOne]
  have h0 : ∀ i, i ≠ j → a i = 0 := fun i hi => by rw [ha i, if_neg fun e => hi (Fin.ext e)]
  constructor
  · intro h
    rw [dot_single a b j fun i hi => by rw [h0 i hi]; exact isZero_mul (h _ ⟨i, hi, rfl⟩), h1]
    exact plusZero_add _
  · rintro ⟨o, ⟨i, hi, rfl⟩, ho⟩
    exact dot_has_nan a b i (by rw [h0 i hi]; exact nan_zero_mul ho)

/-! ### C141: NaN -/

/-- C141. A NaN in row j of the left factor or in column i of the right one makes entry (i, j) of the product
NaN — a NaN of the left factor ruins a whole row, one of the right factor a whole column — and entries that do
not involve it are as if it were not there. -/
theorem ieee_product_nan [Indet (IVal F)] (a : Mat (IVal F) c r) (b : Mat (IVal F) k c) (l : Fin c) :
    (∀ j, a l j = .nan → ∀ i, mulMat a b i j = .nan) ∧
    (∀ i, b i l = .nan → ∀ j, mulMat a b i j = .nan) ∧
    ∀ (a' : Mat (IVal F) c r) (b' : Mat (IVal F) k c) (i : Fin k) (j : Fin r),
      (∀ l, a l j = a' l j) → b i = b' i → mulMat a b i j = mulMat a' b' i j := by
  rw [mulMat_dot]
  refine ⟨fun j h i => dot_nan _ _ l (Or.inl h), fun i h j => dot_nan _ _ l (Or.inr h), fun a' b' i j ha hb => ?_⟩
  rw [mulMat_dot]
  change dot (fun l => a l j) (b i) = dot (fun l => a' l j) (b' i)
  rw [show (fun l => a l j) = fun l => a' l j from funext ha, hb]

/-- C141. A NaN anywhere in a matrix makes its determinant NaN. -/
theorem ieee_det_nan :
    (∀ m : Mat (IVal F) 2 2, (∃ i j, m i j = .nan) → det2 m = .nan) ∧
    (∀ m : Mat (IVal F) 3 3, (∃ i j, m i j = .nan) → det3 m = .nan) ∧
    (∀ m : Mat (IVal F) 4 4, (∃ i j, m i j = .nan) → det4 m = .nan) := by
  refine ⟨fun m ⟨i, j, h⟩ => ?_, fun m ⟨i, j, h⟩ => ?_, fun m ⟨i, j, h⟩ => ?_⟩
  · fin_cases i <;> fin_cases j <;> (unfold det2; erw [h]; simp only [nan_mul, mul_nan, nan_sub, sub_nan])
  · fin_cases i <;> fin_cases j <;>
      (unfold det3; erw [h]; simp only [nan_mul, mul_nan, nan_sub, sub_nan, nan_add, add_nan])
  · fin_cases i <;> fin_cases j <;>
      (unfold det4; erw [h]; simp only [nan_mul, mul_nan, nan_sub, sub_nan, nan_add, add_nan])

/-- C141. A NaN in a component of either quaternion makes all four components of the product NaN. -/
theorem ieee_quaternion_nan (p q : Quat (IVal F))
    (h : p.w = .nan ∨ p.x = .nan ∨ p.y = .nan ∨ p.z = .nan ∨ q.w = .nan ∨ q.x = .nan ∨ q.y = .nan ∨ q.z = .nan) :
    p.mul q = ⟨.nan, .nan, .nan, .nan⟩ := by
  unfold Quat.mul
  rcases h with h | h | h | h | h | h | h | h <;> rw [h] <;>
    simp only [nan_mul, mul_nan, nan_sub, sub_nan, nan_add, add_nan]

/-- C141. In sums, differences, scalar and entry-by-entry products and transposes a NaN stays where it is, and
the other entries do not change because of it. -/
theorem ieee_entrywise_nan (a b : Mat (IVal F) c r) (s : IVal F) (i : Fin c) (j : Fin r) :
    (a i j = .nan → matAdd a b i j = .nan ∧ matAdd b a i j = .nan ∧ matSub a b i j = .nan ∧ matSub b a i j = .nan ∧
      hadamard a b i j = .nan ∧ hadamard b a i j = .nan ∧ matMulS a s i j = .nan ∧ matDivS a s i j = .nan ∧
      transpose a j i = .nan) ∧
    ∀ a' : Mat (IVal F) c r, a i j = a' i j → matAdd a b i j = matAdd a' b i j ∧ matSub a b i j = matSub a' b i j ∧
      hadamard a b i j = hadamard a' b i j ∧ matMulS a s i j = matMulS a' s i j ∧ matDivS a s i j = matDivS a' s i j ∧
      transpose a j i = transpose a' j i := by
  have hh : ∀ x y : Mat (IVal F) c r, hadamard x y i j = x i j * y i j := by
    intro x y
    unfold hadamard
    rw [forLoop_store, mul, vecOp_apply]
  simp only [hh, matAdd, matSub, matMulS, matDivS, matOp_apply, matOpS_apply, transpose_apply]
  refine ⟨fun h => ?_, fun a' h => ?_⟩
  · rw [h]
    exact ⟨nan_add _, add_nan _, nan_sub _, sub_nan _, nan_mul _, mul_nan _, nan_mul _, rfl, rfl⟩
  · rw [h]; exact ⟨rfl, rfl, rfl, rfl, rfl, rfl⟩

/-! ### C141: the identity -/

/-- C141. Multiplying by the identity. Entry (i, j) of I·b is that of b — with +0 for −0 — provided that the
other entries of its column are finite; if one of them is infinite or NaN the result is NaN. For b·I it is the
other entries of the row, for I·v the other components. -/
theorem ieee_identity [Indet (IVal F)] (b : Mat (IVal F) c r) (v : Vec (IVal F) n) :
    (∀ i j, Survives (b i j) (fun o => ∃ j', j' ≠ j ∧ o = b i j') (mulMat (defaultMat : Mat (IVal F) r r) b i j)) ∧
    (∀ i j, Survives (b i j) (fun o => ∃ i', i' ≠ i ∧ o = b i' j) (mulMat b (defaultMat : Mat (IVal F) c c) i j)) ∧
    ∀ j, Survives (v j) (fun o => ∃ j', j' ≠ j ∧ o = v j') (mulVec (defaultMat : Mat (IVal F) n n) v j) := by
  refine ⟨fun i j => ?_, fun i j => ?_, fun j => ?_⟩
  · rw [mulMat_dot]
    exact dot_unit _ (b i) j fun l => diagonal_apply 1 l j
  · rw [mulMat_dot]
    have hc : dot (fun l => b l j) ((defaultMat : Mat (IVal F) c c) i) =
        dot ((defaultMat : Mat (IVal F) c c) i) (fun l => b l j) := by
      have : (fun (l : Fin c) (r : IVal F) => r + b l j * (defaultMat : Mat (IVal F) c c) i l) =
          fun l r => r + (defaultMat : Mat (IVal F) c c) i l * b l j := by
        funext l r; rw [IVal.mulComm]
      unfold dot; rw [this]
    change Survives _ _ (dot (fun l => b l j) ((defaultMat : Mat (IVal F) c c) i))
    rw [hc]
    refine dot_unit _ (fun l => b l j) i fun l => ?_
    change (diagonal 1 : Mat (IVal F) c c) i l = _
    rw [diagonal_apply]
    by_cases e : i.val = l.val
    · rw [if_pos e, if_pos e.symm]
    · rw [if_neg e, if_neg (Ne.symm e)]
  · rw [mulVec_dot]
    exact dot_unit _ v j fun l => diagonal_apply 1 l j

/-- C141. Scaling by (1, 1, 1) leaves a transformation exactly as it is, NaN and infinities included. Translating
by a vector of zeros leaves it, the sign of zeros aside, in every row whose first three entries are finite; in the
other rows the fourth entry becomes NaN. -/
theorem ieee_trivial_transforms (m : Mat (IVal F) 4 4) (v : Vec (IVal F) 3) (hv : ∀ i, IsZero (v i)) :
    scale m (fun _ => 1) = m ∧
    (∀ i, i ≠ 3 → translate m v i = m i) ∧
    (∀ j, (∀ i, i ≠ 3 → (m i j).Finite) → Same (translate m v 3 j) (m 3 j)) ∧
    ∀ j, (∃ i, i ≠ 3 ∧ ¬(m i j).Finite) → translate m v 3 j = .nan := by
  have e : ∀ j, translate m v 3 j = ((m 0 j * v 0 + m 1 j * v 1) + m 2 j * v 2) + m 3 j := by
    intro j
    change add (add (add (mulS (m 0) (v 0)) (mulS (m 1) (v 1))) (mulS (m 2) (v 2))) (m 3) j = _
    unfold add mulS; simp only [vecOp_apply, vecOpS_apply]
  have hz : ∀ (x : IVal F) i, x.Finite → IsZero (x * v i) := by
    intro x i hx
    obtain ⟨s, hs⟩ := hv i
    rw [hs]
    cases x with
    | nan => exact hx.elim
    | inf s => exact hx.elim
    | zero s => exact ⟨_, rfl⟩
    | num y hy => exact ⟨_, rfl⟩
  have hn : ∀ (x : IVal F) i, ¬x.Finite → x * v i = .nan := by
    intro x i hx
    obtain ⟨s, hs⟩ := hv i
    rw [hs]
    cases x with
    | nan => rfl
    | inf s => rfl
    | zero s => exact absurd trivial hx
    | num y hy => exact absurd trivial hx
  refine ⟨?_, ?_, fun j h => ?_, fun j ⟨i, hi, h⟩ => ?_⟩
  · funext i j
    have hs : ∀ (a : Vec (IVal F) 4), mulS a 1 = a := fun a => by
      unfold mulS; rw [vecOpS_apply]; funext i; exact IVal.mulOne _
    unfold scale
    fin_cases i
    · change mulS (m 0) 1 j = _; rw [hs]; rfl
    · change mulS (m 1) 1 j = _; rw [hs]; rfl
    · change mulS (m 2) 1 j = _; rw [hs]; rfl
    · rfl
  · intro i hi
    fin_cases i
    · rfl
    · rfl
    · rfl
    · exact absurd rfl hi
  · rw [e]
    obtain ⟨s0, h0⟩ := hz _ 0 (h 0 (by decide))
    obtain ⟨s1, h1⟩ := hz _ 1 (h 1 (by decide))
    obtain ⟨s2, h2⟩ := hz _ 2 (h 2 (by decide))
    rw [h0, h1, h2, addComm]
    rcases add_zn (m 3 j) (z := IVal.zero s0 + .zero s1 + .zero s2) (Or.inl ⟨_, rfl⟩) with h' | h'
    · exact h'
    · cases hm : m 3 j with
      | nan => exact Or.inl rfl
      | inf t => exact Or.inl rfl
      | zero t => exact Or.inr ⟨_, _, rfl, rfl⟩
      | num y hy => exact Or.inl rfl
  · rw [e]
    fin_cases i
    · rw [hn (m 0 j) 0 h]; rfl
    · rw [hn (m 1 j) 1 h, add_nan]; rfl
    · rw [hn (m 2 j) 2 h, add_nan]; rfl
    · exact absurd rfl hi

/-- C141. "The identity changes nothing" is false: a matrix with one infinite entry and zeros elsewhere, of any
size from 2 on, becomes one with NaN in that entry's column. -/
theorem ieee_identity_wrong [Indet (IVal F)] (i j j' : Fin n) (hj : j' ≠ j) :
    ∃ b : Mat (IVal F) n n, (∀ x y, b x y ≠ .nan) ∧ b i j' = 0 ∧
      mulMat (defaultMat : Mat (IVal F) n n) b i j' = .nan := by
  refine ⟨fun x y => if x = i ∧ y = j then .inf false else 0, fun x y => ?_, ?_, ?_⟩
  · dsimp only
    split
    · intro h; cases h
    · intro h; cases h
  · exact if_neg fun h => hj h.2
  · refine ((ieee_identity (n := n) _ (fun _ => 0)).1 i j').2 ⟨.inf false, ⟨j, hj.symm, ?_⟩, id⟩
    exact (if_pos ⟨rfl, rfl⟩).symm

/-- The hypotheses can be met: a finite matrix with a −0 survives the identity, and its −0 becomes +0. -/
example [Indet (IVal .binary64)] :
    mulMat (defaultMat : Mat (IVal .binary64) 2 2) ![![1, 2], ![.zero true, 1]] 1 0 = .zero false ∧
    mulMat (defaultMat : Mat (IVal .binary64) 2 2) ![![1, 2], ![.zero true, 1]] 0 1 = 2 := by
  have h := (ieee_identity (F := .binary64) (![![1, 2], ![.zero true, 1]] : Mat (IVal .binary64) 2 2)
    (fun _ : Fin 0 => 0)).1
  constructor
  · rcases (h 1 0).1 (by rintro o ⟨j', hj, rfl⟩; fin_cases j' <;> trivial) with h' | h'
    · exact h'.2
    · exact absurd rfl h'.1
  · rcases (h 0 1).1 (by rintro o ⟨j', hj, rfl⟩; fin_cases j' <;> trivial) with h' | h'
    · cases h'.1
    · exact h'.2

end Verif.Math
