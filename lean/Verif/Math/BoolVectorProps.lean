import Verif.Math.BoolVector
import Verif.Math.VectorLemmas
import Verif.Math.RoundingLemmas
import Verif.Math.IntLengthProps

/-! C131: vectors of `bool`. -/

set_option autoImplicit false

namespace Verif.Math

variable {n : Nat}

/-! ### What a user expects

As in a Boolean ring or algebra: `+` is "or", `*` is "and", `-` is "differs". -/

/-- The result of `a op b`, if there is one. -/
def boolSpec (op : ArithOp) (a b r : Bool) : Prop :=
  match op with
  | .add => r = (a || b)
  | .sub => r = (a ^^ b)
  | .mul => r = (a && b)
  | .div => b = true ∧ r = a

/-! ### Loops -/

theorem bseq2 {T : Type} (f : Fin 2 → Option T) (r : Vec T 2) :
    (do let x ← f 0; let y ← f 1; pure ![x, y]) = some r ↔ ∀ i, f i = some (r i) := by
  rw [Fin.forall_fin_two]
  cases f 0 <;> cases f 1 <;> simp [funext_iff, Fin.forall_fin_two]

theorem bseq3 {T : Type} (f : Fin 3 → Option T) (r : Vec T 3) :
    (do let x ← f 0; let y ← f 1; let z ← f 2; pure ![x, y, z]) = some r ↔ ∀ i, f i = some (r i) := by
  rw [Fin.forall_fin_succ, Fin.forall_fin_two]
  cases h0 : f 0 <;> cases h1 : f 1 <;> cases h2 : f 2 <;> simp [funext_iff, Fin.forall_fin_succ, h1, h2]

theorem bseq4 {T : Type} (f : Fin 4 → Option T) (r : Vec T 4) :
    (do let x ← f 0; let y ← f 1; let z ← f 2; let w ← f 3; pure ![x, y, z, w]) = some r ↔
      ∀ i, f i = some (r i) := by
  rw [Fin.forall_fin_succ, Fin.forall_fin_succ, Fin.forall_fin_two]
  cases h0 : f 0 <;> cases h1 : f 1 <;> cases h2 : f 2 <;> cases h3 : f 3 <;>
    simp [funext_iff, Fin.forall_fin_succ, h1, h2, h3]

theorem bfoldlM_self {T : Type} (f : Fin n → T → Option T) : ∀ (l : List (Fin n)), l.Nodup → ∀ (r0 r : Vec T n),
    (l.foldlM (fun r i => (f i (r i)).map (store r i)) r0 = some r ↔
      (∀ i ∈ l, f i (r0 i) = some (r i)) ∧ ∀ j, j ∉ l → r j = r0 j)
  | [], _, r0, r => by
    simp only [List.foldlM_nil, List.not_mem_nil, false_implies, implies_true, true_and, not_false_eq_true,
      forall_const]
    constructor
    · intro h; cases h; intro; rfl
    · intro h; exact congrArg some (funext fun j => (h j).symm)
  | i :: l, hl, r0, r => by
    obtain ⟨hi, hl⟩ := List.nodup_cons.mp hl
    rw [List.foldlM_cons]
    cases hf : f i (r0 i) with
    | none =>
      constructor
      · intro h; simp at h
      · intro h; have := h.1 i (by simp); rw [hf] at this; cases this
    | some x =>
      have := bfoldlM_self f l hl (store r0 i x) r
      simp only [Option.map_some, Option.bind_eq_bind, Option.bind_some]
      rw [this]
      have hst : ∀ j, j ≠ i → store r0 i x j = r0 j := fun j hj => by simp [store, hj]
      have hsi : store r0 i x i = x := by simp [store]
      constructor
      · rintro ⟨h1, h2⟩
        refine ⟨?_, ?_⟩
        · intro j hj
          rcases List.mem_cons.mp hj with rfl | hj
          · rw [hf, h2 j hi, hsi]
          · have hne : j ≠ i := fun e => hi (e ▸ hj)
            rw [← h1 j hj, hst j hne]
        · intro j hj
          rw [List.mem_cons, not_or] at hj
          rw [h2 j hj.2, hst j hj.1]
      · rintro ⟨h1, h2⟩
        refine ⟨?_, ?_⟩
        · intro j hj
          have hne : j ≠ i := fun e => hi (e ▸ hj)
          rw [hst j hne]; exact h1 j (List.mem_cons_of_mem _ hj)
        · intro j hj
          by_cases hji : j = i
          · subst hji
            rw [hsi]; have := h1 j (by simp); rw [hf] at this; cases this; rfl
          · rw [hst j hji]; exact h2 j (by simp [hji, hj])

theorem bforLoopM_self {T : Type} (f : Fin n → T → Option T) (r0 r : Vec T n) :
    forLoopM n (fun i r => (f i (r i)).map (store r i)) r0 = some r ↔ ∀ i, f i (r0 i) = some (r i) := by
  unfold forLoopM
  rw [bfoldlM_self f _ (List.nodup_finRange n)]
  simp

theorem boolOp_iff (op : ArithOp) (a b r : Vec Bool n) :
    boolOp op a b = some r ↔ ∀ i, boolAt op (a i) (b i) = some (r i) := by
  unfold boolOp; split
  · exact bseq2 (fun i => boolAt op (_ : Bool) _) r
  · exact bseq3 (fun i => boolAt op (_ : Bool) _) r
  · exact bseq4 (fun i => boolAt op (_ : Bool) _) r
  · exact bforLoopM_self (fun i _ => boolAt op (_ : Bool) _) _ _

theorem boolOpS_iff (op : ArithOp) (a : Vec Bool n) (s : Bool) (r : Vec Bool n) :
    boolOpS op a s = some r ↔ ∀ i, boolAt op (a i) s = some (r i) := by
  unfold boolOpS; split
  · exact bseq2 (fun i => boolAt op (_ : Bool) s) r
  · exact bseq3 (fun i => boolAt op (_ : Bool) s) r
  · exact bseq4 (fun i => boolAt op (_ : Bool) s) r
  · exact bforLoopM_self (fun i _ => boolAt op (_ : Bool) s) _ _

theorem boolSelfOp_iff (op : ArithOp) (a : Vec Bool n) (o : Operand Bool n) (r : Vec Bool n) :
    boolSelfOp op a o = some r ↔ ∀ i, boolAt op (a i) (o.at a i) = some (r i) := by
  have key : forLoopM n (fun i r => (boolAt op (r i) (o.at r i)).map (store r i)) a = some r ↔
      ∀ i, boolAt op (a i) (o.at a i) = some (r i) := by
    cases o with
    | other v => exact bforLoopM_self (fun i x => boolAt op x (v i)) a r
    | itself => exact bforLoopM_self (fun i x => boolAt op x x) a r
  rw [← key]
  unfold boolSelfOp
  split
  · rw [forLoopM]
    simp only [show List.finRange 2 = [0, 1] from by decide, List.foldlM_cons, List.foldlM_nil]
    simp
  · rw [forLoopM]
    simp only [show List.finRange 3 = [0, 1, 2] from by decide, List.foldlM_cons, List.foldlM_nil]
    simp
  · rw [forLoopM]
    simp only [show List.finRange 4 = [0, 1, 2, 3] from by decide, List.foldlM_cons, List.foldlM_nil]
    simp
  · rfl

theorem boolNeg_apply [Indet Bool] (a : Vec Bool n) : boolNeg a = fun i => boolNegAt (a i) := by
  unfold boolNeg
  split
  · funext i; fin_cases i <;> rfl
  · funext i; fin_cases i <;> rfl
  · funext i; fin_cases i <;> rfl
  · rw [forLoop_store]

theorem boolAt_spec (op : ArithOp) (a b r : Bool) : boolAt op a b = some r ↔ boolSpec op a b r := by
  cases op <;> cases a <;> cases b <;> cases r <;> simp only [boolSpec] <;> decide

theorem boolDot_fold (a b : Vec Bool n) : ∀ (l : List (Fin n)) (s : Bool),
    (l.foldl (fun r i => boolAcc r (a i) (b i)) s = true ↔ s = true ∨ ∃ i ∈ l, a i = true ∧ b i = true)
  | [], s => by simp
  | i :: l, s => by
    rw [List.foldl_cons, boolDot_fold a b l]
    have : boolAcc s (a i) (b i) = true ↔ s = true ∨ (a i = true ∧ b i = true) := by
      cases s <;> cases a i <;> cases b i <;> decide
    rw [this]
    simp only [List.mem_cons, exists_eq_or_imp]
    tauto

theorem boolDot_iff (a b : Vec Bool n) : boolDot a b = true ↔ ∃ i, a i = true ∧ b i = true := by
  unfold boolDot forLoop
  rw [boolDot_fold]
  simp [toBool]

/-! ### C131 -/

/-- C131. `+` of vectors of `bool` is "or", `-` is "differs", `*` is "and", component by component, with a vector, with a
scalar (which counts as true unless it is zero), and in place (also of a vector with itself). They are always defined;
`/` is defined exactly if all divisors are true, and then changes nothing. Unary minus changes nothing. -/
theorem bool_vector_ops [Indet Bool] (op : ArithOp) (a b r : Vec Bool n) (s : Bool) (x : ℝ) :
    (boolOp op a b = some r ↔ ∀ i, boolSpec op (a i) (b i) (r i)) ∧
    (boolSelfOp op a (.other b) = some r ↔ ∀ i, boolSpec op (a i) (b i) (r i)) ∧
    (boolSelfOp op a .itself = some r ↔ ∀ i, boolSpec op (a i) (a i) (r i)) ∧
    (boolOpS op a s = some r ↔ ∀ i, boolSpec op (a i) s (r i)) ∧
    (x ≠ 0 → (boolOpReal op a x = some r ↔ ∀ i, boolSpec op (a i) true (r i))) ∧
    (boolOpReal op a 0 = some r ↔ ∀ i, boolSpec op (a i) false (r i)) ∧
    boolNeg a = a := by
  refine ⟨?_, ?_, ?_, ?_, fun hx => ?_, ?_, ?_⟩
  · rw [boolOp_iff]; simp only [boolAt_spec]
  · rw [boolSelfOp_iff]; simp only [boolAt_spec]; rfl
  · rw [boolSelfOp_iff]; simp only [boolAt_spec]; rfl
  · rw [boolOpS_iff]; simp only [boolAt_spec]
  · unfold boolOpReal
    rw [show realToBool x = true from by simp [realToBool, hx], boolOpS_iff]; simp only [boolAt_spec]
  · unfold boolOpReal
    rw [show realToBool 0 = false from by simp [realToBool], boolOpS_iff]; simp only [boolAt_spec]
  · rw [boolNeg_apply]
    funext i
    cases h : a i <;> decide

/-- C131. `dot` asks whether some component is true in both; `cross` is the Boolean cross product ("and" and "differs");
`reflect` is always defined and toggles the components of the normal if the vectors have one in common; `faceforward`
returns its first argument. -/
theorem bool_geometry [Indet Bool] :
    (∀ a b : Vec Bool n, boolDot a b = true ↔ ∃ i, a i = true ∧ b i = true) ∧
    (∀ a b : Vec Bool 3, boolCross a b =
      ![(a 1 && b 2) ^^ (a 2 && b 1), (a 2 && b 0) ^^ (a 0 && b 2), (a 0 && b 1) ^^ (a 1 && b 0)]) ∧
    (∀ v k : Vec Bool n, ((∃ i, v i = true ∧ k i = true) → boolReflect v k = some fun i => v i ^^ k i) ∧
      ((¬ ∃ i, v i = true ∧ k i = true) → boolReflect v k = some v)) ∧
    (∀ v i k : Vec Bool n, boolFaceforward v i k = v) := by
  refine ⟨boolDot_iff, ?_, ?_, ?_⟩
  · intro a b
    have : ∀ p q r s, boolCrossAt p q r s = ((p && q) ^^ (r && s)) := by decide
    simp only [boolCross, this]
  · intro v k
    have e1 : ∀ s, boolOpS .mul k s = some fun i => (k i && s) := fun s =>
      (boolOpS_iff _ _ _ _).2 fun i => (boolAt_spec _ _ _ _).2 rfl
    have e2 : ∀ p : Vec Bool n, boolOpS .mul p (toBool 2) = some fun i => p i := fun p =>
      (boolOpS_iff _ _ _ _).2 fun i => (boolAt_spec _ _ _ _).2 (by cases p i <;> rfl)
    have e3 : ∀ q : Vec Bool n, boolOp .sub v q = some fun i => (v i ^^ q i) := fun q =>
      (boolOp_iff _ _ _ _).2 fun i => (boolAt_spec _ _ _ _).2 rfl
    have e : boolReflect v k = some fun i => (v i ^^ (k i && boolDot v k)) := by
      unfold boolReflect
      simp only [e1, Option.bind_eq_bind, Option.bind_some, e2, e3]
    rw [e]
    refine ⟨fun h => ?_, fun h => ?_⟩
    · rw [(boolDot_iff v k).2 h]; simp
    · have : boolDot v k = false := by
        rw [← Bool.not_eq_true, boolDot_iff]; exact h
      rw [this]; simp
  · intro v i k
    unfold boolFaceforward
    rw [if_neg (by cases boolDot k i <;> decide)]
    exact (bool_vector_ops .add v v v false 0).2.2.2.2.2.2

/-- C131. `length()` says whether some component is true; for four components it is the square root of their number, as a
`double`. It is always defined. -/
theorem bool_length :
    (∀ v : Vec Bool n, ∃ r, boolLength v = some r ∧ (r = true ↔ ∃ i, v i = true)) ∧
    (∀ v : Vec Bool 4, ∃ x, boolLength4 v = some x ∧
      |x - √((Finset.univ.filter fun i => v i = true).card : ℝ)| ≤
        2 ^ (-53 : ℤ) * √((Finset.univ.filter fun i => v i = true).card : ℝ)) := by
  have hb : ∀ b, 0 ≤ bInt b := by decide
  have hnn : ∀ v : Vec Bool n, 0 ≤ boolLengthArg v ∧ (boolLengthArg v ≠ 0 ↔ ∃ i, v i = true) := by
    intro v
    unfold boolLengthArg
    split
    · rename_i v
      rw [Fin.exists_fin_two]
      cases v 0 <;> cases v 1 <;> decide
    · rename_i v
      rw [Fin.exists_fin_succ, Fin.exists_fin_two]
      show _ ∧ (_ ↔ v 0 = true ∨ v 1 = true ∨ v 2 = true)
      cases v 0 <;> cases v 1 <;> cases v 2 <;> decide
    · rename_i v
      rw [Fin.exists_fin_succ, Fin.exists_fin_succ, Fin.exists_fin_two]
      show _ ∧ (_ ↔ v 0 = true ∨ v 1 = true ∨ v 2 = true ∨ v 3 = true)
      cases v 0 <;> cases v 1 <;> cases v 2 <;> cases v 3 <;> decide
    · refine ⟨hb _, ?_⟩
      have := boolDot_iff v v
      simp only [and_self] at this
      rw [← this]
      show bInt (boolDot v v) ≠ 0 ↔ _
      cases boolDot v v <;> decide
  refine ⟨fun v => ?_, fun v => ?_⟩
  · obtain ⟨h1, h2⟩ := hnn v
    refine ⟨_, by unfold boolLength sqrtInt; rw [if_neg (by omega)]; rfl, ?_⟩
    rw [← h2]
    simp only [realToBool, decide_eq_true_eq, ne_eq, Rounding.eq_zero]
    have hp : (0 : ℝ) ≤ double.rnd (boolLengthArg v) := Rounding.nonneg (by exact_mod_cast h1)
    rw [Real.sqrt_eq_zero hp, Rounding.eq_zero, Int.cast_eq_zero]
  · have hc : boolLengthArg v = ((Finset.univ.filter fun i => v i = true).card : ℤ) ∧ boolLengthArg v ≤ 4 := by
      rw [Finset.card_filter]
      simp only [Fin.sum_univ_succ, boolLengthArg]
      show _ = (((if v 0 = true then 1 else 0) + ((if v 1 = true then 1 else 0) + ((if v 2 = true then 1 else 0) +
        ((if v 3 = true then 1 else 0) + 0))) : ℕ) : ℤ) ∧ _
      cases v 0 <;> cases v 1 <;> cases v 2 <;> cases v 3 <;> decide
    have h0 : 0 ≤ boolLengthArg v := by rw [hc.1]; exact Int.natCast_nonneg _
    refine ⟨_, by unfold boolLength4 sqrtInt; rw [if_neg (by omega)], ?_⟩
    rw [rnd_int (by rw [abs_of_nonneg h0]; exact hc.2.trans (by norm_num)), hc.1]
    have := double.err (√(((Finset.univ.filter fun i => v i = true).card : ℤ) : ℝ))
    rw [abs_of_nonneg (Real.sqrt_nonneg _)] at this
    rw [Int.cast_natCast] at this ⊢
    exact this

/-! ### Non-trivial cases -/

/-- `bvec3(true, true, false)` and `bvec3(true, false, true)`. -/
example : boolOp .add ![true, true, false] ![true, false, true] = some ![true, true, true] ∧
    boolOp .sub ![true, true, false] ![true, false, true] = some ![false, true, true] ∧
    boolOp .mul ![true, true, false] ![true, false, true] = some ![true, false, false] ∧
    boolOp .div ![true, true, false] ![true, false, true] = none ∧
    boolSelfOp .sub ![true, true, false] .itself = some ![false, false, false] ∧
    boolCross ![true, true, false] ![true, false, true] = ![true, true, true] ∧
    boolReflect ![true, true, false] ![true, false, true] = some ![false, true, true] := by decide +kernel

/-- `bvec2(true, false) * 0.5` is unchanged. -/
example [Indet Bool] : boolOpReal .mul ![true, false] (1 / 2) = some ![true, false] :=
  ((bool_vector_ops .mul ![true, false] ![true, true] ![true, false] true (1 / 2)).2.2.2.2.1 (by norm_num)).2
    (by intro i; fin_cases i <;> rfl)

/-- The squared length of a vector of four is a number, of a vector of five true or false. -/
example : boolLengthArg (![true, true, true, false] : Vec Bool 4) = 3 ∧
    boolLengthArg (![true, true, true, false, true] : Vec Bool 5) = 1 := by decide +kernel

end Verif.Math
