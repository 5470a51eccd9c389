import Verif.Math.IntVector
import Verif.Math.VectorLemmas
import Mathlib.Data.Nat.Sqrt
import Mathlib.Data.Int.ModEq

/-! Lemmas about the integer vectors of `IntVector.lean`. -/

set_option autoImplicit false

namespace Verif.Math

namespace IntTy

variable {t : IntTy}

theorem two_pow_half (h : 1 ≤ t.bits) : (2 : ℤ) ^ t.bits = 2 * 2 ^ (t.bits - 1) := by
  obtain ⟨k, hk⟩ := Nat.exists_eq_add_of_le h
  rw [hk, Nat.add_sub_cancel_left, pow_add, pow_one]

theorem conv_has (h : 1 ≤ t.bits) (z : ℤ) : t.Has (t.conv z) := by
  have h2 := two_pow_half h
  have hp : (0 : ℤ) < 2 ^ (t.bits - 1) := by positivity
  unfold Has lo hi conv
  cases t.signed
  · simp only [Bool.false_eq_true, if_false]
    exact ⟨Int.emod_nonneg _ (by omega), by have := Int.emod_lt_of_pos z (b := 2 ^ t.bits) (by omega); omega⟩
  · simp only [if_true]
    have h1 := Int.le_bmod (x := z) (m := 2 ^ t.bits) (by positivity)
    have h3 := Int.bmod_lt (x := z) (m := 2 ^ t.bits) (by positivity)
    push_cast at h1 h3
    omega

theorem conv_modEq (z : ℤ) : t.conv z ≡ z [ZMOD 2 ^ t.bits] := by
  unfold conv
  cases t.signed
  · simp only [Bool.false_eq_true, if_false]; exact Int.mod_modEq _ _
  · simp only [if_true]
    have := Int.bmod_emod (x := z) (m := 2 ^ t.bits)
    push_cast at this
    exact this

theorem has_unique (h : 1 ≤ t.bits) {x y : ℤ} (hx : t.Has x) (hy : t.Has y) (hm : x ≡ y [ZMOD 2 ^ t.bits]) :
    x = y := by
  have h2 := two_pow_half h
  have hp : (0 : ℤ) < 2 ^ (t.bits - 1) := by positivity
  obtain ⟨k, hk⟩ := hm.dvd
  unfold Has lo hi at hx hy
  have hlt : |y - x| < 2 ^ t.bits := by
    rw [abs_lt]
    cases hs : t.signed <;> simp only [hs, Bool.false_eq_true, if_false, if_true] at hx hy <;> omega
  have := Int.eq_zero_of_abs_lt_dvd ⟨k, hk⟩ hlt
  omega

theorem conv_of_has (h : 1 ≤ t.bits) {z : ℤ} (hz : t.Has z) : t.conv z = z :=
  has_unique h (conv_has h z) hz (conv_modEq z)

theorem promote_wide (h : 32 ≤ t.bits) : t.promote = t := by unfold promote; rw [if_neg (by omega)]

theorem promote_narrow (h : t.bits < 32) : t.promote = ⟨32, true⟩ := by unfold promote; rw [if_pos h]

theorem result_signed (hs : t.signed = true) {z r : ℤ} : t.result z = some r ↔ z = r ∧ t.Has r := by
  unfold result; rw [if_pos hs]
  split_ifs with h
  · constructor
    · intro e; cases e; exact ⟨rfl, h⟩
    · rintro ⟨rfl, _⟩; rfl
  · constructor
    · intro e; cases e
    · rintro ⟨rfl, h'⟩; exact absurd h' h

theorem result_unsigned (hs : t.signed = false) (z : ℤ) : t.result z = some (z % 2 ^ t.bits) := by
  unfold result; rw [if_neg (by simp [hs])]

theorem has_unsigned (hs : t.signed = false) {z : ℤ} : t.Has z ↔ 0 ≤ z ∧ z < 2 ^ t.bits := by
  unfold Has lo hi; simp only [hs, Bool.false_eq_true, if_false]; omega

theorem has_int {z : ℤ} : (⟨32, true⟩ : IntTy).Has z ↔ -2 ^ 31 ≤ z ∧ z < 2 ^ 31 := by
  unfold Has lo hi; simp only [if_true]; omega

end IntTy

/-! ### Loops -/

section Loops

variable {n : Nat}

theorem foldlM_self (f : Fin n → ℤ → Option ℤ) : ∀ (l : List (Fin n)), l.Nodup → ∀ (r0 r : Vec ℤ n),
    (l.foldlM (fun r i => (f i (r i)).map (store r i)) r0 = some r ↔
      (∀ i ∈ l, f i (r0 i) = some (r i)) ∧ ∀ j, j ∉ l → r j = r0 j)
  | [], _, r0, r => by
    simp only [List.foldlM_nil, List.not_mem_nil, false_implies, implies_true, true_and, not_false_eq_true,
      forall_const]
    constructor
    · intro h; cases h; intro; rfl
    · intro h; exact congrArg some (funext fun j => (h j).symm)
  | i :: l, hl, r0, r => by
    obtain ⟨hi, hl⟩ := List.nodup_cons.mp hl
    rw [List.foldlM_cons]
    cases hf : f i (r0 i) with
    | none =>
      constructor
      · intro h; simp at h
      · intro h; have := h.1 i (by simp); rw [hf] at this; cases this
    | some x =>
      have := foldlM_self f l hl (store r0 i x) r
      simp only [Option.map_some, Option.bind_eq_bind, Option.bind_some]
      rw [this]
      have hst : ∀ j, j ≠ i → store r0 i x j = r0 j := fun j hj => by simp [store, hj]
      have hsi : store r0 i x i = x := by simp [store]
      constructor
      · rintro ⟨h1, h2⟩
        refine ⟨?_, ?_⟩
        · intro j hj
          rcases List.mem_cons.mp hj with rfl | hj
          · rw [hf, h2 j hi, hsi]
          · have hne : j ≠ i := fun e => hi (e ▸ hj)
            rw [← h1 j hj, hst j hne]
        · intro j hj
          rw [List.mem_cons, not_or] at hj
          rw [h2 j hj.2, hst j hj.1]
      · rintro ⟨h1, h2⟩
        refine ⟨?_, ?_⟩
        · intro j hj
          have hne : j ≠ i := fun e => hi (e ▸ hj)
          rw [hst j hne]; exact h1 j (List.mem_cons_of_mem _ hj)
        · intro j hj
          by_cases hji : j = i
          · subst hji
            rw [hsi]; have := h1 j (by simp); rw [hf] at this; cases this; rfl
          · rw [hst j hji]; exact h2 j (by simp [hji, hj])

theorem forLoopM_self (f : Fin n → ℤ → Option ℤ) (r0 r : Vec ℤ n) :
    forLoopM n (fun i r => (f i (r i)).map (store r i)) r0 = some r ↔ ∀ i, f i (r0 i) = some (r i) := by
  unfold forLoopM
  rw [foldlM_self f _ (List.nodup_finRange n)]
  simp

theorem forLoopM_store (f : Fin n → Option ℤ) (r0 r : Vec ℤ n) :
    forLoopM n (fun i r => (f i).map (store r i)) r0 = some r ↔ ∀ i, f i = some (r i) :=
  forLoopM_self (fun i _ => f i) r0 r

theorem seq2 (f : Fin 2 → Option ℤ) (r : Vec ℤ 2) :
    (do let x ← f 0; let y ← f 1; pure ![x, y]) = some r ↔ ∀ i, f i = some (r i) := by
  rw [Fin.forall_fin_two]
  cases f 0 <;> cases f 1 <;> simp [funext_iff, Fin.forall_fin_two]

theorem seq3 (f : Fin 3 → Option ℤ) (r : Vec ℤ 3) :
    (do let x ← f 0; let y ← f 1; let z ← f 2; pure ![x, y, z]) = some r ↔ ∀ i, f i = some (r i) := by
  rw [Fin.forall_fin_succ, Fin.forall_fin_two]
  cases h0 : f 0 <;> cases h1 : f 1 <;> cases h2 : f 2 <;>
    simp [funext_iff, Fin.forall_fin_succ, h1, h2]

theorem seq4 (f : Fin 4 → Option ℤ) (r : Vec ℤ 4) :
    (do let x ← f 0; let y ← f 1; let z ← f 2; let w ← f 3; pure ![x, y, z, w]) = some r ↔
      ∀ i, f i = some (r i) := by
  rw [Fin.forall_fin_succ, Fin.forall_fin_succ, Fin.forall_fin_two]
  cases h0 : f 0 <;> cases h1 : f 1 <;> cases h2 : f 2 <;> cases h3 : f 3 <;>
    simp [funext_iff, Fin.forall_fin_succ, h1, h2, h3]

theorem intOp_iff (t : IntTy) (op : ArithOp) (a b r : Vec ℤ n) :
    intOp t op a b = some r ↔ ∀ i, op.at t (a i) (b i) = some (r i) := by
  unfold intOp; split
  · exact seq2 (fun i => op.at t (_ : Int) _) r
  · exact seq3 (fun i => op.at t (_ : Int) _) r
  · exact seq4 (fun i => op.at t (_ : Int) _) r
  · exact forLoopM_store _ _ _

theorem intOpS_iff (t : IntTy) (op : ArithOp) (a : Vec ℤ n) (s : ℤ) (r : Vec ℤ n) :
    intOpS t op a s = some r ↔ ∀ i, op.at t (a i) s = some (r i) := by
  unfold intOpS; split
  · exact seq2 (fun i => op.at t (_ : Int) s) r
  · exact seq3 (fun i => op.at t (_ : Int) s) r
  · exact seq4 (fun i => op.at t (_ : Int) s) r
  · exact forLoopM_store _ _ _

theorem intNeg_iff (t : IntTy) [Indet ℤ] (a r : Vec ℤ n) :
    intNeg t a = some r ↔ ∀ i, negAt t (a i) = some (r i) := by
  unfold intNeg; split
  · exact seq2 (fun i => negAt t (_ : Int)) r
  · exact seq3 (fun i => negAt t (_ : Int)) r
  · exact seq4 (fun i => negAt t (_ : Int)) r
  · exact forLoopM_store _ _ _

theorem intSelfOp_iff (t : IntTy) (op : ArithOp) (a : Vec ℤ n) (o : Operand ℤ n) (r : Vec ℤ n) :
    intSelfOp t op a o = some r ↔ ∀ i, op.at t (a i) (o.at a i) = some (r i) := by
  have key : forLoopM n (fun i r => (op.at t (r i) (o.at r i)).map (store r i)) a = some r ↔
      ∀ i, op.at t (a i) (o.at a i) = some (r i) := by
    cases o with
    | other v => exact forLoopM_self (fun i x => op.at t x (v i)) a r
    | itself => exact forLoopM_self (fun i x => op.at t x x) a r
  rw [← key]
  unfold intSelfOp
  split
  · rw [forLoopM]
    simp only [show List.finRange 2 = [0, 1] from by decide, List.foldlM_cons, List.foldlM_nil]
    simp
  · rw [forLoopM]
    simp only [show List.finRange 3 = [0, 1, 2] from by decide, List.foldlM_cons, List.foldlM_nil]
    simp
  · rw [forLoopM]
    simp only [show List.finRange 4 = [0, 1, 2, 3] from by decide, List.foldlM_cons, List.foldlM_nil]
    simp
  · rfl

end Loops

/-! ### Single operations -/

/-- `z` is the mathematical result of the operation. -/
def ArithOp.Exact (op : ArithOp) (x y z : ℤ) : Prop :=
  match op with
  | .add => z = x + y
  | .sub => z = x - y
  | .mul => z = x * y
  | .div => y ≠ 0 ∧ z = x.tdiv y

instance (op : ArithOp) (x y z : ℤ) : Decidable (op.Exact x y z) := by
  cases op <;> unfold ArithOp.Exact <;> infer_instance

theorem eval_iff (t : IntTy) (op : ArithOp) (x y r : ℤ) :
    op.eval t x y = some r ↔ ∃ z, op.Exact x y z ∧ t.promote.result z = some r := by
  cases op <;> simp only [ArithOp.eval, ArithOp.Exact, exists_eq_left]
  split_ifs with h
  · constructor
    · intro e; cases e
    · rintro ⟨z, ⟨h', _⟩, _⟩; exact absurd h h'
  · constructor
    · intro e; exact ⟨_, ⟨h, rfl⟩, e⟩
    · rintro ⟨z, ⟨_, rfl⟩, e⟩; exact e

theorem at_iff (t : IntTy) (op : ArithOp) (x y r : ℤ) :
    op.at t x y = some r ↔ ∃ z w, op.Exact x y z ∧ t.promote.result z = some w ∧ t.conv w = r := by
  unfold ArithOp.at
  rw [Option.map_eq_some_iff]
  constructor
  · rintro ⟨w, hw, h⟩
    obtain ⟨z, hz, hr⟩ := (eval_iff t op x y w).mp hw
    exact ⟨z, w, hz, hr, h⟩
  · rintro ⟨z, w, hz, hr, h⟩
    exact ⟨w, (eval_iff t op x y w).mpr ⟨z, hz, hr⟩, h⟩

variable {t : IntTy}

theorem at_signed (hb : 32 ≤ t.bits) (hs : t.signed = true) (op : ArithOp) (x y r : ℤ) :
    op.at t x y = some r ↔ op.Exact x y r ∧ t.Has r := by
  rw [at_iff, IntTy.promote_wide hb]
  constructor
  · rintro ⟨z, w, hz, hr, h⟩
    obtain ⟨rfl, hw⟩ := (IntTy.result_signed hs).mp hr
    rw [IntTy.conv_of_has (by omega) hw] at h
    subst h; exact ⟨hz, hw⟩
  · rintro ⟨h1, h2⟩
    exact ⟨r, r, h1, (IntTy.result_signed hs).mpr ⟨rfl, h2⟩, IntTy.conv_of_has (by omega) h2⟩

theorem at_unsigned (hb : 32 ≤ t.bits) (hs : t.signed = false) (op : ArithOp) (x y r : ℤ) :
    op.at t x y = some r ↔ t.Has r ∧ ∃ z, op.Exact x y z ∧ r ≡ z [ZMOD 2 ^ t.bits] := by
  have hb1 : 1 ≤ t.bits := by omega
  rw [at_iff, IntTy.promote_wide hb]
  constructor
  · rintro ⟨z, w, hz, hr, rfl⟩
    rw [IntTy.result_unsigned hs] at hr
    cases hr
    exact ⟨IntTy.conv_has hb1 _, z, hz, (IntTy.conv_modEq _).trans (Int.mod_modEq _ _)⟩
  · rintro ⟨hr, z, hz, hm⟩
    refine ⟨z, _, hz, IntTy.result_unsigned hs z, ?_⟩
    exact IntTy.has_unique hb1 (IntTy.conv_has hb1 _) hr
      ((IntTy.conv_modEq _).trans ((Int.mod_modEq _ _).trans hm.symm))

theorem at_narrow (hb : t.bits < 32) (hb1 : 1 ≤ t.bits) (op : ArithOp) (x y r : ℤ) :
    op.at t x y = some r ↔
      t.Has r ∧ ∃ z, op.Exact x y z ∧ -2 ^ 31 ≤ z ∧ z < 2 ^ 31 ∧ r ≡ z [ZMOD 2 ^ t.bits] := by
  rw [at_iff, IntTy.promote_narrow hb]
  constructor
  · rintro ⟨z, w, hz, hr, rfl⟩
    obtain ⟨rfl, hw⟩ := (IntTy.result_signed rfl).mp hr
    have := IntTy.has_int.mp hw
    exact ⟨IntTy.conv_has hb1 _, z, hz, this.1, this.2, IntTy.conv_modEq _⟩
  · rintro ⟨hr, z, hz, h1, h2, hm⟩
    refine ⟨z, z, hz, (IntTy.result_signed rfl).mpr ⟨rfl, IntTy.has_int.mpr ⟨h1, h2⟩⟩, ?_⟩
    exact IntTy.has_unique hb1 (IntTy.conv_has hb1 _) hr ((IntTy.conv_modEq _).trans hm.symm)

/-! ### Accumulated products -/

theorem mulAcc_iff (r a b s : ℤ) : mulAcc t r a b = some s ↔
    ∃ p q, t.promote.result (a * b) = some p ∧ t.promote.result (r + p) = some q ∧ t.conv q = s := by
  unfold mulAcc ArithOp.eval
  cases t.promote.result (a * b) with
  | none => simp
  | some p => simp [Option.map_eq_some_iff]

theorem mulAcc_signed (hb : 32 ≤ t.bits) (hs : t.signed = true) (r a b s : ℤ) :
    mulAcc t r a b = some s ↔ t.Has (a * b) ∧ t.Has s ∧ s = r + a * b := by
  rw [mulAcc_iff, IntTy.promote_wide hb]
  constructor
  · rintro ⟨p, q, h1, h2, rfl⟩
    obtain ⟨rfl, h1⟩ := (IntTy.result_signed hs).mp h1
    obtain ⟨rfl, h2⟩ := (IntTy.result_signed hs).mp h2
    rw [IntTy.conv_of_has (by omega) h2]; exact ⟨h1, h2, rfl⟩
  · rintro ⟨h1, h2, rfl⟩
    exact ⟨_, _, (IntTy.result_signed hs).mpr ⟨rfl, h1⟩, (IntTy.result_signed hs).mpr ⟨rfl, h2⟩,
      IntTy.conv_of_has (by omega) h2⟩

theorem mulAcc_unsigned (hb : 32 ≤ t.bits) (hs : t.signed = false) (r a b s : ℤ) :
    mulAcc t r a b = some s ↔ t.Has s ∧ s ≡ r + a * b [ZMOD 2 ^ t.bits] := by
  have hb1 : 1 ≤ t.bits := by omega
  rw [mulAcc_iff, IntTy.promote_wide hb]
  simp only [IntTy.result_unsigned hs, Option.some.injEq]
  have hm : t.conv ((r + a * b % 2 ^ t.bits) % 2 ^ t.bits) ≡ r + a * b [ZMOD 2 ^ t.bits] :=
    (IntTy.conv_modEq _).trans ((Int.mod_modEq _ _).trans ((Int.ModEq.refl r).add (Int.mod_modEq _ _)))
  constructor
  · rintro ⟨_, _, rfl, rfl, rfl⟩; exact ⟨IntTy.conv_has hb1 _, hm⟩
  · rintro ⟨h1, h2⟩; exact ⟨_, _, rfl, rfl, IntTy.has_unique hb1 (IntTy.conv_has hb1 _) h1 (hm.trans h2.symm)⟩

theorem mulAcc_narrow (hb : t.bits < 32) (hb1 : 1 ≤ t.bits) (r a b s : ℤ) :
    mulAcc t r a b = some s ↔ (-2 ^ 31 ≤ a * b ∧ a * b < 2 ^ 31) ∧ (-2 ^ 31 ≤ r + a * b ∧ r + a * b < 2 ^ 31) ∧
      t.Has s ∧ s ≡ r + a * b [ZMOD 2 ^ t.bits] := by
  rw [mulAcc_iff, IntTy.promote_narrow hb]
  simp only [IntTy.result_signed, IntTy.has_int]
  constructor
  · rintro ⟨p, q, ⟨rfl, h1⟩, ⟨rfl, h2⟩, rfl⟩
    exact ⟨h1, h2, IntTy.conv_has hb1 _, IntTy.conv_modEq _⟩
  · rintro ⟨h1, h2, h3, h4⟩
    exact ⟨_, _, ⟨rfl, h1⟩, ⟨rfl, h2⟩,
      IntTy.has_unique hb1 (IntTy.conv_has hb1 _) h3 ((IntTy.conv_modEq _).trans h4.symm)⟩

section Dot

variable {n : Nat} (a b : Vec ℤ n)

theorem foldlM_dot_signed (hb : 32 ≤ t.bits) (hs : t.signed = true) : ∀ (l : List (Fin n)) (r s : ℤ),
    (l.foldlM (fun r i => mulAcc t r (a i) (b i)) r = some s ↔
      (∀ i ∈ l, t.Has (a i * b i)) ∧
      (∀ k, 1 ≤ k → k ≤ l.length → t.Has (r + ((l.take k).map fun i => a i * b i).sum)) ∧
      s = r + (l.map fun i => a i * b i).sum)
  | [], r, s => by
    simp only [List.foldlM_nil, List.not_mem_nil, false_implies, implies_true, true_and, List.length_nil,
      List.map_nil, List.sum_nil, add_zero]
    constructor
    · intro h; cases h; exact ⟨fun k h1 h2 => by omega, rfl⟩
    · rintro ⟨_, rfl⟩; rfl
  | i :: l, r, s => by
    rw [List.foldlM_cons, Option.bind_eq_bind, Option.bind_eq_some_iff]
    constructor
    · rintro ⟨x, h1, h2⟩
      obtain ⟨hp, hx, rfl⟩ := (mulAcc_signed hb hs _ _ _ _).mp h1
      obtain ⟨g1, g2, rfl⟩ := (foldlM_dot_signed hb hs l _ s).mp h2
      refine ⟨?_, ?_, by simp [add_assoc]⟩
      · intro j hj
        rcases List.mem_cons.mp hj with rfl | hj
        · exact hp
        · exact g1 j hj
      · intro k hk1 hk2
        obtain ⟨k, rfl⟩ : ∃ m, k = m + 1 := ⟨k - 1, by omega⟩
        simp only [List.take_succ_cons, List.map_cons, List.sum_cons, List.length_cons] at hk2 ⊢
        rcases Nat.eq_zero_or_pos k with rfl | hk
        · simpa using hx
        · have := g2 k hk (by omega); rwa [add_assoc] at this
    · rintro ⟨h1, h2, rfl⟩
      have hx := h2 1 le_rfl (by simp)
      simp only [List.take_succ_cons, List.take_zero, List.map_cons, List.map_nil, List.sum_cons, List.sum_nil,
        add_zero] at hx
      refine ⟨r + a i * b i, (mulAcc_signed hb hs _ _ _ _).mpr ⟨h1 i (by simp), hx, rfl⟩, ?_⟩
      refine (foldlM_dot_signed hb hs l _ _).mpr ⟨fun j hj => h1 j (List.mem_cons_of_mem _ hj), ?_, by
        simp [add_assoc]⟩
      intro k hk1 hk2
      have := h2 (k + 1) (by omega) (by simpa using hk2)
      simpa only [List.take_succ_cons, List.map_cons, List.sum_cons, add_assoc] using this

theorem foldlM_dot_unsigned (hb : 32 ≤ t.bits) (hs : t.signed = false) : ∀ (l : List (Fin n)) (r : ℤ), t.Has r →
    ∃ s, l.foldlM (fun r i => mulAcc t r (a i) (b i)) r = some s ∧ t.Has s ∧
      s ≡ r + (l.map fun i => a i * b i).sum [ZMOD 2 ^ t.bits]
  | [], r, hr => ⟨r, rfl, hr, by simp⟩
  | i :: l, r, hr => by
    have hb1 : 1 ≤ t.bits := by omega
    have h1 := IntTy.conv_has hb1 (r + a i * b i)
    have h2 := IntTy.conv_modEq (t := t) (r + a i * b i)
    obtain ⟨s, e, hsr, hm⟩ := foldlM_dot_unsigned hb hs l _ h1
    refine ⟨s, ?_, hsr, ?_⟩
    · rw [List.foldlM_cons, (mulAcc_unsigned hb hs _ _ _ _).mpr ⟨h1, h2⟩]; exact e
    · rw [List.map_cons, List.sum_cons, ← add_assoc]
      exact hm.trans (h2.add (Int.ModEq.refl _))

theorem foldlM_dot_narrow (hb : t.bits < 32) (hb1 : 1 ≤ t.bits)
    (hp : ∀ i r, t.Has r → (-2 ^ 31 ≤ a i * b i ∧ a i * b i < 2 ^ 31) ∧
      (-2 ^ 31 ≤ r + a i * b i ∧ r + a i * b i < 2 ^ 31)) : ∀ (l : List (Fin n)) (r : ℤ), t.Has r →
    ∃ s, l.foldlM (fun r i => mulAcc t r (a i) (b i)) r = some s ∧ t.Has s ∧
      s ≡ r + (l.map fun i => a i * b i).sum [ZMOD 2 ^ t.bits]
  | [], r, hr => ⟨r, rfl, hr, by simp⟩
  | i :: l, r, hr => by
    have h1 := IntTy.conv_has hb1 (r + a i * b i)
    have h2 := IntTy.conv_modEq (t := t) (r + a i * b i)
    obtain ⟨s, e, hsr, hm⟩ := foldlM_dot_narrow hb hb1 hp l _ h1
    refine ⟨s, ?_, hsr, ?_⟩
    · rw [List.foldlM_cons, (mulAcc_narrow hb hb1 _ _ _ _).mpr ⟨(hp i r hr).1, (hp i r hr).2, h1, h2⟩]; exact e
    · rw [List.map_cons, List.sum_cons, ← add_assoc]
      exact hm.trans (h2.add (Int.ModEq.refl _))

end Dot

/-! ### Square roots -/

theorem rnd_int {z : ℤ} (h : |z| ≤ 2 ^ 53) : double.rnd z = z := by
  rcases eq_or_ne z 0 with rfl | hz
  · simpa using double.zero
  have hpos : (0 : ℝ) < |(z : ℝ)| := abs_pos.mpr (by exact_mod_cast hz)
  obtain ⟨b1, b2⟩ := binade hpos
  show roundTo 53 (z : ℝ) = z
  rcases lt_or_eq_of_le h with h | h
  · have hlog : Int.log 2 |(z : ℝ)| ≤ 52 := by
      by_contra hc
      have : (2 : ℝ) ^ (53 : ℤ) ≤ 2 ^ Int.log 2 |(z : ℝ)| := zpow_le_zpow_right₀ (by norm_num) (by omega)
      have h' : |(z : ℝ)| < 2 ^ 53 := by exact_mod_cast h
      have : (2 : ℝ) ^ (53 : ℤ) = 2 ^ 53 := by norm_num
      linarith
    have he : lastPlace 53 (z : ℝ) ≤ 0 := by unfold lastPlace; push_cast; omega
    obtain ⟨k, hk⟩ := Int.eq_ofNat_of_zero_le (neg_nonneg.mpr he)
    refine roundTo_exact (z * 2 ^ k) ?_
    have : lastPlace 53 (z : ℝ) = -(k : ℤ) := by omega
    rw [this]; push_cast
    rw [mul_assoc, zpow_neg, zpow_natCast, mul_inv_cancel₀ (by positivity), mul_one]
  · have hz' : z = 2 ^ 53 ∨ z = -2 ^ 53 := by
      rcases abs_cases z with ⟨e, _⟩ | ⟨e, _⟩ <;> omega
    have h53 := roundTo_pow (p := 53) (by norm_num) 53
    have e : (2 : ℝ) ^ (53 : ℤ) = 2 ^ 53 := by norm_num
    rw [e] at h53
    norm_num at h53
    rcases hz' with rfl | rfl
    · push_cast; exact h53
    · push_cast; rw [roundTo_neg, h53]

theorem sqrt_floor (m : ℕ) (hm : m < 2 ^ 51) : truncZ (double.rnd (√(m : ℝ))) = (Nat.sqrt m : ℤ) := by
  have hk1 : Nat.sqrt m * Nat.sqrt m ≤ m := Nat.sqrt_le m
  have hk2 : m < (Nat.sqrt m + 1) * (Nat.sqrt m + 1) := Nat.lt_succ_sqrt m
  set k := Nat.sqrt m
  have hkb : k < 2 ^ 26 := by
    by_contra hc
    have : 2 ^ 26 * 2 ^ 26 ≤ k * k := Nat.mul_le_mul (by omega) (by omega)
    omega
  have hge : (k : ℝ) ≤ √(m : ℝ) := Real.le_sqrt_of_sq_le (by exact_mod_cast (by rw [pow_two]; exact hk1))
  have hlow : (k : ℝ) ≤ double.rnd (√(m : ℝ)) := by
    have h := double.mono hge
    have e := rnd_int (z := (k : ℤ)) (by rw [abs_of_nonneg (by positivity)]; omega)
    push_cast at e
    rwa [e] at h
  have hs0 : 0 ≤ √(m : ℝ) := Real.sqrt_nonneg _
  have hsq : √(m : ℝ) ^ 2 = m := Real.sq_sqrt (by positivity)
  have hup : double.rnd (√(m : ℝ)) < k + 1 := by
    have he := (abs_le.mp (double.err (√(m : ℝ)))).2
    rw [abs_of_nonneg hs0] at he
    have hu : double.u = 2 ^ (-(53 : ℤ)) := rfl
    have hu' : double.u ≤ 1 / 2 ^ 53 := by rw [hu]; norm_num
    have hm1 : (m : ℝ) + 1 ≤ (k + 1) ^ 2 := by exact_mod_cast (by rw [pow_two]; omega)
    have hkr : (k : ℝ) + 1 ≤ 2 ^ 26 := by exact_mod_cast hkb
    -- √m (1 + u) < k + 1
    have hlt : √(m : ℝ) < k + 1 := by
      rw [Real.sqrt_lt' (by positivity)]; linarith
    have hus : double.u * √(m : ℝ) ≤ 1 / 2 ^ 53 * (k + 1) :=
      mul_le_mul hu' hlt.le hs0 (by norm_num)
    by_contra hc
    rw [not_lt] at hc
    have h1 : (k : ℝ) + 1 - 1 / 2 ^ 53 * (k + 1) ≤ √(m : ℝ) := by linarith
    have h2 : ((k : ℝ) + 1 - 1 / 2 ^ 53 * (k + 1)) ^ 2 ≤ m := by
      rw [← hsq]; exact pow_le_pow_left₀ (by nlinarith) h1 2
    have h3 : ((k : ℝ) + 1) ^ 2 ≤ 2 ^ 52 := by
      have := pow_le_pow_left₀ (by positivity) hkr 2
      norm_num at this ⊢; exact this
    nlinarith
  unfold truncZ
  rw [if_pos (le_trans (by positivity) hlow)]
  rw [Int.floor_eq_iff]
  exact ⟨by exact_mod_cast hlow, by exact_mod_cast hup⟩

end Verif.Math
