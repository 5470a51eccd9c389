import Verif.Math.Deduce
import Verif.Math.InitProps
import Mathlib.Data.List.Induction
import Mathlib.Tactic.Ring
import Mathlib.Algebra.Order.Ring.Int

/-! # Properties: deduced component types -/

set_option autoImplicit false

namespace Verif.MathDeduce

open Verif.MathInit (Arg Out vecInit matInit quatInit Src flat grid)

/-! ### Specification -/

/-- The rank of an integer type after promotion. -/
def rank (P : Platform) : Kind → Nat
  | .narrow i => (P.target i).1
  | .int r _ => r
  | .flt _ => 0

/-- Whether an integer type is unsigned after promotion. -/
def isUnsigned (P : Platform) : Kind → Bool
  | .narrow i => (P.target i).2
  | .int _ u => u
  | .flt _ => false

/-- The type for arguments of several types: the widest of the floating-point types if there is one; otherwise the integer type
of the highest rank, unsigned exactly if one of the arguments is unsigned and as wide. Only the set of types matters. -/
def Mixed (P : Platform) (l : List Kind) (c : Kind) : Prop :=
  (∃ R, c = .flt R ∧ .flt R ∈ l ∧ ∀ r, .flt r ∈ l → r ≤ R) ∨
  (∃ R u, c = .int R u ∧ (∀ r, .flt r ∉ l) ∧ (∃ a ∈ l, rank P a = R) ∧ (∀ a ∈ l, rank P a ≤ R) ∧
    (u = true ↔ ∃ a ∈ l, isUnsigned P a = true ∧ P.width (rank P a) = P.width R))

/-- The common type: that of all arguments if they agree, otherwise the one for several types. -/
def IsCommon (P : Platform) (l : List Kind) (c : Kind) : Prop :=
  (l ≠ [] ∧ ∀ a ∈ l, a = c) ∨ ((∃ a ∈ l, ∃ b ∈ l, a ≠ b) ∧ Mixed P l c)

/-! ### The common type -/

theorem promote_cases (P : Platform) (a : Kind) :
    (∃ r, a = .flt r ∧ promote P a = .flt r) ∨
      ((∀ r, a ≠ .flt r) ∧ promote P a = .int (rank P a) (isUnsigned P a)) := by
  cases a with
  | narrow i => exact .inr ⟨fun r h => (nomatch h), rfl⟩
  | int r u => exact .inr ⟨fun r h => (nomatch h), rfl⟩
  | flt r => exact .inl ⟨r, rfl, rfl⟩

theorem promote_idem (P : Platform) (a : Kind) : promote P (promote P a) = promote P a := by cases a <;> rfl

theorem usual_promote (P : Platform) (a b : Kind) : usual P (promote P a) b = usual P a b := by
  unfold usual; rw [promote_idem]

/-- The rule of the standard, put symmetrically. -/
theorem usualInt_eq (P : Platform) (r : Nat) (u : Bool) (s : Nat) (v : Bool) :
    usualInt P r u s v = .int (max r s) ((u && P.width r == P.width (max r s)) || (v && P.width s == P.width (max r s))) := by
  have h1 := P.mono r s
  have h2 := P.mono s r
  unfold usualInt
  rcases Nat.le_total r s with h | h
  · have hm : max r s = s := Nat.max_eq_right h
    have h1 := h1 h
    rw [hm]
    cases u <;> cases v <;> simp [h]
    by_cases h3 : s = r
    · subst h3; simp
    · rw [if_neg (by omega)]
      by_cases h4 : P.width r < P.width s
      · rw [if_pos h4]; simp; omega
      · rw [if_neg h4]; simp; omega
  · have hm : max r s = r := Nat.max_eq_left h
    have h2 := h2 h
    rw [hm]
    cases u <;> cases v <;> simp [h]
    by_cases h3 : s = r
    · subst h3; simp
    · rw [if_neg (by omega)]
      by_cases h4 : P.width s < P.width r
      · rw [if_pos h4]; simp; omega
      · rw [if_neg h4]; simp; omega

theorem mixed_congr (P : Platform) {l l' : List Kind} (h : ∀ a, a ∈ l ↔ a ∈ l') (c : Kind) :
    Mixed P l c ↔ Mixed P l' c := by
  unfold Mixed
  simp only [h]

theorem mixed_one (P : Platform) (a : Kind) : Mixed P [a] (promote P a) := by
  rcases promote_cases P a with ⟨r, rfl, h⟩ | ⟨h, h'⟩
  · exact .inl ⟨r, h, by simp, by simp⟩
  · refine .inr ⟨_, _, h', fun r hr => h r (List.mem_singleton.1 hr).symm, ⟨a, by simp, rfl⟩, ?_, ?_⟩
    · simp
    · simp

theorem mixed_snoc (P : Platform) {l : List Kind} {c : Kind} (h : Mixed P l c) (b : Kind) :
    Mixed P (l ++ [b]) (usual P c b) := by
  rcases h with ⟨R, rfl, h1, h2⟩ | ⟨R, u, rfl, h1, ⟨a, ha, hR⟩, h2, h3⟩
  · rcases promote_cases P b with ⟨s, rfl, hb⟩ | ⟨hn, hb⟩
    · refine .inl ⟨max R s, by simp [usual, promote], ?_, ?_⟩
      · rcases Nat.le_total R s with h | h
        · rw [Nat.max_eq_right h]; simp
        · rw [Nat.max_eq_left h]; simp [h1]
      · intro r hr
        rcases List.mem_append.1 hr with hr | hr
        · exact Nat.le_trans (h2 r hr) (Nat.le_max_left _ _)
        · cases List.mem_singleton.1 hr
          exact Nat.le_max_right _ _
    · refine .inl ⟨R, by rw [usual, hb]; rfl, by simp [h1], ?_⟩
      intro r hr
      rcases List.mem_append.1 hr with hr | hr
      · exact h2 r hr
      · exact (hn r (List.mem_singleton.1 hr).symm).elim
  · rcases promote_cases P b with ⟨s, rfl, hb⟩ | ⟨hn, hb⟩
    · refine .inl ⟨s, by simp [usual, promote], by simp, ?_⟩
      intro r hr
      rcases List.mem_append.1 hr with hr | hr
      · exact (h1 r hr).elim
      · cases List.mem_singleton.1 hr
        exact Nat.le_refl _
    · have he : usual P (.int R u) b = usualInt P R u (rank P b) (isUnsigned P b) := by
        rw [usual, hb]; rfl
      rw [he, usualInt_eq]
      refine .inr ⟨_, _, rfl, ?_, ?_, ?_, ?_⟩
      · intro r hr
        rcases List.mem_append.1 hr with hr | hr
        · exact h1 r hr
        · exact hn r (List.mem_singleton.1 hr).symm
      · rcases Nat.le_total R (rank P b) with h | h
        · exact ⟨b, by simp, by rw [Nat.max_eq_right h]⟩
        · exact ⟨a, by simp [ha], by rw [Nat.max_eq_left h, hR]⟩
      · intro x hx
        rcases List.mem_append.1 hx with hx | hx
        · exact Nat.le_trans (h2 x hx) (Nat.le_max_left _ _)
        · cases List.mem_singleton.1 hx
          exact Nat.le_max_right _ _
      · simp only [Bool.or_eq_true, Bool.and_eq_true, beq_iff_eq]
        constructor
        · rintro (⟨hu, hw⟩ | ⟨hu, hw⟩)
          · obtain ⟨x, hx, hxu, hxw⟩ := h3.1 hu
            exact ⟨x, by simp [hx], hxu, hxw.trans hw⟩
          · exact ⟨b, by simp, hu, hw⟩
        · rintro ⟨x, hx, hxu, hxw⟩
          rcases List.mem_append.1 hx with hx | hx
          · have i1 := P.mono _ _ (h2 x hx)
            have i2 := P.mono R (max R (rank P b)) (Nat.le_max_left _ _)
            exact .inl ⟨h3.2 ⟨x, hx, hxu, by omega⟩, by omega⟩
          · cases List.mem_singleton.1 hx
            exact .inr ⟨hxu, hxw⟩

theorem mixed_promoted (P : Platform) {l : List Kind} {c : Kind} (h : Mixed P l c) : promote P c = c := by
  rcases h with ⟨R, rfl, _⟩ | ⟨R, u, rfl, _⟩ <;> rfl

theorem mixed_unique (P : Platform) {l : List Kind} {c c' : Kind} (h : Mixed P l c) (h' : Mixed P l c') : c = c' := by
  rcases h with ⟨R, rfl, h1, h2⟩ | ⟨R, u, rfl, h1, ⟨a, ha, hR⟩, h2, h3⟩
  · rcases h' with ⟨R', rfl, h1', h2'⟩ | ⟨_, _, _, h1', _⟩
    · rw [Nat.le_antisymm (h2' _ h1) (h2 _ h1')]
    · exact (h1' _ h1).elim
  · rcases h' with ⟨R', rfl, h1', h2'⟩ | ⟨R', u', rfl, h1', ⟨a', ha', hR'⟩, h2', h3'⟩
    · exact (h1 _ h1').elim
    · have : R = R' := by
        have := h2' a ha
        have := h2 a' ha'
        omega
      subst this
      rw [← h3'] at h3
      rw [Bool.eq_iff_iff.2 h3]

theorem usual_self (P : Platform) {c : Kind} (h : promote P c = c) : usual P c c = c := by
  cases c with
  | narrow i => cases h
  | int r u => simp [usual, promote, usualInt]
  | flt r => simp [usual, promote]

theorem isCommon_fold (P : Platform) (a : Kind) (l : List Kind) : IsCommon P (a :: l) (l.foldl (common2 P) a) := by
  induction l using List.reverseRecOn with
  | nil => exact .inl ⟨by simp, by simp⟩
  | append_singleton l b ih =>
    rw [List.foldl_append, List.foldl_cons, List.foldl_nil]
    generalize l.foldl (common2 P) a = c at ih
    rw [← List.cons_append]
    unfold common2
    rcases ih with ⟨h0, h⟩ | ⟨⟨x, hx, y, hy, hxy⟩, h⟩
    · have hc : a = c := h a List.mem_cons_self
      by_cases hb : c = b
      · rw [if_pos hb]
        refine .inl ⟨by simp, fun x hx => ?_⟩
        rcases List.mem_append.1 hx with hx | hx
        · exact h x hx
        · rw [List.mem_singleton.1 hx, hb]
      · rw [if_neg hb]
        refine .inr ⟨⟨a, by simp, b, by simp, hc ▸ hb⟩, ?_⟩
        rw [← usual_promote]
        refine mixed_snoc P ((mixed_congr P (l := [c]) (fun x => ?_) _).1 (mixed_one P c)) b
        rw [List.mem_singleton]
        exact ⟨fun e => e ▸ hc ▸ List.mem_cons_self, h x⟩
    · refine .inr ⟨⟨x, List.mem_append_left _ hx, y, List.mem_append_left _ hy, hxy⟩, ?_⟩
      have := mixed_snoc P h b
      by_cases hb : c = b
      · rw [if_pos hb]
        subst hb
        rwa [usual_self P (mixed_promoted P h)] at this
      · rwa [if_neg hb]

theorem isCommon_unique (P : Platform) {l : List Kind} {c c' : Kind} (h : IsCommon P l c) (h' : IsCommon P l c') : c = c' := by
  rcases h with ⟨h0, h⟩ | ⟨⟨x, hx, y, hy, hxy⟩, h⟩
  · rcases h' with ⟨_, h'⟩ | ⟨⟨x, hx, y, hy, hxy⟩, _⟩
    · obtain ⟨a, ha⟩ := List.exists_mem_of_ne_nil _ h0
      rw [← h a ha, h' a ha]
    · exact (hxy ((h x hx).trans (h y hy).symm)).elim
  · rcases h' with ⟨_, h'⟩ | ⟨_, h'⟩
    · exact (hxy ((h' x hx).trans (h' y hy).symm)).elim
    · exact mixed_unique P h h'

/-- The deduced type is the common type of the specification, on every implementation. -/
theorem common_exact (P : Platform) (l : List Kind) (c : Kind) : commonType P l = some c ↔ IsCommon P l c := by
  match l with
  | [] => simp [commonType, IsCommon]
  | a :: l =>
    simp only [commonType, Option.some.injEq]
    constructor
    · rintro rfl; exact isCommon_fold P a l
    · exact fun h => isCommon_unique P (isCommon_fold P a l) h

/-- Neither the order of the arguments nor how often a type occurs makes a difference to the deduced type. -/
theorem common_set (P : Platform) (l l' : List Kind) (h : ∀ a, a ∈ l ↔ a ∈ l') : commonType P l = commonType P l' := by
  have hn : l = [] ↔ l' = [] := by
    simp only [List.eq_nil_iff_forall_not_mem, h]
  refine Option.ext fun c => ?_
  rw [common_exact, common_exact]
  unfold IsCommon
  rw [mixed_congr P h]
  simp only [h, ne_eq, hn]

/-! ### Vectors -/

/-- `Vector(args...)` compiles for every list of numbers, has as many components as there are arguments, and has them in their
order, each converted to the common type. -/
theorem vector_deduced (P : Platform) (args : List Kind) (h : args ≠ []) (c : Kind) (hc : IsCommon P args c) :
    vecMake P args = some (c, args.length, .ok ((List.range args.length).map (.arg · 0))) := by
  rw [← common_exact] at hc
  have hl : 1 ≤ args.length := List.length_pos_iff.2 h
  have hnum : ∀ a ∈ args.map Arg.num, ∃ k, a = Arg.num k := by simp
  have hf : flat (args.map Arg.num) = (List.range args.length).map (.arg · 0) := by
    rw [flat, MathInit.flatFrom_num _ _ hnum]; simp
  have : vecInit true c args.length (args.map .num) = .ok ((List.range args.length).map (.arg · 0)) := by
    by_cases h1 : args.length = 1
    · obtain ⟨a, rfl⟩ := List.length_eq_one_iff.1 h1
      exact (MathInit.vector_general_exact true c 1 (.inl rfl) _ _).2 (.inr (.inl ⟨a, rfl, rfl⟩))
    by_cases h4 : args.length ≤ 4
    · refine (MathInit.vector_init_exact true c _ ⟨by omega, h4⟩ _ _).2
        (.inr (.inr (.inr ⟨by simp; omega, ?_, ?_, hf.symm⟩)))
      · intro a ha; obtain ⟨k, rfl⟩ := hnum a ha; trivial
      · clear hl h1 h4 hf hnum hc h
        induction args with
        | nil => rfl
        | cons a l ih => simp [MathInit.total, MathInit.size, ih]; omega
    · refine (MathInit.vector_general_exact true c _ (.inr (by omega)) _ _).2
        (.inr (.inr (.inr ⟨by simp; omega, by simp, hnum, ?_⟩)))
      rw [hf]; simp
  simp [vecMake, vecDeduce, hc, this]

/-- The types of the components do not depend on the order of the arguments. -/
theorem vector_deduced_order (P : Platform) (args args' : List Kind) (h : args.Perm args') :
    vecDeduce P args = vecDeduce P args' := by
  unfold vecDeduce
  rw [common_set P args args' fun a => h.mem_iff, h.length_eq]

/-! ### Values -/

theorem intHas_unsigned {w : Nat} {z : Int} : intHas w true z ↔ 0 ≤ z ∧ z < 2 ^ w := by simp [intHas]

theorem intHas_signed {w : Nat} {z : Int} : intHas w false z ↔ -2 ^ (w - 1) ≤ z ∧ z < 2 ^ (w - 1) := by simp [intHas]

theorem pow_mono {m n : Nat} (h : m ≤ n) : (2 : Int) ^ m ≤ 2 ^ n := by
  have : (2 : Nat) ^ m ≤ 2 ^ n := Nat.pow_le_pow_right (by omega) h
  exact_mod_cast this

/-- A promotion keeps every value. -/
theorem promote_has (P : Platform) (k : Kind) (z : Int) (h : Has P k z) : Has P (promote P k) z := by
  cases k with
  | int r u => exact h
  | flt r => exact h
  | narrow i =>
    have hs := P.same i
    have hw := P.wider i
    have hu := P.unsignedOnly i
    have hp := P.narrowPos i
    simp only [Has, promote] at h ⊢
    generalize P.target i = t at *
    obtain ⟨r, u⟩ := t
    generalize P.narrowUnsigned i = v at *
    generalize P.narrowWidth i = w at *
    dsimp only at *
    cases u <;> cases v <;> simp at hs hw hu
    · rw [intHas_signed] at h ⊢
      have := pow_mono (show w - 1 ≤ P.width r - 1 by omega)
      omega
    · rw [intHas_unsigned] at h
      rw [intHas_signed]
      have := pow_mono (show w ≤ P.width r - 1 by omega)
      omega
    · rw [intHas_unsigned] at h ⊢
      have := pow_mono hs
      omega

/-- The value of an argument is kept if the deduced type is an integer type and the value is not negative or the deduced type
is signed. What is missing: negative values where the deduced type is unsigned, see `deduced_sign_wrong`. -/
theorem deduced_value_partial (P : Platform) (args : List Kind) (c : Kind) (hc : commonType P args = some c) (k : Kind)
    (hk : k ∈ args) (z : Int) (hz : Has P k z) (hi : ∀ r, c ≠ .flt r) (hs : 0 ≤ z ∨ isUnsigned P c = false) : Has P c z := by
  rw [common_exact] at hc
  rcases hc with ⟨_, h⟩ | ⟨_, ⟨R, rfl, _⟩ | ⟨R, u, rfl, h1, _, h2, h3⟩⟩
  · rwa [← h k hk]
  · exact (hi R rfl).elim
  · have hp := promote_has P k z hz
    rcases promote_cases P k with ⟨r, rfl, _⟩ | ⟨_, he⟩
    · exact (h1 r hk).elim
    · rw [he] at hp
      simp only [Has] at hp ⊢
      have hw := P.mono _ _ (h2 k hk)
      have hpos := P.pos (rank P k)
      cases u with
      | true =>
        have hs : 0 ≤ z := hs.resolve_right (by simp [isUnsigned])
        rw [intHas_unsigned]
        refine ⟨hs, ?_⟩
        cases hu : isUnsigned P k <;> rw [hu] at hp
        · rw [intHas_signed] at hp
          exact lt_of_lt_of_le hp.2 (pow_mono (by omega))
        · rw [intHas_unsigned] at hp
          exact lt_of_lt_of_le hp.2 (pow_mono hw)
      | false =>
        rw [intHas_signed]
        cases hu : isUnsigned P k <;> rw [hu] at hp
        · rw [intHas_signed] at hp
          have := pow_mono (show P.width (rank P k) - 1 ≤ P.width R - 1 by omega)
          omega
        · rw [intHas_unsigned] at hp
          have hne : P.width (rank P k) ≠ P.width R := fun e => by
            have := h3.2 ⟨k, hk, hu, e⟩; cases this
          have := pow_mono (show P.width (rank P k) ≤ P.width R - 1 by omega)
          have := pow_mono (Nat.zero_le (P.width R - 1))
          omega

/-- The value of an integer argument is kept in a deduced floating-point type, if it has at most as many digits as the type. What is
missing: larger values, see `deduced_digits_wrong`. -/
theorem deduced_float_partial (P : Platform) (R : Nat) (z : Int) (hz : z.natAbs < 2 ^ P.prec R) : Has P (.flt R) z :=
  ⟨z, 0, hz, by simp⟩

/-- The value of a floating-point argument that is an integer is kept. -/
theorem deduced_float_float (P : Platform) (args : List Kind) (c : Kind) (hc : commonType P args = some c) (r : Nat)
    (hk : .flt r ∈ args) (z : Int) (hz : Has P (.flt r) z) : Has P c z := by
  rw [common_exact] at hc
  rcases hc with ⟨_, h⟩ | ⟨_, ⟨R, rfl, _, h2⟩ | ⟨R, u, rfl, h1, _⟩⟩
  · rwa [← h _ hk]
  · obtain ⟨m, e, hm, rfl⟩ := hz
    exact ⟨m, e, Nat.lt_of_lt_of_le hm (Nat.pow_le_pow_right (by omega) (P.precMono _ _ (h2 r hk))), rfl⟩
  · exact (h1 r hk).elim

/-- If the deduced type is an unsigned integer type, no negative argument keeps its value, and this happens whenever an `int` meets
an `unsigned`, on every implementation. -/
theorem deduced_sign_wrong (P : Platform) (z : Int) (hz : z < 0) :
    commonType P [.int 0 false, .int 0 true] = some (.int 0 true) ∧ ¬Has P (.int 0 true) z := by
  refine ⟨?_, ?_⟩
  · simp [commonType, common2, usual, promote, usualInt]
  · simp only [Has, intHas_unsigned]; omega

/-- An `int` next to a `float` is deduced as `float` and loses digits, if `int` has at least two bits more than the `float` has digits:
2^p + 1 is such a value. -/
theorem deduced_digits_wrong (P : Platform) (hp : 1 ≤ P.prec 0) (hw : P.prec 0 + 2 ≤ P.width 0) :
    commonType P [.int 0 false, .flt 0] = some (.flt 0) ∧ Has P (.int 0 false) (2 ^ P.prec 0 + 1) ∧
      ¬Has P (.flt 0) (2 ^ P.prec 0 + 1) := by
  refine ⟨by simp [commonType, common2, usual, promote], ?_, ?_⟩
  · simp only [Has, intHas_signed]
    have h1 := pow_mono (show P.prec 0 + 1 ≤ P.width 0 - 1 by omega)
    have h2 := pow_mono hp
    rw [pow_succ] at h1
    omega
  · rintro ⟨m, e, hm, he⟩
    match e with
    | 0 =>
      simp at he
      have : (m.natAbs : Int) < 2 ^ P.prec 0 := by exact_mod_cast hm
      omega
    | e + 1 =>
      obtain ⟨p, hp'⟩ := Nat.exists_eq_add_of_le' hp
      rw [hp', pow_succ, pow_succ] at he
      have : (2 : Int) ^ p * 2 + 1 = m * 2 ^ e * 2 := by rw [he]; ring
      omega

/-! ### Matrices and quaternions -/

/-- `Quaternion(w, x, y, z)` compiles for all numbers, with the common type, or `float` if that is an integer type. -/
theorem quaternion_deduced (P : Platform) (a b c d : Kind) :
    ∃ r, quatMake P [a, b, c, d] = some (.flt r, .ok [.arg 0 0, .arg 1 0, .arg 2 0, .arg 3 0]) ∧
      ((∀ s, .flt s ∈ [a, b, c, d] → s ≤ r) ∧ (.flt r ∈ [a, b, c, d] ∨ (r = 0 ∧ ∀ s, .flt s ∉ [a, b, c, d]))) := by
  have ok : ∀ T : Kind, quatInit true T ([a, b, c, d].map .num) = .ok [.arg 0 0, .arg 1 0, .arg 2 0, .arg 3 0] := fun T =>
    (MathInit.quaternion_init_exact _ _ _ _).2 (.inr (.inr ⟨rfl, by simp, rfl⟩))
  obtain ⟨t, ht⟩ : ∃ t, commonType P [a, b, c, d] = some t := ⟨_, rfl⟩
  have h := (common_exact P _ t).1 ht
  unfold quatMake quatDeduce
  rw [ht]
  simp only [Option.map_some]
  cases t with
  | flt r =>
    refine ⟨r, by rw [ok], ?_⟩
    rcases h with ⟨h0, h⟩ | ⟨_, ⟨R, hR, h1, h2⟩ | ⟨R, u, hR, _⟩⟩
    · exact ⟨fun s hs => by cases h _ hs; exact Nat.le_refl _, .inl (h a (by simp) ▸ by simp)⟩
    · cases hR; exact ⟨h2, .inl h1⟩
    · cases hR
  | int r u =>
    refine ⟨0, by simp only [ok], ?_⟩
    have hn : ∀ s, Kind.flt s ∉ [a, b, c, d] := by
      rcases h with ⟨h0, h⟩ | ⟨_, ⟨R, hR, _⟩ | ⟨R, u, _, h1, _⟩⟩
      · exact fun s hs => nomatch h _ hs
      · cases hR
      · exact h1
    exact ⟨fun s hs => (hn s hs).elim, .inr ⟨rfl, hn⟩⟩
  | narrow i =>
    refine ⟨0, by simp only [ok], ?_⟩
    have hn : ∀ s, Kind.flt s ∉ [a, b, c, d] := by
      rcases h with ⟨h0, h⟩ | ⟨_, ⟨R, hR, _⟩ | ⟨R, u, _, h1, _⟩⟩
      · exact fun s hs => nomatch h _ hs
      · cases hR
      · exact h1
    exact ⟨fun s hs => (hn s hs).elim, .inr ⟨rfl, hn⟩⟩

/-- Any other number of arguments deduces a type but has no constructor. -/
theorem quaternion_deduced_count (P : Platform) (args : List Kind) (c : Kind) (comps : List Src)
    (h : quatMake P args = some (c, .ok comps)) : args.length = 4 := by
  unfold quatMake at h
  cases args with
  | nil => simp [quatDeduce, commonType] at h
  | cons a l =>
    simp only [quatDeduce, commonType, Option.map_some, Option.some.injEq, Prod.mk.injEq] at h
    rcases (MathInit.quaternion_init_exact _ _ _ _).1 h.2 with ⟨h, _⟩ | ⟨h, _⟩ | ⟨h, _⟩
    · cases h
    · cases l <;> cases h
    · simpa using h

/-- `Matrix(columns...)` with columns of one floating-point type gives the matrix with these columns. What is missing: columns of
different component types, see `matrix_deduced_wrong`; a single column of four is fine. -/
theorem matrix_deduced_partial (P : Platform) (r : Nat) (hr : 1 ≤ r) (s n : Nat) (hn : 1 ≤ n) :
    matMake P r (List.replicate n (.flt s)) = some (.flt s, n, .ok (grid n r .arg)) := by
  have hc : commonType P (List.replicate n (.flt s)) = some (.flt s) :=
    (common_exact _ _ _).2 (.inl ⟨by intro h; have := congrArg List.length h; simp at this; omega,
      fun a ha => List.eq_of_mem_replicate ha⟩)
  unfold matMake matDeduce
  rw [hc]
  simp only [Option.map_some, List.map_replicate, List.length_replicate]
  rw [MathInit.columns_partial true (Kind.flt s) n r hn hr]

/-- Columns of two, three or four components of different component types deduce a matrix type, as soon as one of them is a
floating-point type, but the constructor does not compile. -/
theorem matrix_deduced_wrong (P : Platform) (r : Nat) (h2 : 2 ≤ r) (h4 : r ≤ 4) (args : List Kind) (s : Nat)
    (hs : .flt s ∈ args) (hd : ∃ a ∈ args, ∃ b ∈ args, a ≠ b) :
    (∃ p, matDeduce P args = some p) ∧ ∀ c n comps, matMake P r args ≠ some (c, n, .ok comps) := by
  have hex : ∃ R, commonType P args = some (.flt R) := by
    cases args with
    | nil => cases hs
    | cons a l =>
      have h := isCommon_fold P a l
      rcases h with ⟨h0, h⟩ | ⟨_, h⟩
      · exact ⟨s, by rw [commonType, ← h _ hs]⟩
      · rcases h with ⟨R, hR, _⟩ | ⟨_, _, _, h1, _⟩
        · exact ⟨R, by rw [commonType, hR]⟩
        · exact (h1 s hs).elim
  obtain ⟨R, hR⟩ := hex
  refine ⟨⟨(.flt R, args.length), by simp only [matDeduce, hR]⟩, fun c n comps h => ?_⟩
  simp only [matMake, matDeduce, hR, Option.map_some, Option.some.injEq, Prod.mk.injEq] at h
  obtain ⟨x, hx, y, hy, hxy⟩ := hd
  obtain ⟨k, hk, hne⟩ : ∃ k ∈ args, k ≠ .flt R := by
    by_cases hxR : x = .flt R
    · exact ⟨y, hy, fun e => hxy (hxR.trans e.symm)⟩
    · exact ⟨x, hx, hxR⟩
  exact MathInit.columns_wrong true (Kind.flt R) k args.length r h2 h4 hne _ (List.mem_map.2 ⟨k, hk, rfl⟩) comps h.2.2

/-- `Matrix(columns...)` compiles exactly if the common type of the columns is a floating-point type and all columns have it, or have one
component or more than four; the matrix then has these columns, converted. -/
theorem matrix_deduced_exact (P : Platform) (r : Nat) (hr : 1 ≤ r) (args : List Kind) (c : Kind) (n : Nat)
    (comps : List Src) : matMake P r args = some (c, n, .ok comps) ↔
      IsCommon P args c ∧ (∃ s, c = .flt s) ∧ n = args.length ∧ ((∀ a ∈ args, a = c) ∨ r = 1 ∨ 4 < r) ∧
        comps = grid n r .arg := by
  constructor
  · intro h
    cases hc : commonType P args with
    | none => simp [matMake, matDeduce, hc] at h
    | some t =>
      have hi := (common_exact P args t).1 hc
      cases t with
      | narrow i => simp [matMake, matDeduce, hc] at h
      | int r u => simp [matMake, matDeduce, hc] at h
      | flt s =>
        simp only [matMake, matDeduce, hc, Option.map_some, Option.some.injEq, Prod.mk.injEq] at h
        obtain ⟨rfl, rfl, h⟩ := h
        have h0 : args ≠ [] := by rintro rfl; simp [commonType] at hc
        refine ⟨hi, ⟨s, rfl⟩, rfl, ?_⟩
        by_cases h4 : args.length = 4 ∧ r = 4
        · obtain ⟨h4, rfl⟩ := h4
          rw [h4] at h
          rcases (MathInit.matrix4_init_exact _ _ _ _).1 h with ⟨h, _⟩ | ⟨_, h, _⟩ | ⟨h, _⟩ | ⟨_, h, _⟩ | ⟨_, h, hcomps⟩
          · exact (h0 (by simpa using h)).elim
          · have := congrArg List.length h; simp [h4] at this
          · have := congrArg List.length h; simp [h4] at this
          · have := congrArg List.length h; simp [h4] at this
          · refine ⟨.inl fun a ha => ?_, ?_⟩
            · have := h _ (List.mem_map.2 ⟨a, ha, rfl⟩)
              cases this; rfl
            · rw [hcomps, h4, ← MathInit.columns_all, MathInit.columns_eq]
              simp [h4]
        · rcases (MathInit.matrix_init_exact _ _ _ _ hr h4 _ _).1 h with ⟨h, _⟩ | ⟨_, h, _⟩ | ⟨_, h, _⟩ | ⟨_, _, h, hcomps⟩
          · exact (h0 (by simpa using h)).elim
          · match args, h with
            | [a], h => cases h
          · match args, h with
            | [a], h => cases h
          · refine ⟨?_, hcomps⟩
            by_cases hr' : r = 1 ∨ 4 < r
            · exact .inr hr'
            · refine .inl fun a ha => ?_
              obtain ⟨k, hk, hk'⟩ := h _ (List.mem_map.2 ⟨a, ha, rfl⟩)
              cases hk
              exact hk'.resolve_right hr'
  · rintro ⟨hi, ⟨s, rfl⟩, rfl, hk, rfl⟩
    have hc := (common_exact P args _).2 hi
    have h0 : args ≠ [] := by rintro rfl; simp [commonType] at hc
    simp only [matMake, matDeduce, hc, Option.map_some, Option.some.injEq, Prod.mk.injEq, true_and]
    by_cases h4 : args.length = 4 ∧ r = 4
    · obtain ⟨h4, rfl⟩ := h4
      rw [h4]
      have hk := hk.resolve_right (by omega)
      refine (MathInit.matrix4_init_exact _ _ _ _).2 (.inr (.inr (.inr (.inr ⟨.inr (by simp [h4]), ?_, ?_⟩))))
      · intro a ha
        obtain ⟨k, hk', rfl⟩ := List.mem_map.1 ha
        rw [hk k hk']
      · rw [← MathInit.columns_all, MathInit.columns_eq]
        simp [h4]
    · refine (MathInit.matrix_init_exact _ _ _ _ hr h4 _ _).2 (.inr (.inr (.inr ⟨by simpa using h0, by simp, ?_, rfl⟩)))
      intro a ha
      obtain ⟨k, hk', rfl⟩ := List.mem_map.1 ha
      exact ⟨k, rfl, hk.imp_left fun h => h k hk'⟩

/-! ### Examples -/

/-- A usual platform: `int` of 32 bits, `long` and `long long` of 64; `bool`, `signed char`, `short`, `unsigned short` and `char32_t`
as the types 0 to 4; precisions 24, 53 and 64. -/
def lp64 : Platform where
  width r := if r = 0 then 32 else 64
  narrowWidth i := if i = 0 then 1 else if i = 1 then 8 else if i ≤ 3 then 16 else 32
  narrowUnsigned i := i == 0 || decide (3 ≤ i)
  target i := (0, decide (4 ≤ i))
  prec r := if r = 0 then 24 else if r = 1 then 53 else 64
  mono := by intro r s h; by_cases r = 0 <;> by_cases s = 0 <;> simp_all
  pos := by intro r; by_cases h : r = 0 <;> simp [h]
  precMono := by
    intro r s h
    by_cases h0 : r = 0 <;> by_cases h1 : r = 1 <;> by_cases h2 : s = 0 <;> by_cases h3 : s = 1 <;> simp_all <;> omega
  same := by intro i; split <;> split <;> simp <;> split <;> omega
  wider := by intro i; split <;> split <;> simp <;> split <;> omega
  unsignedOnly := by intro i; simp; omega
  narrowPos := by intro i; repeat' split
                  all_goals omega

/-- `Vector(short, signed char, 1L)` has components of type `long`; `Vector(short, short)` of type `short`, and
`Vector(short, signed char)` of type `int`. -/
example : vecMake lp64 [.narrow 2, .narrow 1, .int 1 false] = some (.int 1 false, 3, .ok [.arg 0 0, .arg 1 0, .arg 2 0]) ∧
    vecDeduce lp64 [.narrow 2, .narrow 2] = some (.narrow 2, 2) ∧
    vecDeduce lp64 [.narrow 2, .narrow 1] = some (.int 0 false, 2) := by decide +kernel

/-- `Vector(1u, 1L)` has components of type `long`, `Vector(1ul, 1LL)` of type `unsigned long long`. -/
example : vecDeduce lp64 [.int 0 true, .int 1 false] = some (.int 1 false, 2) ∧
    vecDeduce lp64 [.int 1 true, .int 2 false] = some (.int 2 true, 2) := by decide +kernel

/-- The hypotheses of the theorems on values hold. -/
example : commonType lp64 [.narrow 3, .int 0 false] = some (.int 0 false) ∧ Has lp64 (.narrow 3) 65535 := by
  refine ⟨by decide +kernel, ?_⟩
  show intHas 16 true 65535
  decide

example : 1 ≤ lp64.prec 0 ∧ lp64.prec 0 + 2 ≤ lp64.width 0 := by decide

/-- `Quaternion(1, 2, 3, 4)` is a quaternion of `float`. -/
example : quatMake lp64 [.int 0 false, .int 0 false, .int 0 false, .int 0 false] =
    some (.flt 0, .ok [.arg 0 0, .arg 1 0, .arg 2 0, .arg 3 0]) := by decide +kernel

/-- A matrix of columns of `float` and `double`. -/
example : matMake lp64 3 [.flt 0, .flt 1] = some (.flt 1, 2, .error) ∧
    (matMake lp64 1 [.flt 0, .flt 1]) = some (.flt 1, 2, .ok [.arg 0 0, .arg 1 0]) := by decide +kernel

end Verif.MathDeduce
