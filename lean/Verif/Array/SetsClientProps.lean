import Verif.Array.SetsClient
import Verif.Array.ClientsProps
import Mathlib.Logic.Relation

/-! # Disjoint sets kept in an `Array` (C184) -/

set_option autoImplicit false

namespace Verif.Arr

/-! ## Specification -/

/-- Connected by a chain of joins, in either direction. -/
def Connected (ops : List SetOp) : Nat → Nat → Prop := Relation.EqvGen fun x y => SetOp.join x y ∈ ops

/-- The members an operation names. -/
def SetOp.members : SetOp → Nat × Nat
  | .join x y => (x, y)
  | .same x y => (x, y)

/-! ## Forests -/

/-- The array is a forest with the sets of `J`; `d` bounds the way to the root. -/
structure Forest (n k : Nat) (J : Nat → Nat → Prop) (d : Nat → Nat) (xs : List Nat) : Prop where
  len : xs.length = n
  equiv : Equivalence J
  up : ∀ i p, xs[i]? = some p → p < n ∧ J i p ∧ (p ≠ i → d p < d i) ∧ (p = i → d i = 0)
  bound : ∀ i, d i ≤ k
  root : ∀ i j, xs[i]? = some i → xs[j]? = some j → J i j → i = j

/-- The sets after a join. -/
def joined (J : Nat → Nat → Prop) (x y : Nat) : Nat → Nat → Prop := fun u v => J u v ∨ (J u x ∧ J y v) ∨ (J u y ∧ J x v)

theorem joined_equiv {J : Nat → Nat → Prop} (h : Equivalence J) (x y : Nat) : Equivalence (joined J x y) where
  refl u := .inl (h.refl u)
  symm := by
    rintro u v (g | ⟨g1, g2⟩ | ⟨g1, g2⟩)
    · exact .inl (h.symm g)
    · exact .inr (.inr ⟨h.symm g2, h.symm g1⟩)
    · exact .inr (.inl ⟨h.symm g2, h.symm g1⟩)
  trans := by
    rintro u v w (g | ⟨g1, g2⟩ | ⟨g1, g2⟩) (k | ⟨k1, k2⟩ | ⟨k1, k2⟩)
    · exact .inl (h.trans g k)
    · exact .inr (.inl ⟨h.trans g k1, k2⟩)
    · exact .inr (.inr ⟨h.trans g k1, k2⟩)
    · exact .inr (.inl ⟨g1, h.trans g2 k⟩)
    · exact .inr (.inl ⟨g1, k2⟩)
    · exact .inl (h.trans g1 k2)
    · exact .inr (.inr ⟨g1, h.trans g2 k⟩)
    · exact .inl (h.trans g1 k2)
    · exact .inr (.inr ⟨g1, k2⟩)

theorem connected_equiv (ops : List SetOp) : Equivalence (Connected ops) := Relation.EqvGen.is_equivalence _

theorem connected_mono {ops ops' : List SetOp} (h : ∀ op ∈ ops, op ∈ ops') {x y : Nat} (g : Connected ops x y) :
    Connected ops' x y := Relation.EqvGen.mono (fun _ _ k => h _ k) _ _ g

theorem connected_join (ops : List SetOp) (x y : Nat) : joined (Connected ops) x y = Connected (ops ++ [.join x y]) := by
  funext u v
  have hin : ∀ {a b}, Connected ops a b → Connected (ops ++ [.join x y]) a b :=
    fun g => connected_mono (fun op ho => List.mem_append_left _ ho) g
  have hxy : Connected (ops ++ [.join x y]) x y := Relation.EqvGen.rel _ _ (by simp)
  have he := connected_equiv (ops ++ [.join x y])
  apply propext
  constructor
  · rintro (g | ⟨g1, g2⟩ | ⟨g1, g2⟩)
    · exact hin g
    · exact he.trans (hin g1) (he.trans hxy (hin g2))
    · exact he.trans (hin g1) (he.trans (he.symm hxy) (hin g2))
  · have hj := joined_equiv (connected_equiv ops) x y
    intro g
    induction g with
    | rel a b hab =>
      rcases List.mem_append.1 hab with hab | hab
      · exact .inl (Relation.EqvGen.rel _ _ hab)
      · rw [List.mem_singleton] at hab
        cases hab
        exact .inr (.inl ⟨(connected_equiv ops).refl _, (connected_equiv ops).refl _⟩)
    | refl a => exact hj.refl a
    | symm a b _ ih => exact hj.symm ih
    | trans a b c _ _ ih1 ih2 => exact hj.trans ih1 ih2

theorem connected_same (ops : List SetOp) (x y : Nat) : Connected (ops ++ [.same x y]) = Connected ops := by
  funext u v
  apply propext
  constructor
  · intro g
    refine Relation.EqvGen.mono (fun a b k => ?_) _ _ g
    rcases List.mem_append.1 k with k | k
    · exact k
    · rw [List.mem_singleton] at k; cases k
  · exact fun g => connected_mono (fun op ho => List.mem_append_left _ ho) g

variable {n k : Nat} {J : Nat → Nat → Prop} {d : Nat → Nat} {xs : List Nat}

theorem set_get (xs : List Nat) (i v j p : Nat) (h : (xs.set i v)[j]? = some p) :
    (j = i ∧ p = v ∧ i < xs.length) ∨ (j ≠ i ∧ xs[j]? = some p) := by
  rw [List.getElem?_set] at h
  split at h
  · rename_i e
    split at h
    · rename_i hl
      cases h
      exact .inl ⟨e.symm, rfl, hl⟩
    · cases h
  · rename_i e
    exact .inr ⟨fun g => e g.symm, h⟩

/-- The step of `representative`. -/
theorem Forest.halve (hf : Forest n k J d xs) {i p q : Nat} (hi : xs[i]? = some p) (hp : p ≠ i) (hq : xs[p]? = some q) :
    Forest n k J d (xs.set i q) ∧ q < n ∧ d q < d i ∧ J i q ∧
      ∀ j : Nat, (xs.set i q)[j]? = some j ↔ xs[j]? = some j := by
  obtain ⟨u1, u2, u3, -⟩ := hf.up i p hi
  obtain ⟨v1, v2, v3, v4⟩ := hf.up p q hq
  have hd : d q < d i := by
    by_cases e : q = p
    · rw [e]; exact u3 hp
    · exact Nat.lt_trans (v3 e) (u3 hp)
  have hqi : q ≠ i := fun e => by rw [e] at hd; omega
  have hroot : ∀ j : Nat, (xs.set i q)[j]? = some j ↔ xs[j]? = some j := by
    intro j
    constructor
    · intro g
      rcases set_get _ _ _ _ _ g with ⟨e1, e2, -⟩ | ⟨-, g⟩
      · exact absurd (e2.symm.trans e1) hqi
      · exact g
    · intro g
      rw [List.getElem?_set_ne]
      · exact g
      · rintro rfl
        rw [hi] at g
        cases g
        exact hp rfl
  refine ⟨⟨by rw [List.length_set]; exact hf.len, hf.equiv, ?_, hf.bound, ?_⟩, v1, hd, hf.equiv.trans u2 v2, hroot⟩
  · intro j r g
    rcases set_get _ _ _ _ _ g with ⟨rfl, rfl, -⟩ | ⟨-, g⟩
    · exact ⟨v1, hf.equiv.trans u2 v2, fun _ => hd, fun e => absurd e hqi⟩
    · exact hf.up j r g
  · intro a b ha hb
    exact hf.root a b ((hroot a).1 ha) ((hroot b).1 hb)

/-- The assignment of a join. -/
theorem Forest.link (hf : Forest n k J d xs) {x y r s : Nat} (hr : xs[r]? = some r) (hs : xs[s]? = some s) (hne : r ≠ s)
    (hx : J x r) (hy : J y s) : ∃ d', Forest n (k + 1) (joined J x y) d' (xs.set r s) := by
  classical
  have E := hf.equiv
  have hsr : ¬J s r := fun g => hne (hf.root s r hs hr g).symm
  refine ⟨fun i => if J i r then d i + 1 else d i, by rw [List.length_set]; exact hf.len, joined_equiv E x y, ?_, ?_, ?_⟩
  · intro i p g
    rcases set_get _ _ _ _ _ g with ⟨rfl, rfl, -⟩ | ⟨hi, g⟩
    · refine ⟨(hf.up p p hs).1, .inr (.inl ⟨E.symm hx, hy⟩), fun _ => ?_, fun e => absurd e.symm hne⟩
      rw [if_neg hsr, if_pos (E.refl _), (hf.up p p hs).2.2.2 rfl]
      omega
    · obtain ⟨h1, h2, h3, h4⟩ := hf.up i p g
      refine ⟨h1, .inl h2, fun e => ?_, fun e => ?_⟩
      · have := h3 e
        by_cases hj : J i r
        · rw [if_pos hj, if_pos (E.trans (E.symm h2) hj)]; omega
        · rw [if_neg hj, if_neg fun g' => hj (E.trans h2 g')]; exact this
      · subst e
        rw [if_neg fun g' => hi (hf.root _ _ g hr g')]
        exact h4 rfl
  · intro i
    have := hf.bound i
    split <;> omega
  · intro i j gi gj hij
    rcases set_get _ _ _ _ _ gi with ⟨e1, e2, -⟩ | ⟨hi, gi⟩
    · exact absurd (e1.symm.trans e2) hne
    rcases set_get _ _ _ _ _ gj with ⟨e1, e2, -⟩ | ⟨hj, gj⟩
    · exact absurd (e1.symm.trans e2) hne
    rcases hij with g | ⟨g1, -⟩ | ⟨-, g2⟩
    · exact hf.root i j gi gj g
    · exact absurd (hf.root i r gi hr (E.trans g1 hx)) hi
    · exact absurd (hf.root j r gj hr (E.trans (E.symm g2) hx)) hj

/-! ## The program -/

variable {cfg : Elem Nat} {w : World Nat} {a c : Nat} {A : AWorld Nat}

theorem S.set (hs : S cfg w A) (ht : cfg.triv = true) (ha : A a = some (xs, c)) {i : Nat} (hi : i < xs.length) (v : Nat) :
    Does (Arr.call cfg (.writeAt a i v)) w fun _ w' => S cfg w' (put A a (some (xs.set i v, c))) := by
  have e : xs = xs.take i ++ xs[i] :: xs.drop (i + 1) := by rw [← List.drop_eq_getElem_cons hi, List.take_append_drop]
  have hl : (xs.take i).length = i := by rw [List.length_take]; omega
  have ha' := ha
  rw [e] at ha'
  have := hs.write ht ha' v
  rw [hl] at this
  rwa [List.set_eq_take_append_cons_drop, if_pos hi]

theorem representative_spec (ht : cfg.triv = true) : ∀ (fuel i : Nat) (xs : List Nat) (w : World Nat) (A : AWorld Nat), S cfg w A →
    A a = some (xs, c) → Forest n k J d xs → i < n → d i < fuel →
    Does (representative cfg a fuel i) w fun r w' => r < n ∧ J i r ∧ ∃ ys, ys[r]? = some r ∧ Forest n k J d ys ∧
      (∀ j : Nat, xs[j]? = some j → ys[j]? = some j) ∧ S cfg w' (put A a (some (ys, c)))
  | 0, _, _, _, _, _, _, _, _, hd => by omega
  | fuel + 1, i, xs, w, A, hs, ha, hf, hi, hd => by
    have hil : i < xs.length := by rw [hf.len]; exact hi
    have hxi := List.getElem?_eq_getElem hil
    unfold representative
    refine Does.bind (hs.index ha hxi ?_)
    split
    · rename_i e
      rw [e] at hxi
      exact Does.pure ⟨hi, hf.equiv.refl i, xs, hxi, hf, fun _ g => g, hs.same ha rfl⟩
    · rename_i e
      have hp := (hf.up i _ hxi).1
      have hxp := List.getElem?_eq_getElem (by rw [hf.len]; exact hp : xs[i] < xs.length)
      refine Does.bind (hs.index ha hxp ?_)
      obtain ⟨g1, g2, g3, g4, g5⟩ := hf.halve hxi e hxp
      refine Does.bind ((hs.set ht ha hil _).mono fun _ w1 h1 => ?_)
      refine (representative_spec ht fuel _ _ w1 _ h1 (put_same ..) g1 g2 (by omega)).mono ?_
      rintro r w2 ⟨k1, k2, ys, k3, k4, k5, k6⟩
      rw [put_put] at k6
      exact ⟨k1, hf.equiv.trans g4 k2, ys, k3, k4, fun j hj => k5 j ((g5 j).2 hj), k6⟩

/-- Two members and their representatives. -/
theorem both_spec (ht : cfg.triv = true) {fuel x y : Nat} (hs : S cfg w A) (ha : A a = some (xs, c)) (hf : Forest n k J d xs)
    (hx : x < n) (hy : y < n) (hk : k < fuel) {γ : Type} (g : Nat → Nat → M (World Nat) γ) {Q : γ → World Nat → Prop}
    (h : ∀ r s ys w', J x r → J y s → ys[r]? = some r → ys[s]? = some s → Forest n k J d ys →
      S cfg w' (put A a (some (ys, c))) → Does (g r s) w' Q) :
    Does (do let r ← representative cfg a fuel x; let s ← representative cfg a fuel y; g r s) w Q := by
  refine Does.bind ((representative_spec ht fuel x xs w A hs ha hf hx (Nat.lt_of_le_of_lt (hf.bound x) hk)).mono ?_)
  rintro r w1 ⟨-, h1, ys, h2, h3, -, h4⟩
  refine Does.bind ((representative_spec ht fuel y ys w1 _ h4 (put_same ..) h3 hy (Nat.lt_of_le_of_lt (hf.bound y) hk)).mono ?_)
  rintro s w2 ⟨-, k1, zs, k2, k3, k4, k5⟩
  rw [put_put] at k5
  exact h r s zs w2 h1 k1 (k4 r h2) k2 k3 k5

theorem setRun_spec (ht : cfg.triv = true) {fuel : Nat} : ∀ (ops done : List SetOp) (xs : List Nat) (d : Nat → Nat)
    (w : World Nat) (A : AWorld Nat), S cfg w A → A a = some (xs, c) → Forest n done.length (Connected done) d xs →
    (∀ op ∈ ops, op.members.1 < n ∧ op.members.2 < n) → done.length + ops.length < fuel →
    Does (setRun cfg a fuel ops) w fun bs w' => bs.length = ops.length ∧
      (∀ (i : Nat) (hi : i < ops.length) (hb : i < bs.length),
        (bs[i] = true ↔ Connected (done ++ ops.take i) ops[i].members.1 ops[i].members.2)) ∧
      ∃ ys, S cfg w' (put A a (some (ys, c)))
  | [], done, xs, d, w, A, hs, ha, hf, _, _ => by
    unfold setRun
    exact Does.pure ⟨rfl, fun i hi => absurd hi (by simp), xs, hs.same ha rfl⟩
  | op :: ops, done, xs, d, w, A, hs, ha, hf, hm, hk => by
    have hm0 := hm op (by simp)
    have hlen : done.length + 1 + ops.length < fuel := by simp only [List.length_cons] at hk; omega
    have next : ∀ (b : Bool) (w1 : World Nat) (ys : List Nat) (d' : Nat → Nat),
        (b = true ↔ Connected done op.members.1 op.members.2) → S cfg w1 (put A a (some (ys, c))) →
        Forest n (done.length + 1) (Connected (done ++ [op])) d' ys →
        Does (do let bs ← setRun cfg a fuel ops; pure (b :: bs)) w1 fun bs w' => bs.length = (op :: ops).length ∧
          (∀ (i : Nat) (hi : i < (op :: ops).length) (hb : i < bs.length),
            (bs[i] = true ↔ Connected (done ++ (op :: ops).take i) (op :: ops)[i].members.1 (op :: ops)[i].members.2)) ∧
          ∃ ys, S cfg w' (put A a (some (ys, c))) := by
      intro b w1 ys d' hb hs1 hf1
      refine Does.bind ((setRun_spec ht ops (done ++ [op]) ys d' w1 _ hs1 (put_same ..) (by simpa using hf1)
        (fun o ho => hm o (by simp [ho])) (by simp; omega)).mono ?_)
      rintro bs w2 ⟨h1, h2, zs, h3⟩
      rw [put_put] at h3
      refine Does.pure ⟨by simp [h1], ?_, zs, h3⟩
      intro i hi hbi
      cases i with
      | zero => simpa using hb
      | succ i =>
        have := h2 i (by simpa using hi) (by simpa using hbi)
        simpa using this
    have keep : ∀ {ys : List Nat} {J : Nat → Nat → Prop}, Forest n done.length J d ys → Forest n (done.length + 1) J d ys :=
      fun g => ⟨g.len, g.equiv, g.up, fun i => Nat.le_succ_of_le (g.bound i), g.root⟩
    have E := hf.equiv
    unfold setRun
    cases op with
    | join x y =>
      unfold setStep
      refine Does.bind (both_spec ht hs ha hf hm0.1 hm0.2 (by omega) _ ?_)
      intro r s ys w1 hr hs' hrr hss hf1 hS
      split
      · rename_i e
        subst e
        have hxy : Connected done x y := E.trans hr (E.symm hs')
        refine Does.pure (next true w1 ys d (by simpa [SetOp.members] using hxy) hS ?_)
        rw [← connected_join]
        have : joined (Connected done) x y = Connected done := by
          funext u v
          apply propext
          constructor
          · rintro (g | ⟨g1, g2⟩ | ⟨g1, g2⟩)
            · exact g
            · exact E.trans g1 (E.trans hxy g2)
            · exact E.trans g1 (E.trans (E.symm hxy) g2)
          · exact .inl
        rw [this]
        exact keep hf1
      · rename_i e
        have hxy : ¬Connected done x y := fun g =>
          e (hf1.root r s hrr hss (E.trans (E.symm hr) (E.trans g hs')))
        have hl : r < ys.length := (List.getElem?_eq_some_iff.1 hrr).1
        obtain ⟨d', h2⟩ := hf1.link hrr hss e hr hs'
        refine Does.bind ((hS.set ht (put_same ..) hl s).mono fun _ w2 h3 => ?_)
        rw [put_put] at h3
        rw [connected_join] at h2
        exact Does.pure (next false w2 _ d' (by simpa [SetOp.members] using hxy) h3 h2)
    | same x y =>
      unfold setStep
      refine Does.bind (both_spec ht hs ha hf hm0.1 hm0.2 (by omega) _ ?_)
      intro r s ys w1 hr hs' hrr hss hf1 hS
      refine Does.pure (next _ w1 ys d ?_ hS (by rw [connected_same]; exact keep hf1))
      rw [decide_eq_true_iff]
      constructor
      · rintro rfl
        exact E.trans hr (E.symm hs')
      · intro g
        exact hf1.root r s hrr hss (E.trans (E.symm hr) (E.trans g hs'))

theorem singletons_spec (ht : cfg.triv = true) : ∀ (m i c : Nat) (w : World Nat) (A : AWorld Nat), S cfg w A →
    A a = some (List.range i, c) →
    Does (singletons cfg a m i) w fun _ w' => ∃ c', S cfg w' (put A a (some (List.range (i + m), c')))
  | 0, i, c, w, A, hs, ha => by
    unfold singletons
    exact Does.pure ⟨c, hs.same ha rfl⟩
  | m + 1, i, c, w, A, hs, ha => by
    unfold singletons
    refine Does.bind ((hs.push ht ha i).mono ?_)
    rintro _ w1 ⟨c1, h1⟩
    refine (singletons_spec ht m (i + 1) c1 w1 _ h1 (by rw [put_same, List.range_succ])).mono ?_
    rintro _ w2 ⟨c2, h2⟩
    rw [put_put] at h2
    exact ⟨c2, by rwa [show i + 1 + m = i + (m + 1) by omega] at h2⟩

theorem connected_nil {x y : Nat} (h : Connected [] x y) : x = y := by
  induction h with
  | rel _ _ h => simp at h
  | refl => rfl
  | symm _ _ _ ih => exact ih.symm
  | trans _ _ _ _ _ ih1 ih2 => exact ih1.trans ih2

/-- C184. Disjoint sets of `n` members in an array that was empty: whatever is joined and asked, every call returns and its answer is
`true` exactly if the two members are connected by the joins made before. No other array changes. -/
theorem sets_result (ht : cfg.triv = true) (hw : Reached cfg w) (ha : observe w a = some ([], c)) (n : Nat) (ops : List SetOp)
    (hm : ∀ op ∈ ops, op.members.1 < n ∧ op.members.2 < n) {fuel : Nat} (hf : ops.length < fuel) :
    ∃ w' bs ys c', disjointSets cfg a fuel n ops w = .ok bs w' ∧ Reached cfg w' ∧ bs.length = ops.length ∧
      (∀ (i : Nat) (hi : i < ops.length) (hb : i < bs.length),
        (bs[i] = true ↔ Connected (ops.take i) ops[i].members.1 ops[i].members.2)) ∧
      observe w' = put (observe w) a (some (ys, c')) := by
  have key : Does (disjointSets cfg a fuel n ops) w fun bs w' => bs.length = ops.length ∧
      (∀ (i : Nat) (hi : i < ops.length) (hb : i < bs.length),
        (bs[i] = true ↔ Connected (ops.take i) ops[i].members.1 ops[i].members.2)) ∧
      ∃ ys c', S cfg w' (put (observe w) a (some (ys, c'))) := by
    unfold disjointSets
    refine Does.bind ((singletons_spec ht n 0 c w _ ⟨hw, rfl⟩ ha).mono ?_)
    rintro _ w1 ⟨c1, h1⟩
    rw [Nat.zero_add] at h1
    have hfo : Forest n ([] : List SetOp).length (Connected []) (fun _ => 0) (List.range n) := by
      refine ⟨List.length_range, connected_equiv _, ?_, fun _ => Nat.le_refl _, fun i j _ _ g => connected_nil g⟩
      intro i p g
      obtain ⟨hi, e⟩ := List.getElem?_eq_some_iff.1 g
      rw [List.getElem_range] at e
      subst e
      exact ⟨by simpa using hi, (connected_equiv _).refl i, fun e => absurd rfl e, fun _ => rfl⟩
    refine (setRun_spec ht ops [] _ _ w1 _ h1 (put_same ..) hfo hm (by simpa using hf)).mono ?_
    rintro bs w2 ⟨h2, h3, ys, h4⟩
    rw [put_put] at h4
    exact ⟨h2, by simpa using h3, ys, c1, h4⟩
  obtain ⟨bs, w', h1, h2, h3, ys, c', h4, h5⟩ := key
  exact ⟨w', bs, ys, c', h1, h4, h2, h3, h5⟩

/-! ## Example -/

/-- Six members: joins, and what is connected. -/
example : (match run ⟨true, id⟩ World.init [.ctor 0] with
    | .ok _ w => match disjointSets ⟨true, id⟩ 0 20 6 [.join 0 1, .join 2 3, .same 0 3, .join 1 3, .same 0 2, .join 2 0, .same 4 5] w with
      | .ok bs _ => some bs
      | _ => none
    | _ => none) = some [false, false, false, false, true, true, false] := by
  decide +kernel

end Verif.Arr
