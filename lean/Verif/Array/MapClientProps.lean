import Verif.Array.MapClient
import Verif.Array.ClientsProps
import Mathlib.Order.Defs.LinearOrder
import Mathlib.Order.Basic

/-! # A map kept as a sorted `Array` (C174) -/

set_option autoImplicit false

namespace Verif.Arr

variable {K V : Type} [LinearOrder K]

/-! ## Specification -/

/-- The array is in the order of the keys, no key twice, and has exactly the entries of the map `m`. -/
def HoldsMap (xs : List (K × V)) (m : K → Option V) : Prop :=
  xs.Pairwise (fun x y => x.1 < y.1) ∧ ∀ k v, (k, v) ∈ xs ↔ m k = some v

/-- The key of an operation. -/
def MapOp.key : MapOp K V → K
  | .put k _ => k
  | .get k => k
  | .remove k => k

/-- The map after an operation. -/
def MapOp.after (op : MapOp K V) (m : K → Option V) : K → Option V := fun k' =>
  match op with
  | .put k v => if k' = k then some v else m k'
  | .get _ => m k'
  | .remove k => if k' = k then none else m k'

/-- The values that the keys had, one for each operation, and the map at the end. -/
def answers : List (MapOp K V) → (K → Option V) → List (Option V) × (K → Option V)
  | [], m => ([], m)
  | op :: ops, m => (m op.key :: (answers ops (op.after m)).1, (answers ops (op.after m)).2)

/-! ## Lists -/

section Lists

variable {pre post : List (K × V)} {k : K} {v : V} {m : K → Option V}

/-- `pre ++ post` are the entries other than that of `k`, which belongs between. -/
def Around (pre post : List (K × V)) (k : K) (m : K → Option V) : Prop :=
  (pre ++ post).Pairwise (fun x y => x.1 < y.1) ∧ (∀ x ∈ pre, x.1 < k) ∧ (∀ x ∈ post, k < x.1) ∧
  ∀ k' v', (k', v') ∈ pre ++ post ↔ k' ≠ k ∧ m k' = some v'

theorem Around.put (h : Around pre post k m) (v : V) :
    HoldsMap (pre ++ (k, v) :: post) (fun k' => if k' = k then some v else m k') := by
  obtain ⟨h1, h2, h3, h4⟩ := h
  constructor
  · rw [List.pairwise_append] at h1 ⊢
    refine ⟨h1.1, List.pairwise_cons.2 ⟨h3, h1.2.1⟩, fun x hx y hy => ?_⟩
    rcases List.mem_cons.1 hy with rfl | hy
    · exact h2 x hx
    · exact h1.2.2 x hx y hy
  · intro k' v'
    have := h4 k' v'
    rw [List.mem_append] at this
    rw [List.mem_append, List.mem_cons]
    by_cases e : k' = k
    · subst e
      simp only [if_true, Prod.mk.injEq, true_and, Option.some.injEq]
      constructor
      · rintro (h | h | h)
        · exact absurd (h2 _ h) (lt_irrefl _)
        · exact h.symm
        · exact absurd (h3 _ h) (lt_irrefl _)
      · intro h; exact .inr (.inl h.symm)
    · simp only [Prod.mk.injEq, e, false_and, false_or]
      rw [this]
      exact ⟨fun h => h.2, fun h => ⟨e, h⟩⟩

theorem Around.remove (h : Around pre post k m) : HoldsMap (pre ++ post) (fun k' => if k' = k then none else m k') := by
  obtain ⟨h1, h2, h3, h4⟩ := h
  refine ⟨h1, fun k' v' => ?_⟩
  rw [h4]
  by_cases e : k' = k
  · simp [e]
  · simp [e]

theorem HoldsMap.found (h : HoldsMap (pre ++ (k, v) :: post) m) : Around pre post k m ∧ m k = some v := by
  obtain ⟨h1, h2⟩ := h
  have h1' := h1
  rw [List.pairwise_append, List.pairwise_cons] at h1'
  obtain ⟨a1, ⟨a2, a3⟩, a4⟩ := h1'
  have hp : ∀ x ∈ pre, x.1 < k := fun x hx => a4 x hx _ List.mem_cons_self
  refine ⟨⟨?_, hp, a2, fun k' v' => ?_⟩, (h2 k v).1 (by simp)⟩
  · rw [List.pairwise_append]
    exact ⟨a1, a3, fun x hx y hy => a4 x hx y (List.mem_cons_of_mem _ hy)⟩
  · rw [← h2 k' v', List.mem_append, List.mem_append, List.mem_cons, Prod.mk.injEq]
    constructor
    · rintro (h | h)
      · exact ⟨ne_of_lt (hp _ h), .inl h⟩
      · exact ⟨ne_of_gt (a2 _ h), .inr (.inr h)⟩
    · rintro ⟨e, h | ⟨e', -⟩ | h⟩
      · exact .inl h
      · exact absurd e' e
      · exact .inr h

theorem HoldsMap.missing (h : HoldsMap (pre ++ post) m) (h2 : ∀ x ∈ pre, x.1 < k) (h3 : ∀ x ∈ post, k < x.1) :
    Around pre post k m ∧ m k = none := by
  have no : m k = none := by
    cases e : m k with
    | none => rfl
    | some v =>
      exfalso
      rcases List.mem_append.1 ((h.2 k v).2 e) with hm | hm
      · exact lt_irrefl _ (h2 _ hm)
      · exact lt_irrefl _ (h3 _ hm)
  refine ⟨⟨h.1, h2, h3, fun k' v' => ?_⟩, no⟩
  rw [h.2]
  refine ⟨fun e => ⟨?_, e⟩, fun e => e.2⟩
  rintro rfl
  rw [no] at e; cases e

end Lists

/-! ## The program -/

variable {cfg : Elem (K × V)} {w : World (K × V)} {a c : Nat} {A : AWorld (K × V)} {xs : List (K × V)}

theorem lowerBound_spec (k : K) (hi : xs.Pairwise (fun x y => x.1 < y.1)) : ∀ (fuel lo hi : Nat),
    S cfg w A → A a = some (xs, c) → hi - lo < fuel → lo ≤ hi → hi ≤ xs.length →
    (∀ j (h : j < xs.length), j < lo → xs[j].1 < k) → (∀ j (h : j < xs.length), hi ≤ j → k ≤ xs[j].1) →
    Does (lowerBound a k fuel lo hi) w fun i w' => w' = w ∧ i ≤ xs.length ∧
      (∀ j (h : j < xs.length), j < i → xs[j].1 < k) ∧ (∀ j (h : j < xs.length), i ≤ j → k ≤ xs[j].1) := by
  have up : ∀ i j (hi' : i < xs.length) (hj : j < xs.length), i ≤ j → xs[i].1 ≤ xs[j].1 := by
    intro i j hi' hj hij
    rcases Nat.lt_or_eq_of_le hij with h | h
    · exact le_of_lt (List.pairwise_iff_getElem.1 hi i j hi' hj h)
    · subst h; exact le_refl _
  intro fuel
  induction fuel with
  | zero => intro lo hi _ _ hf; omega
  | succ fuel ih =>
    intro lo hi' hs ha hf h1 h2 h3 h4
    unfold lowerBound
    split
    · rename_i hlt
      have hm : lo + (hi' - lo) / 2 < xs.length := by omega
      refine Does.bind (hs.index ha (List.getElem?_eq_getElem hm) ?_)
      split
      · rename_i hb
        exact ih _ hi' hs ha (by omega) (by omega) h2 (fun j hj hj2 => lt_of_le_of_lt (up j _ hj hm (by omega)) hb) h4
      · rename_i hb
        exact ih lo _ hs ha (by omega) (by omega) (by omega) h3
          (fun j hj hj2 => le_trans (not_lt.1 hb) (up _ j hm hj hj2))
    · exact Does.pure ⟨rfl, by omega, fun j hj hj2 => h3 j hj (by omega), fun j hj hj2 => h4 j hj (by omega)⟩

/-- The place of the key. -/
theorem mapFind_spec {m : K → Option V} (hm : HoldsMap xs m) (k : K) (hs : S cfg w A) (ha : A a = some (xs, c)) :
    Does (mapFind a k) w fun r w' => w' = w ∧ r.2 = m k ∧ ∃ pre post, Around pre post k m ∧ r.1 = pre.length ∧
      ((r.2 = none ∧ xs = pre ++ post) ∨ ∃ v, r.2 = some v ∧ xs = pre ++ (k, v) :: post) := by
  unfold mapFind
  refine Does.bind (hs.size ha (Does.bind ?_))
  refine (lowerBound_spec k hm.1 _ 0 xs.length hs ha (by omega) (by omega) (by omega) (by simp)
    (fun j h1 h2 => by omega)).mono ?_
  intro i w1 h0
  obtain ⟨rfl, h1, h2, h3⟩ := h0
  have hp : ∀ x ∈ xs.take i, x.1 < k := fun x hx => by
    obtain ⟨j, hj, rfl⟩ := List.mem_iff_getElem.1 hx
    rw [List.getElem_take]
    exact h2 j _ (by simp at hj; omega)
  have hlen : i = (xs.take i).length := by simp; omega
  split
  · rename_i he
    have he' : i = xs.length := by omega
    have ht : xs.take i = xs := by rw [he']; simp
    rw [ht] at hp hlen
    obtain ⟨g1, g2⟩ := HoldsMap.missing (pre := xs) (post := []) (k := k) (by simpa using hm) hp (by simp)
    exact Does.pure ⟨rfl, g2.symm, xs, [], g1, hlen, .inl ⟨rfl, by simp⟩⟩
  · rename_i he
    have hlt : i < xs.length := by omega
    have hd : xs = xs.take i ++ xs[i] :: xs.drop (i + 1) := by
      rw [← List.drop_eq_getElem_cons hlt, List.take_append_drop]
    refine Does.bind (hs.index ha (List.getElem?_eq_getElem hlt) ?_)
    split
    · rename_i hb
      have hq : ∀ x ∈ xs[i] :: xs.drop (i + 1), k < x.1 := by
        intro x hx
        rcases List.mem_cons.1 hx with rfl | hx
        · exact hb
        · obtain ⟨j, hj, rfl⟩ := List.mem_iff_getElem.1 hx
          rw [List.getElem_drop]
          refine lt_trans hb (List.pairwise_iff_getElem.1 hm.1 i _ hlt _ (by omega))
      have hm' := hm
      rw [hd] at hm'
      obtain ⟨g1, g2⟩ := HoldsMap.missing hm' hp hq
      exact Does.pure ⟨rfl, g2.symm, _, _, g1, hlen, .inl ⟨rfl, hd⟩⟩
    · rename_i hb
      have e : xs[i] = (k, xs[i].2) := Prod.ext (le_antisymm (not_lt.1 hb) (h3 i hlt (le_refl _))) rfl
      have hm' := hm
      rw [hd, e] at hm'
      obtain ⟨g1, g2⟩ := HoldsMap.found hm'
      exact Does.pure ⟨rfl, g2.symm, _, _, g1, hlen, .inr ⟨_, rfl, by rw [← e]; exact hd⟩⟩

omit [LinearOrder K] in
theorem S.insert (hs : S cfg w A) (ht : cfg.triv = true) {pre post : List (K × V)} (ha : A a = some (pre ++ post, c)) (x : K × V) :
    Does (Arr.call cfg (.insert a pre.length (.val x))) w fun _ w' => ∃ c', S cfg w' (put A a (some (pre ++ x :: post, c'))) := by
  refine (hs.call ht (A' := put A a (some (pre ++ x :: post, grown (pre ++ post).length c))) (r := pre.length) ?_).mono
    fun _ _ h => ⟨_, h.2⟩
  simp [specStep, Op.target, ha, member, argVal, ownArg, ownBehind, Nat.not_lt.mpr (Nat.le_add_right pre.length post.length)]

theorem mapRun_spec (ht : cfg.triv = true) (ops : List (MapOp K V)) : ∀ (xs : List (K × V)) (m : K → Option V) (c : Nat)
    (w : World (K × V)) (A : AWorld (K × V)), S cfg w A → A a = some (xs, c) → HoldsMap xs m →
    Does (mapRun cfg a ops) w fun rs w' => rs = (answers ops m).1 ∧
      ∃ ys c', HoldsMap ys (answers ops m).2 ∧ S cfg w' (put A a (some (ys, c'))) := by
  induction ops with
  | nil =>
    intro xs m c w A hs ha hm
    unfold mapRun
    exact Does.pure ⟨rfl, xs, c, hm, hs.same ha rfl⟩
  | cons op ops ih =>
    intro xs m c w A hs ha hm
    have next : ∀ (r : Option V) (w1 : World (K × V)) (ys : List (K × V)) (c1 : Nat), r = m op.key →
        S cfg w1 (put A a (some (ys, c1))) → HoldsMap ys (op.after m) →
        Does (do let rs ← mapRun cfg a ops; pure (r :: rs)) w1 fun rs w' => rs = (answers (op :: ops) m).1 ∧
          ∃ ys c', HoldsMap ys (answers (op :: ops) m).2 ∧ S cfg w' (put A a (some (ys, c'))) := by
      intro r w1 ys c1 hr hs1 hm1
      refine Does.bind ((ih ys _ c1 w1 _ hs1 (put_same ..) hm1).mono ?_)
      rintro rs w2 ⟨rfl, zs, c2, h1, h2⟩
      rw [put_put] at h2
      exact Does.pure ⟨by rw [hr]; rfl, zs, c2, h1, h2⟩
    cases op with
    | put k v =>
      unfold mapRun mapPut
      refine Does.bind (Does.bind ((mapFind_spec hm k hs ha).mono ?_))
      rintro ⟨i, r⟩ w1 ⟨rfl, hr, pre, post, hA, hi, h⟩
      dsimp only at hr hi h ⊢
      subst hi
      rcases h with ⟨hn, rfl⟩ | ⟨v', hn, rfl⟩
      · rw [hn] at hr ⊢
        refine Does.bind ((hs.insert ht ha (k, v)).mono ?_)
        rintro _ w2 ⟨c2, h2⟩
        exact Does.pure (next none w2 _ c2 hr h2 (hA.put v))
      · rw [hn] at hr ⊢
        refine Does.bind ((hs.write ht ha (k, v)).mono fun _ w2 h2 => ?_)
        exact Does.pure (next (some v') w2 _ c hr h2 (hA.put v))
    | get k =>
      unfold mapRun
      refine Does.bind ((mapFind_spec hm k hs ha).mono ?_)
      rintro ⟨i, r⟩ w1 ⟨rfl, hr, -⟩
      exact next r w1 xs c hr (hs.same ha rfl) hm
    | remove k =>
      unfold mapRun mapRemove
      refine Does.bind (Does.bind ((mapFind_spec hm k hs ha).mono ?_))
      rintro ⟨i, r⟩ w1 ⟨rfl, hr, pre, post, hA, hi, h⟩
      dsimp only at hr hi h ⊢
      subst hi
      rcases h with ⟨hn, rfl⟩ | ⟨v', hn, rfl⟩
      · rw [hn] at hr ⊢
        exact Does.pure (next none w1 _ c hr (hs.same ha rfl) hA.remove)
      · rw [hn] at hr ⊢
        refine Does.bind ((hs.erase ht ha).mono ?_)
        rintro _ w2 ⟨-, h2⟩
        exact Does.pure (next (some v') w2 _ c hr h2 hA.remove)

/-- C174. A map kept as an array in the order of the keys, started with any such array: whatever is stored, looked up and removed,
every operation gives the value last stored under its key, if that was not removed since, and the array stays in order and has
exactly the entries of the map. No other array changes. -/
theorem map_result (ht : cfg.triv = true) (hw : Reached cfg w) (ha : observe w a = some (xs, c)) {m : K → Option V}
    (hm : HoldsMap xs m) (ops : List (MapOp K V)) :
    ∃ w' ys c', mapRun cfg a ops w = .ok (answers ops m).1 w' ∧ Reached cfg w' ∧ HoldsMap ys (answers ops m).2 ∧
      observe w' = put (observe w) a (some (ys, c')) := by
  obtain ⟨rs, w', h1, rfl, ys, c', h2, h3, h4⟩ := mapRun_spec ht ops xs m c w _ ⟨hw, rfl⟩ ha hm
  exact ⟨w', ys, c', h1, h3, h2, h4⟩

/-! ## Example -/

/-- The empty array holds the empty map. -/
example : HoldsMap ([] : List (Nat × Nat)) (fun _ => none) := ⟨List.Pairwise.nil, by simp⟩

/-- A short history. -/
def demoMap : List (MapOp Nat Nat) := [.put 5 50, .put 3 30, .get 5, .put 5 51, .remove 3, .get 3, .put 9 90, .get 5]

/-- Its answers. -/
example : (answers demoMap (fun _ => none)).1 = [none, none, some 50, some 50, some 30, none, none, some 51] := by decide

/-- The program, started with an empty array. -/
example : (match run ⟨true, id⟩ World.init [.ctor 0] with
    | .ok _ w => match mapRun ⟨true, id⟩ 0 demoMap w with
      | .ok rs w => some (rs, (observe w 0).map Prod.fst)
      | _ => none
    | _ => none) = some ([none, none, some 50, some 50, some 30, none, none, some 51], some [(5, 51), (9, 90)]) := by
  decide +kernel

end Verif.Arr
