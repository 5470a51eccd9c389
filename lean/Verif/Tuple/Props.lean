import Verif.Tuple.Model
import Mathlib.Data.List.Nodup
import Mathlib.Tactic.Linarith

/-! # Properties of `Tuple` and `Pair` -/

set_option autoImplicit false

namespace Verif.Tup

variable {α β : Type}

/-! ### Lemmas -/

theorem foldComma_succ (f : Nat → Mem α → Option (Mem α)) (is : List Nat) (m : Mem α) :
    foldComma f (is.map (· + 1)) m = foldComma (fun i => f (i + 1)) is m := by
  induction is generalizing m with
  | nil => rfl
  | cons i is ih =>
    simp only [List.map_cons, foldComma]
    cases f (i + 1) m with
    | none => rfl
    | some m' => exact ih m'

theorem indices_cons (l : Loc) (t : Tuple) : indices (l :: t) = 0 :: (indices t).map (· + 1) := by
  unfold indices; rw [List.length_cons, List.range_succ_eq_map]

theorem assign_cons (d s : Loc) (ds ss : Tuple) (m : Mem α) :
    assign (d :: ds) (s :: ss) m = assign ds ss (Function.update m d (m s)) := by
  unfold assign
  rw [indices_cons]
  simp only [foldComma]
  show foldComma _ _ _ = _
  rw [foldComma_succ]
  rfl

theorem swap_cons (x y : Loc) (xs ys : Tuple) (m : Mem α) :
    swap (x :: xs) (y :: ys) m = swap xs ys (Function.update (Function.update m x (m y)) y (m x)) := by
  unfold swap
  rw [indices_cons]
  simp only [foldComma]
  show foldComma _ _ _ = _
  rw [foldComma_succ]
  rfl

theorem getAll_indices (m : Mem α) (t : Tuple) : getAll m t (indices t) = some (t.map m) := by
  unfold getAll
  have : ∀ (is : List Nat), (∀ i ∈ is, i < t.length) →
      is.mapM (fun i => (get i t).map m) = some (is.map fun i => m (t.getD i 0)) := by
    intro is
    induction is with
    | nil => intro _; rfl
    | cons i is ih =>
      intro h
      have hi := h i (by simp)
      simp only [List.mapM_cons, List.map_cons]
      rw [ih fun j hj => h j (by simp [hj])]
      simp [get, hi]
  rw [this _ (by simp [indices])]
  congr 1
  apply List.ext_getElem
  · simp [indices]
  · intro i h1 h2
    have : i < t.length := by simpa using h2
    simp [indices, this]

/-! ### Element access, assignment, swap, conversion, apply -/

/-- C49. After construction from values, `get<I>` reads the `I`-th value; nothing else changes. -/
theorem tuple_get (t : Tuple) (vs : List α) (m : Mem α) (hn : t.Nodup) (hl : t.length = vs.length) :
    ∃ m', construct t vs m = some m' ∧
      (∀ i (h : i < vs.length), ∃ l, get i t = some l ∧ m' l = vs[i]) ∧ (∀ l, l ∉ t → m' l = m l) := by
  induction t generalizing vs m with
  | nil =>
    cases vs with
    | nil => exact ⟨m, rfl, by simp, by simp⟩
    | cons => simp at hl
  | cons l t ih =>
    cases vs with
    | nil => simp at hl
    | cons v vs =>
      obtain ⟨m', h1, h2, h3⟩ := ih vs (Function.update m l v) (List.nodup_cons.1 hn).2 (by simpa using hl)
      refine ⟨m', h1, fun i hi => ?_, fun k hk => ?_⟩
      · cases i with
        | zero => exact ⟨l, rfl, by rw [h3 l (List.nodup_cons.1 hn).1]; simp⟩
        | succ i => exact h2 i (by simpa using hi)
      · simp only [List.mem_cons, not_or] at hk
        rw [h3 k hk.2, Function.update_of_ne hk.1]

/-- C49. Assignment copies every element from a tuple stored elsewhere; nothing else changes, not the source
either. -/
theorem tuple_assign (dst src : Tuple) (m : Mem α) (hn : dst.Nodup) (hl : dst.length = src.length)
    (hd : ∀ l ∈ dst, l ∉ src) :
    ∃ m', assign dst src m = some m' ∧ dst.map m' = src.map m ∧ (∀ l, l ∉ dst → m' l = m l) := by
  induction dst generalizing src m with
  | nil =>
    cases src with
    | nil => exact ⟨m, rfl, rfl, by simp⟩
    | cons => simp at hl
  | cons d ds ih =>
    cases src with
    | nil => simp at hl
    | cons s ss =>
      rw [assign_cons]
      obtain ⟨m', h1, h2, h3⟩ := ih ss (Function.update m d (m s)) (List.nodup_cons.1 hn).2 (by simpa using hl)
        fun l h1 h2 => hd l (by simp [h1]) (by simp [h2])
      refine ⟨m', h1, ?_, fun k hk => ?_⟩
      · simp only [List.map_cons]
        rw [h3 d (List.nodup_cons.1 hn).1, h2]
        simp only [Function.update_self, List.cons.injEq, true_and]
        apply List.map_congr_left
        intro x hx
        rw [Function.update_of_ne]
        rintro rfl; exact hd x (by simp) (by simp [hx])
      · simp only [List.mem_cons, not_or] at hk
        rw [h3 k hk.2, Function.update_of_ne hk.1]

/-- C49. Assignment from a tuple at the same places (self-assignment through another type) changes nothing. -/
theorem tuple_self_assign (t : Tuple) (m : Mem α) : assign t t m = some m := by
  induction t generalizing m with
  | nil => rfl
  | cons l t ih => rw [assign_cons, Function.update_eq_self, ih]

/-- C49. `swap` exchanges all elements of two tuples and changes nothing else. -/
theorem tuple_swap (a b : Tuple) (m : Mem α) (ha : a.Nodup) (hb : b.Nodup) (hl : a.length = b.length)
    (hd : ∀ l ∈ a, l ∉ b) :
    ∃ m', swap a b m = some m' ∧ a.map m' = b.map m ∧ b.map m' = a.map m ∧
      (∀ l, l ∉ a → l ∉ b → m' l = m l) := by
  induction a generalizing b m with
  | nil =>
    cases b with
    | nil => exact ⟨m, rfl, rfl, rfl, by simp⟩
    | cons => simp at hl
  | cons x xs ih =>
    cases b with
    | nil => simp at hl
    | cons y ys =>
      rw [swap_cons]
      obtain ⟨m', h1, h2, h3, h4⟩ := ih ys (Function.update (Function.update m x (m y)) y (m x))
        (List.nodup_cons.1 ha).2 (List.nodup_cons.1 hb).2 (by simpa using hl)
        fun l h1 h2 => hd l (by simp [h1]) (by simp [h2])
      have hxy : x ≠ y := fun e => hd x (by simp) (by simp [e])
      have hx1 := (List.nodup_cons.1 ha).1
      have hy1 := (List.nodup_cons.1 hb).1
      have hx2 : x ∉ ys := fun h => hd x (by simp) (by simp [h])
      have hy2 : y ∉ xs := fun h => hd y (by simp [h]) (by simp)
      refine ⟨m', h1, ?_, ?_, fun k h5 h6 => ?_⟩
      · simp only [List.map_cons]
        rw [h4 x hx1 hx2, h2, Function.update_of_ne hxy, Function.update_self]
        congr 1
        apply List.map_congr_left
        intro z hz
        rw [Function.update_of_ne (by rintro rfl; exact hy1 hz), Function.update_of_ne (by rintro rfl; exact hx2 hz)]
      · simp only [List.map_cons]
        rw [h4 y hy2 hy1, h3, Function.update_self]
        congr 1
        apply List.map_congr_left
        intro z hz
        rw [Function.update_of_ne (by rintro rfl; exact hy2 hz), Function.update_of_ne (by rintro rfl; exact hx1 hz)]
      · simp only [List.mem_cons, not_or] at h5 h6
        rw [h4 k h5.2 h6.2, Function.update_of_ne h6.1, Function.update_of_ne h5.1]

/-- C49. Swapping a tuple with itself changes nothing. -/
theorem tuple_self_swap (t : Tuple) (m : Mem α) : swap t t m = some m := by
  induction t generalizing m with
  | nil => rfl
  | cons l t ih =>
    rw [swap_cons]
    simp only [Function.update_eq_self]
    exact ih m

/-- C49. `apply(f, t)` calls `f` with all elements in order. -/
theorem tuple_apply (f : List α → β) (t : Tuple) (m : Mem α) : apply f t m = some (f (t.map m)) := by
  unfold apply; rw [getAll_indices]; rfl

/-- C49. The object a tuple is converted to holds its elements in order. -/
theorem tuple_convert (t u : Tuple) (m : Mem α) (hn : u.Nodup) (hl : u.length = t.length) :
    ∃ m', convert t u m = some m' ∧ u.map m' = t.map m ∧ (∀ l, l ∉ u → m' l = m l) := by
  obtain ⟨m', h1, h2, h3⟩ := tuple_get u (t.map m) m hn (by simpa using hl)
  refine ⟨m', by unfold convert; rw [getAll_indices]; exact h1, ?_, h3⟩
  apply List.ext_getElem
  · simp [hl]
  · intro i h4 h5
    obtain ⟨l, h6, h7⟩ := h2 i (by simpa using h5)
    have hi : i < u.length := by simpa using h4
    have : u[i] = l := by
      unfold get at h6
      rw [List.getElem?_eq_getElem hi] at h6
      exact Option.some.inj h6
    rw [List.getElem_map, this, h7]

/-- C49. The same for `Pair`: `get` (which has no other index), assignment, `swap`. -/
theorem pair_ops (p q : Pair α) (m : Mem α)
    (hd : [p.first, p.second, q.first, q.second].Nodup) :
    (Pair.get 0 p = some p.first ∧ Pair.get 1 p = some p.second ∧ ∀ i, 2 ≤ i → Pair.get i p = none) ∧
    (let m' := Pair.assign p q m
     m' p.first = m q.first ∧ m' p.second = m q.second ∧ ∀ l, l ≠ p.first → l ≠ p.second → m' l = m l) ∧
    (let m' := Pair.swap p q m
     m' p.first = m q.first ∧ m' p.second = m q.second ∧ m' q.first = m p.first ∧ m' q.second = m p.second ∧
       ∀ l, l ∉ [p.first, p.second, q.first, q.second] → m' l = m l) := by
  simp only [List.nodup_cons, List.mem_cons, List.not_mem_nil, or_false, not_or, not_false_eq_true, List.nodup_nil,
    and_true] at hd
  obtain ⟨⟨h1, h2, h3⟩, ⟨h4, h5⟩, h6⟩ := hd
  refine ⟨⟨rfl, rfl, fun i hi => ?_⟩, ⟨?_, ?_, ?_⟩, ?_, ?_, ?_, ?_, ?_⟩
  · match i, hi with
    | _ + 2, _ => rfl
  all_goals simp only [Pair.assign, Pair.swap]
  · simp [Function.update_of_ne h1]
  · simp [Ne.symm h3]
  · intro l e1 e2; simp [e1, e2]
  all_goals simp [Function.update, *, Ne.symm h1, Ne.symm h3, Ne.symm h4, Ne.symm h6]
  intro l e1 e2 e3 e4
  simp [e1, e2, e3, e4]

/-! ### `tuple_cat` -/

theorem catElems_append (ts : List Tuple) (o1 i1 o2 i2 : List Nat) (h : o1.length = i1.length) :
    catElems ts (o1 ++ o2) (i1 ++ i2) = (catElems ts o1 i1).bind fun a => (catElems ts o2 i2).map (a ++ ·) := by
  induction o1 generalizing i1 with
  | nil =>
    cases i1 with
    | nil => simp [catElems]
    | cons => simp at h
  | cons o os ih =>
    cases i1 with
    | nil => simp at h
    | cons i is =>
      simp only [List.cons_append, catElems]
      rw [ih is (by simpa using h)]
      cases ts[i]? with
      | none => rfl
      | some t =>
        cases hg : get o t with
        | none => simp [hg]
        | some l =>
          simp only [hg, Option.bind_eq_bind, Option.bind_some]
          cases catElems ts os is with
          | none => rfl
          | some a => cases catElems ts o2 i2 <;> rfl

theorem catElems_one (ts : List Tuple) (n : Nat) (t : Tuple) (h : ts[n]? = some t) (os : List Nat)
    (ho : ∀ o ∈ os, o < t.length) :
    catElems ts os (os.map fun x => n + 0 * x) = some (os.map fun o => t.getD o 0) := by
  induction os with
  | nil => rfl
  | cons o os ih =>
    simp only [List.map_cons, catElems]
    rw [ih fun o' h' => ho o' (by simp [h'])]
    have : n + 0 * o = n := by omega
    rw [this, h]
    have := ho o (by simp)
    simp [get, this]

theorem cat_aux (pre rest : List Tuple) (o i : List Nat) (h : o.length = i.length) (a : List Loc)
    (ha : catElems (pre ++ rest) o i = some a) :
    catElems (pre ++ rest) (tupleCat o i pre.length (rest.map indices)).1
      (tupleCat o i pre.length (rest.map indices)).2 = some (a ++ rest.flatten) := by
  induction rest generalizing pre o i a with
  | nil => simpa [tupleCat] using ha
  | cons t rest ih =>
    simp only [List.map_cons, tupleCat]
    have e : pre ++ t :: rest = (pre ++ [t]) ++ rest := by simp
    have h1 : catElems (pre ++ t :: rest) (indices t) ((indices t).map fun x => pre.length + 0 * x) = some t := by
      rw [catElems_one _ _ t (by simp) _ (by simp [indices])]
      congr 1
      apply List.ext_getElem
      · simp [indices]
      · intro k h1 h2; simp [indices, h2]
    have h2 : catElems (pre ++ t :: rest) (o ++ indices t) (i ++ (indices t).map fun x => pre.length + 0 * x) =
        some (a ++ t) := by
      rw [catElems_append _ _ _ _ _ h, ha, h1]; rfl
    rw [e] at h2 ⊢
    have := ih (pre ++ [t]) (o ++ indices t) (i ++ (indices t).map fun x => pre.length + 0 * x) (by simp [h]) (a ++ t) h2
    simp only [List.length_append, List.length_cons, List.length_nil] at this
    rw [this]
    simp

/-- C48. `tuple_cat` of any number of tuples of any sizes has the elements of the first, then those of the second,
and so on. -/
theorem tuple_cat_concatenates (ts : List Tuple) : cat ts = some ts.flatten := by
  have := cat_aux [] ts [] [] rfl [] rfl
  simpa [cat] using this

/-! ### Comparison -/

/-- C50. The result is that of the first elements that are not equivalent. -/
theorem compare_first {cmp : Nat → α → α → Option Ordering} (i : Nat) (xs ys : List α) (hl : xs.length = ys.length)
    {r : Option Ordering} (hr : r ≠ some .eq) :
    compare cmp i xs ys = r ↔ ∃ k, ∃ h : k < xs.length,
      (∀ j (hj : j < k), cmp (i + j) (xs[j]'(by omega)) (ys[j]'(by omega)) = some .eq) ∧
      cmp (i + k) xs[k] (ys[k]'(by omega)) = r := by
  induction xs generalizing i ys with
  | nil =>
    cases ys with
    | nil => simp only [compare]; exact ⟨fun h => absurd h.symm hr, fun ⟨k, h, _⟩ => by simp at h⟩
    | cons => simp at hl
  | cons x xs ih =>
    cases ys with
    | nil => simp at hl
    | cons y ys =>
      have hl' : xs.length = ys.length := by simpa using hl
      by_cases he : cmp i x y = some .eq
      · have e : compare cmp i (x :: xs) (y :: ys) = compare cmp (i + 1) xs ys := by
          simp only [compare, he]
        rw [e, ih (i + 1) ys hl']
        constructor
        · rintro ⟨k, h, h1, h2⟩
          refine ⟨k + 1, by simpa using h, fun j hj => ?_, ?_⟩
          · cases j with
            | zero => simpa using he
            | succ j =>
              have := h1 j (by omega)
              simpa [Nat.add_assoc, Nat.add_comm 1] using this
          · simpa [Nat.add_assoc, Nat.add_comm 1] using h2
        · rintro ⟨k, h, h1, h2⟩
          cases k with
          | zero => simp at h2; rw [he] at h2; exact absurd h2.symm hr
          | succ k =>
            refine ⟨k, by simpa using h, fun j hj => ?_, ?_⟩
            · have := h1 (j + 1) (by omega)
              simpa [Nat.add_assoc, Nat.add_comm 1] using this
            · simpa [Nat.add_assoc, Nat.add_comm 1] using h2
      · have e : compare cmp i (x :: xs) (y :: ys) = cmp i x y := by
          simp only [compare]
        rw [e]
        constructor
        · intro h; exact ⟨0, by simp, by simp, by simpa using h⟩
        · rintro ⟨k, h, h1, h2⟩
          cases k with
          | zero => simpa using h2
          | succ k => exact absurd (by simpa using h1 0 (by omega)) he

theorem compare_eq_iff {cmp : Nat → α → α → Option Ordering} (i : Nat) (xs ys : List α) (hl : xs.length = ys.length) :
    compare cmp i xs ys = some .eq ↔
      ∀ j (hj : j < xs.length), cmp (i + j) xs[j] (ys[j]'(by omega)) = some .eq := by
  constructor
  · intro h
    by_contra hc
    push Not at hc
    obtain ⟨j, hj, hne⟩ := hc
    -- the first such position
    have hex : ∃ k, ∃ h : k < xs.length, cmp (i + k) xs[k] (ys[k]'(by omega)) ≠ some .eq := ⟨j, hj, hne⟩
    classical
    have hk := Nat.find_spec hex
    obtain ⟨hk1, hk2⟩ := hk
    have hmin : ∀ j (hj : j < Nat.find hex), cmp (i + j) (xs[j]'(by omega)) (ys[j]'(by omega)) = some .eq := by
      intro j hj
      by_contra hc
      exact Nat.find_min hex hj ⟨by omega, hc⟩
    have := (compare_first i xs ys hl hk2).2 ⟨Nat.find hex, hk1, hmin, rfl⟩
    rw [h] at this
    exact hk2 this.symm
  · intro h
    by_contra hc
    obtain ⟨k, hk, -, h2⟩ := (compare_first i xs ys hl hc).1 rfl
    exact hc (h2.symm.trans (h k hk))

/-- C50. `<=>` of tuples is lexicographic: `less` exactly when at some position the left element is less and all
earlier ones are equivalent; likewise `greater` and `unordered`; `equal` exactly when all are. -/
theorem tuple_compare_lexicographic (cmp : Nat → α → α → Option Ordering) (xs ys : List α)
    (hl : xs.length = ys.length) :
    (∀ r, r ≠ some .eq → (compare cmp 0 xs ys = r ↔ ∃ k, ∃ h : k < xs.length,
      (∀ j (hj : j < k), cmp j (xs[j]'(by omega)) (ys[j]'(by omega)) = some .eq) ∧
      cmp k xs[k] (ys[k]'(by omega)) = r)) ∧
    (compare cmp 0 xs ys = some .eq ↔ ∀ j (hj : j < xs.length), cmp j xs[j] (ys[j]'(by omega)) = some .eq) := by
  refine ⟨fun r hr => ?_, ?_⟩
  · simpa using compare_first 0 xs ys hl hr
  · simpa using compare_eq_iff 0 xs ys hl

theorem equal_iff {eq : Nat → α → α → Bool} (i : Nat) (xs ys : List α) (hl : xs.length = ys.length) :
    equal eq i xs ys = true ↔ ∀ j (hj : j < xs.length), eq (i + j) xs[j] (ys[j]'(by omega)) = true := by
  induction xs generalizing i ys with
  | nil => cases ys <;> simp [equal]
  | cons x xs ih =>
    cases ys with
    | nil => simp at hl
    | cons y ys =>
      simp only [equal, Bool.and_eq_true]
      rw [ih (i + 1) ys (by simpa using hl)]
      constructor
      · rintro ⟨h1, h2⟩ j hj
        cases j with
        | zero => simpa using h1
        | succ j =>
          have := h2 j (by simpa using hj)
          simpa [Nat.add_assoc, Nat.add_comm 1] using this
      · intro h
        refine ⟨h 0 (by simp), fun j hj => ?_⟩
        have := h (j + 1) (by simpa using hj)
        simpa [Nat.add_assoc, Nat.add_comm 1] using this

/-- C50. Tuples are equal exactly when all corresponding elements are. -/
theorem tuple_equal (eq : Nat → α → α → Bool) (xs ys : List α) (hl : xs.length = ys.length) :
    equal eq 0 xs ys = true ↔ ∀ j (hj : j < xs.length), eq j xs[j] (ys[j]'(by omega)) = true := by
  simpa using equal_iff 0 xs ys hl

/-- A total (strong) order given by a three-way comparison. -/
structure TotalOrder (c : α → α → Option Ordering) : Prop where
  total : ∀ x y, c x y ≠ none
  eq : ∀ x y, c x y = some .eq ↔ x = y
  swap : ∀ x y, c x y = some .lt ↔ c y x = some .gt
  trans : ∀ x y z, c x y = some .lt → c y z = some .lt → c x z = some .lt

/-- C50. If every element type is totally ordered, so are the tuples of every size. -/
theorem tuple_total_order (n : Nat) (cmp : Nat → α → α → Option Ordering) (h : ∀ i < n, TotalOrder (cmp i)) :
    let c (xs ys : List α) := compare cmp 0 xs ys
    (∀ xs ys : List α, xs.length = n → ys.length = n → c xs ys ≠ none ∧ (c xs ys = some .eq ↔ xs = ys) ∧
      (c xs ys = some .lt ↔ c ys xs = some .gt)) ∧
    (∀ xs ys zs : List α, xs.length = n → ys.length = n → zs.length = n → c xs ys = some .lt → c ys zs = some .lt →
      c xs zs = some .lt) := by
  intro c
  refine ⟨fun xs ys hx hy => ⟨fun hc => ?_, ?_, ?_⟩, fun xs ys zs hx hy hz h1 h2 => ?_⟩
  · obtain ⟨k, hk, -, h3⟩ := ((tuple_compare_lexicographic cmp xs ys (by omega)).1 none (by simp)).1 hc
    exact (h k (by omega)).total _ _ h3
  · refine (tuple_compare_lexicographic cmp xs ys (by omega)).2.trans ⟨fun hall => ?_, ?_⟩
    · apply List.ext_getElem (by omega)
      intro j h3 h4
      exact ((h j (by omega)).eq _ _).1 (hall j h3)
    · rintro rfl j hj
      exact ((h j (by omega)).eq _ _).2 rfl
  · refine ((tuple_compare_lexicographic cmp xs ys (by omega)).1 (some .lt) (by simp)).trans
      (Iff.trans ?_ ((tuple_compare_lexicographic cmp ys xs (by omega)).1 (some .gt) (by simp)).symm)
    constructor
    · rintro ⟨k, hk, h3, h4⟩
      refine ⟨k, by omega, fun j hj => ?_, ((h k (by omega)).swap _ _).1 h4⟩
      exact ((h j (by omega)).eq _ _).2 (((h j (by omega)).eq _ _).1 (h3 j hj)).symm
    · rintro ⟨k, hk, h3, h4⟩
      refine ⟨k, by omega, fun j hj => ?_, ((h k (by omega)).swap _ _).2 h4⟩
      exact ((h j (by omega)).eq _ _).2 (((h j (by omega)).eq _ _).1 (h3 j hj)).symm
  · obtain ⟨k, hk, h3, h4⟩ := ((tuple_compare_lexicographic cmp xs ys (by omega)).1 (some .lt) (by simp)).1 h1
    obtain ⟨l, hl, h5, h6⟩ := ((tuple_compare_lexicographic cmp ys zs (by omega)).1 (some .lt) (by simp)).1 h2
    refine ((tuple_compare_lexicographic cmp xs zs (by omega)).1 (some .lt) (by simp)).2 ?_
    have e1 : ∀ j (hj : j < k), xs[j]'(by omega) = ys[j]'(by omega) := fun j hj =>
      ((h j (by omega)).eq _ _).1 (h3 j hj)
    have e2 : ∀ j (hj : j < l), ys[j]'(by omega) = zs[j]'(by omega) := fun j hj =>
      ((h j (by omega)).eq _ _).1 (h5 j hj)
    have refl : ∀ j (hj : j < n) (x y : α), x = y → cmp j x y = some .eq := fun j hj x y e =>
      ((h j hj).eq _ _).2 e
    rcases Nat.lt_trichotomy k l with hkl | hkl | hkl
    · refine ⟨k, hk, fun j hj => refl j (by omega) _ _ ((e1 j hj).trans (e2 j (by omega))), ?_⟩
      rw [← e2 k hkl]; exact h4
    · subst hkl
      refine ⟨k, hk, fun j hj => refl j (by omega) _ _ ((e1 j hj).trans (e2 j hj)), ?_⟩
      exact (h k (by omega)).trans _ _ _ h4 h6
    · refine ⟨l, by omega, fun j hj => refl j (by omega) _ _ ((e1 j (by omega)).trans (e2 j hj)), ?_⟩
      have := e1 l hkl
      rw [this]; exact h6

/-- C50. The same for `Pair`. -/
theorem pair_compare (c0 c1 : α → α → Option Ordering) (e0 e1 : α → α → Bool) (x y : α × α) :
    (∀ r, r ≠ some .eq → (Pair.compare c0 c1 x y = r ↔
      c0 x.1 y.1 = r ∨ (c0 x.1 y.1 = some .eq ∧ c1 x.2 y.2 = r))) ∧
    (Pair.compare c0 c1 x y = some .eq ↔ c0 x.1 y.1 = some .eq ∧ c1 x.2 y.2 = some .eq) ∧
    (Pair.equal e0 e1 x y = true ↔ e0 x.1 y.1 = true ∧ e1 x.2 y.2 = true) := by
  refine ⟨fun r hr => ?_, ?_, by simp [Pair.equal]⟩
  · by_cases he : c0 x.1 y.1 = some .eq
    · simp [Pair.compare, he, Ne.symm hr]
    · have : Pair.compare c0 c1 x y = c0 x.1 y.1 := by
        unfold Pair.compare
        split
        · rename_i h; exact absurd h he
        · rfl
      rw [this]; simp [he]
  · by_cases he : c0 x.1 y.1 = some .eq
    · simp [Pair.compare, he]
    · have : Pair.compare c0 c1 x y = c0 x.1 y.1 := by
        unfold Pair.compare
        split
        · rename_i h; exact absurd h he
        · rfl
      rw [this]; simp [he]

/-! ### Cases -/

section Examples

def natCmp (x y : Nat) : Option Ordering := some (Ord.compare x y)

theorem natCmp_total : TotalOrder natCmp where
  total x y := by simp [natCmp]
  eq x y := by simp [natCmp]
  swap x y := by simp [natCmp, Nat.compare_eq_lt, Nat.compare_eq_gt]
  trans x y z := by simp only [natCmp, Option.some.injEq, Nat.compare_eq_lt]; omega

example : ∀ i < 3, TotalOrder ((fun _ => natCmp : Nat → Nat → Nat → Option Ordering) i) := fun _ _ => natCmp_total
example : compare (fun _ => natCmp) 0 [1, 5, 9] [1, 6, 0] = some .lt := by decide
example : cat [[10, 11], [], [12], [13, 14, 15]] = some [10, 11, 12, 13, 14, 15] := by decide
example : (swap [0, 1] [2, 3] (fun l => 100 + l)).map (fun m => (m 0, m 1, m 2, m 3)) = some (102, 103, 100, 101) := by
  decide
/-- Assigning from references to the own elements, crossed over, is not what `tuple_assign` is about: the places
overlap and the second element receives the new first one. -/
example : (assign [0, 1] [1, 0] (fun l => 100 + l)).map (fun m => (m 0, m 1)) = some (101, 101) := by decide

end Examples

end Verif.Tup
