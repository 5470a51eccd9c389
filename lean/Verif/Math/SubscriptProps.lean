import Verif.Math.Subscript

/-! # Properties of subscripts -/

set_option autoImplicit false

namespace Verif.Math.Sub

variable {T : Type}

/-- The vectors with named members. -/
def Named (n : Nat) : Prop := n = 2 ∨ n = 3 ∨ n = 4

instance (n : Nat) : Decidable (Named n) := inferInstanceAs (Decidable (_ ∨ _))

theorem firstArray_named {n : Nat} (h : Named n) : firstArray n = 1 := if_pos h
theorem firstArray_other {n : Nat} (h : ¬ Named n) : firstArray n = n := if_neg h

theorem subscript_ok (R : Rules) (checked : Bool) {n i : Nat} (hi : i < n) (h : R = .machine ∨ ¬ Named n ∨ i = 0) :
    subscript R checked n i = .ok i := by
  have hc : (checked && !decide (i < n)) = false := by simp [hi]
  have hp : plus R n (first n) i = .ok ⟨firstArray n, i⟩ ∧ usable R n ⟨firstArray n, i⟩ = true := by
    cases R with
    | machine => simp [plus, usable, first, hi]; omega
    | standard =>
      have hlt : i < firstArray n := by
        by_cases hn : Named n
        · rw [firstArray_named hn]
          rcases h with h | h | h
          · simp at h
          · exact absurd hn h
          · omega
        · rw [firstArray_other hn]; exact hi
      simp [plus, usable, first, hlt]; omega
  unfold subscript
  rw [hc, hp.1]
  simp [bind, Except.bind, hp.2]

theorem subscript_out (R : Rules) {n i : Nat} (hi : n ≤ i) :
    subscript R true n i = .error .assertion ∧ subscript R false n i = .error .ub := by
  have hc : decide (i < n) = false := by simp; omega
  refine ⟨by simp [subscript, hc, bind, Except.bind], ?_⟩
  unfold subscript
  simp only [Bool.false_and, Bool.false_eq_true, if_false, bind, Except.bind]
  have hle : R = .standard → firstArray n ≤ i ∨ n = 0 := by
    intro _
    by_cases hn : Named n
    · rw [firstArray_named hn]; rcases hn with rfl | rfl | rfl <;> omega
    · rw [firstArray_other hn]; omega
  have hz : n = 0 → firstArray n = 0 := by rintro rfl; rfl
  cases R with
  | machine =>
    by_cases h : i ≤ n
    · obtain rfl : i = n := by omega
      simp [plus, usable, first]
    · simp [plus, first, h]
  | standard =>
    have hle := hle rfl
    by_cases h : i ≤ firstArray n
    · have : i = firstArray n := by
        rcases hle with h' | h'
        · omega
        · have := hz h'; omega
      simp [plus, usable, first, this]
    · simp [plus, first, h]

theorem subscript_named (checked : Bool) {n i : Nat} (hn : Named n) (h0 : 0 < i) (hi : i < n) :
    subscript .standard checked n i = .error .ub := by
  have hc : (checked && !decide (i < n)) = false := by simp [hi]
  unfold subscript
  rw [hc]
  simp only [Bool.false_eq_true, if_false, bind, Except.bind, plus, first, firstArray_named hn]
  by_cases h : 0 + i ≤ 1
  · obtain rfl : i = 1 := by omega
    simp [usable]
  · rw [if_neg h]

theorem get_ok (R : Rules) (checked : Bool) {v : List T} {i : Nat} (hi : i < v.length)
    (h : R = .machine ∨ ¬ Named v.length ∨ i = 0) : get R checked v i = .ok v[i] := by
  unfold get
  rw [subscript_ok R checked hi h]
  simp [bind, Except.bind, hi]

theorem set_ok (R : Rules) (checked : Bool) {v : List T} {i : Nat} (x : T) (hi : i < v.length)
    (h : R = .machine ∨ ¬ Named v.length ∨ i = 0) : set R checked v i x = .ok (v.set i x) := by
  unfold set
  rw [subscript_ok R checked hi h]
  rfl

/-- C117, what holds. The full claim is that `v[i]` is component `i` for every `i` less than the number of components,
which can be read and assigned, and that another `i` is stopped in checked builds (and undefined in others). By the rules
of the machine it holds for all vectors, by those of the standard for vectors of one, or of five or more components. -/
theorem vector_subscript_partial (R : Rules) (checked : Bool) (v : List T) (h : R = .machine ∨ ¬ Named v.length) :
    (∀ i (hi : i < v.length), get R checked v i = .ok v[i]) ∧
    (∀ i x, i < v.length → ∃ w, set R checked v i x = .ok w ∧ w.length = v.length ∧ w[i]? = some x ∧
      ∀ j, j ≠ i → w[j]? = v[j]?) ∧
    (∀ i x, v.length ≤ i → get R true v i = .error .assertion ∧ set R true v i x = .error .assertion ∧
      get R false v i = .error .ub ∧ set R false v i x = .error .ub) := by
  have h' : ∀ i, R = .machine ∨ ¬ Named v.length ∨ i = 0 := fun i => by tauto
  refine ⟨fun i hi => get_ok R checked hi (h' i), fun i x hi => ⟨_, set_ok R checked x hi (h' i), by simp, by simp [hi],
    fun j hj => by simp [hj.symm]⟩, fun i x hi => ?_⟩
  obtain ⟨h1, h2⟩ := subscript_out R hi
  exact ⟨by rw [get, h1]; rfl, by rw [set, h1]; rfl, by rw [get, h2]; rfl, by rw [set, h2]; rfl⟩

/-- C117 is false by the rules of the standard for vectors of two, three and four components: only `v[0]` is defined. Such
subscripts are not constant expressions. -/
theorem vector_subscript_wrong (checked : Bool) (v : List T) (hn : Named v.length) (i : Nat) (hi : i < v.length) (x : T) :
    (get .standard checked v i = .error .ub ↔ i ≠ 0) ∧ (set .standard checked v i x = .error .ub ↔ i ≠ 0) := by
  by_cases h0 : i = 0
  · subst h0
    rw [get_ok _ _ hi (by simp), set_ok _ _ x hi (by simp)]
    simp
  · have := subscript_named checked hn (Nat.pos_of_ne_zero h0) hi
    refine ⟨⟨fun _ => h0, fun _ => ?_⟩, ⟨fun _ => h0, fun _ => ?_⟩⟩
    · rw [get, this]; rfl
    · rw [set, this]; rfl

/-! ### Matrices -/

theorem entry_ok (R : Rules) (checked : Bool) {cols : List (List T)} {rows c r : Nat}
    (hrows : ∀ v ∈ cols, v.length = rows) (hc : c < cols.length) (hr : r < rows)
    (h : R = .machine ∨ ¬ Named rows ∨ r = 0) :
    entry R checked cols c r = .ok ((cols[c])[r]'(by rw [hrows _ (List.getElem_mem hc)]; exact hr)) := by
  unfold entry column
  have e := hrows _ (List.getElem_mem hc)
  simp only [List.getElem?_eq_getElem hc, bind, Except.bind]
  exact get_ok R checked (by omega) (by rw [e]; exact h)

theorem rowLoop_ok (R : Rules) (checked : Bool) {cols : List (List T)} {rows r : Nat}
    (hrows : ∀ v ∈ cols, v.length = rows) (hr : r < rows) (h : R = .machine ∨ ¬ Named rows ∨ r = 0)
    (h' : R = .machine ∨ ¬ Named cols.length) (k i : Nat) (hk : i + k = cols.length) (res : List T)
    (hres : res.length = cols.length) :
    ∃ w, rowLoop R checked cols r k i res = .ok w ∧ w.length = cols.length ∧
      (∀ j, j < i → w[j]? = res[j]?) ∧ (∀ j (hj : j < cols.length), i ≤ j → w[j]? = (cols[j])[r]?) := by
  induction k generalizing i res with
  | zero => exact ⟨res, rfl, hres, fun _ _ => rfl, fun j hj hij => by omega⟩
  | succ k ih =>
    have hi : i < cols.length := by omega
    obtain ⟨w, h1, h2, h3, h4⟩ := ih (i + 1) (by omega)
      (res.set i ((cols[i])[r]'(by rw [hrows _ (List.getElem_mem hi)]; exact hr))) (by simpa using hres)
    refine ⟨w, ?_, h2, fun j hj => ?_, fun j hj hij => ?_⟩
    · unfold rowLoop
      rw [entry_ok R checked hrows hi hr h]
      simp only [bind, Except.bind]
      rw [set_ok R checked _ (by omega) (by rw [hres]; tauto)]
      exact h1
    · rw [h3 j (by omega), List.getElem?_set_ne (by omega)]
    · by_cases hji : j = i
      · subst hji
        rw [h3 j (by omega), List.getElem?_set_self (by omega)]
        have e := hrows _ (List.getElem_mem hj)
        rw [List.getElem?_eq_getElem (by omega)]
      · exact h4 j hj (by omega)

/-- C118, what holds. The full claim is that `m[c][r]` is the entry in column `c` and row `r` and `m.row(r)` the vector of
the entries in row `r`, for all indices less than the numbers of columns and rows. It holds by the rules of the machine,
and by those of the standard if neither number is 2, 3 or 4. -/
theorem matrix_subscript_partial (R : Rules) (checked : Bool) (cols : List (List T)) (rows : Nat)
    (hrows : ∀ v ∈ cols, v.length = rows) (h : R = .machine ∨ (¬ Named rows ∧ ¬ Named cols.length))
    (junk : List T) (hj : junk.length = cols.length) (r : Nat) (hr : r < rows) :
    (∀ c (hc : c < cols.length), ∃ x, (cols[c])[r]? = some x ∧ entry R checked cols c r = .ok x) ∧
    (∃ w, row R checked junk cols rows r = .ok w ∧ w.length = cols.length ∧
      ∀ c (hc : c < cols.length), w[c]? = (cols[c])[r]?) := by
  have hm : R = .machine ∨ ¬ Named rows ∨ r = 0 := by tauto
  refine ⟨fun c hc => ⟨_, ?_, entry_ok R checked hrows hc hr hm⟩, ?_⟩
  · have e := hrows _ (List.getElem_mem hc)
    rw [List.getElem?_eq_getElem (by omega)]
  · unfold row
    by_cases h4 : cols.length = 4 ∧ rows = 4
    · rw [if_pos h4]
      have hl := h4.1
      rw [entry_ok R checked hrows (c := 0) (by omega) hr hm, entry_ok R checked hrows (c := 1) (by omega) hr hm,
        entry_ok R checked hrows (c := 2) (by omega) hr hm, entry_ok R checked hrows (c := 3) (by omega) hr hm]
      simp only [bind, Except.bind]
      refine ⟨_, rfl, by simp [hl], fun c hc => ?_⟩
      have e := hrows _ (List.getElem_mem hc)
      rw [List.getElem?_eq_getElem (l := cols[c]) (by omega)]
      rw [hl] at hc
      match c, hc with
      | 0, _ => rfl
      | 1, _ => rfl
      | 2, _ => rfl
      | 3, _ => rfl
      | c + 4, hc => omega
    · rw [if_neg h4]
      obtain ⟨w, h1, h2, -, h3⟩ := rowLoop_ok R checked hrows hr hm (by tauto) cols.length 0 (by omega) junk hj
      exact ⟨w, h1, h2, fun c hc => h3 c hc (by omega)⟩

/-- C118. Rows are checked in debug builds, columns are not: `m[c]` is undefined for every `c` that is not a column, in
checked builds too. -/
theorem matrix_subscript_checks (R : Rules) (cols : List (List T)) (rows : Nat) (hrows : ∀ v ∈ cols, v.length = rows)
    (checked : Bool) :
    (∀ c r, c < cols.length → rows ≤ r → entry R true cols c r = .error .assertion) ∧
    (∀ c r, cols.length ≤ c → entry R checked cols c r = .error .ub) := by
  refine ⟨fun c r hc hr => ?_, fun c r hc => ?_⟩
  · have e := hrows _ (List.getElem_mem hc)
    unfold entry column
    simp only [List.getElem?_eq_getElem hc, bind, Except.bind]
    rw [get, e, (subscript_out R hr).1]; rfl
  · simp [entry, column, List.getElem?_eq_none hc, bind, Except.bind]

/-- C118 is false by the rules of the standard for matrices of two, three or four columns (other than four by four), where
`row` assigns `result[1]`, and for all rows but the first of matrices of two, three or four rows. So neither `row` nor
the products that use it are constant expressions. -/
theorem matrix_subscript_wrong (checked : Bool) (cols : List (List T)) (rows : Nat) (hrows : ∀ v ∈ cols, v.length = rows)
    (junk : List T) (hj : junk.length = cols.length) (r : Nat) (hr : r < rows)
    (h : (Named cols.length ∧ ¬ (cols.length = 4 ∧ rows = 4)) ∨ (cols ≠ [] ∧ Named rows ∧ r ≠ 0)) :
    row .standard checked junk cols rows r = .error .ub := by
  have hpos : 0 < cols.length := by
    rcases h with ⟨h | h | h, -⟩ | ⟨h, -⟩
    · omega
    · omega
    · omega
    · exact List.length_pos_iff.2 h
  by_cases h0 : Named rows ∧ r ≠ 0
  · have he : entry .standard checked cols 0 r = .error .ub := by
      have e := hrows _ (List.getElem_mem (show 0 < cols.length by omega))
      unfold entry column
      simp only [List.getElem?_eq_getElem (show 0 < cols.length by omega), bind, Except.bind]
      rw [get, e, subscript_named checked h0.1 (by omega) hr]; rfl
    unfold row
    split
    · rw [he]; rfl
    · obtain ⟨k, hk⟩ := Nat.exists_eq_succ_of_ne_zero (show cols.length ≠ 0 by omega)
      rw [hk]
      unfold rowLoop
      rw [he]; rfl
  · have hm : Rules.standard = .machine ∨ ¬ Named rows ∨ r = 0 := by
      right; by_cases h1 : Named rows
      · right; by_contra h2; exact h0 ⟨h1, h2⟩
      · exact Or.inl h1
    obtain ⟨hn, h4⟩ := h.resolve_right (fun h => h0 h.2)
    have hc2 : 2 ≤ cols.length := by rcases hn with h | h | h <;> omega
    obtain ⟨k, hk⟩ : ∃ k, cols.length = k + 2 := ⟨cols.length - 2, by omega⟩
    unfold row
    rw [if_neg h4, hk]
    unfold rowLoop
    rw [entry_ok _ checked hrows (c := 0) (by omega) hr hm]
    simp only [bind, Except.bind]
    rw [set_ok _ checked _ (by omega) (by simp)]
    simp only
    unfold rowLoop
    rw [entry_ok _ checked hrows (c := 1) (by omega) hr hm]
    simp only [bind, Except.bind, set]
    rw [subscript_named checked (by simpa [hj] using hn) (by omega) (by simp [hj]; omega)]

theorem mapLoop_ok (R : Rules) (checked : Bool) (f : T → T) {v : List T} (h : R = .machine ∨ ¬ Named v.length)
    (k i : Nat) (hk : i + k = v.length) (res : List T) (hres : res.length = v.length) :
    mapLoop R checked f v k i res = .ok (res.take i ++ (v.drop i).map f) := by
  induction k generalizing i res with
  | zero =>
    rw [List.take_of_length_le (by omega), List.drop_eq_nil_of_le (by omega)]
    simp [mapLoop]
  | succ k ih =>
    have hi : i < v.length := by omega
    unfold mapLoop
    rw [get_ok R checked hi (by tauto)]
    simp only [bind, Except.bind]
    rw [set_ok R checked _ (by omega) (by rw [hres]; tauto)]
    simp only
    rw [ih (i + 1) (by omega) _ (by simpa using hres), List.drop_eq_getElem_cons hi]
    congr 1
    rw [List.take_set, List.take_add_one, List.getElem?_eq_getElem (by omega), List.set_append_right _ _ (by simp; omega)]
    simp only [List.length_take, Nat.min_eq_left (show i ≤ res.length by omega), Nat.sub_self, Option.toList_some,
      List.set_cons_zero, List.map_cons, List.append_assoc, List.singleton_append]

/-- C117. What follows for `sign`: it is component by component by the rules of the machine, and undefined by those of the
standard for vectors of two, three and four components. -/
theorem vector_loops (checked : Bool) (f : T → T) (junk v : List T) (hj : junk.length = v.length) :
    signV .machine checked f junk v = .ok (v.map f) ∧
    (¬ Named v.length → signV .standard checked f junk v = .ok (v.map f)) ∧
    (Named v.length → signV .standard checked f junk v = .error .ub) := by
  refine ⟨?_, fun h => ?_, fun h => ?_⟩
  · simpa [signV] using mapLoop_ok .machine checked f (Or.inl rfl) v.length 0 (by omega) junk hj
  · simpa [signV] using mapLoop_ok .standard checked f (Or.inr h) v.length 0 (by omega) junk hj
  · have hc2 : 2 ≤ v.length := by rcases h with h | h | h <;> omega
    obtain ⟨k, hk⟩ : ∃ k, v.length = k + 2 := ⟨v.length - 2, by omega⟩
    unfold signV
    rw [hk]
    unfold mapLoop
    rw [get_ok _ checked (by omega) (by simp)]
    simp only [bind, Except.bind]
    rw [set_ok _ checked _ (by omega) (by simp)]
    simp only
    unfold mapLoop
    simp only [bind, Except.bind, get]
    rw [subscript_named checked h (by omega) (by omega)]

/-! ### The hypotheses can be met -/

example : get .machine true [10, 20, 30] 2 = .ok 30 ∧ get .standard true [10, 20, 30] 2 = .error .ub ∧
    get .standard true [10, 20, 30, 40, 50] 2 = .ok 30 := by decide
example : set .machine true [10, 20, 30] 1 7 = .ok [10, 7, 30] := by decide
example : row .machine true [0, 0] [[1, 2, 3], [4, 5, 6]] 3 1 = .ok [2, 5] := by decide
example : row .machine true [0, 0, 0, 0] [[1, 2, 3, 4], [5, 6, 7, 8], [9, 10, 11, 12], [13, 14, 15, 16]] 4 2 =
    .ok [3, 7, 11, 15] := by decide
example : row .standard true [0, 0] [[1, 2, 3], [4, 5, 6]] 3 0 = .error .ub := by decide
example : signV .machine true (fun x : Int => x.sign) [0, 0, 0] [5, -3, 0] = .ok [1, -1, 0] := by decide

end Verif.Math.Sub
