import Verif.SPSC.Seq

/-! Refinement of the sequential queue model to a bounded FIFO (helper lemmas). -/

set_option autoImplicit false

namespace Verif.SPSC.Seq

variable {α : Type}

/-- The index walk of a queue of capacity `max` is a cycle through `0, ..., P - 1`. -/
structure Wrap (max : Size) (P : Nat) : Prop where
  pos : 0 < P
  le : P ≤ max.toNat
  next : ∀ j, nextIndex max (idx P j) = idx P (j + 1)

theorem Wrap.lt {max : Size} {P : Nat} (h : Wrap max P) : P < 2 ^ 64 :=
  lt_of_le_of_lt h.le max.isLt

theorem wrap_two_pow {max : Size} {k : Nat} (hk : max.toNat = 2 ^ k) : Wrap max max.toNat :=
  ⟨by rw [hk]; exact Nat.two_pow_pos k, le_refl _, nextIndex_idx hk⟩

/-- If `2^a` is the largest power of two dividing the capacity, the walk has length `2^a`. -/
theorem wrap_general {max : Size} {a m : Nat} (hm : max.toNat = 2 ^ a * (2 * m + 1)) :
    Wrap max (2 ^ a) := by
  have hpos : 0 < 2 ^ a := Nat.two_pow_pos a
  have hle : 2 ^ a ≤ max.toNat := by rw [hm]; exact Nat.le_mul_of_pos_right _ (by omega)
  have hlt := max.isLt
  refine ⟨hpos, hle, fun j => ?_⟩
  apply BitVec.eq_of_toNat_eq
  rw [idx_toNat hpos (by omega)]
  unfold nextIndex
  have h1 : (max - 1).toNat = 2 ^ (a + 1) * m + (2 ^ a - 1) := by
    rw [BitVec.toNat_sub, one_toNat]
    have : 2 ^ a * (2 * m + 1) = 2 ^ (a + 1) * m + 2 ^ a := by ring
    omega
  have hj := Nat.mod_lt j hpos
  have h2 : (idx (2 ^ a) j + 1).toNat = j % 2 ^ a + 1 := by
    rw [BitVec.toNat_add, idx_toNat hpos (by omega), one_toNat]; omega
  rw [BitVec.toNat_and, h1, h2]
  -- the mask has `a` low ones and bit `a` is zero
  have hmask : ∀ i, (2 ^ (a + 1) * m + (2 ^ a - 1)).testBit i =
      if i < a + 1 then (2 ^ a - 1).testBit i else m.testBit (i - (a + 1)) := by
    intro i
    exact Nat.testBit_two_pow_mul_add m (by rw [pow_succ]; omega) i
  rcases (by omega : j % 2 ^ a + 1 < 2 ^ a ∨ j % 2 ^ a + 1 = 2 ^ a) with h3 | h3
  · have h4 : (j + 1) % 2 ^ a = j % 2 ^ a + 1 := by
      rw [Nat.add_mod]
      rcases Nat.eq_or_lt_of_le (Nat.one_le_iff_ne_zero.mpr hpos.ne') with h5 | h5
      · omega
      · rw [Nat.mod_eq_of_lt h5, Nat.mod_eq_of_lt h3]
    rw [h4]
    apply Nat.eq_of_testBit_eq
    intro i
    rw [Nat.testBit_and, hmask]
    by_cases hi : i < a
    · simp [show i < a + 1 by omega, Nat.testBit_two_pow_sub_one, hi]
    · have : (j % 2 ^ a + 1).testBit i = false :=
        Nat.testBit_eq_false_of_lt (lt_of_lt_of_le h3 (Nat.pow_le_pow_right (by norm_num) (by omega)))
      simp [this]
  · have h4 : (j + 1) % 2 ^ a = 0 := by
      have := Nat.div_add_mod j (2 ^ a)
      rw [show j + 1 = 2 ^ a * (j / 2 ^ a) + 2 ^ a by omega]
      simp
    rw [h4, h3]
    apply Nat.eq_of_testBit_eq
    intro i
    rw [Nat.testBit_and, hmask, Nat.testBit_two_pow]
    by_cases hi : a = i
    · subst hi; simp [Nat.testBit_two_pow_sub_one]
    · simp [hi]

/-- Representation: the queue stores `items` in slots `lo % N, ..., (lo + length - 1) % N`. -/
structure Rep (P : Nat) (q : Q α) (s : Spec α) (lo : Nat) : Prop where
  w : q.w = idx P (lo + s.items.length)
  r : q.r = idx P lo
  made : q.made = s.made
  destroyed : q.destroyed = s.destroyed
  room : s.items.length < P
  live : ∀ j (h : j < s.items.length), q.cells ((lo + j) % P) = some s.items[j]
  dead : ∀ i, (∀ j, j < s.items.length → (lo + j) % P ≠ i) → q.cells i = none

theorem rep_init (max : Size) {P : Nat} (h : 0 < P) : Rep P (Q.init (α := α) max) ⟨[], 0, []⟩ 0 := by
  constructor <;> simp [Q.init, idx, h]

theorem rep_push {q : Q α} {s : Spec α} {P lo : Nat} (hr : Rep P q s lo) (hk : Wrap q.max P)
    (v : α) :
    emplace q v true =
      (if s.items.length = P - 1 then .ok (q, false) else .thrown (q, false)) ∧
    (s.items.length = P - 1 → emplace q v false = .ok (q, false)) ∧
    (s.items.length ≠ P - 1 → ∃ q', emplace q v false = .ok (q', true) ∧
      q'.max = q.max ∧ q'.freed = q.freed ∧
      Rep P q' ⟨s.items ++ [(s.made, v)], s.made + 1, s.destroyed⟩ lo) := by
  have hpos := hk.pos
  have hN := hk.lt
  have hPle := hk.le
  have hroom := hr.room
  have hnext : nextIndex q.max q.w = q.r ↔ s.items.length = P - 1 := by
    rw [hr.w, hr.r, hk.next, idx_eq_iff hpos hN]
    constructor
    · intro h
      by_contra hc
      have := idx_mod_inj h.symm (by omega) (by omega)
      omega
    · intro h
      rw [show lo + s.items.length + 1 = lo + P by omega]; simp
  have hwi : q.w.toNat = (lo + s.items.length) % P := by rw [hr.w, idx_toNat hpos hN]
  have hfree : q.w.toNat < q.max.toNat ∧ q.cells q.w.toNat = none := by
    rw [hwi]
    refine ⟨lt_of_lt_of_le (Nat.mod_lt _ hpos) hPle, hr.dead _ fun j h1 h2 => ?_⟩
    have := idx_mod_inj h2 (by omega) (by omega)
    omega
  refine ⟨?_, ?_, ?_⟩
  · simp only [emplace, hnext]
    split_ifs <;> simp_all
  · intro h
    simp only [emplace, if_pos (hnext.mpr h)]
  · intro h
    refine ⟨{ q with cells := setCell q.cells q.w.toNat (some (q.made, v)), made := q.made + 1,
                     w := nextIndex q.max q.w }, ?_, rfl, rfl, ?_⟩
    · simp only [emplace]
      rw [if_neg (fun hc => h (hnext.mp hc)), if_pos hfree]
      simp
    · constructor
      · simp only [List.length_append, List.length_cons, List.length_nil]
        rw [hr.w, hk.next]; rfl
      · exact hr.r
      · simp [hr.made]
      · exact hr.destroyed
      · simp; omega
      · intro j hj
        simp only [List.length_append, List.length_cons, List.length_nil] at hj
        simp only [setCell, hwi]
        rcases (by omega : j = s.items.length ∨ j < s.items.length) with rfl | h1
        · simp [hr.made]
        · rw [if_neg (fun hc => by have := idx_mod_inj hc (by omega) (by omega); omega)]
          rw [hr.live j h1, List.getElem_append_left h1]
      · intro i hi
        simp only [List.length_append, List.length_cons, List.length_nil] at hi
        simp only [setCell, hwi]
        rw [if_neg (fun hc => hi s.items.length (by omega) hc.symm)]
        exact hr.dead i fun j hj => hi j (by omega)

theorem rep_destroy {q : Q α} {made : Nat} {de : List Nat} {x : Nat × α} {rest : List (Nat × α)}
    {P lo : Nat} (hr : Rep P q ⟨x :: rest, made, de⟩ lo) (hk : Wrap q.max P) :
    ∃ q', destroyAt q q.r = some q' ∧ q'.max = q.max ∧ q'.freed = q.freed ∧
      Rep P { q' with r := nextIndex q.max q.r } ⟨rest, made, de ++ [x.1]⟩ (lo + 1) := by
  have hpos := hk.pos
  have hN := hk.lt
  have hPle := hk.le
  have hroom := hr.room
  simp only [List.length_cons] at hroom
  have hri : q.r.toNat = lo % P := by rw [hr.r, idx_toNat hpos hN]
  have hc := hr.live 0 (by simp)
  simp only [Nat.add_zero, List.getElem_cons_zero] at hc
  have hlt := lt_of_lt_of_le (Nat.mod_lt lo hpos) hPle
  refine ⟨{ q with cells := setCell q.cells (lo % P) none,
                   destroyed := q.destroyed ++ [x.1] }, ?_, rfl, rfl, ?_⟩
  · simp only [destroyAt, hri, hlt, hc, if_true]
  · constructor
    · simp only [hr.w, List.length_cons]; congr 1; omega
    · simp only; rw [hr.r, hk.next]
    · exact hr.made
    · simp [hr.destroyed]
    · simp only; omega
    · intro j hj
      simp only at hj ⊢
      have := hr.live (j + 1) (by simp; omega)
      simp only [List.getElem_cons_succ] at this
      rw [← this, setCell, if_neg, show lo + 1 + j = lo + (j + 1) by omega]
      intro h1
      have := idx_mod_inj h1.symm (by omega) (by omega)
      omega
    · intro i hi
      simp only at hi ⊢
      rw [setCell]
      split
      · rfl
      · rename_i hne
        apply hr.dead
        intro j hj h1
        simp only [List.length_cons] at hj
        rcases j with _ | j
        · exact hne (by simpa using h1.symm)
        · exact hi j (by omega) (by rw [← h1]; congr 1; omega)

theorem rep_empty_iff {q : Q α} {s : Spec α} {P lo : Nat} (hr : Rep P q s lo)
    (hk : Wrap q.max P) : isEmpty q.w q.r = true ↔ s.items = [] := by
  have hpos := hk.pos
  have hN := hk.lt
  have hPle := hk.le
  have hroom := hr.room
  simp only [isEmpty, beq_iff_eq]
  rw [hr.w, hr.r, idx_eq_iff hpos hN]
  constructor
  · intro h
    have := idx_mod_inj h.symm (by omega) (by omega)
    exact List.length_eq_zero_iff.mp (by omega)
  · intro h; simp [h]

theorem rep_set {q : Q α} {made : Nat} {de : List Nat} {n : Nat} {v v' : α}
    {rest : List (Nat × α)} {P lo : Nat} (hr : Rep P q ⟨(n, v) :: rest, made, de⟩ lo)
    (hk : Wrap q.max P) :
    Rep P { q with cells := setCell q.cells q.r.toNat (some (n, v')) }
      ⟨(n, v') :: rest, made, de⟩ lo := by
  have hpos := hk.pos
  have hN := hk.lt
  have hPle := hk.le
  have hroom := hr.room
  simp only [List.length_cons] at hroom
  have hri : q.r.toNat = lo % P := by rw [hr.r, idx_toNat hpos hN]
  constructor
  · exact hr.w
  · exact hr.r
  · exact hr.made
  · exact hr.destroyed
  · exact hr.room
  · intro j hj
    simp only [setCell, hri]
    rcases j with _ | j
    · simp
    · rw [if_neg (fun hc => by
        simp only [List.length_cons] at hj
        have := idx_mod_inj hc.symm (by omega) (by omega); omega)]
      have := hr.live (j + 1) (by simpa using hj)
      simpa using this
  · intro i hi
    simp only [setCell, hri]
    rw [if_neg (fun hc => hi 0 (by simp) (by simpa using hc.symm))]
    exact hr.dead i (by simpa using hi)

/-- Refinement: whatever the abstract FIFO does, the queue does.  The read index moves with the number of elements
removed. -/
theorem run_refines_lo {P : Nat} (debug : Bool) (ops : List (Op α)) :
    ∀ (q : Q α) (s : Spec α) (lo : Nat), Rep P q s lo → Wrap q.max P →
      ∀ s' o, Spec.run (P - 1) s ops = some (s', o) →
      ∃ q' lo', run debug q ops = some (q', o) ∧ Rep P q' s' lo' ∧ q'.max = q.max ∧
        q'.freed = q.freed ∧ lo' + s.destroyed.length = lo + s'.destroyed.length := by
  induction ops with
  | nil =>
    intro q s lo hr hk s' o h
    simp only [Spec.run, Option.some.injEq, Prod.mk.injEq] at h
    obtain ⟨rfl, rfl⟩ := h
    exact ⟨q, lo, rfl, hr, rfl, rfl, rfl⟩
  | cons op ops ih =>
    intro q s lo hr hk s' o h
    cases op with
    | push v t =>
      obtain ⟨h1, h2, h3⟩ := rep_push hr hk v
      simp only [Spec.run] at h
      split at h
      · rename_i hfull
        simp only [Option.map_eq_some_iff] at h
        obtain ⟨⟨s1, o1⟩, h4, h5⟩ := h
        obtain ⟨rfl, rfl⟩ := Prod.mk.injEq .. ▸ h5
        obtain ⟨q', lo', e1, e2, e3, e4, e5⟩ := ih q s lo hr hk _ _ h4
        refine ⟨q', lo', ?_, e2, e3, e4, e5⟩
        cases t
        · simp [run, h2 hfull, e1]
        · simp [run, h1, if_pos hfull, e1]
      · rename_i hfull
        split at h
        · rename_i ht
          subst ht
          simp only [Option.map_eq_some_iff] at h
          obtain ⟨⟨s1, o1⟩, h4, h5⟩ := h
          obtain ⟨rfl, rfl⟩ := Prod.mk.injEq .. ▸ h5
          obtain ⟨q', lo', e1, e2, e3, e4, e5⟩ := ih q s lo hr hk _ _ h4
          exact ⟨q', lo', by simp [run, h1, if_neg hfull, e1], e2, e3, e4, e5⟩
        · rename_i ht
          have ht' : t = false := by simpa using ht
          subst ht'
          obtain ⟨q1, g1, g2, g3, g4⟩ := h3 hfull
          simp only [Option.map_eq_some_iff] at h
          obtain ⟨⟨s1, o1⟩, h4, h5⟩ := h
          obtain ⟨rfl, rfl⟩ := Prod.mk.injEq .. ▸ h5
          rw [← g2] at hk
          obtain ⟨q', lo', e1, e2, e3, e4, e5⟩ := ih q1 _ lo g4 hk _ _ h4
          exact ⟨q', lo', by simp [run, g1, e1], e2, by rw [e3, g2], by rw [e4, g3], e5⟩
    | pop =>
      obtain ⟨items, made, de⟩ := s
      rcases items with _ | ⟨⟨n, v⟩, rest⟩
      · simp [Spec.run] at h
      · simp only [Spec.run, Option.map_eq_some_iff] at h
        obtain ⟨⟨s1, o1⟩, h4, h5⟩ := h
        obtain ⟨rfl, rfl⟩ := Prod.mk.injEq .. ▸ h5
        have hne : isEmpty q.w q.r = false := by
          have := (rep_empty_iff hr hk).not.mpr (by simp)
          simpa using this
        obtain ⟨q1, g1, g2, g3, g4⟩ := rep_destroy hr hk
        have hk1 := hk
        rw [← g2] at hk1
        obtain ⟨q', lo', e1, e2, e3, e4, e5⟩ := ih { q1 with r := nextIndex q.max q.r } _ (lo + 1) g4
          hk1 _ _ h4
        exact ⟨q', lo', by simp [run, pop, hne, g1, e1], e2, by rw [e3]; exact g2,
          by rw [e4]; exact g3, by simp at e5 ⊢; omega⟩
    | consume f =>
      obtain ⟨items, made, de⟩ := s
      rcases items with _ | ⟨⟨n, v⟩, rest⟩
      · simp [Spec.run] at h
      · have hpos := hk.pos
        have hri : q.r.toNat = lo % P := by rw [hr.r, idx_toNat hpos hk.lt]
        have hlt : q.r.toNat < q.max.toNat := by rw [hri]; exact lt_of_lt_of_le (Nat.mod_lt _ hpos) hk.le
        have hcell : q.cells q.r.toNat = some (n, v) := by
          have := hr.live 0 (by simp)
          rw [hri]; simpa using this
        have hne : isEmpty q.w q.r = false := by
          have := (rep_empty_iff hr hk).not.mpr (by simp)
          simpa using this
        have hset := rep_set (v' := (f v).1) hr hk
        simp only [Spec.run] at h
        split at h
        · rename_i ht
          simp only [Option.map_eq_some_iff] at h
          obtain ⟨⟨s1, o1⟩, h4, h5⟩ := h
          obtain ⟨rfl, rfl⟩ := Prod.mk.injEq .. ▸ h5
          obtain ⟨q', lo', e1, e2, e3, e4, e5⟩ := ih _ _ lo hset hk _ _ h4
          exact ⟨q', lo', by simp [run, consume, hne, hlt, hcell, ht, e1], e2, e3, e4, e5⟩
        · rename_i ht
          simp only [Option.map_eq_some_iff] at h
          obtain ⟨⟨s1, o1⟩, h4, h5⟩ := h
          obtain ⟨rfl, rfl⟩ := Prod.mk.injEq .. ▸ h5
          obtain ⟨q1, g1, g2, g3, g4⟩ := rep_destroy hset hk
          have hk1 := hk
          simp only at g1 g2 g3 g4
          rw [← g2] at hk1
          obtain ⟨q', lo', e1, e2, e3, e4, e5⟩ := ih { q1 with r := nextIndex q.max q.r } _ (lo + 1) g4
            hk1 _ _ h4
          exact ⟨q', lo', by simp [run, consume, hne, hlt, hcell, ht, g1, e1], e2,
            by rw [e3]; exact g2, by rw [e4]; exact g3, by simp at e5 ⊢; omega⟩

theorem run_refines {P : Nat} (debug : Bool) (ops : List (Op α)) (q : Q α) (s : Spec α) (lo : Nat)
    (hr : Rep P q s lo) (hk : Wrap q.max P) (s' : Spec α) (o : List (Out α))
    (h : Spec.run (P - 1) s ops = some (s', o)) :
    ∃ q' lo', run debug q ops = some (q', o) ∧ Rep P q' s' lo' ∧ q'.max = q.max ∧ q'.freed = q.freed := by
  obtain ⟨q', lo', h1, h2, h3, h4, -⟩ := run_refines_lo debug ops q s lo hr hk s' o h
  exact ⟨q', lo', h1, h2, h3, h4⟩

/-- The destructor's loop removes all remaining elements, oldest first. -/
theorem destroyLoop_rep {P : Nat} (items : List (Nat × α)) :
    ∀ (fuel : Nat) (q : Q α) (made : Nat) (de : List Nat) (lo : Nat),
      Rep P q ⟨items, made, de⟩ lo → Wrap q.max P →
      items.length ≤ fuel →
      ∃ q' lo', destroyLoop fuel q = some q' ∧ Rep P q' ⟨[], made, de ++ items.map Prod.fst⟩ lo' ∧
        q'.freed = q.freed := by
  induction items with
  | nil =>
    intro fuel q made de lo hr hk hf
    have he : q.r = q.w := by
      have := (rep_empty_iff hr hk).mpr rfl
      simp only [isEmpty, beq_iff_eq] at this
      exact this.symm
    refine ⟨q, lo, ?_, by simpa using hr, rfl⟩
    cases fuel <;> simp [destroyLoop, he]
  | cons x rest ih =>
    intro fuel q made de lo hr hk hf
    rcases fuel with _ | fuel
    · simp at hf
    · have hne : q.r ≠ q.w := by
        intro hc
        have := (rep_empty_iff hr hk).mp (by simp [isEmpty, hc])
        simp at this
      obtain ⟨q1, g1, g2, g3, g4⟩ := rep_destroy hr hk
      have hk1 := hk
      rw [← g2] at hk1
      obtain ⟨q', lo', e1, e2, e3⟩ := ih fuel { q1 with r := nextIndex q.max q.r } made _ (lo + 1) g4
        hk1 (by simpa using hf)
      refine ⟨q', lo', by simp [destroyLoop, hne, g1, e1], by simpa using e2, by rw [e3]; exact g3⟩

end Verif.SPSC.Seq
