import Verif.Ranges.Model

/-!
What the functions on raw storage do to the memory, whichever constructor call throws.  The statements
speak of the cells of the memory only: `s.mem[a]?` is `some none` for raw storage and `some (some v)` for
an object.
-/

set_option autoImplicit false

namespace Verif.Ranges

variable {α : Type}

/-! ### Lemmas -/

theorem destroyAt_live {s : St α} {p : Nat} {v : α} (h : s.mem[p]? = some (some v)) :
    destroyAt s p = some { s with mem := s.mem.set p none } := by
  unfold destroyAt; rw [h]

theorem destroyAt_dead {s s' : St α} {p a : Nat} (h : destroyAt s p = some s') (ha : s.mem[a]? = some none) :
    s'.mem[a]? = some none := by
  unfold destroyAt at h
  split at h
  · cases h
    rw [List.getElem?_set]
    split
    · rename_i e; subst e; simp_all
    · exact ha
  · cases h

theorem destroyAt_self {s s' : St α} {p : Nat} (h : destroyAt s p = some s') : s'.mem[p]? = some none := by
  unfold destroyAt at h
  split at h
  · rename_i v hv
    cases h
    have : p < s.mem.length := by
      rcases Nat.lt_or_ge p s.mem.length with h | h
      · exact h
      · rw [List.getElem?_eq_none h] at hv; cases hv
    simp [this]
  · cases h

theorem set_cell (m : Mem α) (p : Nat) (x : Option α) (hp : p < m.length) (a : Nat) :
    (m.set p x)[a]? = if a = p then some x else m[a]? := by
  rw [List.getElem?_set]
  by_cases e : p = a
  · subst e; simp [hp]
  · rw [if_neg e, if_neg (Ne.symm e)]

theorem lt_of_cell {m : Mem α} {a : Nat} {x : Option α} (h : m[a]? = some x) : a < m.length := by
  rcases Nat.lt_or_ge a m.length with h' | h'
  · exact h'
  · rw [List.getElem?_eq_none h'] at h; cases h

theorem destroyA_live : ∀ (k : Nat) (s : St α) (first : Nat), (∀ i < k, ∃ v, s.mem[first + i]? = some (some v)) →
    ∃ s', destroyA s first (first + k) = (s', .ok ()) ∧ s'.calls = s.calls ∧ s'.mem.length = s.mem.length ∧
      ∀ a, s'.mem[a]? = if first ≤ a ∧ a < first + k then some none else s.mem[a]?
  | 0, s, first, _ => by
    refine ⟨s, ?_, rfl, rfl, fun a => ?_⟩
    · unfold destroyA; simp
    · rw [if_neg]; omega
  | k + 1, s, first, h => by
    obtain ⟨v, hv⟩ := h 0 (by omega)
    rw [Nat.add_zero] at hv
    have hlt := lt_of_cell hv
    have hd := destroyAt_live hv
    obtain ⟨s', h1, h2, h3, h4⟩ := destroyA_live k { s with mem := s.mem.set first none } (first + 1) (by
      intro i hi
      obtain ⟨w, hw⟩ := h (i + 1) (by omega)
      refine ⟨w, ?_⟩
      simp only
      rw [set_cell _ _ _ hlt, if_neg (by omega), ← hw]
      congr 1; omega)
    refine ⟨s', ?_, h2, by simpa using h3, fun a => ?_⟩
    · rw [destroyA, if_neg (by omega), if_pos hlt]
      split
      · rename_i s'' hs
        rw [hd] at hs
        cases hs
        rw [show first + (k + 1) = first + 1 + k by omega]
        exact h1
      · rename_i hs; rw [hd] at hs; cases hs
    · rw [h4 a, set_cell _ _ _ hlt]
      by_cases e : a = first
      · subst e; rw [if_neg (by omega), if_pos rfl, if_pos (by omega)]
      · rw [if_neg e]
        by_cases e2 : first + 1 ≤ a ∧ a < first + 1 + k
        · rw [if_pos e2, if_pos (by omega)]
        · rw [if_neg e2, if_neg (by omega)]

theorem destroyA_dead (s : St α) (first last a : Nat) (ha : s.mem[a]? = some none) :
    (destroyA s first last).1.mem[a]? = some none := by
  induction s, first using destroyA.induct (last := last) with
  | case1 s => rw [destroyA, if_pos rfl]; exact ha
  | case2 s first h1 h2 s' hs ih =>
    rw [destroyA, if_neg h1, if_pos h2]
    split
    · rename_i s'' hs2
      rw [hs] at hs2; cases hs2
      exact ih (destroyAt_dead hs ha)
    · exact ha
  | case3 s first h1 h2 hs =>
    rw [destroyA, if_neg h1, if_pos h2]
    split
    · rename_i s'' hs2; rw [hs] at hs2; cases hs2
    · exact ha
  | case4 s first h1 h2 => rw [destroyA, if_neg h1, if_neg h2]; exact ha

theorem destroyA_first (s : St α) (first last : Nat) (hne : first ≠ last) :
    (destroyA s first last).2 = .ub ∨
      ((destroyA s first last).2 = .ok () ∨ (destroyA s first last).2 = .exc) ∧
        (destroyA s first last).1.mem[first]? = some none := by
  rw [destroyA, if_neg hne]
  split
  · split
    · rename_i s' hs
      have h := destroyA_dead s' (first + 1) last first (destroyAt_self hs)
      cases hr : (destroyA s' (first + 1) last).2 with
      | ok u => cases u; exact .inr ⟨.inl rfl, h⟩
      | exc => exact .inr ⟨.inr rfl, h⟩
      | ub => exact .inl rfl
    · exact .inl rfl
  · exact .inl rfl

/-- A destruction that is defined destroys living objects only, and does not begin behind its end. -/
theorem destroyA_needs (s : St α) (first last : Nat) (h : (destroyA s first last).2 ≠ .ub) :
    first ≤ last ∧ ∀ a, first ≤ a → a < last → ∃ v, s.mem[a]? = some (some v) := by
  induction s, first using destroyA.induct (last := last) with
  | case1 s => exact ⟨Nat.le_refl _, fun a h1 h2 => absurd h1 (by omega)⟩
  | case2 s first h1 h2 s' hs ih =>
    rw [destroyA, if_neg h1, if_pos h2] at h
    split at h
    · rename_i s'' hs2
      rw [hs] at hs2; cases hs2
      obtain ⟨g1, g2⟩ := ih h
      refine ⟨by omega, fun a ha1 ha2 => ?_⟩
      unfold destroyAt at hs
      split at hs
      · rename_i v hv
        cases hs
        by_cases e : a = first
        · subst e; exact ⟨v, hv⟩
        · obtain ⟨w, hw⟩ := g2 a (by omega) ha2
          rw [set_cell _ _ _ h2, if_neg e] at hw
          exact ⟨w, hw⟩
      · cases hs
    · exact absurd rfl h
  | case3 s first h1 h2 hs =>
    rw [destroyA, if_neg h1, if_pos h2] at h
    split at h
    · rename_i s'' hs2; rw [hs] at hs2; cases hs2
    · exact absurd rfl h
  | case4 s first h1 h2 => rw [destroyA, if_neg h1, if_neg h2] at h; exact absurd rfl h

theorem constructAt_ok {throws : Nat → Bool} {s : St α} {p src : Nat} {v : α} (hp : s.mem[p]? = some none)
    (hs : s.mem[src]? = some (some v)) (ht : throws s.calls = false) :
    constructAt throws s p src = (⟨s.mem.set p (some v), s.calls + 1⟩, .ok ()) := by
  unfold constructAt; rw [hp, hs]; simp [ht]

theorem constructAt_throw {throws : Nat → Bool} {s : St α} {p src : Nat} {v : α} (hp : s.mem[p]? = some none)
    (hs : s.mem[src]? = some (some v)) (ht : throws s.calls = true) :
    constructAt throws s p src = (⟨s.mem, s.calls + 1⟩, .exc) := by
  unfold constructAt; rw [hp, hs]; simp [ht]

theorem fillLoop_ok {throws : Nat → Bool} {first value : Nat} {v : α} : ∀ (n : Nat) (s : St α) (curr : Nat),
    (∀ i < n, s.mem[curr + i]? = some none) → s.mem[value]? = some (some v) →
    (∀ i < n, throws (s.calls + i) = false) →
    ∃ s', fillLoop throws first value s curr n = (s', .ok (curr + n)) ∧ s'.calls = s.calls + n ∧
      s'.mem.length = s.mem.length ∧
      ∀ a, s'.mem[a]? = if curr ≤ a ∧ a < curr + n then some (some v) else s.mem[a]?
  | 0, s, curr, _, _, _ => ⟨s, rfl, rfl, rfl, fun a => by rw [if_neg (by omega)]⟩
  | n + 1, s, curr, hr, hv, ht => by
    have hc : s.mem[curr]? = some none := by simpa using hr 0 (by omega)
    have hlt := lt_of_cell hc
    have hco := constructAt_ok (throws := throws) hc hv (by simpa using ht 0 (by omega))
    have hne : value ≠ curr := by rintro rfl; rw [hc] at hv; cases hv
    obtain ⟨s', h1, h2, h3, h4⟩ := fillLoop_ok (throws := throws) (first := first) (value := value) (v := v) n
      ⟨s.mem.set curr (some v), s.calls + 1⟩ (curr + 1)
      (by
        intro i hi
        simp only
        rw [set_cell _ _ _ hlt, if_neg (by omega), ← hr (i + 1) (by omega)]
        congr 1; omega)
      (by simp only; rw [set_cell _ _ _ hlt, if_neg hne]; exact hv)
      (by
        intro i hi
        rw [← ht (i + 1) (by omega)]
        congr 1; simp only; omega)
    refine ⟨s', ?_, by simp only at h2; omega, by simpa using h3, fun a => ?_⟩
    · rw [fillLoop, hco]
      simp only
      rw [h1, show curr + 1 + n = curr + (n + 1) by omega]
    · rw [h4 a]
      simp only
      rw [set_cell _ _ _ hlt]
      by_cases e : a = curr
      · subst e; rw [if_neg (by omega), if_pos rfl, if_pos (by omega)]
      · rw [if_neg e]
        by_cases e2 : curr + 1 ≤ a ∧ a < curr + 1 + n
        · rw [if_pos e2, if_pos (by omega)]
        · rw [if_neg e2, if_neg (by omega)]

/-- Up to a throwing call the loop runs as if it were shorter; then the handler runs. -/
theorem fillLoop_throw {throws : Nat → Bool} {first value : Nat} {v : α} : ∀ (k n : Nat) (s : St α) (curr : Nat),
    k < n → (∀ i < n, s.mem[curr + i]? = some none) → s.mem[value]? = some (some v) →
    (∀ i < k, throws (s.calls + i) = false) → throws (s.calls + k) = true →
    ∃ s', (∀ a, s'.mem[a]? = if curr ≤ a ∧ a < curr + k then some (some v) else s.mem[a]?) ∧
      s'.mem.length = s.mem.length ∧ s'.calls = s.calls + k + 1 ∧
      fillLoop throws first value s curr n = handler s' first (curr + k)
  | 0, n + 1, s, curr, _, hr, hv, _, ht => by
    have hc : s.mem[curr]? = some none := by simpa using hr 0 (by omega)
    refine ⟨⟨s.mem, s.calls + 1⟩, fun a => by rw [if_neg (by omega)], rfl, rfl, ?_⟩
    rw [fillLoop, constructAt_throw hc hv (by simpa using ht)]
    rfl
  | k + 1, n + 1, s, curr, hk, hr, hv, hf, ht => by
    have hc : s.mem[curr]? = some none := by simpa using hr 0 (by omega)
    have hlt := lt_of_cell hc
    have hco := constructAt_ok (throws := throws) hc hv (by simpa using hf 0 (by omega))
    have hne : value ≠ curr := by rintro rfl; rw [hc] at hv; cases hv
    obtain ⟨s', h1, h2, h3, h4⟩ := fillLoop_throw (throws := throws) (first := first) (value := value) (v := v) k n
      ⟨s.mem.set curr (some v), s.calls + 1⟩ (curr + 1) (by omega)
      (by
        intro i hi
        simp only
        rw [set_cell _ _ _ hlt, if_neg (by omega), ← hr (i + 1) (by omega)]
        congr 1; omega)
      (by simp only; rw [set_cell _ _ _ hlt, if_neg hne]; exact hv)
      (by
        intro i hi
        rw [← hf (i + 1) (by omega)]
        congr 1; simp only; omega)
      (by
        rw [← ht]
        congr 1; simp only; omega)
    refine ⟨s', fun a => ?_, by simpa using h2, by simp only at h3; omega, ?_⟩
    · rw [h1 a]
      simp only
      rw [set_cell _ _ _ hlt]
      by_cases e : a = curr
      · subst e; rw [if_neg (by omega), if_pos rfl, if_pos (by omega)]
      · rw [if_neg e]
        by_cases e2 : curr + 1 ≤ a ∧ a < curr + 1 + k
        · rw [if_pos e2, if_pos (by omega)]
        · rw [if_neg e2, if_neg (by omega)]
    · rw [fillLoop, hco]
      simp only
      rw [h4, show curr + 1 + k = curr + (k + 1) by omega]

/-- The copying loop after `k` constructions that do not throw. -/
theorem copyLoop_run {throws : Nat → Bool} {inLast outLast : Nat} {v : Nat → α} : ∀ (k : Nat) (s : St α)
    (inF outF : Nat), inF + k ≤ inLast → outF + k ≤ outLast →
    (∀ i < k, s.mem[outF + i]? = some none) → (∀ i < k, s.mem[inF + i]? = some (some (v i))) →
    (∀ i < k, throws (s.calls + i) = false) →
    ∃ s', (∀ a, s'.mem[a]? = if outF ≤ a ∧ a < outF + k then some (some (v (a - outF))) else s.mem[a]?) ∧
      s'.mem.length = s.mem.length ∧ s'.calls = s.calls + k ∧
      copyLoop throws inLast outLast s inF outF = copyLoop throws inLast outLast s' (inF + k) (outF + k)
  | 0, s, inF, outF, _, _, _, _, _ => ⟨s, fun a => by rw [if_neg (by omega)], rfl, rfl, rfl⟩
  | k + 1, s, inF, outF, hi, ho, hr, hv, ht => by
    have hc : s.mem[outF]? = some none := by simpa using hr 0 (by omega)
    have hs : s.mem[inF]? = some (some (v 0)) := by simpa using hv 0 (by omega)
    have hlt := lt_of_cell hc
    have hco := constructAt_ok (throws := throws) hc hs (by simpa using ht 0 (by omega))
    have hdisj : ∀ i < k + 1, inF + i ≠ outF := by
      intro i hi' e
      have := hv i hi'
      rw [e, hc] at this; cases this
    obtain ⟨s', h1, h2, h3, h4⟩ := copyLoop_run (throws := throws) (inLast := inLast) (outLast := outLast)
      (v := fun i => v (i + 1)) k ⟨s.mem.set outF (some (v 0)), s.calls + 1⟩ (inF + 1) (outF + 1) (by omega) (by omega)
      (by
        intro i hi
        simp only
        rw [set_cell _ _ _ hlt, if_neg (by omega), ← hr (i + 1) (by omega)]
        congr 1; omega)
      (by
        intro i hi'
        simp only
        have := hdisj (i + 1) (by omega)
        rw [set_cell _ _ _ hlt, if_neg (by omega), ← hv (i + 1) (by omega)]
        congr 1; omega)
      (by
        intro i hi
        rw [← ht (i + 1) (by omega)]
        congr 1; simp only; omega)
    refine ⟨s', fun a => ?_, by simpa using h2, by simp only at h3; omega, ?_⟩
    · rw [h1 a]
      simp only
      rw [set_cell _ _ _ hlt]
      by_cases e : a = outF
      · subst e; rw [if_neg (by omega), if_pos rfl, if_pos (by omega), Nat.sub_self]
      · rw [if_neg e]
        by_cases e2 : outF + 1 ≤ a ∧ a < outF + 1 + k
        · rw [if_pos e2, if_pos (by omega)]
          congr 2; congr 1; omega
        · rw [if_neg e2, if_neg (by omega)]
    · rw [copyLoop, if_neg (by omega), if_pos hlt]
      split
      · rename_i s'' hs2
        rw [hco] at hs2; cases hs2
        rw [h4, show inF + 1 + k = inF + (k + 1) by omega, show outF + 1 + k = outF + (k + 1) by omega]
      · rename_i s'' hs2; rw [hco] at hs2; cases hs2
      · rename_i s'' hs2; rw [hco] at hs2; cases hs2

/-! ### C87: `uninitialized_fill_n_a` -/

/-- C87. All or nothing: on raw storage, if no constructor throws there are `n` copies of the value and
nothing else changed; if one throws, the exception leaves the call and the memory is as it was before. -/
theorem fill_n_all_or_nothing (throws : Nat → Bool) (s : St α) (first n value : Nat) (v : α)
    (hraw : ∀ i < n, s.mem[first + i]? = some none) (hval : s.mem[value]? = some (some v)) :
    ((∀ i < n, throws (s.calls + i) = false) → ∃ s', uninitializedFillNA throws s first n value = (s', .ok (first + n)) ∧
      s'.mem.length = s.mem.length ∧
      ∀ a, s'.mem[a]? = if first ≤ a ∧ a < first + n then some (some v) else s.mem[a]?) ∧
    ((∃ i < n, throws (s.calls + i) = true) →
      ∃ s', uninitializedFillNA throws s first n value = (s', .exc) ∧ s'.mem = s.mem) := by
  constructor
  · intro ht
    obtain ⟨s', h1, -, h3, h4⟩ := fillLoop_ok (first := first) n s first hraw hval ht
    exact ⟨s', h1, h3, h4⟩
  · rintro hex
    -- the first call that throws
    have : ∃ k, k < n ∧ throws (s.calls + k) = true ∧ ∀ i < k, throws (s.calls + i) = false := by
      clear hraw hval
      induction n with
      | zero => obtain ⟨i, hi, -⟩ := hex; omega
      | succ n ih =>
        by_cases h : ∃ i < n, throws (s.calls + i) = true
        · obtain ⟨k, h1, h2, h3⟩ := ih h
          exact ⟨k, by omega, h2, h3⟩
        · obtain ⟨i, hi, hti⟩ := hex
          obtain rfl : i = n := by
            rcases Nat.lt_or_ge i n with h' | h'
            · exact absurd ⟨i, h', hti⟩ h
            · omega
          refine ⟨i, by omega, hti, fun j hj => ?_⟩
          cases hb : throws (s.calls + j) with
          | false => rfl
          | true => exact absurd ⟨j, hj, hb⟩ h
    obtain ⟨k, hk, htk, hf⟩ := this
    obtain ⟨s1, h1, h2, h3, h4⟩ := fillLoop_throw (first := first) k n s first hk hraw hval hf htk
    obtain ⟨s2, g1, g2, g3, g4⟩ := destroyA_live k s1 first fun i hi => ⟨v, by rw [h1, if_pos (by omega)]⟩
    refine ⟨s2, ?_, ?_⟩
    · unfold uninitializedFillNA
      rw [h4, handler, g1]
    · refine List.ext_getElem? fun a => ?_
      rw [g4 a, h1 a]
      by_cases e : first ≤ a ∧ a < first + k
      · rw [if_pos e]
        have := hraw (a - first) (by omega)
        rw [show first + (a - first) = a by omega] at this
        exact this.symm
      · rw [if_neg e, if_neg e]

/-- C87: three copies of 7 beside an object 5; and the third constructor throwing. -/
example : uninitializedFillNA (fun _ => false) ⟨[some 7, none, none, none, some 5], 0⟩ 1 3 0 =
    (⟨[some 7, some 7, some 7, some 7, some 5], 3⟩, .ok 4) ∧
    uninitializedFillNA (fun i => i == 2) ⟨[some 7, none, none, none, some 5], 0⟩ 1 3 0 =
    (⟨[some 7, none, none, none, some 5], 3⟩, .exc) := by
  constructor <;> decide +kernel

/-! ### C88: `uninitialized_copy_a` -/

/-- C88, the part that holds: if no constructor throws, the shorter of the two ranges decides how many
elements are copied, in order, and nothing else changes. -/
theorem copy_partial (throws : Nat → Bool) (s : St α) (inF n outF m : Nat) (v : Nat → α)
    (hraw : ∀ i < m, s.mem[outF + i]? = some none) (hsrc : ∀ i < n, s.mem[inF + i]? = some (some (v i)))
    (ht : ∀ i < min n m, throws (s.calls + i) = false) :
    ∃ s', uninitializedCopyA throws s inF (inF + n) outF (outF + m) = (s', .ok (inF + min n m, outF + min n m)) ∧
      s'.mem.length = s.mem.length ∧
      ∀ a, s'.mem[a]? = if outF ≤ a ∧ a < outF + min n m then some (some (v (a - outF))) else s.mem[a]? := by
  obtain ⟨s', h1, h2, -, h4⟩ := copyLoop_run (throws := throws) (inLast := inF + n) (outLast := outF + m) (v := v)
    (min n m) s inF outF (by omega) (by omega) (fun i hi => hraw i (by omega)) (fun i hi => hsrc i (by omega)) ht
  refine ⟨s', ?_, h2, h1⟩
  unfold uninitializedCopyA
  rw [h4, copyLoop, if_pos (by omega)]

/-- What is left of the call when the constructor of element `k` throws. -/
theorem copy_handler (throws : Nat → Bool) (s : St α) (inF n outF m k : Nat) (v : Nat → α)
    (hraw : ∀ i < m, s.mem[outF + i]? = some none) (hsrc : ∀ i < n, s.mem[inF + i]? = some (some (v i)))
    (hk : k < min n m) (hf : ∀ i < k, throws (s.calls + i) = false) (ht : throws (s.calls + k) = true) :
    ∃ s' : St α, s'.mem.length = s.mem.length ∧
      (∀ a, s'.mem[a]? = if outF ≤ a ∧ a < outF + k then some (some (v (a - outF))) else s.mem[a]?) ∧
      inF + k ≠ outF + k ∧
      uninitializedCopyA throws s inF (inF + n) outF (outF + m) = handler s' (inF + k) (outF + k) := by
  obtain ⟨s', h1, h2, h3, h4⟩ := copyLoop_run (throws := throws) (inLast := inF + n) (outLast := outF + m) (v := v)
    k s inF outF (by omega) (by omega) (fun i hi => hraw i (by omega)) (fun i hi => hsrc i (by omega)) hf
  have hne : inF + k ≠ outF + k := by
    intro e
    have a1 := hraw 0 (by omega)
    have a2 := hsrc 0 (by omega)
    rw [show inF + 0 = outF + 0 by omega, a1] at a2
    cases a2
  have hsrc' : s'.mem[inF + k]? = some (some (v k)) := by
    rw [h1, if_neg, hsrc k (by omega)]
    intro h
    have a1 := hraw (inF + k - outF) (by omega)
    rw [show outF + (inF + k - outF) = inF + k by omega, hsrc k (by omega)] at a1
    cases a1
  have hraw' : s'.mem[outF + k]? = some none := by
    rw [h1, if_neg (by omega), hraw k (by omega)]
  have hthrow := constructAt_throw (throws := throws) hraw' hsrc' (by rw [h3]; exact ht)
  have e : uninitializedCopyA throws s inF (inF + n) outF (outF + m) =
      handler ⟨s'.mem, s'.calls + 1⟩ (inF + k) (outF + k) := by
    unfold uninitializedCopyA
    rw [h4, copyLoop, if_neg (by omega), if_pos (lt_of_cell hraw')]
    split
    · rename_i s'' hs2; rw [hthrow] at hs2; cases hs2
    · rename_i s'' hs2; rw [hthrow] at hs2; cases hs2; rfl
    · rename_i s'' hs2; rw [hthrow] at hs2; cases hs2
  exact ⟨⟨s'.mem, s'.calls + 1⟩, h2, h1, hne, e⟩

/-- C88 is false, and not only in special cases: whenever a constructor throws, either the behaviour is
undefined or the call destroys the *source* element whose copying failed. -/
theorem copy_throw_wrong (throws : Nat → Bool) (s : St α) (inF n outF m k : Nat) (v : Nat → α)
    (hraw : ∀ i < m, s.mem[outF + i]? = some none) (hsrc : ∀ i < n, s.mem[inF + i]? = some (some (v i)))
    (hk : k < min n m) (hf : ∀ i < k, throws (s.calls + i) = false) (ht : throws (s.calls + k) = true) :
    (uninitializedCopyA throws s inF (inF + n) outF (outF + m)).2 = .ub ∨
    ((uninitializedCopyA throws s inF (inF + n) outF (outF + m)).2 = .exc ∧
      (uninitializedCopyA throws s inF (inF + n) outF (outF + m)).1.mem[inF + k]? = some none) := by
  obtain ⟨s', -, -, hne, e⟩ := copy_handler throws s inF n outF m k v hraw hsrc hk hf ht
  rw [e]
  unfold handler
  rcases destroyA_first s' (inF + k) (outF + k) hne with h | ⟨h, h'⟩
  · left
    split
    · rename_i hr; rw [hr] at h; cases h
    · rename_i hr; rw [hr] at h; cases h
    · rfl
  · right
    split
    · rename_i hr; rw [hr] at h'; exact ⟨rfl, h'⟩
    · rename_i hr; rw [hr] at h'; exact ⟨rfl, h'⟩
    · rename_i hr; rw [hr] at h; rcases h with h | h <;> cases h

/-- C88, exactly: if the constructor of element `k` throws, the behaviour is defined just if the source lies before the
destination and everything from source element `k` up to the destination is living objects. Then all of that is destroyed
with the copies made; nothing else changes. -/
theorem copy_throw_exact (throws : Nat → Bool) (s : St α) (inF n outF m k : Nat) (v : Nat → α)
    (hraw : ∀ i < m, s.mem[outF + i]? = some none) (hsrc : ∀ i < n, s.mem[inF + i]? = some (some (v i)))
    (hk : k < min n m) (hf : ∀ i < k, throws (s.calls + i) = false) (ht : throws (s.calls + k) = true) :
    ((uninitializedCopyA throws s inF (inF + n) outF (outF + m)).2 ≠ .ub ↔
      inF < outF ∧ ∀ a, inF + k ≤ a → a < outF → ∃ w, s.mem[a]? = some (some w)) ∧
    ((uninitializedCopyA throws s inF (inF + n) outF (outF + m)).2 ≠ .ub →
      (uninitializedCopyA throws s inF (inF + n) outF (outF + m)).2 = .exc ∧
      ∀ a, (uninitializedCopyA throws s inF (inF + n) outF (outF + m)).1.mem[a]? =
        if inF + k ≤ a ∧ a < outF then some none else s.mem[a]?) := by
  obtain ⟨s', hlen, hmem, hne, e⟩ := copy_handler throws s inF n outF m k v hraw hsrc hk hf ht
  rw [e]
  have hsrcdst : ∀ i < n, ∀ j < m, inF + i ≠ outF + j := by
    intro i hi j hj e
    have a1 := hraw j hj
    rw [← e, hsrc i hi] at a1
    cases a1
  have key : inF < outF ∧ (∀ a, inF + k ≤ a → a < outF → ∃ w, s.mem[a]? = some (some w)) →
      ∃ s2, handler (β := Nat × Nat) s' (inF + k) (outF + k) = (s2, .exc) ∧
        ∀ a, s2.mem[a]? = if inF + k ≤ a ∧ a < outF then some none else s.mem[a]? := by
    rintro ⟨h1, h2⟩
    have hko : inF + k < outF := by
      have := hsrcdst (outF - inF)
      by_cases hlt : outF - inF < n
      · exact absurd (by omega) (this hlt 0 (by omega))
      · omega
    obtain ⟨s2, g1, -, -, g4⟩ := destroyA_live (outF - inF) s' (inF + k) fun i hi => by
      rw [hmem]
      by_cases c : outF ≤ inF + k + i ∧ inF + k + i < outF + k
      · rw [if_pos c]; exact ⟨_, rfl⟩
      · rw [if_neg c]; exact h2 _ (by omega) (by omega)
    refine ⟨s2, ?_, fun a => ?_⟩
    · unfold handler
      rw [show outF + k = inF + k + (outF - inF) by omega, g1]
    · rw [g4 a, hmem a]
      by_cases c1 : outF ≤ a ∧ a < outF + k
      · rw [if_pos (by omega), if_neg (by omega)]
        have := hraw (a - outF) (by omega)
        rw [show outF + (a - outF) = a by omega] at this
        exact this.symm
      · rw [if_neg c1]
        by_cases c2 : inF + k ≤ a ∧ a < outF
        · rw [if_pos (by omega), if_pos c2]
        · rw [if_neg (by omega), if_neg c2]
  have conv : (handler (β := Nat × Nat) s' (inF + k) (outF + k)).2 ≠ .ub →
      inF < outF ∧ ∀ a, inF + k ≤ a → a < outF → ∃ w, s.mem[a]? = some (some w) := by
    intro h
    have h' : (destroyA s' (inF + k) (outF + k)).2 ≠ .ub := by
      intro hu
      apply h
      unfold handler
      split
      · rename_i hr; rw [hr] at hu; cases hu
      · rename_i hr; rw [hr] at hu; cases hu
      · rfl
    obtain ⟨g1, g2⟩ := destroyA_needs _ _ _ h'
    refine ⟨by omega, fun a h1 h2 => ?_⟩
    obtain ⟨w, hw⟩ := g2 a h1 (by omega)
    rw [hmem, if_neg (by omega)] at hw
    exact ⟨w, hw⟩
  refine ⟨⟨conv, fun h => ?_⟩, fun h => ?_⟩
  · obtain ⟨s2, g1, -⟩ := key h
    rw [g1]; simp
  · obtain ⟨s2, g1, g2⟩ := key (conv h)
    rw [g1]
    exact ⟨rfl, g2⟩

/-- C88: copying two elements into the storage behind them; if the second construction throws, the second
source element and the copy of the first are destroyed.  With the source behind the destination the
behaviour is undefined. -/
example :
    uninitializedCopyA (fun _ => false) ⟨[some 7, some 8, none, none], 0⟩ 0 2 2 4 =
      (⟨[some 7, some 8, some 7, some 8], 2⟩, .ok (2, 4)) ∧
    uninitializedCopyA (fun i => i == 1) ⟨[some 7, some 8, none, none], 0⟩ 0 2 2 4 =
      (⟨[some 7, none, none, none], 2⟩, .exc) ∧
    (uninitializedCopyA (fun i => i == 1) ⟨[none, none, some 7, some 8], 0⟩ 2 4 0 2).2 = .ub := by
  refine ⟨?_, ?_, ?_⟩ <;> decide +kernel

/-! ### C89: `destroy_a`, `destroy_n_a` -/

theorem destroyNLoop_live : ∀ (k : Nat) (s : St α) (first : Nat), (∀ i < k, ∃ v, s.mem[first + i]? = some (some v)) →
    ∃ s', destroyNLoop s first k = (s', .ok ()) ∧ s'.calls = s.calls ∧ s'.mem.length = s.mem.length ∧
      ∀ a, s'.mem[a]? = if first ≤ a ∧ a < first + k then some none else s.mem[a]?
  | 0, s, first, _ => ⟨s, rfl, rfl, rfl, fun a => by rw [if_neg (by omega)]⟩
  | k + 1, s, first, h => by
    obtain ⟨v, hv⟩ := h 0 (by omega)
    rw [Nat.add_zero] at hv
    have hlt := lt_of_cell hv
    obtain ⟨s', h1, h2, h3, h4⟩ := destroyNLoop_live k { s with mem := s.mem.set first none } (first + 1) (by
      intro i hi
      obtain ⟨w, hw⟩ := h (i + 1) (by omega)
      refine ⟨w, ?_⟩
      simp only
      rw [set_cell _ _ _ hlt, if_neg (by omega), ← hw]
      congr 1; omega)
    refine ⟨s', ?_, h2, by simpa using h3, fun a => ?_⟩
    · rw [destroyNLoop, destroyAt_live hv]; exact h1
    · rw [h4 a, set_cell _ _ _ hlt]
      by_cases e : a = first
      · subst e; rw [if_neg (by omega), if_pos rfl, if_pos (by omega)]
      · rw [if_neg e]
        by_cases e2 : first + 1 ≤ a ∧ a < first + 1 + k
        · rw [if_pos e2, if_pos (by omega)]
        · rw [if_neg e2, if_neg (by omega)]

/-- C89. Destroying a range of objects leaves raw storage there and everything else as it was; a count that
is not positive destroys nothing. -/
theorem destroy_exact (s : St α) (first k : Nat) (n : Int) (hlive : ∀ i < k, ∃ v, s.mem[first + i]? = some (some v)) :
    (∃ s', destroyA s first (first + k) = (s', .ok ()) ∧ s'.mem.length = s.mem.length ∧
      ∀ a, s'.mem[a]? = if first ≤ a ∧ a < first + k then some none else s.mem[a]?) ∧
    (n = k → ∃ s', destroyNA s first n = (s', .ok ()) ∧ s'.mem.length = s.mem.length ∧
      ∀ a, s'.mem[a]? = if first ≤ a ∧ a < first + k then some none else s.mem[a]?) ∧
    (n ≤ 0 → destroyNA s first n = (s, .ok ())) := by
  obtain ⟨s1, h1, -, h3, h4⟩ := destroyA_live k s first hlive
  refine ⟨⟨s1, h1, h3, h4⟩, ?_, ?_⟩
  · rintro rfl
    obtain ⟨s2, g1, -, g3, g4⟩ := destroyNLoop_live k s first hlive
    exact ⟨s2, by unfold destroyNA; rw [Int.toNat_natCast]; exact g1, g3, g4⟩
  · intro hn
    unfold destroyNA
    rw [Int.toNat_of_nonpos hn]; rfl

/-- C89: destroying is undefined for everything else: a range that is not one, or that holds raw storage. -/
theorem destroy_undefined_exact (s : St α) (first last : Nat) :
    ((destroyA s first last).2 = .ok () ↔ first ≤ last ∧ ∀ a, first ≤ a → a < last → ∃ v, s.mem[a]? = some (some v)) ∧
    ((destroyA s first last).2 = .ok () ∨ (destroyA s first last).2 = .ub) := by
  have key : first ≤ last ∧ (∀ a, first ≤ a → a < last → ∃ v, s.mem[a]? = some (some v)) →
      (destroyA s first last).2 = .ok () := by
    rintro ⟨h1, h2⟩
    obtain ⟨s1, g1, -⟩ := destroyA_live (last - first) s first fun i hi => h2 _ (by omega) (by omega)
    rw [show first + (last - first) = last by omega] at g1
    rw [g1]
  refine ⟨⟨fun h => destroyA_needs s first last (by rw [h]; simp), key⟩, ?_⟩
  by_cases h : (destroyA s first last).2 = .ub
  · exact .inr h
  · exact .inl (key (destroyA_needs s first last h))

/-- C89: the two middle objects of four; destroying raw storage is undefined. -/
example : destroyA ⟨[some 1, some 2, some 3, some 4], 0⟩ 1 3 = (⟨[some 1, none, none, some 4], 0⟩, .ok ()) ∧
    destroyNA ⟨[some 1, some 2, some 3, some 4], 0⟩ 1 2 = (⟨[some 1, none, none, some 4], 0⟩, .ok ()) ∧
    destroyNA ⟨[some 1, some 2], 0⟩ 0 (-3) = (⟨[some 1, some 2], 0⟩, .ok ()) ∧
    (destroyA ⟨[some 1, none, some 3], 0⟩ 0 3).2 = .ub := by
  refine ⟨?_, ?_, ?_, ?_⟩ <;> decide +kernel

end Verif.Ranges
