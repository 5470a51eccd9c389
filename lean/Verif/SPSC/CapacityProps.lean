import Verif.SPSC.SeqProps

/-!
# C31: what the queue says about itself when its capacity is not a power of two

`spsc_any_capacity_partial` shows that the queue then is a correct FIFO, only smaller.  Here it is stated exactly
what `read_available` and `write_available` report of it: whenever the stored elements wrap around, both are wrong.
-/

set_option autoImplicit false

namespace Verif.SPSC.Seq

variable {α : Type}

/-- **C31** `read_available()` and `write_available()` of a queue of capacity `N = 2^a (2 m + 1)`, after every client
program that respects the FIFO of `2^a - 1` elements the queue really is: if `d` elements were removed and `n` are
stored, `read_available()` is right unless the stored elements wrap around at `2^a`; then it reports `N - 2^a` too
many.  `write_available()` is always `N - 1` minus that. -/
theorem spsc_any_capacity_available {a m : Nat} (max : Size) (hm : max.toNat = 2 ^ a * (2 * m + 1)) (debug : Bool)
    (ops : List (Op α)) (s : Spec α) (outs : List (Out α))
    (h : Spec.run (2 ^ a - 1) Spec.empty ops = some (s, outs)) :
    ∃ q, run debug (Q.init max) ops = some (q, outs) ∧
      (readAvailable q).toNat = (if s.destroyed.length % 2 ^ a + s.items.length < 2 ^ a then s.items.length
        else s.items.length + (max.toNat - 2 ^ a)) ∧
      (writeAvailable q).toNat + (readAvailable q).toNat = max.toNat - 1 := by
  have hw := wrap_general hm
  obtain ⟨q, lo, h1, h2, h3, -, h5⟩ := run_refines_lo debug ops (Q.init max) _ 0 (rep_init max hw.pos) hw _ _ h
  have hlo : lo = s.destroyed.length := by simpa [Spec.empty] using h5
  subst hlo
  have h3 : q.max = max := h3
  refine ⟨q, h1, ?_⟩
  have hP := hw.pos
  have hle := hw.le
  have hroom := h2.room
  generalize hp : 2 ^ a = P at *
  have hmax := max.isLt
  have hwn : q.w.toNat = (s.destroyed.length + s.items.length) % P := by rw [h2.w, idx_toNat hP (by omega)]
  have hrn : q.r.toNat = s.destroyed.length % P := by rw [h2.r, idx_toNat hP (by omega)]
  have hd := Nat.mod_lt s.destroyed.length hP
  have key : (s.destroyed.length + s.items.length) % P = if s.destroyed.length % P + s.items.length < P then
      s.destroyed.length % P + s.items.length else s.destroyed.length % P + s.items.length - P := by
    rw [Nat.add_mod, Nat.mod_eq_of_lt hroom]
    split
    · rename_i hlt; exact Nat.mod_eq_of_lt hlt
    · rename_i hlt
      rw [Nat.mod_eq_sub_mod (by omega), Nat.mod_eq_of_lt (by omega)]
  rw [key] at hwn
  have hread : (readAvailable q).toNat = if s.destroyed.length % P + s.items.length < P then s.items.length
        else s.items.length + (max.toNat - P) := by
    unfold readAvailable readAvail
    rw [h3]
    split at hwn
    · rename_i hlt
      rw [if_pos (by rw [ge_iff_le, BitVec.le_def]; omega), if_pos hlt,
        BitVec.toNat_sub_of_le (by rw [BitVec.le_def]; omega)]
      omega
    · rename_i hlt
      rw [if_neg (by rw [ge_iff_le, BitVec.le_def]; omega), if_neg hlt, BitVec.toNat_sub, BitVec.toNat_add]
      omega
  refine ⟨hread, ?_⟩
  rw [hread]
  unfold writeAvailable writeAvail
  have hdf : (q.r - q.w - 1).toNat = (2 ^ 64 + 2 ^ 64 + q.r.toNat - q.w.toNat - 1) % 2 ^ 64 := by
    have := q.w.isLt
    have := q.r.isLt
    rw [BitVec.toNat_sub, BitVec.toNat_sub, one_toNat]; omega
  simp only [h3]
  split at hwn
  · rename_i hlt
    rw [if_pos (by rw [ge_iff_le, BitVec.le_def, hdf]; omega), if_pos hlt, BitVec.toNat_add, hdf]
    omega
  · rename_i hlt
    rw [if_neg (by rw [ge_iff_le, BitVec.le_def, hdf]; omega), if_neg hlt, hdf]
    omega

/-- `n` times: push an element and remove it. -/
def cycles (v : α) : Nat → List (Op α)
  | 0 => []
  | n + 1 => .push v false :: .pop :: cycles v n

theorem spec_cycles (v : α) (cap : Nat) (hc : 1 ≤ cap) (n : Nat) : ∀ (made : Nat) (de : List Nat),
    ∃ s o, Spec.run cap ⟨[], made, de⟩ (cycles v n ++ [.push v false]) = some (s, o) ∧ (∃ x, s.items = [x]) ∧
      s.destroyed.length = de.length + n ∧ stored o = 1 := by
  induction n with
  | zero =>
    intro made de
    refine ⟨⟨[(made, v)], made + 1, de⟩, [.pushed true], ?_, ⟨_, rfl⟩, rfl, rfl⟩
    simp [cycles, Spec.run, show ¬0 = cap by omega]
  | succ n ih =>
    intro made de
    obtain ⟨s, o, h1, h2, h3, h4⟩ := ih (made + 1) (de ++ [made])
    refine ⟨s, .pushed true :: .popped :: o, ?_, h2, by simp at h3; omega, ?_⟩
    · simp [cycles, Spec.run, show ¬0 = cap by omega, h1]
    · have : stored (.pushed true :: .popped :: o) = 1 + (-1 + stored o) := by simp [stored]
      rw [this, h4]; rfl

/-- **C31 is false** also for `read_available()`: for every even capacity `N` that is not a power of two there is a
program after which one element is stored although `read_available()` reports more; a consumer that believes it and
removes two elements gets undefined behaviour (an assertion failure in debug builds). -/
theorem spsc_non_power_of_two_read_available_wrong (max : Size) (hmax : max ≠ 0) (heven : max.toNat % 2 = 0)
    (hnp : ∀ k, max.toNat ≠ 2 ^ k) (debug : Bool) (v : α) :
    ∃ (ops : List (Op α)) (q : Q α) (outs : List (Out α)), run debug (Q.init max) ops = some (q, outs) ∧
      stored outs = 1 ∧ 2 ≤ (readAvailable q).toNat ∧ run debug q [.pop, .pop] = none := by
  have h0 : max.toNat ≠ 0 := fun h' => hmax (BitVec.eq_of_toNat_eq (by simpa using h'))
  obtain ⟨a, m, hm⟩ := exists_odd_part max.toNat h0
  have hw := wrap_general hm
  have ha : 2 ≤ 2 ^ a := by
    cases a with
    | zero => simp at hm; omega
    | succ a => rw [pow_succ]; have := Nat.two_pow_pos a; omega
  have hne : max.toNat ≠ 2 ^ a := hnp a
  have hle := hw.le
  obtain ⟨s, o, h1, ⟨x, h2⟩, h3, h4⟩ := spec_cycles v (2 ^ a - 1) (by omega) (2 ^ a - 1) 0 []
  obtain ⟨q, lo, h5, h6, h7, -⟩ := run_refines_lo debug _ (Q.init max) _ 0 (rep_init max hw.pos) hw _ _ h1
  obtain ⟨q', h8, h9, -⟩ := spsc_any_capacity_available max hm debug _ s o h1
  have e : q' = q := by rw [h5] at h8; cases h8; rfl
  subst e
  refine ⟨_, q', o, h5, h4, ?_, ?_⟩
  · rw [h9, h2, h3, if_neg]
    · simp; omega
    · simp [Nat.mod_eq_of_lt (show 2 ^ a - 1 < 2 ^ a by omega)]; omega
  · have hk : Wrap q'.max (2 ^ a) := by rw [h7]; exact hw
    obtain ⟨items, made, de⟩ := s
    simp only at h2
    subst h2
    have hne' : isEmpty q'.w q'.r = false := by
      have := (rep_empty_iff h6 hk).not.mpr (by simp)
      simpa using this
    obtain ⟨q1, g1, g2, g3, g4⟩ := rep_destroy h6 hk
    have hk1 : Wrap ({ q1 with r := nextIndex q'.max q'.r } : Q α).max (2 ^ a) := by
      show Wrap q1.max _
      rw [g2]; exact hk
    have hem := (rep_empty_iff g4 hk1).mpr rfl
    have hdead : q1.cells (nextIndex q'.max q'.r).toNat = none := g4.dead _ (by simp)
    have hd : destroyAt { q1 with r := nextIndex q'.max q'.r } (nextIndex q'.max q'.r) = none := by
      simp [destroyAt, hdead]
    cases debug <;> simp_all [run, pop]

/-- Six is such a capacity. -/
example : (6 : Size) ≠ 0 ∧ (6 : Size).toNat % 2 = 0 ∧
    (run (α := Nat) false (Q.init 6) [.push 7 false, .pop, .push 8 false]).map
      (fun r => (readAvailable r.1).toNat) = some 5 := by decide +kernel

end Verif.SPSC.Seq
