import Verif.SPSC.SeqLemmas
import Mathlib.Algebra.Ring.Parity

/-!
Property theorems about the sequential model of `SPSCQueue`: C25, C26 (sequential parts), C28, C30,
C31.
-/

set_option autoImplicit false

namespace Verif.SPSC.Seq

variable {α : Type}

/-- The empty abstract queue. -/
def Spec.empty : Spec α := ⟨[], 0, []⟩

/-- Number of elements inside after a client program (specification side): pushes that reported
`true` minus completed removals. -/
def stored (outs : List (Out α)) : Int :=
  (outs.map fun
    | .pushed true => (1 : Int)
    | .popped => -1
    | .consumed _ => -1
    | _ => 0).sum

/-- **C25, C26, C28, C30** The queue of capacity `N = 2^k` behaves like a FIFO that holds `N - 1`
elements: for every client program that never pops from an empty FIFO, every call reports what
the FIFO reports (in particular `push` fails exactly when `N - 1` elements are stored, a throwing
`push` changes nothing, a throwing `consume` keeps the element), no call is undefined, and the
elements destroyed so far are those the FIFO has removed. -/
theorem spsc_seq_refines_fifo {k : Nat} (max : Size) (hk : max.toNat = 2 ^ k) (debug : Bool)
    (ops : List (Op α)) (s : Spec α) (outs : List (Out α))
    (h : Spec.run (max.toNat - 1) Spec.empty ops = some (s, outs)) :
    ∃ q, run debug (Q.init max) ops = some (q, outs) ∧ q.made = s.made ∧
      q.destroyed = s.destroyed ∧ q.freed = 0 := by
  have hpos : 0 < max.toNat := by rw [hk]; exact Nat.two_pow_pos k
  obtain ⟨q, lo, h1, h2, h3, h4⟩ := run_refines debug ops (Q.init max) _ 0 (rep_init max hpos) (wrap_two_pow hk) _ _ h
  exact ⟨q, h1, h2.made, h2.destroyed, h4⟩

example : Spec.run (α := Nat) 3 Spec.empty
    [.push 5 false, .push 6 true, .push 7 false, .consume (fun v => (v + 1, true)), .pop,
      .push 8 false, .push 9 false, .push 10 false] =
    some (⟨[(1, 7), (2, 8), (3, 9)], 4, [0]⟩,
      [.pushed true, .pushThrew, .pushed true, .consumeThrew 5, .popped,
        .pushed true, .pushed true, .pushed false]) := by
  simp [Spec.run, Spec.empty]

theorem spec_inv (cap : Nat) (ops : List (Op α)) : ∀ (s s' : Spec α) (outs : List (Out α)),
    Spec.run cap s ops = some (s', outs) →
    s.destroyed ++ s.items.map Prod.fst = List.range s.made →
    s'.destroyed ++ s'.items.map Prod.fst = List.range s'.made ∧
    (s'.items.length : Int) = s.items.length + stored outs := by
  induction ops with
  | nil =>
    intro s s' o h hs
    simp only [Spec.run, Option.some.injEq, Prod.mk.injEq] at h
    obtain ⟨rfl, rfl⟩ := h
    exact ⟨hs, by simp [stored]⟩
  | cons op ops ih =>
    intro s s' o h hs
    obtain ⟨items, made, de⟩ := s
    have fin : ∀ {s1 : Spec α} {x : Out α} {d : Int},
        Option.map (fun p : Spec α × List (Out α) => (p.1, x :: p.2)) (Spec.run cap s1 ops) =
          some (s', o) →
        s1.destroyed ++ s1.items.map Prod.fst = List.range s1.made →
        (∀ l, stored (x :: l) = d + stored l) → (s1.items.length : Int) = items.length + d →
        s'.destroyed ++ s'.items.map Prod.fst = List.range s'.made ∧
        (s'.items.length : Int) = items.length + stored o := by
      intro s1 x d h1 h2 h3 h4
      simp only [Option.map_eq_some_iff] at h1
      obtain ⟨⟨s2, o2⟩, h5, h6⟩ := h1
      obtain ⟨rfl, rfl⟩ := Prod.mk.injEq .. ▸ h6
      obtain ⟨g1, g2⟩ := ih _ _ _ h5 h2
      exact ⟨g1, by rw [h3]; simp only at *; omega⟩
    cases op with
    | push v t =>
      simp only [Spec.run] at h
      split at h
      · exact fin (d := 0) h hs (fun l => by simp [stored]) (by simp)
      · split at h
        · exact fin (d := 0) h hs (fun l => by simp [stored]) (by simp)
        · refine fin (d := 1) h ?_ (fun l => by simp [stored]) (by simp)
          simp only at hs ⊢
          rw [List.range_succ, ← hs]; simp
    | pop =>
      rcases items with _ | ⟨⟨n, v⟩, rest⟩
      · simp [Spec.run] at h
      · simp only [Spec.run] at h
        exact fin (d := -1) h (by simpa using hs) (fun l => by simp [stored]) (by simp)
    | consume f =>
      rcases items with _ | ⟨⟨n, v⟩, rest⟩
      · simp [Spec.run] at h
      · simp only [Spec.run] at h
        split at h
        · exact fin (d := 0) h (by simpa using hs) (fun l => by simp [stored]) (by simp)
        · exact fin (d := -1) h (by simpa using hs) (fun l => by simp [stored]) (by simp)

/-- **C26** With no other thread running, `read_available()` and `write_available()` are exact
after every client program, and add up to `N - 1`. -/
theorem spsc_seq_available_exact {k : Nat} (max : Size) (hk : max.toNat = 2 ^ k) (debug : Bool)
    (ops : List (Op α)) (s : Spec α) (outs : List (Out α))
    (h : Spec.run (max.toNat - 1) Spec.empty ops = some (s, outs)) :
    ∃ q, run debug (Q.init max) ops = some (q, outs) ∧
      ((readAvailable q).toNat : Int) = stored outs ∧
      ((writeAvailable q).toNat : Int) = max.toNat - 1 - stored outs := by
  have hpos : 0 < max.toNat := by rw [hk]; exact Nat.two_pow_pos k
  obtain ⟨q, lo, h1, h2, h3, h4⟩ := run_refines debug ops (Q.init max) _ 0 (rep_init max hpos) (wrap_two_pow hk) _ _ h
  refine ⟨q, h1, ?_⟩
  obtain ⟨_, g2⟩ := spec_inv _ ops _ _ _ h (by simp [Spec.empty])
  have h3' : q.max = max := h3
  have hr := h2.room
  have e1 := readAvail_idx hpos (R := lo) (W := lo + s.items.length) (by omega) (by omega)
  have e2 := writeAvail_idx hpos (R := lo) (W := lo + s.items.length) (by omega) (by omega)
  rw [readAvailable, writeAvailable, h2.w, h2.r, h3', e1, e2]
  simp only [Spec.empty, List.length_nil] at g2
  omega

/-- **C28** After any client program followed by the destructor, every element ever constructed
has been destroyed exactly once (oldest first), nothing undefined happened, and the buffer was
returned once.  `fuel` is only a bound on the loop, any value `≥ N - 1` will do. -/
theorem spsc_lifetimes {k : Nat} (max : Size) (hk : max.toNat = 2 ^ k) (debug : Bool)
    (ops : List (Op α)) (s : Spec α) (outs : List (Out α))
    (h : Spec.run (max.toNat - 1) Spec.empty ops = some (s, outs))
    (fuel : Nat) (hfuel : max.toNat - 1 ≤ fuel) :
    ∃ q q', run debug (Q.init max) ops = some (q, outs) ∧ destruct fuel q = some q' ∧
      q'.made = (outs.filter fun | .pushed true => true | _ => false).length ∧
      q'.destroyed = List.range q'.made ∧ q'.freed = 1 := by
  have hpos : 0 < max.toNat := by rw [hk]; exact Nat.two_pow_pos k
  obtain ⟨q, lo, h1, h2, h3, h4⟩ := run_refines debug ops (Q.init max) _ 0 (rep_init max hpos) (wrap_two_pow hk) _ _ h
  obtain ⟨g1, _⟩ := spec_inv _ ops _ _ _ h (by simp [Spec.empty])
  have h3' : q.max = max := h3
  have hroom := h2.room
  obtain ⟨q', lo', e1, e2, e3⟩ := destroyLoop_rep s.items fuel q s.made s.destroyed lo h2
    (by rw [h3']; exact wrap_two_pow hk) (by omega)
  refine ⟨q, { q' with freed := q'.freed + 1 }, h1, by simp [destruct, e1], ?_, ?_, ?_⟩
  · simp only [e2.made]
    have key : ∀ (ops : List (Op α)) (s s' : Spec α) (outs : List (Out α)),
        Spec.run (max.toNat - 1) s ops = some (s', outs) →
        s'.made = s.made + (outs.filter fun | .pushed true => true | _ => false).length := by
      intro ops
      induction ops with
      | nil => intro s s' o h; simp only [Spec.run, Option.some.injEq, Prod.mk.injEq] at h
               obtain ⟨rfl, rfl⟩ := h; simp
      | cons op ops ih =>
        intro s s' o h
        obtain ⟨items, made, de⟩ := s
        cases op with
        | push v t =>
          simp only [Spec.run] at h
          split at h
          · obtain ⟨⟨s2, o2⟩, h5, h6⟩ := Option.map_eq_some_iff.mp h
            obtain ⟨rfl, rfl⟩ := Prod.mk.injEq .. ▸ h6
            simpa using ih _ _ _ h5
          · split at h
            · obtain ⟨⟨s2, o2⟩, h5, h6⟩ := Option.map_eq_some_iff.mp h
              obtain ⟨rfl, rfl⟩ := Prod.mk.injEq .. ▸ h6
              simpa using ih _ _ _ h5
            · obtain ⟨⟨s2, o2⟩, h5, h6⟩ := Option.map_eq_some_iff.mp h
              obtain ⟨rfl, rfl⟩ := Prod.mk.injEq .. ▸ h6
              have := ih _ _ _ h5
              simp only [List.filter_cons_of_pos, List.length_cons] at this ⊢
              omega
        | pop =>
          rcases items with _ | ⟨⟨n, v⟩, rest⟩
          · simp [Spec.run] at h
          · obtain ⟨⟨s2, o2⟩, h5, h6⟩ := Option.map_eq_some_iff.mp h
            obtain ⟨rfl, rfl⟩ := Prod.mk.injEq .. ▸ h6
            simpa using ih _ _ _ h5
        | consume f =>
          rcases items with _ | ⟨⟨n, v⟩, rest⟩
          · simp [Spec.run] at h
          · simp only [Spec.run] at h
            split at h
            all_goals
              obtain ⟨⟨s2, o2⟩, h5, h6⟩ := Option.map_eq_some_iff.mp h
              obtain ⟨rfl, rfl⟩ := Prod.mk.injEq .. ▸ h6
              simpa using ih _ _ _ h5
    have := key ops _ _ _ h
    simpa [Spec.empty] using this
  · simp only [e2.destroyed, e2.made]; exact g1
  · simp [e3, h4, Q.init]

/-- **C30** A `push` whose constructor throws leaves the queue unchanged, in every state. -/
theorem spsc_push_throw_unchanged (q q' : Q α) (v : α) (b : Bool)
    (h : emplace q v true = .thrown (q', b)) : q' = q := by
  simp only [emplace] at h
  split_ifs at h
  cases h; rfl

/-- **C30** If the function passed to `consume` throws, the next `pop`/`consume` is handed the same
element (with whatever the function left in it); nothing was destroyed. -/
theorem spsc_consume_throw_keeps (debug debug' : Bool) (q q' : Q α) (f g : α → α × Bool) (v : α)
    (h : consume debug q f = .thrown (q', v)) (hg : ∀ x, (g x).2 = false)
    (hne : q.w ≠ q.r) :
    q'.destroyed = q.destroyed ∧ q'.w = q.w ∧ q'.r = q.r ∧
    (∃ q'', consume debug' q' g = .ok (q'', (f v).1)) ∧ ∃ q'', pop debug' q' = .ok q'' := by
  simp only [consume] at h
  split_ifs at h with h1 h2
  split at h
  · cases h
  · rename_i n u hc
    split_ifs at h with h3
    · cases h
      refine ⟨rfl, rfl, rfl, ?_, ?_⟩
      · simp [consume, isEmpty, hne, h2, setCell, hg, destroyAt]
      · simp [pop, isEmpty, hne, h2, setCell, destroyAt]
    · split at h <;> cases h

example : ∃ q', consume (α := Nat) true
    ⟨1, 0, 4, fun i => if i = 0 then some (0, 7) else none, 1, [], 0⟩ (fun v => (v + 1, true)) =
      .thrown (q', 7) := ⟨_, rfl⟩

/-! ### Capacities that are not powers of two (C31) -/

theorem exists_odd_part (n : Nat) (h : n ≠ 0) : ∃ a m, n = 2 ^ a * (2 * m + 1) := by
  induction n using Nat.strong_induction_on with
  | _ n ih =>
    rcases Nat.even_or_odd' n with ⟨c, hc | hc⟩
    · obtain ⟨a, m, hm⟩ := ih c (by omega) (by omega)
      exact ⟨a + 1, m, by rw [hc, hm, pow_succ]; ring⟩
    · exact ⟨0, c, by omega⟩

/-- **C31, what holds** For every capacity `N ≥ 1`, power of two or not, let `2^a` be the largest
power of two dividing `N`.  Then the queue is a correct FIFO of `2^a - 1` elements: no client
program that respects this FIFO's precondition reaches undefined behaviour and every index stays
inside the buffer.  (Missing compared to C31: the queue should hold `N - 1` elements; that is false
unless `N` is a power of two, see `spsc_non_power_of_two_capacity_wrong`.) -/
theorem spsc_any_capacity_partial (max : Size) (hmax : max ≠ 0) :
    ∃ a m, max.toNat = 2 ^ a * (2 * m + 1) ∧
    ∀ (debug : Bool) (ops : List (Op α)) (s : Spec α) (outs : List (Out α)),
      Spec.run (2 ^ a - 1) Spec.empty ops = some (s, outs) →
      ∃ q, run debug (Q.init max) ops = some (q, outs) ∧
        q.w.toNat < max.toNat ∧ q.r.toNat < max.toNat ∧ q.destroyed = s.destroyed := by
  obtain ⟨a, m, hm⟩ := exists_odd_part max.toNat
    (fun h' => hmax (BitVec.eq_of_toNat_eq (by simpa using h')))
  refine ⟨a, m, hm, fun debug ops s outs h => ?_⟩
  have hw := wrap_general hm
  obtain ⟨q, lo, h1, h2, h3, h4⟩ :=
    run_refines debug ops (Q.init max) _ 0 (rep_init max hw.pos) hw _ _ h
  refine ⟨q, h1, ?_, ?_, h2.destroyed⟩
  · rw [h2.w, idx_toNat hw.pos hw.lt]
    exact lt_of_lt_of_le (Nat.mod_lt _ hw.pos) hw.le
  · rw [h2.r, idx_toNat hw.pos hw.lt]
    exact lt_of_lt_of_le (Nat.mod_lt _ hw.pos) hw.le

/-- The FIFO specification fills up after `cap` pushes. -/
theorem spec_fill (v : α) (cap n : Nat) : ∀ (s : Spec α), s.items.length + n = cap →
    ∃ s', Spec.run cap s (List.replicate (n + 1) (.push v false)) =
      some (s', List.replicate n (.pushed true) ++ [.pushed false]) := by
  induction n with
  | zero =>
    intro s hs
    exact ⟨s, by simp [Spec.run, show s.items.length = cap by omega]⟩
  | succ n ih =>
    intro s hs
    obtain ⟨s', h'⟩ := ih ⟨s.items ++ [(s.made, v)], s.made + 1, s.destroyed⟩
      (by simp only [List.length_append, List.length_cons, List.length_nil]; omega)
    refine ⟨s', ?_⟩
    rw [List.replicate_succ (n := n + 1), List.replicate_succ (n := n) (a := Out.pushed true),
      Spec.run, if_neg (by omega), if_neg (by simp), h']
    simp

/-- **C31 is false** For every capacity `N` that is not a power of two, an empty queue promises
`write_available() = N - 1` free places, but after some `n < N - 1` successful pushes the next
one fails. -/
theorem spsc_non_power_of_two_capacity_wrong (max : Size) (hmax : max ≠ 0)
    (hnp : ∀ k, max.toNat ≠ 2 ^ k) (debug : Bool) (v : α) :
    (writeAvailable (Q.init (α := α) max)).toNat = max.toNat - 1 ∧
    ∃ n, n < max.toNat - 1 ∧ ∃ q, run debug (Q.init max) (List.replicate (n + 1) (.push v false)) =
      some (q, List.replicate n (.pushed true) ++ [.pushed false]) := by
  have h0 : max.toNat ≠ 0 := fun h' => hmax (BitVec.eq_of_toNat_eq (by simpa using h'))
  constructor
  · have := writeAvail_idx (max := max) (W := 0) (R := 0) (by omega) (le_refl _) (by omega)
    simpa [writeAvailable, Q.init, idx] using this
  · obtain ⟨a, m, hm⟩ := exists_odd_part max.toNat h0
    have hw := wrap_general hm
    have hpos := hw.pos
    refine ⟨2 ^ a - 1, ?_, ?_⟩
    · have : 2 ^ a ≠ max.toNat := fun h => hnp a h.symm
      have := hw.le
      omega
    · obtain ⟨s', h'⟩ := spec_fill v (2 ^ a - 1) (2 ^ a - 1) (Spec.empty : Spec α)
        (by simp [Spec.empty])
      obtain ⟨q, _, h1, _⟩ :=
        run_refines debug _ (Q.init max) _ 0 (rep_init max hw.pos) hw _ _ h'
      exact ⟨q, h1⟩

/-- Six is such a capacity: a queue of "capacity 6" holds one element. -/
example : (6 : Size) ≠ 0 ∧ ∀ k, (6 : Size).toNat ≠ 2 ^ k := by
  refine ⟨by decide, fun k => ?_⟩
  show 6 ≠ 2 ^ k
  rcases k with _ | _ | _ | k
  · decide
  · decide
  · decide
  · rw [pow_succ, pow_succ, pow_succ]
    have := Nat.two_pow_pos k
    omega

/-- **C28** `clear()` on a queue whose element type has a non-trivial destructor destroys what is
stored, oldest first, and leaves a queue that works on as an empty one. -/
theorem spsc_clear {k : Nat} (max : Size) (hk : max.toNat = 2 ^ k) (debug triv : Bool)
    (ops ops' : List (Op α)) (s s' : Spec α) (outs outs' : List (Out α))
    (h : Spec.run (max.toNat - 1) Spec.empty ops = some (s, outs))
    (h' : Spec.run (max.toNat - 1)
      ⟨[], s.made, s.destroyed ++ if triv then [] else s.items.map Prod.fst⟩ ops' =
      some (s', outs'))
    (fuel : Nat) (hfuel : max.toNat - 1 ≤ fuel) :
    ∃ q q1 q2, run debug (Q.init max) ops = some (q, outs) ∧ clear triv fuel q = some q1 ∧
      (readAvailable q1).toNat = 0 ∧ run debug q1 ops' = some (q2, outs') ∧
      q2.destroyed = s'.destroyed := by
  have hpos : 0 < max.toNat := by rw [hk]; exact Nat.two_pow_pos k
  obtain ⟨q, lo, h1, h2, h3, h4⟩ :=
    run_refines debug ops (Q.init max) _ 0 (rep_init max hpos) (wrap_two_pow hk) _ _ h
  have h3' : q.max = max := h3
  have hroom := h2.room
  have key : ∃ q1 lo1, clear triv fuel q = some q1 ∧ q1.max = max ∧
      Rep max.toNat q1
        ⟨[], s.made, s.destroyed ++ if triv then [] else s.items.map Prod.fst⟩ lo1 := by
    cases triv with
    | true =>
      refine ⟨{ q with w := 0, r := 0, cells := fun _ => none }, 0, by simp [clear], h3', ?_⟩
      constructor <;> simp [idx, h2.made, h2.destroyed, hpos]
    | false =>
      obtain ⟨q', lo', e1, e2, e3⟩ := destroyLoop_rep s.items fuel q s.made s.destroyed lo h2
        (by rw [h3']; exact wrap_two_pow hk) (by omega)
      refine ⟨q', lo', by simp [clear, e1], ?_, by simpa using e2⟩
      have hmax : ∀ (fuel : Nat) (a b : Q α), destroyLoop fuel a = some b → b.max = a.max := by
        intro fuel
        induction fuel with
        | zero => intro a b hab; simp only [destroyLoop] at hab; split at hab <;> cases hab; rfl
        | succ n ih =>
          intro a b hab
          simp only [destroyLoop] at hab
          split at hab
          · cases hab; rfl
          · split at hab
            · cases hab
            · rename_i hd
              rw [ih _ _ hab]
              simp only [destroyAt] at hd
              split at hd
              · split at hd <;> cases hd; rfl
              · cases hd
      rw [hmax _ _ _ e1, h3']
  obtain ⟨q1, lo1, g1, g2, g3⟩ := key
  obtain ⟨q2, lo2, f1, f2, f3, f4⟩ := run_refines debug ops' q1 _ lo1 g3
    (by rw [g2]; exact wrap_two_pow hk) _ _ h'
  refine ⟨q, q1, q2, h1, g1, ?_, f1, f2.destroyed⟩
  have := readAvail_idx hpos (W := lo1) (R := lo1) (le_refl _) (by omega)
  rw [readAvailable, g2, g3.w, g3.r]
  simpa using this

end Verif.SPSC.Seq
