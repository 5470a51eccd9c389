import Verif.SPSC.ReenterLemmas

/-! Property theorems about user code that uses the queue from within a call of the queue: C150. -/

set_option autoImplicit false

namespace Verif.SPSC.Reenter

open Verif.SPSC Verif.SPSC.Seq

variable {α : Type}

/-- Nothing stored yet. Specification. -/
def start : Spec α := ⟨[], 0, []⟩

/-- **C150** (what holds) If the functions passed to `consume` take nothing from the queue and the
constructors of elements store nothing in it, the client sees a FIFO in which an element stays
from the return of the `push` that stores it to the return of the `pop` or `consume` that removes
it: all results, also those of calls made from within other calls, are those of the FIFO.  Every
element is destroyed exactly once, in order, and the destructor of the queue destroys the rest.
Missing: functions that take further elements, constructors that store further elements
(`reenter_consume_wrong`, `reenter_push_wrong`). -/
theorem reenter_partial {k : Nat} (max : Size) (hk : max.toNat = 2 ^ k) (debug : Bool)
    (p : Prog α) (hp : Disciplined true true p) (t : Spec α) (o : List (Ev α)) (b : Bool)
    (h : specExec (max.toNat - 1) start p = some (t, o, b))
    (fuel : Nat) (hfuel : max.toNat - 1 ≤ fuel) :
    ∃ q q', exec debug (Q.init max) p = (if b then .thrown (q, o) else .ok (q, o)) ∧
      q.destroyed = t.destroyed ∧ (readAvailable q).toNat = t.items.length ∧
      t.destroyed ++ t.items.map Prod.fst = List.range t.made ∧
      destruct fuel q = some q' ∧ q'.made = t.made ∧ q'.destroyed = List.range t.made ∧
      q'.freed = 1 := by
  have hpos : 0 < max.toNat := by rw [hk]; exact Nat.two_pow_pos k
  obtain ⟨q, lo, h1, h2, h3, h4, h5⟩ := exec_refines (P := max.toNat) debug p true true
    (Q.init max) _ 0 hp (rep_init max hpos) (wrap_two_pow hk) rfl _ _ _ h
  have hw : Wrap q.max max.toNat := by rw [h3]; exact wrap_two_pow hk
  have hn := (spec_shape _ _ _ _ _ _ _ _ hp h).numbered (by simp [start])
  have hroom := h2.room
  obtain ⟨q', lo', g1, g2, g3⟩ := destroyLoop_rep t.items fuel q t.made t.destroyed lo h2 hw (by omega)
  refine ⟨q, { q' with freed := q'.freed + 1 }, h1, h2.destroyed, rep_read h2 hw (by rw [h3]; rfl),
    hn, by simp [destruct, g1], g2.made, ?_, ?_⟩
  · show q'.destroyed = _
    rw [g2.destroyed]; exact hn
  · show q'.freed + 1 = 1
    rw [g3, h4]; rfl

/-- **C150** Whatever the queue holds, taking a further element from within the function passed to
`consume` is undefined: the nested `pop` or `consume` destroys the element that is being consumed,
and the outer call destroys it again. -/
theorem reenter_consume_wrong {k : Nat} (max : Size) (hk : max.toNat = 2 ^ k) (debug : Bool)
    (p : Prog α) (hp : Disciplined true true p) (t : Spec α) (o : List (Ev α))
    (h : specExec (max.toNat - 1) start p = some (t, o, false)) (hne : t.items ≠ [])
    (g g' : α → α) (k' k'' : Bool → Prog α) (q : Q α)
    (hq : exec debug (Q.init max) p = .ok (q, o)) :
    exec debug q (.consume g (fun _ => .pop .ret) k') = .ub ∧
    exec debug q (.consume g (fun _ => .consume g' (fun _ => .ret) (fun _ => .ret)) k'') = .ub := by
  have hpos : 0 < max.toNat := by rw [hk]; exact Nat.two_pow_pos k
  obtain ⟨q0, lo, h1, hr, h3, h4, h5⟩ := exec_refines (P := max.toNat) debug p true true
    (Q.init max) _ 0 hp (rep_init max hpos) (wrap_two_pow hk) rfl _ _ _ h
  rw [hq] at h1
  simp only [fin, Bool.false_eq_true, if_false, Res.ok.injEq, Prod.mk.injEq, and_true] at h1
  subst h1
  have hw : Wrap q.max max.toNat := by rw [h3]; exact wrap_two_pow hk
  have hM : q.max.toNat = max.toNat := by rw [h3]; rfl
  obtain ⟨items, made, de⟩ := t
  rcases items with _ | ⟨⟨n, v⟩, rest⟩
  · exact absurd rfl hne
  have hri : q.r.toNat = lo % max.toNat := by rw [hr.r, idx_toNat hpos hw.lt]
  have hlt : q.r.toNat < q.max.toNat := by rw [hri, hM]; exact Nat.mod_lt _ hpos
  have hcell : q.cells q.r.toNat = some (n, v) := by
    have := hr.live 0 (by simp)
    rw [hri]; simpa using this
  have hem : isEmpty q.w q.r = false := by
    have := (rep_empty_iff hr hw).not.mpr (by simp)
    simpa using this
  constructor
  · simp [exec, hem, hlt, hcell, Seq.pop, destroyAt, setCell, after]
  · simp [exec, hem, hlt, hcell, destroyAt, setCell, after]

/-- **C150** The nested `consume` is handed the element the outer one is working on, in the state
the outer function left it: seen when both functions then throw, so that nothing is destroyed. -/
theorem reenter_consume_same_wrong {k : Nat} (max : Size) (hk : max.toNat = 2 ^ k) (debug : Bool)
    (p : Prog α) (hp : Disciplined true true p) (made : Nat) (de : List Nat) (n : Nat) (v : α)
    (rest : List (Nat × α)) (o : List (Ev α))
    (h : specExec (max.toNat - 1) start p = some (⟨(n, v) :: rest, made, de⟩, o, false))
    (g g' : α → α) (q : Q α) (hq : exec debug (Q.init max) p = .ok (q, o)) :
    ∃ q', exec debug q (.consume g (fun _ => .consume g' (fun _ => .throw) (fun _ => .throw))
        (fun _ => .ret)) =
      .ok (q', [.handed v, .handed (g v), .consumeThrew, .consumeThrew]) := by
  have hpos : 0 < max.toNat := by rw [hk]; exact Nat.two_pow_pos k
  obtain ⟨q0, lo, h1, hr, h3, h4, h5⟩ := exec_refines (P := max.toNat) debug p true true
    (Q.init max) _ 0 hp (rep_init max hpos) (wrap_two_pow hk) rfl _ _ _ h
  rw [hq] at h1
  simp only [fin, Bool.false_eq_true, if_false, Res.ok.injEq, Prod.mk.injEq, and_true] at h1
  subst h1
  have hw : Wrap q.max max.toNat := by rw [h3]; exact wrap_two_pow hk
  have hM : q.max.toNat = max.toNat := by rw [h3]; rfl
  have hri : q.r.toNat = lo % max.toNat := by rw [hr.r, idx_toNat hpos hw.lt]
  have hlt : q.r.toNat < q.max.toNat := by rw [hri, hM]; exact Nat.mod_lt _ hpos
  have hcell : q.cells q.r.toNat = some (n, v) := by
    have := hr.live 0 (by simp)
    rw [hri]; simpa using this
  have hem : isEmpty q.w q.r = false := by
    have := (rep_empty_iff hr hw).not.mpr (by simp)
    simpa using this
  simp [exec, hem, hlt, hcell, setCell, after]

/-- **C150** Whatever the queue holds, if there is room, an element whose constructor stores
another element in the queue is constructed on top of that other element, which is never
destroyed. -/
theorem reenter_push_wrong {k : Nat} (max : Size) (hk : max.toNat = 2 ^ k) (debug : Bool)
    (p : Prog α) (hp : Disciplined true true p) (t : Spec α) (o : List (Ev α))
    (h : specExec (max.toNat - 1) start p = some (t, o, false))
    (hroom : t.items.length < max.toNat - 1) (v v' : α) (k' : Option Bool → Prog α) (q : Q α)
    (hq : exec debug (Q.init max) p = .ok (q, o)) :
    exec debug q (.push v (.push v' .ret (fun _ => .ret)) k') = .ub := by
  have hpos : 0 < max.toNat := by rw [hk]; exact Nat.two_pow_pos k
  obtain ⟨q0, lo, h1, hr, h3, h4, h5⟩ := exec_refines (P := max.toNat) debug p true true
    (Q.init max) _ 0 hp (rep_init max hpos) (wrap_two_pow hk) rfl _ _ _ h
  rw [hq] at h1
  simp only [fin, Bool.false_eq_true, if_false, Res.ok.injEq, Prod.mk.injEq, and_true] at h1
  subst h1
  have hw : Wrap q.max max.toNat := by rw [h3]; exact wrap_two_pow hk
  have hne : ¬ nextIndex q.max q.w = q.r := by
    rw [rep_next hr hw]; omega
  simp only [exec, hne, if_false]
  split_ifs with hfree
  · simp [after, setCell]
  · rfl

/-! ### The hypotheses are met, and the definitions are not vacuous -/

/-- A pipeline stage: for the element taken out, the function looks at the queue and stores a
follow-up; the constructor of another element makes room by popping. -/
def stage : Prog Nat :=
  .push 5 .ret fun _ => .push 6 .ret fun _ =>
  .consume (fun _ => 0) (fun v => .readable fun _ => .push (v + 10) .ret fun _ => .writable fun _ => .ret)
    fun _ => .push 7 (.pop .ret) fun _ => .readable fun _ => .ret

example : Disciplined true true stage := by
  unfold stage
  simp [Disciplined]

example : (specExec 3 start stage).map (fun x => x.2.1) =
    some [.pushed true, .pushed true, .handed 5, .readable 2, .pushed true, .writable 0, .consumed,
      .popped, .pushed true, .readable 2] := by
  decide +kernel

example : (match exec true (Q.init 4) stage with | .ok (_, o) => o | _ => []) =
    [.pushed true, .pushed true, .handed 5, .readable 2, .pushed true, .writable 0, .consumed,
      .popped, .pushed true, .readable 2] := by
  decide +kernel

/-- The hypotheses of the negative theorems are met by a queue with one element. -/
example : ∃ q, exec true (Q.init 4) (.push 5 .ret fun _ => .ret : Prog Nat) =
      .ok (q, [.pushed true]) ∧
    specExec 3 start (.push 5 .ret fun _ => .ret : Prog Nat) =
      some (⟨[(0, 5)], 1, []⟩, [.pushed true], false) :=
  ⟨_, rfl, rfl⟩

/-- Such a client is not disciplined. -/
example : ¬ Disciplined true true
    (.consume id (fun _ => .pop .ret) (fun _ => .ret) : Prog Nat) := by
  simp [Disciplined]

end Verif.SPSC.Reenter
