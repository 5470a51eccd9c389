import Verif.SPSC.Reenter

/-! Lemmas for `Verif.SPSC.ReenterProps`. -/

set_option autoImplicit false

namespace Verif.SPSC.Reenter

open Verif.SPSC Verif.SPSC.Seq

variable {α : Type}

/-- What a disciplined client does to the abstract queue. -/
structure Shape (pp cc : Bool) (s t : Spec α) : Prop where
  count : t.destroyed.length + t.items.length + s.made =
    s.destroyed.length + s.items.length + t.made
  keeps : cc = false → t.destroyed = s.destroyed ∧ ∃ new, t.items = s.items ++ new
  none : pp = false → t.made = s.made
  numbered : s.destroyed ++ s.items.map Prod.fst = List.range s.made →
    t.destroyed ++ t.items.map Prod.fst = List.range t.made

theorem Shape.refl (pp cc : Bool) (s : Spec α) : Shape pp cc s s :=
  ⟨rfl, fun _ => ⟨rfl, [], by simp⟩, fun _ => rfl, id⟩

theorem Shape.trans {pp cc : Bool} {s t u : Spec α} (h : Shape pp cc s t) (h' : Shape pp cc t u) :
    Shape pp cc s u := by
  refine ⟨by have := h.count; have := h'.count; omega, fun hc => ?_, fun hp => ?_,
    fun hn => h'.numbered (h.numbered hn)⟩
  · obtain ⟨e1, n1, e2⟩ := h.keeps hc
    obtain ⟨e3, n2, e4⟩ := h'.keeps hc
    exact ⟨by rw [e3, e1], n1 ++ n2, by rw [e4, e2, List.append_assoc]⟩
  · rw [h'.none hp, h.none hp]

/-- A client with fewer rights does nothing that one with more rights may not do. -/
theorem Shape.mono {pp cc : Bool} {s t : Spec α} (h : Shape false cc s t) : Shape pp cc s t :=
  ⟨h.count, h.keeps, fun _ => h.none rfl, h.numbered⟩

theorem Shape.mono' {pp cc : Bool} {s t : Spec α} (h : Shape pp false s t) : Shape pp cc s t :=
  ⟨h.count, fun _ => h.keeps rfl, h.none, h.numbered⟩

theorem shape_push {cc : Bool} (s : Spec α) (v : α) :
    Shape true cc s ⟨s.items ++ [(s.made, v)], s.made + 1, s.destroyed⟩ := by
  refine ⟨by simp; omega, fun _ => ⟨rfl, _, rfl⟩, fun h => by simp at h, fun h => ?_⟩
  simp only [List.map_append, List.map_cons, List.map_nil]
  rw [← List.append_assoc, h, List.range_succ]

theorem shape_pop {pp : Bool} (x : Nat × α) (rest : List (Nat × α)) (made : Nat) (de : List Nat) :
    Shape pp true ⟨x :: rest, made, de⟩ ⟨rest, made, de ++ [x.1]⟩ := by
  refine ⟨by simp; omega, fun h => by simp at h, fun _ => rfl, fun h => ?_⟩
  simpa using h

theorem shape_set {pp : Bool} (n : Nat) (v v' : α) (rest : List (Nat × α)) (made : Nat)
    (de : List Nat) : Shape pp true ⟨(n, v) :: rest, made, de⟩ ⟨(n, v') :: rest, made, de⟩ := by
  refine ⟨by simp, fun h => by simp at h, fun _ => rfl, fun h => ?_⟩
  simpa using h

/-- The element a `consume` removes is the one it handed out. -/
theorem keeps_head {pp : Bool} {n : Nat} {v : α} {rest : List (Nat × α)} {made : Nat}
    {de : List Nat} {s1 : Spec α} (h : Shape pp false ⟨(n, v) :: rest, made, de⟩ s1) :
    ∃ new, s1 = ⟨(n, v) :: (rest ++ new), s1.made, de⟩ := by
  obtain ⟨e1, new, e2⟩ := h.keeps rfl
  refine ⟨new, ?_⟩
  obtain ⟨i, m, d⟩ := s1
  simp only at e1 e2
  subst e1 e2
  simp

theorem spec_shape (cap : Nat) (p : Prog α) : ∀ (pp cc : Bool) (s t : Spec α) (o : List (Ev α))
    (b : Bool), Disciplined pp cc p → specExec cap s p = some (t, o, b) → Shape pp cc s t := by
  induction p with
  | ret =>
    intro pp cc s t o b _ h
    simp only [specExec, Option.some.injEq, Prod.mk.injEq] at h
    rw [← h.1]; exact Shape.refl ..
  | throw =>
    intro pp cc s t o b _ h
    simp only [specExec, Option.some.injEq, Prod.mk.injEq] at h
    rw [← h.1]; exact Shape.refl ..
  | readable k ih =>
    intro pp cc s t o b hd h
    simp only [specExec, Option.map_eq_some_iff] at h
    obtain ⟨⟨s1, o1, b1⟩, h4, h5⟩ := h
    cases h5
    exact ih _ pp cc s _ _ _ (hd _) h4
  | writable k ih =>
    intro pp cc s t o b hd h
    simp only [specExec, Option.map_eq_some_iff] at h
    obtain ⟨⟨s1, o1, b1⟩, h4, h5⟩ := h
    cases h5
    exact ih _ pp cc s _ _ _ (hd _) h4
  | push v ctor k ihc ihk =>
    intro pp cc s t o b hd h
    obtain ⟨rfl, hd1, hd2⟩ := hd
    simp only [specExec] at h
    split at h
    · simp only [Option.map_eq_some_iff] at h
      obtain ⟨⟨s1, o1, b1⟩, h4, h5⟩ := h
      cases h5
      exact ihk _ _ _ s _ _ _ (hd2 _) h4
    · split at h
      · simp at h
      · rename_i s1 e hc
        simp only [Option.map_eq_some_iff] at h
        obtain ⟨⟨s2, o1, b1⟩, h4, h5⟩ := h
        cases h5
        exact ((ihc _ _ _ _ _ _ hd1 hc).mono.trans (shape_push s1 v)).trans
          (ihk _ _ _ _ _ _ _ (hd2 _) h4)
      · rename_i s1 e hc
        simp only [Option.map_eq_some_iff] at h
        obtain ⟨⟨s2, o1, b1⟩, h4, h5⟩ := h
        cases h5
        exact (ihc _ _ _ _ _ _ hd1 hc).mono.trans (ihk _ _ _ _ _ _ _ (hd2 _) h4)
  | pop k ih =>
    intro pp cc s t o b hd h
    obtain ⟨rfl, hd1⟩ := hd
    obtain ⟨items, made, de⟩ := s
    rcases items with _ | ⟨x, rest⟩
    · simp [specExec] at h
    · simp only [specExec, Option.map_eq_some_iff] at h
      obtain ⟨⟨s2, o1, b1⟩, h4, h5⟩ := h
      cases h5
      exact (shape_pop x rest made de).trans (ih _ _ _ _ _ _ hd1 h4)
  | consume g fn k ihf ihk =>
    intro pp cc s t o b hd h
    obtain ⟨rfl, hd1, hd2⟩ := hd
    obtain ⟨items, made, de⟩ := s
    rcases items with _ | ⟨⟨n, v⟩, rest⟩
    · simp [specExec] at h
    · simp only [specExec] at h
      split at h
      · simp at h
      · rename_i s1 e hc
        simp only [Option.map_eq_some_iff] at h
        obtain ⟨⟨s2, o1, b1⟩, h4, h5⟩ := h
        cases h5
        have hs := ihf _ _ _ _ _ _ _ (hd1 v) hc
        have h6 := ihk _ _ _ _ _ _ _ (hd2 _) h4
        have h7 := ((shape_set (pp := pp) n v (g v) rest made de).trans hs.mono')
        obtain ⟨new, hnew⟩ := keeps_head hs
        have h8 := shape_pop (pp := pp) (n, g v) (rest ++ new) s1.made de
        rw [hnew] at h6 h7
        exact (h7.trans h8).trans h6
      · rename_i s1 e hc
        simp only [Option.map_eq_some_iff] at h
        obtain ⟨⟨s2, o1, b1⟩, h4, h5⟩ := h
        cases h5
        exact ((shape_set (pp := pp) n v (g v) rest made de).trans
          (ihf _ _ _ _ _ _ _ (hd1 v) hc).mono').trans (ihk _ _ _ _ _ _ _ (hd2 _) h4)

theorem spec_mono (cap : Nat) (p : Prog α) : ∀ (s t : Spec α) (o : List (Ev α))
    (b : Bool), specExec cap s p = some (t, o, b) → s.destroyed.length ≤ t.destroyed.length := by
  induction p with
  | ret =>
    intro s t o b h
    simp only [specExec, Option.some.injEq, Prod.mk.injEq] at h
    rw [← h.1]
  | throw =>
    intro s t o b h
    simp only [specExec, Option.some.injEq, Prod.mk.injEq] at h
    rw [← h.1]
  | readable k ih =>
    intro s t o b h
    simp only [specExec, Option.map_eq_some_iff] at h
    obtain ⟨⟨s1, o1, b1⟩, h4, h5⟩ := h
    cases h5
    exact ih _ s _ _ _ h4
  | writable k ih =>
    intro s t o b h
    simp only [specExec, Option.map_eq_some_iff] at h
    obtain ⟨⟨s1, o1, b1⟩, h4, h5⟩ := h
    cases h5
    exact ih _ s _ _ _ h4
  | push v ctor k ihc ihk =>
    intro s t o b h
    simp only [specExec] at h
    split at h
    · simp only [Option.map_eq_some_iff] at h
      obtain ⟨⟨s1, o1, b1⟩, h4, h5⟩ := h
      cases h5
      exact ihk _ s _ _ _ h4
    · split at h
      · simp at h
      all_goals
        rename_i s1 e hc
        simp only [Option.map_eq_some_iff] at h
        obtain ⟨⟨s2, o1, b1⟩, h4, h5⟩ := h
        cases h5
        have h1 := ihc _ _ _ _ hc
        have h2 := ihk _ _ _ _ _ h4
        simp at h1 h2 ⊢; omega
  | pop k ih =>
    intro s t o b h
    obtain ⟨items, made, de⟩ := s
    rcases items with _ | ⟨x, rest⟩
    · simp [specExec] at h
    · simp only [specExec, Option.map_eq_some_iff] at h
      obtain ⟨⟨s2, o1, b1⟩, h4, h5⟩ := h
      cases h5
      have := ih _ _ _ _ h4
      simp at this ⊢; omega
  | consume g fn k ihf ihk =>
    intro s t o b h
    obtain ⟨items, made, de⟩ := s
    rcases items with _ | ⟨⟨n, v⟩, rest⟩
    · simp [specExec] at h
    · simp only [specExec] at h
      split at h
      · simp at h
      all_goals
        rename_i s1 e hc
        simp only [Option.map_eq_some_iff] at h
        obtain ⟨⟨s2, o1, b1⟩, h4, h5⟩ := h
        cases h5
        have h1 := ihf _ _ _ _ _ hc
        have h2 := ihk _ _ _ _ _ h4
        simp at h1 h2 ⊢; omega

/-- The result of a client: it returned or was left by an exception. -/
def fin (q : Q α) (o : List (Ev α)) (b : Bool) : Res (Q α × List (Ev α)) :=
  if b then .thrown (q, o) else .ok (q, o)

theorem after_fin (e : List (Ev α)) (q : Q α) (o : List (Ev α)) (b : Bool) :
    after e (fin q o b) = fin q (e ++ o) b := by
  cases b <;> rfl

theorem rep_next {q : Q α} {s : Spec α} {P lo : Nat} (hr : Rep P q s lo) (hk : Wrap q.max P) :
    nextIndex q.max q.w = q.r ↔ s.items.length = P - 1 := by
  have hpos := hk.pos
  have hN := hk.lt
  have hroom := hr.room
  rw [hr.w, hr.r, hk.next, idx_eq_iff hpos hN]
  constructor
  · intro h
    by_contra hc
    have := idx_mod_inj h.symm (by omega) (by omega)
    omega
  · intro h
    rw [show lo + s.items.length + 1 = lo + P by omega]; simp

theorem rep_read {P : Nat} {q : Q α} {s : Spec α} {lo : Nat} (hr : Rep P q s lo)
    (hk : Wrap q.max P) (hM : q.max.toNat = P) : (readAvailable q).toNat = s.items.length := by
  subst hM
  have hroom := hr.room
  have e1 := readAvail_idx hk.pos (R := lo) (W := lo + s.items.length) (by omega) (by omega)
  rw [readAvailable, hr.w, hr.r, e1]; omega

theorem rep_write {P : Nat} {q : Q α} {s : Spec α} {lo : Nat} (hr : Rep P q s lo)
    (hk : Wrap q.max P) (hM : q.max.toNat = P) :
    (writeAvailable q).toNat = P - 1 - s.items.length := by
  subst hM
  have hroom := hr.room
  have e1 := writeAvail_idx hk.pos (R := lo) (W := lo + s.items.length) (by omega) (by omega)
  rw [writeAvailable, hr.w, hr.r, e1]; omega

/-- Refinement: a disciplined client sees the abstract FIFO. -/
theorem exec_refines {P : Nat} (debug : Bool) (p : Prog α) : ∀ (pp cc : Bool) (q : Q α) (s : Spec α)
    (lo : Nat), Disciplined pp cc p → Rep P q s lo → Wrap q.max P → q.max.toNat = P →
    ∀ t o b, specExec (P - 1) s p = some (t, o, b) →
    ∃ q' lo', exec debug q p = fin q' o b ∧ Rep P q' t lo' ∧ q'.max = q.max ∧
      q'.freed = q.freed ∧ lo' + s.destroyed.length = lo + t.destroyed.length := by
  induction p with
  | ret =>
    intro pp cc q s lo _ hr hk hM t o b h
    simp only [specExec, Option.some.injEq, Prod.mk.injEq] at h
    obtain ⟨rfl, rfl, rfl⟩ := h
    exact ⟨q, lo, rfl, hr, rfl, rfl, rfl⟩
  | throw =>
    intro pp cc q s lo _ hr hk hM t o b h
    simp only [specExec, Option.some.injEq, Prod.mk.injEq] at h
    obtain ⟨rfl, rfl, rfl⟩ := h
    exact ⟨q, lo, rfl, hr, rfl, rfl, rfl⟩
  | readable k ih =>
    intro pp cc q s lo hd hr hk hM t o b h
    simp only [specExec, Option.map_eq_some_iff] at h
    obtain ⟨⟨s1, o1, b1⟩, h4, h5⟩ := h
    cases h5
    obtain ⟨q', lo', e1, e2, e3, e4, e5⟩ := ih _ pp cc q s lo (hd _) hr hk hM _ _ _ h4
    refine ⟨q', lo', ?_, e2, e3, e4, e5⟩
    simp only [exec, rep_read hr hk hM]
    rw [e1, after_fin]; rfl
  | writable k ih =>
    intro pp cc q s lo hd hr hk hM t o b h
    simp only [specExec, Option.map_eq_some_iff] at h
    obtain ⟨⟨s1, o1, b1⟩, h4, h5⟩ := h
    cases h5
    obtain ⟨q', lo', e1, e2, e3, e4, e5⟩ := ih _ pp cc q s lo (hd _) hr hk hM _ _ _ h4
    refine ⟨q', lo', ?_, e2, e3, e4, e5⟩
    simp only [exec, rep_write hr hk hM]
    rw [e1, after_fin]; rfl
  | push v ctor k ihc ihk =>
    intro pp cc q s lo hd hr hk hM t o b h
    obtain ⟨rfl, hd1, hd2⟩ := hd
    have hn := rep_next hr hk
    simp only [specExec] at h
    split at h
    · rename_i hfull
      simp only [Option.map_eq_some_iff] at h
      obtain ⟨⟨s1, o1, b1⟩, h4, h5⟩ := h
      cases h5
      obtain ⟨q', lo', e1, e2, e3, e4, e5⟩ := ihk _ _ _ q s lo (hd2 _) hr hk hM _ _ _ h4
      refine ⟨q', lo', ?_, e2, e3, e4, e5⟩
      simp only [exec]
      rw [if_pos (hn.mpr hfull), e1, after_fin]; rfl
    · rename_i hfull
      split at h
      · simp at h
      · rename_i s1 e hc
        simp only [Option.map_eq_some_iff] at h
        obtain ⟨⟨s2, o1, b1⟩, h4, h5⟩ := h
        cases h5
        obtain ⟨q1, lo1, f1, f2, f3, f4, f5⟩ := ihc _ _ q s lo hd1 hr hk hM _ _ _ hc
        have hsh := spec_shape _ _ _ _ _ _ _ _ hd1 hc
        have hcount := hsh.count
        rw [hsh.none rfl] at hcount
        have hw : q1.w = q.w := by
          rw [f2.w, hr.w]; congr 1; omega
        have hroom := hr.room
        have hlen : s1.items.length ≤ s.items.length ∨ lo1 < lo := by omega
        have hde : s.destroyed.length ≤ s1.destroyed.length → s1.items.length ≠ P - 1 := by
          intro h; omega
        have hmono := spec_mono _ _ _ _ _ _ hc
        have hk1 : Wrap q1.max P := by rw [f3]; exact hk
        have hM1 : q1.max.toNat = P := by rw [f3]; exact hM
        obtain ⟨_, _, h3⟩ := rep_push f2 hk1 v
        obtain ⟨q2, g1, g2, g3, g4⟩ := h3 (hde hmono)
        have hne1 : ¬ nextIndex q1.max q1.w = q1.r := by
          rw [rep_next f2 hk1]; exact hde hmono
        simp only [emplace] at g1
        rw [if_neg hne1] at g1
        split at g1
        · rename_i hfree
          simp only [Bool.false_eq_true, if_false, Res.ok.injEq, Prod.mk.injEq, and_true] at g1
          have hk2 : Wrap q2.max P := by rw [g2]; exact hk1
          have hM2 : q2.max.toNat = P := by rw [g2]; exact hM1
          obtain ⟨q', lo', e1, e2, e3, e4, e5⟩ := ihk _ _ _ q2 _ lo1 (hd2 (some true)) g4 hk2 hM2 _ _ _ h4
          refine ⟨q', lo', ?_, e2, by rw [e3, g2, f3], by rw [e4, g3, f4], by simp only at e5 ⊢; omega⟩
          simp only [exec]
          rw [if_neg (fun hh => hfull (hn.mp hh)), f1]
          simp only [fin, Bool.false_eq_true, if_false]
          rw [hw] at hfree g1
          rw [if_pos hfree]
          rw [f3] at g1
          rw [f3, g1, e1, after_fin]
          simp [fin]
        · simp at g1
      · rename_i s1 e hc
        simp only [Option.map_eq_some_iff] at h
        obtain ⟨⟨s2, o1, b1⟩, h4, h5⟩ := h
        cases h5
        obtain ⟨q1, lo1, f1, f2, f3, f4, f5⟩ := ihc _ _ q s lo hd1 hr hk hM _ _ _ hc
        have hk1 : Wrap q1.max P := by rw [f3]; exact hk
        have hM1 : q1.max.toNat = P := by rw [f3]; exact hM
        obtain ⟨q', lo', e1, e2, e3, e4, e5⟩ := ihk _ _ _ q1 s1 lo1 (hd2 _) f2 hk1 hM1 _ _ _ h4
        refine ⟨q', lo', ?_, e2, by rw [e3, f3], by rw [e4, f4], by simp only at e5 f5 ⊢; omega⟩
        simp only [exec]
        rw [if_neg (fun hh => hfull (hn.mp hh)), f1]
        simp only [fin, if_true]
        rw [e1, after_fin]; simp [fin]
  | pop k ih =>
    intro pp cc q s lo hd hr hk hM t o b h
    obtain ⟨rfl, hd1⟩ := hd
    obtain ⟨items, made, de⟩ := s
    rcases items with _ | ⟨x, rest⟩
    · simp [specExec] at h
    · simp only [specExec, Option.map_eq_some_iff] at h
      obtain ⟨⟨s2, o1, b1⟩, h4, h5⟩ := h
      cases h5
      have hne : isEmpty q.w q.r = false := by
        have := (rep_empty_iff hr hk).not.mpr (by simp)
        simpa using this
      obtain ⟨q1, g1, g2, g3, g4⟩ := rep_destroy hr hk
      have hk1 : Wrap q1.max P := by rw [g2]; exact hk
      obtain ⟨q', lo', e1, e2, e3, e4, e5⟩ := ih _ _ { q1 with r := nextIndex q.max q.r } _ (lo + 1)
        hd1 g4 hk1 (by dsimp only; rw [g2]; exact hM) _ _ _ h4
      refine ⟨q', lo', ?_, e2, by rw [e3]; exact g2,
        by rw [e4]; exact g3, by simp at e5 ⊢; omega⟩
      simp only [exec, Seq.pop, hne, Bool.and_false, Bool.false_eq_true, if_false, g1]
      rw [e1, after_fin]; rfl
  | consume g fn k ihf ihk =>
    intro pp cc q s lo hd hr hk hM t o b h
    obtain ⟨rfl, hd1, hd2⟩ := hd
    obtain ⟨items, made, de⟩ := s
    rcases items with _ | ⟨⟨n, v⟩, rest⟩
    · simp [specExec] at h
    · have hpos := hk.pos
      have hri : q.r.toNat = lo % P := by rw [hr.r, idx_toNat hpos hk.lt]
      have hlt : q.r.toNat < q.max.toNat := by rw [hri, hM]; exact Nat.mod_lt _ hpos
      have hcell : q.cells q.r.toNat = some (n, v) := by
        have := hr.live 0 (by simp)
        rw [hri]; simpa using this
      have hne : isEmpty q.w q.r = false := by
        have := (rep_empty_iff hr hk).not.mpr (by simp)
        simpa using this
      have hset := rep_set (v' := g v) hr hk
      simp only [specExec] at h
      split at h
      · simp at h
      · rename_i s1 e hc
        simp only [Option.map_eq_some_iff] at h
        obtain ⟨⟨s2, o1, b1⟩, h4, h5⟩ := h
        cases h5
        obtain ⟨q1, lo1, f1, f2, f3, f4, f5⟩ := ihf v _ _
          { q with cells := setCell q.cells q.r.toNat (some (n, g v)) } _ lo (hd1 v) hset hk hM _ _ _ hc
        obtain ⟨new, hnew⟩ := keeps_head (spec_shape _ _ _ _ _ _ _ _ (hd1 v) hc)
        dsimp only at f1 f2 f3 f4 f5
        rw [hnew] at f2 f5 h4
        dsimp only [List.tail_cons] at f5 h4
        have hlo : lo1 = lo := by omega
        subst hlo
        have hr1 : q1.r = q.r := by rw [f2.r, hr.r]
        have hk1 : Wrap q1.max P := by rw [f3]; exact hk
        obtain ⟨q2, g1, g2, g3, g4⟩ := rep_destroy f2 hk1
        rw [hr1] at g1 g4
        have hk2 : Wrap q2.max P := by rw [g2]; exact hk1
        obtain ⟨q', lo', e1, e2, e3, e4, e5⟩ := ihk false _ _
          { q2 with r := nextIndex q1.max q.r } _ (lo1 + 1) (hd2 _)
          g4 hk2 (by dsimp only; rw [g2, f3]; exact hM) _ _ _ h4
        refine ⟨q', lo', ?_, e2,
          by rw [e3]; exact g2.trans f3, by rw [e4]; exact g3.trans f4, by simp at e5 ⊢; omega⟩
        simp only [exec, hne, Bool.and_false, Bool.false_eq_true, if_false, hlt, if_true, hcell]
        rw [f1]
        simp only [fin, Bool.false_eq_true, if_false, g1]
        rw [f3] at e1
        rw [e1, after_fin]; simp [fin]
      · rename_i s1 e hc
        simp only [Option.map_eq_some_iff] at h
        obtain ⟨⟨s2, o1, b1⟩, h4, h5⟩ := h
        cases h5
        obtain ⟨q1, lo1, f1, f2, f3, f4, f5⟩ := ihf v _ _
          { q with cells := setCell q.cells q.r.toNat (some (n, g v)) } _ lo (hd1 v) hset hk hM _ _ _ hc
        dsimp only at f1 f2 f3 f4 f5
        have hk1 : Wrap q1.max P := by rw [f3]; exact hk
        obtain ⟨q', lo', e1, e2, e3, e4, e5⟩ := ihk true _ _ q1 _ lo1 (hd2 _)
          f2 hk1 (by rw [f3]; exact hM) _ _ _ h4
        refine ⟨q', lo', ?_, e2, by rw [e3, f3], by rw [e4, f4],
          by simp at e5 f5 ⊢; omega⟩
        simp only [exec, hne, Bool.and_false, Bool.false_eq_true, if_false, hlt, if_true, hcell]
        rw [f1]
        simp only [fin, if_true]
        rw [e1, after_fin]; simp [fin]

end Verif.SPSC.Reenter
