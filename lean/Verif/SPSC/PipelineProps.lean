import Verif.SPSC.Pipeline
import Verif.SPSC.ConcProps
import Mathlib.Algebra.Order.BigOperators.Group.Finset

/-!
C166: pipelines of threads connected by queues. What comes out is the input, in order, each element passed through all
stages once; the queues bound what is on its way; nothing gets stuck.
-/

set_option autoImplicit false

namespace Verif.SPSC.Conc

variable {α : Type} {P : Plan α} {N N₀ : Pipe α}

/-! ### What one step of a queue does -/

/-- In `consume`, before the callback. -/
def CPc.taking : CPc α → Bool
  | .c1 true => true
  | .c2 true _ => true
  | .c3 _ => true
  | _ => false

/-- In `pop`. -/
def CPc.popping : CPc α → Bool
  | .c1 false => true
  | .c2 false _ => true
  | .c4 false _ => true
  | _ => false

theorem step_info {cfg : Cfg} {s s' : State α} {e : Option (Ev α)} (hs : Step cfg s e s') :
    (∀ v ok, e = some (.pushRet v ok) → s.ppc.arg = some v ∧ s'.ppc.arg = none) ∧
    (∀ v, s'.ppc.arg = some v → s.ppc.arg = some v ∨ (s.ppc = .idle ∧ s'.ppc = .e1 v)) ∧
    (∀ v, e = some (.got v) → s.cpc.taking = true ∧ s'.cpc.taking = false) ∧
    (e = some .popped → s.cpc.popping = true) ∧
    (s'.cpc.taking = true → s.cpc.taking = true ∨ (s.cpc = .idle ∧ s'.cpc = .c1 true)) ∧
    (s'.cpc.popping = true → s.cpc.popping = true ∨ (s.cpc = .idle ∧ s'.cpc = .c1 false)) := by
  cases hs with
  | popCall hf hc hd =>
    rename_i fn
    cases fn <;> simp_all [CPc.taking, CPc.popping]
  | popLoadR hf hc hl =>
    rename_i fn ri t m
    cases hdb : cfg.debug <;> cases fn <;> simp_all [CPc.taking, CPc.popping]
  | popAssertFails hf hc hl he =>
    rename_i fn ri wi t m
    cases fn <;> simp_all [CPc.taking, CPc.popping]
  | popAssertHolds hf hc hl he =>
    rename_i fn ri wi t m
    cases fn <;> simp_all [CPc.taking, CPc.popping]
  | popDestroy hf hc h1 h2 h3 he =>
    rename_i fn ri
    cases fn <;> simp_all [CPc.taking, CPc.popping, setSlot]
  | _ => simp_all [CPc.taking, CPc.popping, PPc.arg, setSlot, storeW, storeR]

theorem delivered_step (tr : List (Ev α)) (e : Option (Ev α)) :
    delivered (tr ++ e.toList) = delivered tr ++ (match e with
      | some (.got v) => [some v]
      | some .popped => [none]
      | _ => []) := by
  rw [delivered_append]
  rcases e with _ | e
  · rfl
  · cases e <;> rfl

theorem pushedOk_step (tr : List (Ev α)) (e : Option (Ev α)) :
    pushedOk (tr ++ e.toList) = pushedOk tr ++ (match e with
      | some (.pushRet v true) => [v]
      | _ => []) := by
  rw [pushedOk_append]
  rcases e with _ | e
  · rfl
  · cases e with
    | pushRet v ok => cases ok <;> rfl
    | _ => rfl

/-! ### The invariant of a pipeline -/

/-- What holds for the thread between queue `i` and queue `i + 1`. -/
structure Stage (P : Plan α) (N : Pipe α) (i : Nat) : Prop where
  relay : (delivered (N.tr i)).map (Option.map (P.f i)) =
    (pushedOk (N.tr (i + 1)) ++ (N.held i).toList).map some
  pend : ∀ v, (N.q (i + 1)).ppc.arg = some v → N.held i = some v
  take : (N.q i).cpc.taking = true → N.held i = none
  nopop : (N.q i).cpc.popping = false

structure PInv (P : Plan α) (N : Pipe α) : Prop where
  ex : ∀ i, Exec (P.cfg i) (N.tr i) (N.q i)
  stage : ∀ i, i < P.n → Stage P N i
  src : pushedOk (N.tr 0) ++ ((N.q 0).ppc.arg).toList <+: P.input

theorem pinv_init : PInv P .init :=
  ⟨fun _ => .init, fun _ _ => ⟨rfl, nofun, nofun, rfl⟩, List.nil_prefix⟩

theorem keep_same (held : Nat → Option α) (i : Nat) (hi : i < P.n) (e : Option (Ev α)) :
    P.keep held i e i = match e with
      | some (.got v) => some (P.f i v)
      | _ => held i := by
  rcases e with _ | e
  · rfl
  · cases e with
    | got v => simp [Plan.keep, hi]
    | pushRet v ok =>
      cases ok
      · rfl
      · cases i with
        | zero => rfl
        | succ j => simp [Plan.keep]
    | _ => rfl

theorem keep_prev (held : Nat → Option α) (i : Nat) (e : Option (Ev α)) :
    P.keep held (i + 1) e i = match e with
      | some (.pushRet _ true) => none
      | _ => held i := by
  rcases e with _ | e
  · rfl
  · cases e with
    | got v => by_cases hi : i + 1 < P.n <;> simp [Plan.keep, hi]
    | pushRet v ok => cases ok <;> simp [Plan.keep]
    | _ => rfl

theorem keep_other (held : Nat → Option α) (i j : Nat) (h1 : j ≠ i) (h2 : i ≠ j + 1) (e : Option (Ev α)) :
    P.keep held i e j = held j := by
  rcases e with _ | e
  · rfl
  · cases e with
    | got v => by_cases hi : i < P.n <;> simp [Plan.keep, hi, h1]
    | pushRet v ok =>
      cases ok
      · rfl
      · cases i with
        | zero => rfl
        | succ k =>
          have : j ≠ k := by omega
          simp [Plan.keep, this]
    | _ => rfl

theorem pinv_step (h : PInv P N) {i : Nat} {e : Option (Ev α)} {s' : State α}
    (hs : Step (P.cfg i) (N.q i) e s') (hp : P.prodMay N i s') (hc : P.consMay N i s') :
    PInv P ⟨Function.update N.q i s', Function.update N.tr i (N.tr i ++ e.toList), P.keep N.held i e⟩ := by
  obtain ⟨i1, i2, i3, i4, i5, i6⟩ := step_info hs
  refine ⟨fun j => ?_, fun j hj => ?_, ?_⟩
  · by_cases hji : j = i
    · subst hji
      simp only [Function.update_self]
      exact (h.ex j).step hs
    · simp only [Function.update_of_ne hji]
      exact h.ex j
  · have st := h.stage j hj
    by_cases hji : j = i
    · subst hji
      have hne : j + 1 ≠ j := by omega
      constructor
      · show (delivered (Function.update N.tr j (N.tr j ++ e.toList) j)).map _ =
          (pushedOk (Function.update N.tr j (N.tr j ++ e.toList) (j + 1)) ++ (P.keep N.held j e j).toList).map some
        rw [Function.update_self, Function.update_of_ne hne, delivered_step, keep_same _ _ hj, List.map_append,
          st.relay]
        rcases e with _ | e
        · simp
        · cases e with
          | got v =>
            have := st.take (i3 v rfl).1
            simp [this]
          | popped => have := i4 rfl; rw [st.nopop] at this; exact absurd this nofun
          | _ => simp
      · intro v hv
        show P.keep N.held j e j = some v
        simp only [Function.update_of_ne hne] at hv
        have hh := st.pend v hv
        rw [keep_same _ _ hj]
        split
        · rename_i w
          have := st.take (i3 w rfl).1
          rw [this] at hh; cases hh
        · exact hh
      · intro ht
        simp only [Function.update_self] at ht
        show P.keep N.held j e j = none
        rw [keep_same _ _ hj]
        split
        · rename_i w
          have := (i3 w rfl).2
          rw [this] at ht; cases ht
        · rcases i5 ht with h1 | ⟨h1, h2⟩
          · exact st.take h1
          · exact ((hc h1 (by rw [h2]; nofun) hj).2 true h2).2
      · simp only [Function.update_self]
        by_contra hpop
        rw [Bool.not_eq_false] at hpop
        rcases i6 hpop with h1 | ⟨h1, h2⟩
        · rw [st.nopop] at h1; cases h1
        · have := ((hc h1 (by rw [h2]; nofun) hj).2 false h2).1
          cases this
    · by_cases hji2 : i = j + 1
      · subst hji2
        constructor
        · show (delivered (Function.update N.tr (j + 1) (N.tr (j + 1) ++ e.toList) j)).map _ =
            (pushedOk (Function.update N.tr (j + 1) (N.tr (j + 1) ++ e.toList) (j + 1)) ++
              (P.keep N.held (j + 1) e j).toList).map some
          rw [Function.update_self, Function.update_of_ne hji, pushedOk_step, keep_prev, st.relay]
          rcases e with _ | e
          · simp
          · cases e with
            | pushRet v ok =>
              cases ok
              · simp
              · have := st.pend v (i1 v true rfl).1
                simp [this]
            | _ => simp
        · intro v hv
          simp only [Function.update_self] at hv
          show P.keep N.held (j + 1) e j = some v
          rw [keep_prev]
          split
          · rename_i w
            have := (i1 w true rfl).2
            rw [this] at hv; cases hv
          · rcases i2 v hv with h1 | ⟨h1, h2⟩
            · exact st.pend v h1
            · exact (hp h1 (by rw [h2]; nofun)).2 v h2
        · intro ht
          simp only [Function.update_of_ne hji] at ht
          show P.keep N.held (j + 1) e j = none
          rw [keep_prev]
          split
          · rfl
          · exact st.take ht
        · simp only [Function.update_of_ne hji]; exact st.nopop
      · have hne : j + 1 ≠ i := fun h => hji2 h.symm
        have hk : P.keep N.held i e j = N.held j := keep_other _ _ _ hji hji2 e
        constructor
        · show (delivered (Function.update N.tr i (N.tr i ++ e.toList) j)).map _ =
            (pushedOk (Function.update N.tr i (N.tr i ++ e.toList) (j + 1)) ++ (P.keep N.held i e j).toList).map some
          rw [hk, Function.update_of_ne hji, Function.update_of_ne hne]
          exact st.relay
        · intro v hv
          simp only [Function.update_of_ne hne] at hv
          exact hk.trans (st.pend v hv)
        · intro ht
          simp only [Function.update_of_ne hji] at ht
          exact hk.trans (st.take ht)
        · simp only [Function.update_of_ne hji]; exact st.nopop
  · by_cases h0 : 0 = i
    · subst h0
      simp only [Function.update_self]
      have hsrc := h.src
      have hsame : pushedOk (N.tr 0 ++ e.toList) = pushedOk (N.tr 0) ∨ ∃ v, e = some (.pushRet v true) := by
        rw [pushedOk_step]
        rcases e with _ | e
        · simp
        · cases e with
          | pushRet v ok =>
            cases ok
            · simp
            · exact .inr ⟨v, rfl⟩
          | _ => simp
      rcases hsame with hnil | ⟨v, rfl⟩
      · rw [hnil]
        cases ha : s'.ppc.arg with
        | none =>
          simp only [Option.toList_none, List.append_nil]
          exact (List.prefix_append _ _).trans hsrc
        | some v =>
          rcases i2 v ha with h1 | ⟨h1, h2⟩
          · rw [h1] at hsrc; exact hsrc
          · have hnext := (hp h1 (by rw [h2]; nofun)).2 v h2
            have hpre : pushedOk (N.tr 0) <+: P.input := (List.prefix_append _ _).trans hsrc
            obtain ⟨rest, hr⟩ := hpre
            simp only [Plan.next] at hnext
            rw [← hr, List.getElem?_append_right (Nat.le_refl _), Nat.sub_self] at hnext
            cases rest with
            | nil => cases hnext
            | cons a t =>
              simp only [List.getElem?_cons_zero, Option.some.injEq] at hnext
              subst hnext
              exact ⟨t, by rw [← hr]; simp⟩
      · obtain ⟨h1, h2⟩ := i1 v true rfl
        rw [pushedOk_step, h2]
        rw [h1] at hsrc
        simpa using hsrc
    · simp only [Function.update_of_ne h0]
      exact h.src

theorem reach_inv (h : P.Reach N₀ N) (h0 : PInv P N₀) : PInv P N := by
  induction h with
  | refl => exact h0
  | step _ _ hs hp hc ih => exact pinv_step ih hs hp hc

theorem run_inv (h : P.Run N) : PInv P N := reach_inv h pinv_init

/-! ### In order, each through all stages -/

theorem offered_through (hP : P.Ok) (h : PInv P N) : ∀ i, i ≤ P.n → ∀ (j : Nat) (v : α),
    (offered (N.tr i))[j]? = some v → ∃ u, P.input[j]? = some u ∧ v = P.through i u := by
  intro i
  induction i with
  | zero =>
    intro _ j v hj
    obtain ⟨⟨k, hk⟩, hd⟩ := hP 0
    obtain ⟨W, R, vals, inv⟩ := exec_inv hk (.inr hd) (h.ex 0)
    have hsrc := h.src
    rw [← inv.pend] at hsrc
    obtain ⟨rest, hr⟩ := hsrc
    refine ⟨v, ?_, rfl⟩
    rw [← hr]
    exact (List.getElem?_append_left (List.getElem?_eq_some_iff.mp hj).1).trans hj
  | succ i ih =>
    intro hi j v hj
    obtain ⟨⟨k, hk⟩, hd⟩ := hP (i + 1)
    obtain ⟨W, R, vals, inv⟩ := exec_inv hk (.inr hd) (h.ex (i + 1))
    have st := h.stage i (by omega)
    have hpre : offered (N.tr (i + 1)) <+: pushedOk (N.tr (i + 1)) ++ (N.held i).toList := by
      rw [offered, List.prefix_append_right_inj, inv.pend]
      cases ha : (N.q (i + 1)).ppc.arg with
      | none => exact List.nil_prefix
      | some w => rw [st.pend w ha]
    obtain ⟨rest, hr⟩ := hpre
    have h1 : (pushedOk (N.tr (i + 1)) ++ (N.held i).toList)[j]? = some v := by
      rw [← hr, List.getElem?_append_left (List.getElem?_eq_some_iff.mp hj).1]; exact hj
    have h2 : ((delivered (N.tr i)).map (Option.map (P.f i)))[j]? = some (some v) := by
      rw [st.relay, List.getElem?_map, h1]; rfl
    rw [List.getElem?_map, Option.map_eq_some_iff] at h2
    obtain ⟨o, ho1, ho2⟩ := h2
    rw [Option.map_eq_some_iff] at ho2
    obtain ⟨w, rfl, hw⟩ := ho2
    obtain ⟨⟨k', hk'⟩, hd'⟩ := hP i
    obtain ⟨u, hu1, hu2⟩ := ih (by omega) j w ((spsc_fifo hk' (.inr hd') (h.ex i)).2 j w ho1)
    exact ⟨u, hu1, by rw [← hw, hu2]; rfl⟩

/-- **C166** In every execution of a pipeline, with any number of stages: no queue has a data race or uses a slot it must
not use, and the `j`-th element taken from the last queue (from any queue) is the `j`-th input passed once through each
stage on the way, in order: nothing is lost, doubled or overtaken, although pushes are refused and repeated and
constructors and callbacks throw. -/
theorem pipeline_in_order (hP : P.Ok) (h : P.Run N) (i : Nat) (hi : i ≤ P.n) :
    (N.q i).fault = none ∧
    ∀ (j : Nat) (v : α), (delivered (N.tr i))[j]? = some (some v) →
      ∃ u, P.input[j]? = some u ∧ v = P.through i u := by
  have hinv := run_inv h
  obtain ⟨⟨k, hk⟩, hd⟩ := hP i
  refine ⟨(spsc_race_free hk (.inr hd) (hinv.ex i)).2.2 hd, fun j v hj => ?_⟩
  exact offered_through hP hinv i hi j v ((spsc_fifo hk (.inr hd) (hinv.ex i)).2 j v hj)

/-! ### How much is on its way -/

theorem stage_count {i : Nat} (h : PInv P N) (hi : i < P.n) :
    (delivered (N.tr i)).length = (pushedOk (N.tr (i + 1))).length + (N.held i).toList.length := by
  have := congrArg List.length (h.stage i hi).relay
  simpa using this

/-- **C166** The queues bound what is on its way: what the first thread has been able to push is at most what the last
thread has taken, plus one less than the capacity of each queue, plus one for each thread between. -/
theorem pipeline_bound (hP : P.Ok) (h : P.Run N) :
    (pushedOk (N.tr 0)).length ≤ (delivered (N.tr P.n)).length +
      ((Finset.range (P.n + 1)).sum fun i => (P.cfg i).max.toNat - 1) + P.n := by
  have hinv := run_inv h
  suffices hm : ∀ m, m ≤ P.n → (pushedOk (N.tr 0)).length ≤ (delivered (N.tr m)).length +
      ((Finset.range (m + 1)).sum fun i => (P.cfg i).max.toNat - 1) + m from hm P.n (Nat.le_refl _)
  intro m
  induction m with
  | zero =>
    intro _
    obtain ⟨⟨k, hk⟩, hd⟩ := hP 0
    have := spsc_capacity hk (.inr hd) (hinv.ex 0)
    simpa using this
  | succ m ih =>
    intro hm
    have h1 := ih (by omega)
    have h2 := stage_count hinv (i := m) (by omega)
    obtain ⟨⟨k, hk⟩, hd⟩ := hP (m + 1)
    have h3 := spsc_capacity hk (.inr hd) (hinv.ex (m + 1))
    have h4 : (N.held m).toList.length ≤ 1 := by cases N.held m <;> simp
    rw [Finset.sum_range_succ]
    omega

/-! ### Nothing gets stuck -/

theorem Plan.Reach.trans' {N' : Pipe α} (h : P.Reach N₀ N) (h' : P.Reach N N') : P.Reach N₀ N' := by
  induction h' with
  | refl => exact h
  | step _ hi hs hp hc ih => exact ih.step hi hs hp hc

theorem mid_may {N : Pipe α} {i : Nat} {s' : State α} (h : Mid (N.q i) s') : P.prodMay N i s' ∧ P.consMay N i s' := by
  rcases h with ⟨h1, h2⟩ | ⟨h1, h2⟩
  · exact ⟨fun hx => absurd hx h2, fun hx hy => absurd (h1.trans hx) hy⟩
  · exact ⟨fun hx hy => absurd (h1.trans hx) hy, fun hx => absurd hx h2⟩

/-- The rest of a call. -/
theorem lift_mid {i : Nat} (hi : i ≤ P.n) {s s' : State α} {t : List (Ev α)} (ho : Own (P.cfg i) s t s') :
    ∀ N : Pipe α, N.q i = s → ∃ N', P.Reach N N' ∧ N'.q = Function.update N.q i s' ∧
      N'.tr = Function.update N.tr i (N.tr i ++ t) := by
  induction ho with
  | refl =>
    rintro N rfl
    exact ⟨N, .refl, (Function.update_eq_self i N.q).symm, by simp⟩
  | @snoc s1 _ _ _ _ hs hm ih =>
    intro N hN
    obtain ⟨N1, r1, q1, t1⟩ := ih N hN
    have hq : N1.q i = s1 := by rw [q1, Function.update_self]
    rw [← hq] at hs hm
    obtain ⟨hp, hc⟩ := mid_may (P := P) hm
    refine ⟨_, r1.step hi hs hp hc, ?_, ?_⟩
    · show Function.update N1.q i _ = _
      rw [q1, Function.update_idem]
    · show Function.update N1.tr i _ = _
      rw [t1, Function.update_idem, Function.update_self, List.append_assoc]

/-- A whole call. -/
theorem lift_call {i : Nat} (hi : i ≤ P.n) {s1 s' : State α} {e : Option (Ev α)} {t : List (Ev α)}
    (hs : Step (P.cfg i) (N.q i) e s1) (hp : P.prodMay N i s1) (hc : P.consMay N i s1) (ho : Own (P.cfg i) s1 t s') :
    ∃ N', P.Reach N N' ∧ N'.q = Function.update N.q i s' ∧
      N'.tr = Function.update N.tr i (N.tr i ++ (e.toList ++ t)) := by
  obtain ⟨N', r, q', t'⟩ := lift_mid hi ho ⟨Function.update N.q i s1, Function.update N.tr i (N.tr i ++ e.toList),
    P.keep N.held i e⟩ (Function.update_self i s1 N.q)
  refine ⟨N', (Plan.Reach.refl.step hi hs hp hc).trans' r, ?_, ?_⟩
  · rw [q', Function.update_idem]
  · rw [t', Function.update_idem]
    simp only [Function.update_self, List.append_assoc]

/-- No thread is in a call. -/
def Quiet (P : Plan α) (N : Pipe α) : Prop := ∀ i, i ≤ P.n → (N.q i).ppc = .idle ∧ (N.q i).cpc = .idle

theorem ppc_rank_zero {p : PPc α} (h : p.rank = 0) : p = .idle := by cases p <;> simp_all [PPc.rank]
theorem cpc_rank_zero {p : CPc α} (h : p.rank = 0) : p = .idle := by cases p <;> simp_all [CPc.rank]

theorem sum_update_lt {n i : Nat} (hi : i ≤ n) (f g : Nat → Nat) (hij : ∀ j, j ≠ i → g j = f j) (hlt : g i < f i) :
    (Finset.range (n + 1)).sum g < (Finset.range (n + 1)).sum f := by
  apply Finset.sum_lt_sum
  · intro j _
    by_cases hj : j = i
    · subst hj; omega
    · rw [hij j hj]
  · exact ⟨i, Finset.mem_range.mpr (by omega), hlt⟩

/-- All calls in progress can be finished. -/
theorem reach_quiet (hP : P.Ok) : ∀ (d : Nat) (N : Pipe α), PInv P N →
    ((Finset.range (P.n + 1)).sum fun i => (N.q i).ppc.rank + (N.q i).cpc.rank) = d →
    ∃ N', P.Reach N N' ∧ Quiet P N' := by
  intro d
  induction d using Nat.strong_induction_on with
  | _ d ih =>
    intro N hinv hd
    by_cases hq : Quiet P N
    · exact ⟨N, .refl, hq⟩
    · simp only [Quiet, not_forall] at hq
      obtain ⟨i, hi, hne⟩ := hq
      obtain ⟨⟨k, hk⟩, hdis⟩ := hP i
      have hflt := (spsc_race_free hk (.inr hdis) (hinv.ex i)).2.2 hdis
      obtain ⟨hb1, hb2⟩ := spsc_never_blocked hk (.inr hdis) (hinv.ex i) hflt
      obtain ⟨e, s', hs, hm, hlt⟩ : ∃ e s', Step (P.cfg i) (N.q i) e s' ∧ Mid (N.q i) s' ∧
          s'.ppc.rank + s'.cpc.rank < (N.q i).ppc.rank + (N.q i).cpc.rank := by
        by_cases h1 : (N.q i).ppc = .idle
        · have h2 : (N.q i).cpc ≠ .idle := fun h2 => hne ⟨h1, h2⟩
          obtain ⟨e, s', hs, hr, hsame⟩ := hb2 h2
          refine ⟨e, s', hs, .inr ⟨hsame, h2⟩, ?_⟩
          have hnf := (spsc_race_free hk (.inr hdis) ((hinv.ex i).step hs)).2.2 hdis
          rw [hnf] at hr
          rcases hr with hr | hr
          · rw [hsame]; omega
          · cases hr
        · obtain ⟨e, s', hs, hr, hsame⟩ := hb1 h1
          exact ⟨e, s', hs, .inl ⟨hsame, h1⟩, by rw [hsame]; omega⟩
      obtain ⟨hp, hc⟩ := mid_may (P := P) hm
      have r1 := (Plan.Reach.refl (P := P) (N := N)).step hi hs hp hc
      have hlt' := sum_update_lt hi (fun j => (N.q j).ppc.rank + (N.q j).cpc.rank)
        (fun j => (Function.update N.q i s' j).ppc.rank + (Function.update N.q i s' j).cpc.rank)
        (fun j hj => by simp only [Function.update_of_ne hj]) (by simpa only [Function.update_self] using hlt)
      rw [hd] at hlt'
      obtain ⟨N', r2, hq'⟩ := ih _ hlt' _ (pinv_step hinv hs hp hc) rfl
      exact ⟨N', r1.trans' r2, hq'⟩

/-- What is counted in a state in which no thread is in a call. -/
theorem quiet_counts (hP : P.Ok) (hinv : PInv P N) (hq : Quiet P N) {i : Nat} (hi : i ≤ P.n) :
    (N.q i).w.length = (pushedOk (N.tr i)).length + 1 ∧ (N.q i).r.length = (delivered (N.tr i)).length + 1 ∧
    (delivered (N.tr i)).length ≤ (pushedOk (N.tr i)).length := by
  obtain ⟨⟨k, hk⟩, hd⟩ := hP i
  obtain ⟨W, R, vals, inv⟩ := exec_inv hk (.inr hd) (hinv.ex i)
  obtain ⟨h1, h2⟩ := hq i hi
  have a := inv.valsEq
  have b := inv.valsLen
  have c := inv.delLen
  rw [h1] at a b
  rw [h2] at c
  simp only [PPc.tail, PPc.extra, CPc.given, List.append_nil, Nat.add_zero] at a b c
  have hw := inv.wlen
  have hr := inv.rlen
  obtain ⟨hb, -⟩ := inv.bounds
  rw [a] at b
  omega

/-- A thread that has something to push into a queue with room pushes it. -/
theorem op_push (hP : P.Ok) (hinv : PInv P N) (hq : Quiet P N) {i : Nat} (hi : i ≤ P.n) {v : α}
    (hnext : P.next N i = some v) (hroom : (pushedOk (N.tr i)).length = (delivered (N.tr i)).length) :
    ∃ N', P.Reach N N' ∧ Quiet P N' ∧ (pushedOk (N'.tr i)).length = (pushedOk (N.tr i)).length + 1 ∧
      (delivered (N'.tr i)).length = (delivered (N.tr i)).length ∧ ∀ j, j ≠ i → N'.tr j = N.tr j := by
  obtain ⟨⟨k, hk⟩, hd⟩ := hP i
  have hflt := (spsc_race_free hk (.inr hd) (hinv.ex i)).2.2 hd
  obtain ⟨hw, hr, -⟩ := quiet_counts hP hinv hq hi
  have hmax : 2 ≤ (P.cfg i).max.toNat := by rw [hk, Nat.pow_succ]; have := Nat.two_pow_pos k; omega
  obtain ⟨h1, h2⟩ := hq i hi
  obtain ⟨s', ho, hf', hp', hc', -⟩ := run_push_own hk (.inr hd) (hinv.ex i) hflt h1 (by omega) v
  have st : Step (P.cfg i) (N.q i) (some (.pushCall v)) { N.q i with ppc := .e1 v } := .pushCall hflt h1
  obtain ⟨N', r2, q2, t2⟩ := lift_call hi st
    (fun _ _ => ⟨fun j hj => (hq j (by omega)).2, fun w hw => by cases hw; exact hnext⟩)
    (fun _ hy => absurd h2 hy) ho
  refine ⟨N', r2, fun j hj => ?_, ?_, ?_, fun j hj => ?_⟩
  · rw [q2]
    by_cases hji : j = i
    · subst hji; rw [Function.update_self]; exact ⟨hp', hc'.trans h2⟩
    · simp only [Function.update_of_ne hji]; exact hq j hj
  · rw [t2]; simp [pushedOk_append, pushedOk]
  · rw [t2]; simp [delivered_append, delivered]
  · rw [t2]; simp only [Function.update_of_ne hj]

/-- A thread that holds nothing takes the next element of a queue that is not empty. -/
theorem op_take (hP : P.Ok) (hinv : PInv P N) (hq : Quiet P N) {i : Nat} (hi : i ≤ P.n)
    (hheld : i < P.n → N.held i = none) (hne : (delivered (N.tr i)).length < (pushedOk (N.tr i)).length) :
    ∃ N', P.Reach N N' ∧ Quiet P N' ∧ (pushedOk (N'.tr i)).length = (pushedOk (N.tr i)).length ∧
      (delivered (N'.tr i)).length = (delivered (N.tr i)).length + 1 ∧ ∀ j, j ≠ i → N'.tr j = N.tr j := by
  obtain ⟨⟨k, hk⟩, hd⟩ := hP i
  have hflt := (spsc_race_free hk (.inr hd) (hinv.ex i)).2.2 hd
  obtain ⟨hw, hr, -⟩ := quiet_counts hP hinv hq hi
  obtain ⟨h1, h2⟩ := hq i hi
  -- ask
  obtain ⟨s1, m, ho1, -, hf1, hc1, hp1, hb1, hw1, hr1, -⟩ := run_readAvail_own hk (.inr hd) (hinv.ex i) hflt h2
  have st1 : Step (P.cfg i) (N.q i) none { N.q i with cpc := .ra1 } := .cRaCall hflt h2
  have m1p : P.prodMay N i { N.q i with cpc := .ra1 } := fun _ hy => absurd h1 hy
  have m1c : P.consMay N i { N.q i with cpc := .ra1 } := fun _ _ hlt => ⟨(hq (i + 1) (by omega)).1, nofun⟩
  obtain ⟨N1, r2, q2, t2⟩ := lift_call hi st1 m1p m1c ho1
  have hq1 : N1.q i = s1 := by rw [q2, Function.update_self]
  have hqo : ∀ j, j ≠ i → N1.q j = N.q j := fun j hj => by
    rw [q2]; simp only [Function.update_of_ne hj]
  have ht1 : N1.tr i = N.tr i ++ [.cReadAvail m] := by rw [t2]; simp
  have hto : ∀ j, j ≠ i → N1.tr j = N.tr j := fun j hj => by
    rw [t2]; simp only [Function.update_of_ne hj]
  have hinv1 := reach_inv r2 hinv
  have hheld1 : i < P.n → N1.held i = none := by
    intro hlt
    have a := stage_count hinv1 hlt
    have b := stage_count hinv hlt
    rw [hheld hlt, ht1, hto (i + 1) (by omega)] at *
    simp only [delivered_append, delivered, List.append_nil] at a
    cases hx : N1.held i with
    | none => rfl
    | some x => rw [hx] at a; simp at a b; omega
  -- take
  have hf1' : (N1.q i).fault = none := by rw [hq1]; exact hf1
  have hc1' : (N1.q i).cpc = .idle := by rw [hq1]; exact hc1
  have hp1' : (N1.q i).ppc = .idle := by rw [hq1, hp1]; exact h1
  have hbud : (P.cfg i).disciplined = true → 0 < (N1.q i).budget := fun _ => by rw [hq1, hb1]; omega
  obtain ⟨s2, v, ho2, hf2, hc2, hp2, -⟩ := run_consume_own hk (.inr hd) (hinv1.ex i) hf1' hc1' hbud
    (by rw [hq1, hw1, hr1]; omega)
  have st2 : Step (P.cfg i) (N1.q i) none { N1.q i with cpc := .c1 true, budget := (N1.q i).budget - 1 } :=
    .popCall hf1' hc1' hbud
  obtain ⟨N2, r4, q4, t4⟩ := lift_call hi st2 (fun _ hy => absurd hp1' hy)
    (fun _ _ hlt => ⟨by rw [hqo (i + 1) (by omega)]; exact (hq (i + 1) (by omega)).1,
      fun fn hfn => by cases hfn; exact ⟨rfl, hheld1 hlt⟩⟩) ho2
  refine ⟨N2, r2.trans' r4, fun j hj => ?_, ?_, ?_, fun j hj => ?_⟩
  · rw [q4]
    by_cases hji : j = i
    · subst hji; rw [Function.update_self]; exact ⟨hp2.trans hp1', hc2⟩
    · simp only [Function.update_of_ne hji]; rw [hqo j hji]; exact hq j hj
  · rw [t4]; simp [pushedOk_append, pushedOk, ht1]
  · rw [t4]; simp [delivered_append, delivered, ht1]
  · rw [t4]; simp only [Function.update_of_ne hj]; exact hto j hj

/-- One more element can be moved, or everything is through. -/
theorem op_exists (hP : P.Ok) (hinv : PInv P N) (hq : Quiet P N)
    (hlt : (delivered (N.tr P.n)).length < P.input.length) :
    ∃ N' i, i ≤ P.n ∧ P.Reach N N' ∧ Quiet P N' ∧ (∀ j, j ≠ i → N'.tr j = N.tr j) ∧
      (pushedOk (N.tr i)).length + (delivered (N.tr i)).length <
        (pushedOk (N'.tr i)).length + (delivered (N'.tr i)).length := by
  by_contra hno
  have key : ∀ m, m ≤ P.n → (pushedOk (N.tr (P.n - m))).length = (delivered (N.tr P.n)).length ∧
      (delivered (N.tr (P.n - m))).length = (delivered (N.tr P.n)).length := by
    intro m
    induction m with
    | zero =>
      intro _
      rw [Nat.sub_zero]
      refine ⟨?_, rfl⟩
      by_contra hne
      have := (quiet_counts hP hinv hq (Nat.le_refl P.n)).2.2
      obtain ⟨N', r, q', h1, h2, h3⟩ := op_take hP hinv hq (Nat.le_refl P.n) (fun h => absurd h (lt_irrefl _))
        (by omega)
      exact hno ⟨N', P.n, Nat.le_refl _, r, q', h3, by omega⟩
    | succ m ih =>
      intro hm
      obtain ⟨a, b⟩ := ih (by omega)
      obtain ⟨i, hi⟩ : ∃ i, P.n - (m + 1) = i := ⟨_, rfl⟩
      have hi1 : P.n - m = i + 1 := by omega
      rw [hi]
      rw [hi1] at a b
      have hcount := stage_count hinv (i := i) (by omega)
      have hheld : N.held i = none := by
        cases hx : N.held i with
        | none => rfl
        | some x =>
          exfalso
          obtain ⟨N', r, q', h1, h2, h3⟩ := op_push hP hinv hq (i := i + 1) (by omega) (v := x) hx (by omega)
          exact hno ⟨N', i + 1, by omega, r, q', h3, by omega⟩
      rw [hheld] at hcount
      simp only [Option.toList_none, List.length_nil, Nat.add_zero] at hcount
      have hle := (quiet_counts hP hinv hq (i := i) (by omega)).2.2
      refine ⟨?_, by omega⟩
      by_contra hne
      obtain ⟨N', r, q', h1, h2, h3⟩ := op_take hP hinv hq (i := i) (by omega) (fun _ => hheld) (by omega)
      exact hno ⟨N', i, by omega, r, q', h3, by omega⟩
  obtain ⟨a, b⟩ := key P.n (Nat.le_refl _)
  rw [Nat.sub_self] at a b
  obtain ⟨N', r, q', h1, h2, h3⟩ := op_push hP hinv hq (i := 0) (by omega)
    (v := P.input[(pushedOk (N.tr 0)).length]'(by omega)) (List.getElem?_eq_getElem (by omega)) (by omega)
  exact hno ⟨N', 0, by omega, r, q', h3, by omega⟩

theorem count_le (hP : P.Ok) (hinv : PInv P N) {i : Nat} (hi : i ≤ P.n) :
    (pushedOk (N.tr i)).length ≤ P.input.length ∧ (delivered (N.tr i)).length ≤ P.input.length := by
  have hoff : (offered (N.tr i)).length ≤ P.input.length := by
    by_contra hc
    obtain ⟨u, hu, -⟩ := offered_through hP hinv i hi P.input.length _
      (List.getElem?_eq_getElem (by omega))
    rw [List.getElem?_eq_none (Nat.le_refl _)] at hu
    cases hu
  obtain ⟨⟨k, hk⟩, hd⟩ := hP i
  have := (spsc_fifo hk (.inr hd) (hinv.ex i)).1
  refine ⟨?_, by omega⟩
  rw [offered, List.length_append] at hoff
  omega

theorem complete_aux (hP : P.Ok) : ∀ (d : Nat) (N : Pipe α), PInv P N → Quiet P N →
    ((Finset.range (P.n + 1)).sum fun i => 2 * P.input.length -
      ((pushedOk (N.tr i)).length + (delivered (N.tr i)).length)) = d →
    ∃ N', P.Reach N N' ∧ Quiet P N' ∧ (delivered (N'.tr P.n)).length = P.input.length := by
  intro d
  induction d using Nat.strong_induction_on with
  | _ d ih =>
    intro N hinv hq hd
    by_cases hlt : (delivered (N.tr P.n)).length < P.input.length
    · obtain ⟨N', i, hi, r, hq', ho, hi'⟩ := op_exists hP hinv hq hlt
      have hinv' := reach_inv r hinv
      have hc := count_le hP hinv' hi
      have := sum_update_lt hi (fun j => 2 * P.input.length -
        ((pushedOk (N.tr j)).length + (delivered (N.tr j)).length)) (fun j => 2 * P.input.length -
        ((pushedOk (N'.tr j)).length + (delivered (N'.tr j)).length)) (fun j hj => by simp only [ho j hj])
        (by omega)
      rw [hd] at this
      obtain ⟨N'', r', hq'', hl⟩ := ih _ this N' hinv' hq' rfl
      exact ⟨N'', r.trans' r', hq'', hl⟩
    · exact ⟨N, .refl, hq, by have := (count_le hP hinv (Nat.le_refl P.n)).2; omega⟩

/-- **C166** A pipeline never gets stuck: whatever has happened, it can go on until the whole input has been taken from
the last queue and no thread is in a call. -/
theorem pipeline_completes (hP : P.Ok) (h : P.Run N) :
    ∃ N', P.Reach N N' ∧ (delivered (N'.tr P.n)).length = P.input.length ∧
      ∀ i, i ≤ P.n → (N'.q i).ppc = .idle ∧ (N'.q i).cpc = .idle := by
  obtain ⟨N1, r1, q1⟩ := reach_quiet hP _ N (run_inv h) rfl
  obtain ⟨N2, r2, q2, hl⟩ := complete_aux hP _ N1 (reach_inv r1 (run_inv h)) q1 rfl
  exact ⟨N2, r1.trans' r2, hl, q2⟩

/-- Two stages between three queues of different capacities, with and without assertions; some execution takes all
three inputs from the last queue, and there they are `(x + 1) * 10`. -/
example :
    let P : Plan Nat := ⟨2, fun i => ⟨if i = 1 then 2 else 4, i == 0, true⟩,
      fun i x => if i = 0 then x + 1 else x * 10, [5, 6, 7]⟩
    P.Ok ∧ ∃ N, P.Run N ∧ (delivered (N.tr 2)).length = 3 ∧
      ∀ (j : Nat) (v : Nat), (delivered (N.tr 2))[j]? = some (some v) → [60, 70, 80][j]? = some v := by
  intro P
  have hP : P.Ok := by
    intro i
    by_cases hi : i = 1
    · exact ⟨⟨0, by simp [P, hi]⟩, rfl⟩
    · exact ⟨⟨1, by simp [P, hi]⟩, rfl⟩
  obtain ⟨N, r, hl, -⟩ := pipeline_completes hP (Plan.Reach.refl (N := .init))
  refine ⟨hP, N, r, hl, fun j v hv => ?_⟩
  obtain ⟨u, hu, rfl⟩ := (pipeline_in_order hP r 2 (Nat.le_refl 2)).2 j v hv
  have hj : j < 3 := (List.getElem?_eq_some_iff.mp hu).1
  match j, hj, hu with
  | 0, _, hu => cases hu; rfl
  | 1, _, hu => cases hu; rfl
  | 2, _, hu => cases hu; rfl

end Verif.SPSC.Conc
