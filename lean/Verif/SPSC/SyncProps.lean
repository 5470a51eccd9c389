import Verif.SPSC.SyncSim

/-!
Property theorems about `SPSCQueue` in programs whose threads also synchronise by other means
(C148), and about its destruction after the last call (C149).

`SExec cfg tr s` ranges over every interleaving of one producer and one consumer, every
stale-but-coherent choice of the atomic loads, and every pattern of signals and waits between the
two threads.
-/

set_option autoImplicit false

namespace Verif.SPSC.Conc

variable {α : Type} {cfg : Cfg} {tr : List (SEv α)} {s : SState α}

/-! ### C148 -/

theorem Inv.offeredLen {tr : List (Ev α)} {e : State α} {W R : Nat} {vals : List α}
    (i : Inv cfg tr e W R vals) : vals <+: offered tr := by
  rw [i.valsEq, offered, i.pend, List.prefix_append_right_inj]
  cases e.ppc <;> simp [PPc.tail, PPc.arg]

/-- **C148** First in, first out, whatever else the threads use to synchronise. -/
theorem sync_fifo {k : Nat} (hk : cfg.max.toNat = 2 ^ k)
    (hcfg : cfg.debug = true ∨ cfg.disciplined = true) (h : SExec cfg tr s) :
    (delivered (calls tr)).length ≤ (offered (calls tr)).length ∧
    ∀ (j : Nat) (v : α), (delivered (calls tr))[j]? = some (some v) →
      (offered (calls tr))[j]? = some v := by
  obtain ⟨e, W, R, vals, tP, tC, si⟩ := sexec_inv hk hcfg h
  have i := si.inv
  have hpre := i.offeredLen
  obtain ⟨hRW, hWR⟩ := i.bounds
  refine ⟨?_, fun j v hj => ?_⟩
  · have h1 := hpre.length_le
    have h2 := i.valsLen
    have h3 := i.delLen
    have h4 : R + e.cpc.given ≤ W := by
      have hcpc := i.cpc
      have := i.cseenW
      cases hc : e.cpc with
      | c4 fn ri =>
        rw [hc] at hcpc; simp only [CPc.ok] at hcpc
        cases fn <;> simp only [CPc.given] <;> omega
      | c5 ri =>
        rw [hc] at hcpc; simp only [CPc.ok] at hcpc
        simp only [CPc.given]; omega
      | _ => simp only [CPc.given]; omega
    omega
  · have := i.del j v hj
    obtain ⟨rest, hr⟩ := hpre
    rw [← hr, List.getElem?_append_left (List.getElem?_eq_some_iff.mp this).1]
    exact this

/-- **C148** No data race, no use of an empty slot, no overwriting; a consumer that removes only
elements it has been told about, by `read_available()` or by a signal the producer gave after
publishing them, never fails. -/
theorem sync_race_free {k : Nat} (hk : cfg.max.toNat = 2 ^ k)
    (hcfg : cfg.debug = true ∨ cfg.disciplined = true) (h : SExec cfg tr s) :
    s.q.fault ≠ some .race ∧ s.q.fault ≠ some .badSlot ∧
    (cfg.disciplined = true → s.q.fault = none) := by
  obtain ⟨e, W, R, vals, tP, tC, si⟩ := sexec_inv hk hcfg h
  rw [si.sim.fault]
  rcases si.inv.flt with h1 | ⟨h1, h2, h3⟩
  · rw [h1]; simp
  · rw [h1, h3]; simp

/-- **C148** Never more than `N - 1` elements. -/
theorem sync_capacity {k : Nat} (hk : cfg.max.toNat = 2 ^ k)
    (hcfg : cfg.debug = true ∨ cfg.disciplined = true) (h : SExec cfg tr s) :
    (pushedOk (calls tr)).length ≤ (delivered (calls tr)).length + (cfg.max.toNat - 1) := by
  obtain ⟨e, W, R, vals, tP, tC, si⟩ := sexec_inv hk hcfg h
  have i := si.inv
  obtain ⟨hRW, hWR⟩ := i.bounds
  have h1 := i.valsEq
  have h2 := i.valsLen
  have h3 := i.delLen
  have h4 : (pushedOk (calls tr)).length + e.ppc.tail.length = W + e.ppc.extra := by
    rw [← h2, h1, List.length_append]
  have h5 : e.ppc.extra ≤ e.ppc.tail.length := by cases e.ppc <;> simp [PPc.tail, PPc.extra]
  omega

theorem SInv.pushed {e : State α} {W R : Nat} {vals : List α} {tP tC : Nat → Nat}
    (si : SInv cfg tr s e W R vals tP tC) (hp : s.q.ppc.between = true) :
    (pushedOk (calls tr)).length = W ∧ pushedOk (calls tr) = vals := by
  have a := si.inv.valsEq
  have b := si.inv.valsLen
  have hpc : e.ppc = .idle := by
    rw [si.sim.ppc] at hp
    revert hp
    cases e.ppc <;> simp [PPc.between]
  rw [hpc] at a b
  simp only [PPc.tail, PPc.extra, List.append_nil, Nat.add_zero] at a b
  exact ⟨by rw [← a, b], a.symm⟩

theorem SInv.removed {e : State α} {W R : Nat} {vals : List α} {tP tC : Nat → Nat}
    (si : SInv cfg tr s e W R vals tP tC) (hp : s.q.cpc.between = true) :
    (delivered (calls tr)).length = R := by
  have a := si.inv.delLen
  have hpc : e.cpc = .idle := by
    rw [si.sim.cpc] at hp
    revert hp
    cases e.cpc <;> simp [CPc.between]
  rw [hpc] at a
  simpa [CPc.given] using a

/-- Along an execution what the threads have seen and the given signals only grow. -/
theorem SSteps.grows {k : Nat} (hk : cfg.max.toNat = 2 ^ k)
    (hcfg : cfg.debug = true ∨ cfg.disciplined = true) {s' : SState α} {tr' : List (SEv α)}
    (h : SExec cfg tr s) (hs : SSteps cfg s tr' s') :
    SExec cfg (tr ++ tr') s' ∧ Grows s.q s'.q ∧ s.mail <+: s'.mail := by
  induction hs with
  | refl => exact ⟨by simpa using h, Grows.rfl' rfl rfl rfl rfl, List.prefix_rfl⟩
  | snoc _ hst ih =>
    obtain ⟨h1, g, hm⟩ := ih
    refine ⟨by rw [← List.append_assoc]; exact h1.step hst, ?_⟩
    obtain ⟨e, W, R, vals, tP, tC, si⟩ := sexec_inv hk hcfg h1
    cases hst with
    | call hq =>
      obtain ⟨_, g'⟩ := step_grows si.bnd hq
      exact ⟨⟨g.w.trans g'.w, g.r.trans g'.r, g.pw.trans g'.pw, g.pr.trans g'.pr,
        g.cw.trans g'.cw, g.cr.trans g'.cr⟩, hm⟩
    | prodSignal =>
      exact ⟨⟨g.w, g.r, g.pw, g.pr, g.cw, g.cr⟩, hm.trans (List.prefix_append _ _)⟩
    | consSignal =>
      exact ⟨⟨g.w, g.r, g.pw, g.pr, g.cw, g.cr⟩, hm.trans (List.prefix_append _ _)⟩
    | prodWait =>
      exact ⟨⟨g.w, g.r, g.pw.trans (le_max_left _ _), g.pr.trans (le_max_left _ _), g.cw, g.cr⟩, hm⟩
    | consWait =>
      exact ⟨⟨g.w, g.r, g.pw, g.pr, g.cw.trans (le_max_left _ _), g.cr.trans (le_max_left _ _)⟩, hm⟩
    | consWaitInside =>
      exact ⟨⟨g.w, g.r, g.pw, g.pr, g.cw.trans (le_max_left _ _), g.cr.trans (le_max_left _ _)⟩, hm⟩

theorem getElem?_prefix {β : Type} {a b : List β} (h : a <+: b) {i : Nat} {x : β}
    (hi : a[i]? = some x) : b[i]? = some x := by
  obtain ⟨r, rfl⟩ := h
  rw [List.getElem?_append_left (List.getElem?_eq_some_iff.mp hi).1]
  exact hi

/-- What a consumer knows after it has waited for a signal of the producer. -/
theorem cons_after_wait {k : Nat} (hk : cfg.max.toNat = 2 ^ k)
    (hcfg : cfg.debug = true ∨ cfg.disciplined = true) {s1 s2 s3 s4 : SState α}
    {tr1 tr2 : List (SEv α)} (h1 : SExec cfg tr1 s1)
    (hsig : SStep cfg s1 (some (.signal true true)) s2) (h23 : SSteps cfg s2 tr2 s3)
    (hw : SStep cfg s3 (some (.wait false s1.mail.length)) s4) :
    SExec cfg (tr1 ++ [.signal true true] ++ tr2 ++ [.wait false s1.mail.length]) s4 ∧
    (pushedOk (calls tr1)).length ≤ s4.q.cons.seenW := by
  obtain ⟨e, W, R, vals, tP, tC, si⟩ := sexec_inv hk hcfg h1
  have h2 := h1.step hsig
  obtain ⟨h3, _, hm⟩ := h23.grows hk hcfg h2
  have h4 := h3.step hw
  have hbt : ∃ t, s2.mail[s1.mail.length]? = some (true, t) ∧ t.seenW = W ∧
      (pushedOk (calls tr1)).length = W := by
    generalize hev : some (SEv.signal (α := α) true true) = ev at hsig
    cases hsig with
    | call hq => rename_i e0 _; cases e0; simp at hev
    | prodSignal hf hu =>
      simp only [Option.some.injEq, SEv.signal.injEq, true_and] at hev
      exact ⟨s1.q.prod, by simp, si.pseenW, (si.pushed hev.symm).1⟩
    | consSignal => simp at hev
    | _ => simp at hev
  obtain ⟨t, ht, hts, hW⟩ := hbt
  have ht3 := getElem?_prefix hm ht
  have hlen : t.seenW ≤ s4.q.cons.seenW := by
    generalize hev : some (SEv.wait (α := α) false s1.mail.length) = ev at hw
    cases hw with
    | call hq => rename_i e0 _; cases e0 <;> simp at hev
    | prodSignal hf hu => simp at hev
    | consSignal => simp at hev
    | prodWait => simp at hev
    | consWait hf hu hmm =>
      simp only [Option.some.injEq, SEv.wait.injEq, true_and] at hev
      subst hev
      rw [ht3] at hmm
      simp only [Option.some.injEq, Prod.mk.injEq, true_and] at hmm
      subst hmm
      exact le_max_right _ _
    | consWaitInside hf hu hmm =>
      simp only [Option.some.injEq, SEv.wait.injEq, true_and] at hev
      subst hev
      rw [ht3] at hmm
      simp only [Option.some.injEq, Prod.mk.injEq] at hmm
      obtain ⟨_, hmm⟩ := hmm
      subst hmm
      exact le_max_right _ _
  exact ⟨by simpa using h4, by omega⟩

/-- **C148** A signal makes the pushes before it visible: if the producer signals between two calls and
the consumer waits for that signal, every later `read_available()` of the consumer counts all
elements whose push had returned `true` before the signal and that have not been removed. -/
theorem sync_read_available_fresh {k : Nat} (hk : cfg.max.toNat = 2 ^ k)
    (hcfg : cfg.debug = true ∨ cfg.disciplined = true) {s1 s2 s3 s4 s5 s6 : SState α}
    {tr1 tr2 tr3 : List (SEv α)} {n : Size} (h1 : SExec cfg tr1 s1)
    (hsig : SStep cfg s1 (some (.signal true true)) s2) (h23 : SSteps cfg s2 tr2 s3)
    (hw : SStep cfg s3 (some (.wait false s1.mail.length)) s4) (h45 : SSteps cfg s4 tr3 s5)
    (hq : SStep cfg s5 (some (.call (.cReadAvail n))) s6) :
    (pushedOk (calls tr1)).length ≤
      (delivered (calls tr1 ++ calls tr2 ++ calls tr3)).length + n.toNat := by
  have hpos : 0 < cfg.max.toNat := by rw [hk]; exact Nat.two_pow_pos k
  obtain ⟨h4, hseen⟩ := cons_after_wait hk hcfg h1 hsig h23 hw
  obtain ⟨h5, g, _⟩ := h45.grows hk hcfg h4
  obtain ⟨e, W, R, vals, tP, tC, si⟩ := sexec_inv hk hcfg h5
  have hcalls : calls (tr1 ++ [.signal true true] ++ tr2 ++ [.wait false s1.mail.length] ++ tr3) =
      calls tr1 ++ calls tr2 ++ calls tr3 := by
    simp [calls_append, calls]
  rw [← hcalls]
  generalize hev : some (SEv.call (Ev.cReadAvail (α := α) n)) = ev at hq
  cases hq with
  | call hst =>
    rename_i e0 q'
    have he0 : e0 = some (.cReadAvail n) := by
        cases e0 <;> simp at hev ⊢
        exact hev.symm
    subst he0
    generalize hev2 : some (Ev.cReadAvail (α := α) n) = ev2 at hst
    cases hst with
    | cRaLoadR hf hpc hl =>
      simp only [Option.some.injEq, Ev.cReadAvail.injEq] at hev2
      rename_i wi ri t m
      obtain ⟨msg, m1, m2, m3, m4, _⟩ := loadR_some hl
      have hR := si.r_eq
      have hcR := si.cseenR
      have hmR : m = R := by omega
      have hri := si.rval m1
      have hwi := si.ra2 _ hpc
      have hdel := si.inv.delLen
      rw [← si.sim.cpc, hpc] at hdel
      simp only [CPc.given, Nat.add_zero] at hdel
      have hb := si.bnd.cw
      have hWl := si.w_eq
      have hav := si.inv.avail
      have hcw := si.sim.cons.1
      obtain ⟨b1, b2⟩ := si.inv.bounds
      have hg := g.cw
      rw [hev2, m4, hri, hmR, hwi, readAvail_idx hpos (by omega) (by omega), hdel]
      omega
    | popDestroy _ _ _ _ _ hx => rw [hx] at hev2; split at hev2 <;> simp at hev2
    | _ => simp at hev2
  | _ => simp at hev

/-- **C148** A signal counts like `read_available()`: a consumer that waits between two calls for a
signal the producer gave between two calls is afterwards allowed to remove all elements pushed before
the signal, without asking the queue, and no execution in which it does so fails
(`sync_race_free`). -/
theorem sync_signal_suffices {k : Nat} (hk : cfg.max.toNat = 2 ^ k)
    (hcfg : cfg.debug = true ∨ cfg.disciplined = true) {s1 s2 s3 : SState α}
    {tr1 tr2 : List (SEv α)} (h1 : SExec cfg tr1 s1)
    (hsig : SStep cfg s1 (some (.signal true true)) s2) (h23 : SSteps cfg s2 tr2 s3)
    (hf : s3.q.fault = none) (hidle : s3.q.cpc = .idle) :
    ∃ s4, SStep cfg s3 (some (.wait false s1.mail.length)) s4 ∧
      (pushedOk (calls tr1)).length ≤ (delivered (calls tr1 ++ calls tr2)).length + s4.q.budget ∧
      ((delivered (calls tr1 ++ calls tr2)).length < (pushedOk (calls tr1)).length → ∀ fn,
        ∃ s5, SStep cfg s4 none s5 ∧ s5.q.cpc = .c1 fn) := by
  obtain ⟨e, W, R, vals, tP, tC, si⟩ := sexec_inv hk hcfg h1
  have h2 := h1.step hsig
  obtain ⟨h3, _, hm⟩ := h23.grows hk hcfg h2
  obtain ⟨e3, W3, R3, vals3, tP3, tC3, si3⟩ := sexec_inv hk hcfg h3
  have hbt : ∃ t, s2.mail[s1.mail.length]? = some (true, t) ∧
      (pushedOk (calls tr1)).length = t.seenW := by
    generalize hev : some (SEv.signal (α := α) true true) = ev at hsig
    cases hsig with
    | call hq => rename_i e0 _; cases e0; simp at hev
    | prodSignal hf hu =>
      simp only [Option.some.injEq, SEv.signal.injEq, true_and] at hev
      exact ⟨s1.q.prod, by simp, by rw [si.pseenW, (si.pushed hev.symm).1]⟩
    | consSignal => simp at hev
    | _ => simp at hev
  obtain ⟨t, ht, hW⟩ := hbt
  have hst := SStep.consWait (cfg := cfg) hf hidle (getElem?_prefix hm ht)
  have hcalls : calls (tr1 ++ (some (SEv.signal (α := α) true true)).toList ++ tr2) =
      calls tr1 ++ calls tr2 := by
    simp [calls_append, calls]
  have hdel := si3.removed (by rw [hidle]; rfl)
  rw [hcalls] at hdel
  have hb : (pushedOk (calls tr1)).length ≤ R3 + max s3.q.budget (t.seenW - s3.q.cons.seenR) := by
    have h5 := le_max_right s3.q.budget (t.seenW - s3.q.cons.seenR)
    have h6 := si3.cseenR
    omega
  refine ⟨_, hst, ?_, fun hlt fn => ?_⟩
  · rw [hdel]; exact hb
  · have hst2 := Step.popCall (cfg := cfg) (fn := fn) (s := { s3.q with
        cons := s3.q.cons.learn t
        budget := max s3.q.budget (t.seenW - s3.q.cons.seenR) }) hf hidle (fun _ => by
      show 0 < max s3.q.budget (t.seenW - s3.q.cons.seenR)
      omega)
    have hst3 := SStep.call (s := ⟨{ s3.q with
        cons := s3.q.cons.learn t
        budget := max s3.q.budget (t.seenW - s3.q.cons.seenR) }, s3.mail⟩) hst2
    exact ⟨_, hst3, rfl⟩

/-- **C148** A signal makes the removals before it visible: if the consumer signals between two calls
and the producer waits for that signal, a later push reports "full" only if `N - 1` elements were
pushed beyond those removed before the signal, and a later `write_available()` of the producer
reports at least the room left by them. -/
theorem sync_push_fresh {k : Nat} (hk : cfg.max.toNat = 2 ^ k)
    (hcfg : cfg.debug = true ∨ cfg.disciplined = true) {s1 s2 s3 s4 s5 s6 : SState α}
    {tr1 tr2 tr3 : List (SEv α)} (h1 : SExec cfg tr1 s1)
    (hsig : SStep cfg s1 (some (.signal false true)) s2) (h23 : SSteps cfg s2 tr2 s3)
    (hw : SStep cfg s3 (some (.wait true s1.mail.length)) s4) (h45 : SSteps cfg s4 tr3 s5) :
    (∀ v, SStep cfg s5 (some (.call (.pushRet v false))) s6 →
      (delivered (calls tr1)).length + (cfg.max.toNat - 1) ≤
        (pushedOk (calls tr1 ++ calls tr2 ++ calls tr3)).length) ∧
    (∀ n, SStep cfg s5 (some (.call (.pWriteAvail n))) s6 →
      (delivered (calls tr1)).length + (cfg.max.toNat - 1) ≤
        (pushedOk (calls tr1 ++ calls tr2 ++ calls tr3)).length + n.toNat) := by
  have hpos : 0 < cfg.max.toNat := by rw [hk]; exact Nat.two_pow_pos k
  obtain ⟨e1, W1, R1, vals1, tP1, tC1, si1⟩ := sexec_inv hk hcfg h1
  have h2 := h1.step hsig
  obtain ⟨h3, _, hm⟩ := h23.grows hk hcfg h2
  have h4 := h3.step hw
  have hbt : ∃ b t, s2.mail[s1.mail.length]? = some (b, t) ∧
      (delivered (calls tr1)).length = t.seenR := by
    generalize hev : some (SEv.signal (α := α) false true) = ev at hsig
    cases hsig with
    | call hq => rename_i e0 _; cases e0; simp at hev
    | consSignal hf hu =>
      simp only [Option.some.injEq, SEv.signal.injEq, true_and] at hev
      exact ⟨false, s1.q.cons, by simp, by rw [si1.cseenR, si1.removed hev.symm]⟩
    | prodSignal => simp at hev
    | _ => simp at hev
  obtain ⟨b, t, ht, hR⟩ := hbt
  have ht3 := getElem?_prefix hm ht
  have hseen : t.seenR ≤ s4.q.prod.seenR := by
    generalize hev : some (SEv.wait (α := α) true s1.mail.length) = ev at hw
    cases hw with
    | call hq => rename_i e0 _; cases e0 <;> simp at hev
    | prodWait hf hu hmm =>
      simp only [Option.some.injEq, SEv.wait.injEq, true_and] at hev
      subst hev
      rw [ht3] at hmm
      simp only [Option.some.injEq, Prod.mk.injEq] at hmm
      obtain ⟨_, hmm⟩ := hmm
      subst hmm
      exact le_max_right _ _
    | _ => simp at hev
  obtain ⟨h5, g, _⟩ := h45.grows hk hcfg h4
  have hg := g.pr
  obtain ⟨e, W, R, vals, tP, tC, si⟩ := sexec_inv hk hcfg h5
  have hcalls : calls (tr1 ++ (some (SEv.signal (α := α) false true)).toList ++ tr2 ++
      (some (SEv.wait (α := α) true s1.mail.length)).toList ++ tr3) =
      calls tr1 ++ calls tr2 ++ calls tr3 := by
    simp [calls_append, calls]
  rw [← hcalls]
  have hrl := si.r_eq
  obtain ⟨b1, b2⟩ := si.inv.bounds
  have hroom := si.inv.room
  have hps := si.sim.prod.2.1
  have hve := si.inv.valsEq
  have hvl := si.inv.valsLen
  rw [← si.sim.ppc] at hve hvl
  have hpp := si.inv.ppc
  rw [← si.sim.ppc] at hpp
  constructor
  · intro v hq
    generalize hev : some (SEv.call (Ev.pushRet v false)) = ev at hq
    cases hq with
    | call hst =>
      rename_i e0 q'
      have he0 : e0 = some (.pushRet v false) := by
        cases e0 <;> simp at hev ⊢
        exact hev.symm
      subst he0
      generalize hev2 : some (Ev.pushRet v false) = ev2 at hst
      cases hst with
      | pushFull hf hpc hl hn =>
        obtain ⟨msg, m1, m2, m3, m4, _⟩ := loadR_some hl
        rw [hpc] at hve hvl hpp
        simp only [PPc.tail, PPc.extra, List.append_nil, Nat.add_zero, PPc.ok] at hve hvl hpp
        obtain ⟨te, l1, _, _, _, l3⟩ := loadR_sim si.sim si.sim.prod hl
        have := inv_prod hk si.inv (by rw [← si.sim.ppc]; exact hpc) l1
        rw [← hve, hvl]
        have hx := this.mp hn
        omega
      | popDestroy _ _ _ _ _ hx => rw [hx] at hev2; split at hev2 <;> simp at hev2
      | _ => simp at hev2
    | _ => simp at hev
  · intro n hq
    generalize hev : some (SEv.call (Ev.pWriteAvail (α := α) n)) = ev at hq
    cases hq with
    | call hst =>
      rename_i e0 q'
      have he0 : e0 = some (.pWriteAvail n) := by
        cases e0 <;> simp at hev ⊢
        exact hev.symm
      subst he0
      generalize hev2 : some (Ev.pWriteAvail (α := α) n) = ev2 at hst
      cases hst with
      | pWaLoadR hf hpc hl =>
        simp only [Option.some.injEq, Ev.pWriteAvail.injEq] at hev2
        obtain ⟨msg, m1, m2, m3, m4, _⟩ := loadR_some hl
        rw [hpc] at hve hvl hpp
        simp only [PPc.tail, PPc.extra, List.append_nil, Nat.add_zero, PPc.ok] at hve hvl hpp
        rw [hev2, m4, si.rval m1, hpp.2, writeAvail_idx hpos (by omega) (by omega), ← hve, hvl]
        omega
      | popDestroy _ _ _ _ _ hx => rw [hx] at hev2; split at hev2 <;> simp at hev2
      | _ => simp at hev2
    | _ => simp at hev

/-! ### C149 -/

/-- Elements destroyed in the current round of the loop. -/
def DPc.killed : DPc → Nat
  | .next => 1
  | .store _ => 1
  | _ => 0

/-- Where the destructor is after `n` steps and `k` complete rounds. -/
def DPc.ok (N W R n k : Nat) : DPc → Prop
  | .head => n = 6 * k
  | .cmp ri => ri = idx N (R + k) ∧ n = 6 * k + 1
  | .arg => R + k < W ∧ n = 6 * k + 2
  | .kill ri => ri = idx N (R + k) ∧ R + k < W ∧ n = 6 * k + 3
  | .next => n = 6 * k + 4
  | .store ri => ri = idx N (R + k + 1) ∧ n = 6 * k + 5
  | .done => R + k = W ∧ n = 6 * k + 2

/-- Invariant of the destructor. -/
structure DInv (N : Nat) (W R : Nat) (vals : List α) (n k : Nat) (x : DState α) : Prop where
  flt : x.q.fault = none
  wl : x.q.w.length = W + 1
  wv : ∀ m msg, x.q.w[m]? = some msg → msg.val = idx N m
  rl : x.q.r.length = R + k + 1
  rv : ∀ m msg, x.q.r[m]? = some msg → msg.val = idx N m
  dW : x.d.seenW = W
  dR : x.d.seenR = R + k
  last : ∀ i, (x.q.slots i).lastP ≤ x.d.clk.p ∧ (x.q.slots i).lastC ≤ x.d.clk.c
  le : R + k + x.pc.killed ≤ W
  out : x.out = (vals.drop R).take (k + x.pc.killed)
  live : ∀ j, R + k + x.pc.killed ≤ j → j < W →
    ∃ v, vals[j]? = some v ∧ (x.q.slots (j % N)).cell = some v
  dead : ∀ i, (∀ j, R + k + x.pc.killed ≤ j → j < W → j % N ≠ i) → (x.q.slots i).cell = none
  pc : x.pc.ok N W R n k

/-- A sequentially consistent load by a thread that has seen the newest message. -/
theorem loadR_last {q : State α} {t t' : Thread} {m L : Nat} {x : Size}
    (hl : loadR q t .acquire m = some (x, t')) (hL : q.r.length = L + 1) (hs : t.seenR = L) :
    m = L ∧ t'.seenR = L ∧ t'.seenW = t.seenW ∧ t.clk.p ≤ t'.clk.p ∧ t.clk.c ≤ t'.clk.c ∧
      ∃ msg, q.r[L]? = some msg ∧ x = msg.val := by
  obtain ⟨msg, h1, h2, h3, h4, h5, h6, h7⟩ := loadR_some hl
  have hm : m = L := by omega
  subst hm
  rw [if_pos rfl] at h7
  exact ⟨rfl, h5, h6, by rw [h7]; exact le_max_left _ _, by rw [h7]; exact le_max_left _ _, msg, h1,
    h4⟩

theorem loadW_last {q : State α} {t t' : Thread} {m L : Nat} {x : Size}
    (hl : loadW q t .acquire m = some (x, t')) (hL : q.w.length = L + 1) (hs : t.seenW = L) :
    m = L ∧ t'.seenW = L ∧ t'.seenR = t.seenR ∧ t.clk.p ≤ t'.clk.p ∧ t.clk.c ≤ t'.clk.c ∧
      ∃ msg, q.w[L]? = some msg ∧ x = msg.val := by
  obtain ⟨msg, h1, h2, h3, h4, h5, h6, h7⟩ := loadW_some hl
  have hm : m = L := by omega
  subst hm
  rw [if_pos rfl] at h7
  exact ⟨rfl, h5, h6, by rw [h7]; exact le_max_left _ _, by rw [h7]; exact le_max_left _ _, msg, h1,
    h4⟩

theorem dinv_step {max : Size} {l : Nat} (hk : max.toNat = 2 ^ l) {W R : Nat} {vals : List α}
    (hWR : W < R + max.toNat) {n k : Nat} {x y : DState α}
    (h : DInv max.toNat W R vals n k x) (hs : DStep max x y) :
    ∃ k', DInv max.toNat W R vals (n + 1) k' y := by
  have hpos : 0 < max.toNat := by rw [hk]; exact Nat.two_pow_pos l
  have hlt := max.isLt
  have hpc := h.pc
  have hlast := h.last
  have hle := h.le
  cases hs with
  | head hf hp hl =>
    obtain ⟨_, a1, a2, a3, a4, msg, a5, a6⟩ := loadR_last hl h.rl h.dR
    rw [hp] at hpc
    refine ⟨k, ⟨h.flt, h.wl, h.wv, h.rl, h.rv, a2.trans h.dW, a1, fun i => ?_, ?_, ?_, ?_, ?_, ?_⟩⟩
    · exact ⟨le_trans (hlast i).1 a3, le_trans (hlast i).2 a4⟩
    · simpa [hp, DPc.killed] using hle
    · simpa [hp, DPc.killed] using h.out
    · simpa [hp, DPc.killed] using h.live
    · simpa [hp, DPc.killed] using h.dead
    · simp only [DPc.ok] at hpc ⊢
      exact ⟨by rw [a6, h.rv _ _ a5], by omega⟩
  | leave hf hp hl heq =>
    obtain ⟨_, a1, a2, a3, a4, msg, a5, a6⟩ := loadW_last hl h.wl h.dW
    rw [hp] at hpc
    refine ⟨k, ⟨h.flt, h.wl, h.wv, h.rl, h.rv, a1, a2.trans h.dR, fun i => ?_, ?_, ?_, ?_, ?_, ?_⟩⟩
    · exact ⟨le_trans (hlast i).1 a3, le_trans (hlast i).2 a4⟩
    · simpa [hp, DPc.killed] using hle
    · simpa [hp, DPc.killed] using h.out
    · simpa [hp, DPc.killed] using h.live
    · simpa [hp, DPc.killed] using h.dead
    · simp only [DPc.ok, hp, DPc.killed] at hpc hle ⊢
      rw [hpc.1, a6, h.wv _ _ a5, idx_eq_iff hpos hlt] at heq
      exact ⟨idx_mod_inj heq (by omega) (by omega), by omega⟩
  | enter hf hp hl hne =>
    obtain ⟨_, a1, a2, a3, a4, msg, a5, a6⟩ := loadW_last hl h.wl h.dW
    rw [hp] at hpc
    refine ⟨k, ⟨h.flt, h.wl, h.wv, h.rl, h.rv, a1, a2.trans h.dR, fun i => ?_, ?_, ?_, ?_, ?_, ?_⟩⟩
    · exact ⟨le_trans (hlast i).1 a3, le_trans (hlast i).2 a4⟩
    · simpa [hp, DPc.killed] using hle
    · simpa [hp, DPc.killed] using h.out
    · simpa [hp, DPc.killed] using h.live
    · simpa [hp, DPc.killed] using h.dead
    · simp only [DPc.ok, hp, DPc.killed] at hpc hle ⊢
      refine ⟨?_, by omega⟩
      by_contra hc
      have hx : R + k = W := by omega
      rw [hpc.1, a6, h.wv _ _ a5, hx] at hne
      exact hne rfl
  | arg hf hp hl =>
    obtain ⟨_, a1, a2, a3, a4, msg, a5, a6⟩ := loadR_last hl h.rl h.dR
    rw [hp] at hpc
    refine ⟨k, ⟨h.flt, h.wl, h.wv, h.rl, h.rv, a2.trans h.dW, a1, fun i => ?_, ?_, ?_, ?_, ?_, ?_⟩⟩
    · exact ⟨le_trans (hlast i).1 a3, le_trans (hlast i).2 a4⟩
    · simpa [hp, DPc.killed] using hle
    · simpa [hp, DPc.killed] using h.out
    · simpa [hp, DPc.killed] using h.live
    · simpa [hp, DPc.killed] using h.dead
    · simp only [DPc.ok] at hpc ⊢
      exact ⟨by rw [a6, h.rv _ _ a5], hpc.1, by omega⟩
  | kill hf hp hlt' hcell hq1 hq2 =>
    rename_i ri v
    rw [hp] at hpc
    simp only [DPc.ok] at hpc
    obtain ⟨hri, hRk, hn⟩ := hpc
    have hri' : ri.toNat = (R + k) % max.toNat := by rw [hri, idx_toNat hpos hlt]
    have hlive := h.live
    have hdead := h.dead
    have hout := h.out
    simp only [hp, DPc.killed, Nat.add_zero] at hlive hdead hout
    obtain ⟨v', hv1, hv2⟩ := hlive (R + k) le_rfl hRk
    have hvv : v = v' := by
      rw [hri', hv2] at hcell
      exact (Option.some.inj hcell).symm
    refine ⟨k, ⟨h.flt, h.wl, h.wv, h.rl, h.rv, h.dW, h.dR, fun i => ?_, ?_, ?_, ?_, ?_, ?_⟩⟩
    · simp only [setSlot]
      split
      · exact hlast ri.toNat
      · exact hlast i
    · simp only [DPc.killed]; omega
    · simp only [DPc.killed]
      rw [hout, hvv, List.take_add_one, List.getElem?_drop, hv1]
      rfl
    · intro j h1 h2
      simp only [DPc.killed] at h1
      obtain ⟨u, u1, u2⟩ := hlive j (by omega) h2
      refine ⟨u, u1, ?_⟩
      simp only [setSlot]
      rw [if_neg]
      · exact u2
      · intro hc
        rw [hri'] at hc
        have := idx_mod_inj hc.symm (by omega) (by omega)
        omega
    · intro i hi
      simp only [DPc.killed] at hi
      simp only [setSlot]
      split
      · rfl
      · rename_i hne
        refine hdead i fun j h1 h2 => ?_
        rcases (by omega : j = R + k ∨ R + k + 1 ≤ j) with hj | hj
        · rw [hj, ← hri']; exact fun hc => hne hc.symm
        · exact hi j hj h2
    · simp only [DPc.ok]; omega
  | killBad hf hp hb =>
    rw [hp] at hpc
    simp only [DPc.ok] at hpc
    obtain ⟨hri, hRk, hn⟩ := hpc
    exfalso
    apply hb
    have hlive := h.live
    simp only [hp, DPc.killed, Nat.add_zero] at hlive
    obtain ⟨v', hv1, hv2⟩ := hlive (R + k) le_rfl hRk
    rw [hri, idx_toNat hpos hlt, hv2]
    exact ⟨Nat.mod_lt _ hpos, by simp⟩
  | killRace hf hp hb => exact absurd (hlast _) hb
  | next hf hp hl =>
    obtain ⟨_, a1, a2, a3, a4, msg, a5, a6⟩ := loadR_last hl h.rl h.dR
    rw [hp] at hpc
    refine ⟨k, ⟨h.flt, h.wl, h.wv, h.rl, h.rv, a2.trans h.dW, a1, fun i => ?_, ?_, ?_, ?_, ?_, ?_⟩⟩
    · exact ⟨le_trans (hlast i).1 a3, le_trans (hlast i).2 a4⟩
    · simpa [hp, DPc.killed] using hle
    · simpa [hp, DPc.killed] using h.out
    · simpa [hp, DPc.killed] using h.live
    · simpa [hp, DPc.killed] using h.dead
    · simp only [DPc.ok] at hpc ⊢
      exact ⟨by rw [a6, h.rv _ _ a5, nextIndex_idx hk], by omega⟩
  | store hf hp =>
    rename_i ri
    rw [hp] at hpc
    simp only [DPc.ok] at hpc
    have hrl := h.rl
    have hk1 : R + (k + 1) = R + k + 1 := by omega
    refine ⟨k + 1, ⟨h.flt, h.wl, h.wv, ?_, ?_, h.dW, ?_, hlast, ?_, ?_, ?_, ?_, ?_⟩⟩
    · simp only [List.length_append, List.length_cons, List.length_nil]; omega
    · intro m msg hm
      by_cases hml : m < x.q.r.length
      · simp only [List.getElem?_append_left hml] at hm
        exact h.rv m msg hm
      · simp only [List.getElem?_append_right (not_lt.mp hml)] at hm
        rcases hz : m - x.q.r.length with _ | z
        · rw [hz] at hm
          simp only [List.getElem?_cons_zero, Option.some.injEq] at hm
          rw [← hm, hpc.1, show m = R + k + 1 by omega]
        · rw [hz] at hm
          simp at hm
    · simp only; omega
    · simp only [hp, DPc.killed] at hle ⊢; omega
    · simpa [hp, DPc.killed] using h.out
    · have := h.live
      simp only [hp, DPc.killed] at this
      simpa [DPc.killed, hk1] using this
    · have := h.dead
      simp only [hp, DPc.killed] at this
      simpa [DPc.killed, hk1] using this
    · simp only [DPc.ok]; omega

theorem dinv_progress {max : Size} {l : Nat} (hk : max.toNat = 2 ^ l) {W R : Nat} {vals : List α}
    {n k : Nat} {x : DState α} (h : DInv max.toNat W R vals n k x) (hd : x.pc ≠ .done) :
    ∃ y, DStep max x y := by
  have hpos : 0 < max.toNat := by rw [hk]; exact Nat.two_pow_pos l
  have hlt := max.isLt
  have hrl := h.rl
  have hwl := h.wl
  have hdR := h.dR
  have hdW := h.dW
  have hl := loadR_ok (s := x.q) (t := x.d) (o := .acquire) (m := R + k) (by omega) (by omega)
  have hl2 := loadW_ok (s := x.q) (t := x.d) (o := .acquire) (m := W) (by omega) (by omega)
  cases hp : x.pc with
  | head => exact ⟨_, .head h.flt hp hl⟩
  | cmp ri =>
    by_cases he : ri = x.q.w[W].val
    · exact ⟨_, .leave h.flt hp hl2 he⟩
    · exact ⟨_, .enter h.flt hp hl2 he⟩
  | arg => exact ⟨_, .arg h.flt hp hl⟩
  | kill ri =>
    have hpc := h.pc
    have hlive := h.live
    rw [hp] at hpc
    simp only [hp, DPc.killed, Nat.add_zero] at hlive
    simp only [DPc.ok] at hpc
    obtain ⟨hri, hRk, _⟩ := hpc
    obtain ⟨v, _, hv⟩ := hlive (R + k) le_rfl hRk
    have hri' : ri.toNat = (R + k) % max.toNat := by rw [hri, idx_toNat hpos hlt]
    exact ⟨_, .kill h.flt hp (by rw [hri']; exact Nat.mod_lt _ hpos) (by rw [hri']; exact hv)
      (h.last _).1 (h.last _).2⟩
  | next => exact ⟨_, .next h.flt hp hl⟩
  | store ri => exact ⟨_, .store h.flt hp⟩
  | done => exact absurd hp hd

theorem drun_inv {max : Size} {l : Nat} (hk : max.toNat = 2 ^ l) {W R : Nat} {vals : List α}
    (hWR : W < R + max.toNat) {x : DState α}
    (h : DInv max.toNat W R vals 0 0 x) {n : Nat} {y : DState α} (hr : DRun max x n y) :
    ∃ k, DInv max.toNat W R vals n k y := by
  induction hr with
  | refl => exact ⟨0, h⟩
  | snoc _ hs ih =>
    obtain ⟨k, ih⟩ := ih
    exact dinv_step hk hWR ih hs

/-- **C149** Destroying the queue after the last call. Both threads are between calls and the
destroying thread `d` is ordered after both of them (it joined them, or is one of them and joined the
other). Then, after any number of steps of the destructor: there was no data race and no bad access;
the elements destroyed so far are the oldest of those pushed and not removed, in order; it is not
stuck; it stops after `6 r + 2` steps, where `r` elements were left; and when it stops, exactly the
elements left have been destroyed and no slot holds an element. -/
theorem destroy_after_join {k : Nat} (hk : cfg.max.toNat = 2 ^ k)
    (hcfg : cfg.debug = true ∨ cfg.disciplined = true) (h : SExec cfg tr s)
    (hf : s.q.fault = none) (hp : s.q.ppc = .idle) (hc : s.q.cpc = .idle) {d : Thread}
    (hdp : d.knows s.q.prod) (hdc : d.knows s.q.cons)
    (hW : d.seenW < s.q.w.length) (hR : d.seenR < s.q.r.length) {n : Nat} {x : DState α}
    (hr : DRun cfg.max (.start s.q d) n x) :
    x.q.fault = none ∧
    x.out <+: (pushedOk (calls tr)).drop (delivered (calls tr)).length ∧
    (x.pc ≠ .done → ∃ y, DStep cfg.max x y) ∧
    n ≤ 6 * ((pushedOk (calls tr)).length - (delivered (calls tr)).length) + 2 ∧
    (x.pc = .done →
      n = 6 * ((pushedOk (calls tr)).length - (delivered (calls tr)).length) + 2 ∧
      x.out = (pushedOk (calls tr)).drop (delivered (calls tr)).length ∧
      ∀ i, (x.q.slots i).cell = none) := by
  obtain ⟨e, W, R, vals, tP, tC, si⟩ := sexec_inv hk hcfg h
  obtain ⟨hpl, hpv⟩ := si.pushed (by rw [hp]; rfl)
  have hdl := si.removed (by rw [hc]; rfl)
  obtain ⟨b1, b2⟩ := si.inv.bounds
  have hw := si.w_eq
  have hrr := si.r_eq
  have h1 := si.pseenW
  have h2 := si.cseenR
  obtain ⟨p1, p2, p3, p4⟩ := hdp
  obtain ⟨c1, c2, c3, c4⟩ := hdc
  have hsl := si.inv.slots
  rw [← si.sim.cpc, ← si.sim.ppc, hp, hc] at hsl
  simp only [CPc.gone, PPc.extra, Nat.add_zero] at hsl
  have hd : DInv cfg.max.toNat W R vals 0 0 (.start s.q d) :=
    { flt := hf
      wl := hw
      wv := fun m msg hm => si.wval hm
      rl := by simpa [DState.start] using hrr
      rv := fun m msg hm => si.rval hm
      dW := by simp only [DState.start]; omega
      dR := by simp only [DState.start]; omega
      last := fun i => ⟨le_trans (si.sim.curP i) p1, le_trans (si.sim.curC i) c2⟩
      le := by simpa [DState.start, DPc.killed] using b1
      out := by simp [DState.start, DPc.killed]
      live := fun j h1 h2 => by
        simp only [DState.start, DPc.killed, Nat.add_zero] at h1 ⊢
        rw [si.sim.cell]
        exact hsl.live j h1 h2
      dead := fun i hi => by
        simp only [DState.start, DPc.killed, Nat.add_zero] at hi ⊢
        rw [si.sim.cell]
        exact hsl.dead i hi
      pc := rfl }
  obtain ⟨j, hx⟩ := drun_inv hk b2 hd hr
  have hle := hx.le
  have hpc := hx.pc
  rw [hpl, hpv, hdl]
  refine ⟨hx.flt, by rw [hx.out]; exact List.take_prefix _ _, dinv_progress hk hx, ?_, fun hdone => ?_⟩
  · cases hq : x.pc <;> rw [hq] at hpc hle <;> simp only [DPc.ok, DPc.killed] at hpc hle <;> omega
  · have ho := hx.out
    have hdd := hx.dead
    rw [hdone] at hpc ho hdd
    simp only [DPc.ok, DPc.killed, Nat.add_zero] at hpc ho hdd
    refine ⟨by omega, ?_, fun i => hdd i fun j h1 h2 => by omega⟩
    rw [ho, List.take_of_length_le]
    rw [List.length_drop, ← hpv, hpl]
    omega

/-! ### concrete executions -/

/-- The queue of four slots after `push(7)`. -/
abbrev exState (sl : Nat → Slot Nat) : State Nat :=
  ⟨[⟨0, ⟨0, 0⟩⟩, ⟨1, ⟨1, 0⟩⟩], [⟨0, ⟨0, 0⟩⟩], sl, ⟨⟨2, 0⟩, 1, 0⟩, ⟨⟨0, 1⟩, 0, 0⟩, .idle, .idle, 0, none⟩

/-- `push(7)` in a queue of four slots without assertions. -/
theorem exPush : ∃ sl : Nat → Slot Nat, SExec ⟨4, false, true⟩
      [.call (.pushCall 7), .call (.pushRet 7 true)] ⟨exState sl, []⟩ ∧
      sl 0 = ⟨some 7, 1, 0⟩ := by
  have e0 := SExec.init (α := Nat) (cfg := ⟨4, false, true⟩)
  have e1 := e0.step (.call (.pushCall (v := 7) rfl rfl))
  have e2 := e1.step (.call (.pushLoadW (m := 0) rfl rfl rfl))
  have e3 := e2.step (.call (.pushRoom (m := 0) rfl rfl rfl (by decide)))
  have e4 := e3.step (.call (.pushConstruct rfl rfl (by decide) rfl (Nat.le_refl 0)))
  have e5 := e4.step (.call (.pushStore rfl rfl))
  have e6 := e5.step (.call (.pushReturn rfl rfl))
  exact ⟨_, e6, rfl⟩

/-- The producer pushes and signals; the consumer waits and consumes without asking
`read_available()`; it is handed the element. -/
example : ∃ s1 : SState Nat, SExec ⟨4, false, true⟩
      [.call (.pushCall 7), .call (.pushRet 7 true), .signal true true, .wait false 0,
        .call (.got 7)] s1 ∧ s1.q.fault = none ∧ s1.q.cpc = .idle := by
  obtain ⟨sl, e6, h9⟩ := exPush
  have e7 := e6.step (.prodSignal rfl rfl)
  have e8 := e7.step (.consWait (i := 0) rfl rfl rfl)
  have e9 := e8.step (.call (.popCall (fn := true) rfl rfl (fun _ =>
    (by decide : 0 < max 0 (1 - 0)))))
  have e10 := e9.step (.call (.popLoadR (m := 0) rfl rfl rfl))
  have e11 := e10.step (.call (.consumeFn (v := 7) rfl rfl (by decide)
    (by show (sl 0).cell = some 7; rw [h9]) (by
      show (sl 0).lastP ≤ max 0 2; rw [h9]; decide)))
  have e12 := e11.step (.call (.popDestroy (e := none) rfl rfl (by decide)
    (by simp [setSlot, h9]) (by simp [setSlot, consOrdered, h9, Thread.learn, VC.join]) rfl))
  have e13 := e12.step (.call (.popStore rfl rfl))
  exact ⟨_, e13, rfl, rfl⟩

/-- **C149** The join is needed: a destroying thread that is ordered after the consumer but not after
the producer may still see the old write index; then it destroys nothing and the pushed element is
lost. -/
theorem destroy_without_join_leaks : ∃ (tr : List (SEv Nat)) (s : SState Nat) (d : Thread)
    (x : DState Nat) (n : Nat), SExec ⟨4, false, true⟩ tr s ∧ s.q.fault = none ∧
    s.q.ppc = .idle ∧ s.q.cpc = .idle ∧ d.knows s.q.cons ∧ ¬ d.knows s.q.prod ∧
    DRun 4 (.start s.q d) n x ∧ x.pc = .done ∧ x.out = [] ∧
    pushedOk (calls tr) = [7] ∧ delivered (calls tr) = [] ∧ (x.q.slots 0).cell = some 7 := by
  obtain ⟨sl, e6, h9⟩ := exPush
  have d0 : DRun 4 (.start (exState sl) ⟨⟨0, 1⟩, 0, 0⟩) 0
      (.start (exState sl) ⟨⟨0, 1⟩, 0, 0⟩) := .refl
  have d1 := d0.snoc (.head (m := 0) rfl rfl rfl)
  have d2 := d1.snoc (.leave (m := 0) rfl rfl rfl rfl)
  refine ⟨_, _, ⟨⟨0, 1⟩, 0, 0⟩, _, _, e6, rfl, rfl, rfl, ?_, ?_, d2, rfl, rfl, rfl, rfl, ?_⟩
  · simp [Thread.knows]
  · simp [Thread.knows]
  · show (sl 0).cell = some 7
    rw [h9]

/-- The hypotheses of `destroy_after_join` are met with an element left in the queue: the destructor
destroys it. -/
example : ∃ (tr : List (SEv Nat)) (s : SState Nat) (d : Thread) (x : DState Nat) (n : Nat),
    SExec ⟨4, false, true⟩ tr s ∧ s.q.fault = none ∧ s.q.ppc = .idle ∧ s.q.cpc = .idle ∧
    d.knows s.q.cons ∧ d.knows s.q.prod ∧ d.seenW < s.q.w.length ∧ d.seenR < s.q.r.length ∧
    DRun 4 (.start s.q d) n x ∧ x.pc = .done ∧ x.out = [7] ∧ n = 8 := by
  obtain ⟨sl, e6, h9⟩ := exPush
  have d0 : DRun 4 (.start (exState sl) ⟨⟨2, 1⟩, 1, 0⟩) 0
      (.start (exState sl) ⟨⟨2, 1⟩, 1, 0⟩) := .refl
  have d1 := d0.snoc (.head (m := 0) rfl rfl rfl)
  have d2 := d1.snoc (.enter (m := 1) rfl rfl rfl (by decide))
  have d3 := d2.snoc (.arg (m := 0) rfl rfl rfl)
  have d4 := d3.snoc (.kill (v := 7) rfl rfl (by decide)
    (by show (sl 0).cell = some 7; rw [h9]) (by show (sl 0).lastP ≤ 2; rw [h9]; decide)
    (by show (sl 0).lastC ≤ 1; rw [h9]; decide))
  have d5 := d4.snoc (.next (m := 0) rfl rfl rfl)
  have d6 := d5.snoc (.store rfl rfl)
  have d7 := d6.snoc (.head (m := 1) rfl rfl rfl)
  have d8 := d7.snoc (.leave (m := 1) rfl rfl rfl (show nextIndex 4 0 = 1 by decide))
  refine ⟨_, _, ⟨⟨2, 1⟩, 1, 0⟩, _, _, e6, rfl, rfl, rfl, ?_, ?_, ?_, ?_, d8, rfl, rfl, rfl⟩
  · simp [Thread.knows]
  · simp [Thread.knows]
  · exact (by decide : 1 < 2)
  · exact (by decide : 0 < 1)

end Verif.SPSC.Conc
