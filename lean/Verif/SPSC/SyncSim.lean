import Verif.SPSC.Sync
import Verif.SPSC.ConcProps

/-! Every execution with external synchronisation is, up to clocks, an execution without it (helper
lemmas; the property theorems are in `Verif/SPSC/SyncProps.lean`). -/

set_option autoImplicit false

namespace Verif.SPSC.Conc

variable {α : Type} {cfg : Cfg}

/-- The clock `a` (with synchronisation) covers what `b` (without) covers; `tP k`, `tC k` are the last
epochs of the former that belong to epoch `k` of the latter. -/
def Cov (tP tC : Nat → Nat) (P C : Nat) (b a : VC) : Prop :=
  (∀ k, k ≤ b.p → k < P → tP k ≤ a.p) ∧ (∀ k, k ≤ b.c → k < C → tC k ≤ a.c)

theorem Cov.join {tP tC : Nat → Nat} {P C : Nat} {b a b' a' : VC} (h : Cov tP tC P C b a)
    (h' : Cov tP tC P C b' a') : Cov tP tC P C (b.join b') (a.join a') := by
  constructor
  · intro k hk hP
    simp only [VC.join] at hk ⊢
    rcases le_max_iff.mp hk with hk | hk
    · exact le_max_of_le_left (h.1 k hk hP)
    · exact le_max_of_le_right (h'.1 k hk hP)
  · intro k hk hP
    simp only [VC.join] at hk ⊢
    rcases le_max_iff.mp hk with hk | hk
    · exact le_max_of_le_left (h.2 k hk hP)
    · exact le_max_of_le_right (h'.2 k hk hP)

theorem Cov.mono {tP tC : Nat → Nat} {P C : Nat} {b a a' : VC} (h : Cov tP tC P C b a)
    (hp : a.p ≤ a'.p) (hc : a.c ≤ a'.c) : Cov tP tC P C b a' :=
  ⟨fun k h1 h2 => le_trans (h.1 k h1 h2) hp, fun k h1 h2 => le_trans (h.2 k h1 h2) hc⟩

/-- A thread with synchronisation knows at least what it knows without. -/
def TCov (tP tC : Nat → Nat) (P C : Nat) (te tS : Thread) : Prop :=
  te.seenW ≤ tS.seenW ∧ te.seenR ≤ tS.seenR ∧ Cov tP tC P C te.clk tS.clk

/-- The two modification orders agree on the values and the views are covered. -/
def MCov (tP tC : Nat → Nat) (P C : Nat) (e S : List Msg) : Prop :=
  S.length = e.length ∧ ∀ (m : Nat) (a b : Msg), S[m]? = some a → e[m]? = some b →
    a.val = b.val ∧ Cov tP tC P C b.view a.view

/-- The state with synchronisation simulates the state without. -/
structure Sim (S e : State α) (tP tC : Nat → Nat) : Prop where
  w : MCov tP tC e.w.length e.r.length e.w S.w
  r : MCov tP tC e.w.length e.r.length e.r S.r
  cell : ∀ i, (S.slots i).cell = (e.slots i).cell
  curP : ∀ i, (S.slots i).lastP ≤ S.prod.clk.p
  curC : ∀ i, (S.slots i).lastC ≤ S.cons.clk.c
  lastP : ∀ i, (e.slots i).lastP < e.w.length → (S.slots i).lastP ≤ tP (e.slots i).lastP
  lastC : ∀ i, (e.slots i).lastC < e.r.length → (S.slots i).lastC ≤ tC (e.slots i).lastC
  prod : TCov tP tC e.w.length e.r.length e.prod S.prod
  cons : TCov tP tC e.w.length e.r.length e.cons S.cons
  ppc : S.ppc = e.ppc
  cpc : S.cpc = e.cpc
  budget : S.budget ≤ e.budget
  fault : S.fault = e.fault

theorem loadW_sim {S e : State α} {tP tC : Nat → Nat} (h : Sim S e tP tC) {te tS t' : Thread}
    (ht : TCov tP tC e.w.length e.r.length te tS) {o : Order} {m : Nat} {x : Size}
    (hl : loadW S tS o m = some (x, t')) :
    ∃ te', loadW e te o m = some (x, te') ∧ TCov tP tC e.w.length e.r.length te' t' ∧
      tS.clk.p ≤ t'.clk.p ∧ tS.clk.c ≤ t'.clk.c ∧ te.seenW ≤ m := by
  obtain ⟨msg, h1, h2, h3, h4, h5, h6, h7⟩ := loadW_some hl
  have hm : m < e.w.length := by rw [← h.w.1]; exact h3
  obtain ⟨a, b⟩ := h.w.2 m msg e.w[m] h1 (List.getElem?_eq_getElem hm)
  have hs : te.seenW ≤ m := le_trans ht.1 h2
  refine ⟨{ te with seenW := m, clk := if o = .acquire then te.clk.join e.w[m].view else te.clk },
    ?_, ⟨?_, ?_, ?_⟩, ?_, ?_, hs⟩
  · unfold loadW
    rw [List.getElem?_eq_getElem hm]
    simp only [hs, if_true]
    rw [h4, a]
  · rw [h5]
  · rw [h6]; exact ht.2.1
  · rw [h7]
    dsimp only
    split
    · exact ht.2.2.join b
    · exact ht.2.2
  · rw [h7]; split
    · exact le_max_left _ _
    · exact le_rfl
  · rw [h7]; split
    · exact le_max_left _ _
    · exact le_rfl

theorem loadR_sim {S e : State α} {tP tC : Nat → Nat} (h : Sim S e tP tC) {te tS t' : Thread}
    (ht : TCov tP tC e.w.length e.r.length te tS) {o : Order} {m : Nat} {x : Size}
    (hl : loadR S tS o m = some (x, t')) :
    ∃ te', loadR e te o m = some (x, te') ∧ TCov tP tC e.w.length e.r.length te' t' ∧
      tS.clk.p ≤ t'.clk.p ∧ tS.clk.c ≤ t'.clk.c ∧ te.seenR ≤ m := by
  obtain ⟨msg, h1, h2, h3, h4, h5, h6, h7⟩ := loadR_some hl
  have hm : m < e.r.length := by rw [← h.r.1]; exact h3
  obtain ⟨a, b⟩ := h.r.2 m msg e.r[m] h1 (List.getElem?_eq_getElem hm)
  have hs : te.seenR ≤ m := le_trans ht.2.1 h2
  refine ⟨{ te with seenR := m, clk := if o = .acquire then te.clk.join e.r[m].view else te.clk },
    ?_, ⟨?_, ?_, ?_⟩, ?_, ?_, hs⟩
  · unfold loadR
    rw [List.getElem?_eq_getElem hm]
    simp only [hs, if_true]
    rw [h4, a]
  · rw [h6]; exact ht.1
  · rw [h5]
  · rw [h7]
    dsimp only
    split
    · exact ht.2.2.join b
    · exact ht.2.2
  · rw [h7]; split
    · exact le_max_left _ _
    · exact le_rfl
  · rw [h7]; split
    · exact le_max_left _ _
    · exact le_rfl

/-! ### what a state change keeps -/

theorem Sim.setP {S e : State α} {tP tC : Nat → Nat} (h : Sim S e tP tC) {te tS : Thread}
    (ht : TCov tP tC e.w.length e.r.length te tS) (hp : S.prod.clk.p ≤ tS.clk.p) (pc : PPc α) :
    Sim { S with prod := tS, ppc := pc } { e with prod := te, ppc := pc } tP tC :=
  { h with curP := fun i => le_trans (h.curP i) hp, prod := ht, ppc := rfl }

theorem Sim.setC {S e : State α} {tP tC : Nat → Nat} (h : Sim S e tP tC) {te tS : Thread}
    (ht : TCov tP tC e.w.length e.r.length te tS) (hp : S.cons.clk.c ≤ tS.clk.c) (pc : CPc α)
    {b b' : Nat} (hb : b ≤ b') :
    Sim { S with cons := tS, cpc := pc, budget := b }
      { e with cons := te, cpc := pc, budget := b' } tP tC :=
  { h with curC := fun i => le_trans (h.curC i) hp, cons := ht, cpc := rfl, budget := hb }

theorem Sim.slot {S e : State α} {tP tC : Nat → Nat} (h : Sim S e tP tC) (i : Nat)
    {a b : Slot α} (h1 : a.cell = b.cell) (h2 : a.lastP ≤ S.prod.clk.p)
    (h3 : a.lastC ≤ S.cons.clk.c) (h4 : b.lastP < e.w.length → a.lastP ≤ tP b.lastP)
    (h5 : b.lastC < e.r.length → a.lastC ≤ tC b.lastC) :
    Sim (setSlot S i a) (setSlot e i b) tP tC :=
  { h with
    cell := fun j => by simp only [setSlot]; split <;> [exact h1; exact h.cell j]
    curP := fun j => by simp only [setSlot]; split <;> [exact h2; exact h.curP j]
    curC := fun j => by simp only [setSlot]; split <;> [exact h3; exact h.curC j]
    lastP := fun j => by simp only [setSlot]; split <;> [exact h4; exact h.lastP j]
    lastC := fun j => by simp only [setSlot]; split <;> [exact h5; exact h.lastC j] }

/-- A new epoch of the producer. -/
theorem Cov.bumpP {tP tC : Nat → Nat} {P C : Nat} {b a : VC} (h : Cov tP tC P C b a) (hb : b.p < P)
    (x : Nat) : Cov (fun k => if k = P then x else tP k) tC (P + 1) C b a :=
  ⟨fun k h1 _ => by beta_reduce; rw [if_neg (by omega)]; exact h.1 k h1 (by omega), h.2⟩

theorem Cov.bumpC {tP tC : Nat → Nat} {P C : Nat} {b a : VC} (h : Cov tP tC P C b a) (hb : b.c < C)
    (x : Nat) : Cov tP (fun k => if k = C then x else tC k) P (C + 1) b a :=
  ⟨h.1, fun k h1 _ => by beta_reduce; rw [if_neg (by omega)]; exact h.2 k h1 (by omega)⟩

theorem MCov.snoc {tP tC : Nat → Nat} {P C : Nat} {e S : List Msg} (h : MCov tP tC P C e S)
    {a b : Msg} (hv : a.val = b.val) (hc : Cov tP tC P C b.view a.view) :
    MCov tP tC P C (e ++ [b]) (S ++ [a]) := by
  refine ⟨by simp [h.1], fun m x y hx hy => ?_⟩
  by_cases hm : m < e.length
  · rw [List.getElem?_append_left (by rw [h.1]; exact hm)] at hx
    rw [List.getElem?_append_left hm] at hy
    exact h.2 m x y hx hy
  · rw [List.getElem?_append_right (by rw [h.1]; omega)] at hx
    rw [List.getElem?_append_right (by omega)] at hy
    rw [h.1] at hx
    rcases hz : m - e.length with _ | z
    · rw [hz] at hx hy
      simp only [List.getElem?_cons_zero, Option.some.injEq] at hx hy
      subst hx hy
      exact ⟨hv, hc⟩
    · rw [hz] at hx
      simp at hx

theorem MCov.imp {tP tC tP' tC' : Nat → Nat} {P C P' C' : Nat} {e S : List Msg}
    (h : MCov tP tC P C e S)
    (hi : ∀ (m : Nat) (b : Msg) (a : VC), e[m]? = some b → Cov tP tC P C b.view a → Cov tP' tC' P' C' b.view a) :
    MCov tP' tC' P' C' e S :=
  ⟨h.1, fun m a b ha hb => ⟨(h.2 m a b ha hb).1, hi m b a.view hb (h.2 m a b ha hb).2⟩⟩

theorem Inv.ordP {tr : List (Ev α)} {e : State α} {W R : Nat} {vals : List α}
    (i : Inv cfg tr e W R vals) {S : State α} {tP tC : Nat → Nat} (h : Sim S e tP tC) (j : Nat)
    (ho : consOrdered e j) : consOrdered S j := by
  unfold consOrdered at ho ⊢
  have h1 := i.cclkP
  have h2 := i.wlen
  exact le_trans (h.lastP j (by omega)) (h.cons.2.2.1 _ ho (by omega))

theorem Inv.ordC {tr : List (Ev α)} {e : State α} {W R : Nat} {vals : List α}
    (i : Inv cfg tr e W R vals) {S : State α} {tP tC : Nat → Nat} (h : Sim S e tP tC) (j : Nat)
    (ho : prodOrdered e j) : prodOrdered S j := by
  unfold prodOrdered at ho ⊢
  have h1 := i.pclkC
  have h2 := i.rlen
  exact le_trans (h.lastC j (by omega)) (h.prod.2.2.2 _ ho (by omega))

theorem Sim.storeW {tr : List (Ev α)} {S e : State α} {tP tC : Nat → Nat} {W R : Nat}
    {vals : List α} (i : Inv cfg tr e W R vals) (h : Sim S e tP tC) (v : Size) :
    Sim (storeW S .release v) (storeW e .release v)
      (fun k => if k = e.w.length then S.prod.clk.p else tP k) tC := by
  have hw := i.wlen
  have hr := i.rlen
  have hlen : (Conc.storeW e .release v).w.length = e.w.length + 1 := by simp [Conc.storeW]
  have hlen2 : (Conc.storeW e .release v).r.length = e.r.length := rfl
  have hcov : ∀ k, k ≤ e.prod.clk.p → k < e.w.length + 1 →
      (if k = e.w.length then S.prod.clk.p else tP k) ≤ S.prod.clk.p := by
    intro k h1 h2
    split
    · exact le_rfl
    · exact h.prod.2.2.1 k h1 (by omega)
  exact {
    w := by
      rw [hlen, hlen2]
      refine MCov.snoc (h.w.imp fun m b a hb hc => hc.bumpP ?_ _) rfl ?_
      · have := (i.wmsg m b hb).2.1
        have := (List.getElem?_eq_some_iff.mp hb).1
        omega
      · simp only [if_true]
        exact ⟨hcov, h.prod.2.2.2⟩
    r := by
      rw [hlen, hlen2]
      refine h.r.imp fun m b a hb hc => hc.bumpP ?_ _
      have := (i.rmsg m b hb).2.2
      omega
    cell := h.cell
    curP := fun j => by
      simp only [Conc.storeW, if_true]
      exact le_trans (h.curP j) (Nat.le_succ _)
    curC := h.curC
    lastP := fun j hj => by
      simp only [Conc.storeW]
      split
      · exact h.curP j
      · rename_i hne
        rw [hlen] at hj
        simp only [Conc.storeW] at hj
        exact h.lastP j (by omega)
    lastC := h.lastC
    prod := by
      rw [hlen, hlen2]
      refine ⟨?_, h.prod.2.1, ?_⟩
      · simp only [Conc.storeW]
        exact le_of_eq h.w.1.symm
      · simp only [Conc.storeW, if_true]
        refine ⟨fun k h1 h2 => ?_, h.prod.2.2.2⟩
        beta_reduce
        dsimp only
        by_cases hk : k = e.w.length
        · rw [if_pos hk]; exact Nat.le_succ _
        · rw [if_neg hk]
          have hp := i.pclkP
          have h3 := h.prod.2.2.1 k (by omega) (by omega)
          exact le_trans h3 (Nat.le_succ _)
    cons := by
      rw [hlen, hlen2]
      refine ⟨h.cons.1, h.cons.2.1, h.cons.2.2.bumpP ?_ _⟩
      have := i.cclkP
      omega
    ppc := h.ppc
    cpc := h.cpc
    budget := h.budget
    fault := h.fault }

theorem Sim.storeR {tr : List (Ev α)} {S e : State α} {tP tC : Nat → Nat} {W R : Nat}
    {vals : List α} (i : Inv cfg tr e W R vals) (h : Sim S e tP tC) (v : Size) :
    Sim (storeR S .release v) (storeR e .release v) tP
      (fun k => if k = e.r.length then S.cons.clk.c else tC k) := by
  have hw := i.wlen
  have hr := i.rlen
  have hlen : (Conc.storeR e .release v).r.length = e.r.length + 1 := by simp [Conc.storeR]
  have hlen2 : (Conc.storeR e .release v).w.length = e.w.length := rfl
  have hcov : ∀ k, k ≤ e.cons.clk.c → k < e.r.length + 1 →
      (if k = e.r.length then S.cons.clk.c else tC k) ≤ S.cons.clk.c := by
    intro k h1 h2
    split
    · exact le_rfl
    · exact h.cons.2.2.2 k h1 (by omega)
  exact {
    r := by
      rw [hlen, hlen2]
      refine MCov.snoc (h.r.imp fun m b a hb hc => hc.bumpC ?_ _) rfl ?_
      · have := (i.rmsg m b hb).2.1
        have := (List.getElem?_eq_some_iff.mp hb).1
        omega
      · simp only [if_true]
        exact ⟨h.cons.2.2.1, hcov⟩
    w := by
      rw [hlen, hlen2]
      refine h.w.imp fun m b a hb hc => hc.bumpC ?_ _
      have := (i.wmsg m b hb).2.2
      omega
    cell := h.cell
    curC := fun j => by
      simp only [Conc.storeR, if_true]
      exact le_trans (h.curC j) (Nat.le_succ _)
    curP := h.curP
    lastC := fun j hj => by
      simp only [Conc.storeR]
      split
      · exact h.curC j
      · rename_i hne
        rw [hlen] at hj
        simp only [Conc.storeR] at hj
        exact h.lastC j (by omega)
    lastP := h.lastP
    cons := by
      rw [hlen, hlen2]
      refine ⟨h.cons.1, ?_, ?_⟩
      · simp only [Conc.storeR]
        exact le_of_eq h.r.1.symm
      · simp only [Conc.storeR, if_true]
        refine ⟨h.cons.2.2.1, fun k h1 h2 => ?_⟩
        beta_reduce
        dsimp only
        by_cases hk : k = e.r.length
        · rw [if_pos hk]; exact Nat.le_succ _
        · rw [if_neg hk]
          have hp := i.cclkC
          have h3 := h.cons.2.2.2 k (by omega) (by omega)
          exact le_trans h3 (Nat.le_succ _)
    prod := by
      rw [hlen, hlen2]
      refine ⟨h.prod.1, h.prod.2.1, h.prod.2.2.bumpC ?_ _⟩
      have := i.pclkC
      omega
    ppc := h.ppc
    cpc := h.cpc
    budget := h.budget
    fault := h.fault }

/-! ### the simulation -/

/-- A step of the queue with synchronisation is a step without. -/
theorem sim_step {k : Nat} (hk : cfg.max.toNat = 2 ^ k)
    (hcfg : cfg.debug = true ∨ cfg.disciplined = true) {tr : List (Ev α)} {S S' e : State α}
    {tP tC : Nat → Nat} {W R : Nat} {vals : List α} (i : Inv cfg tr e W R vals)
    (h : Sim S e tP tC) {ev : Option (Ev α)} (hs : Step cfg S ev S') :
    ∃ e' tP' tC', Step cfg e ev e' ∧ Sim S' e' tP' tC' ∧
      (∀ k, k < e.w.length → tP' k = tP k) ∧ e.w.length ≤ e'.w.length := by
  have hw := i.wlen
  have hr := i.rlen
  have hnorace : ∀ {e' : State α} {ev' : Option (Ev α)}, Step cfg e ev' e' →
      e'.fault ≠ some .race :=
    fun hst => by
      obtain ⟨W', R', vals', i'⟩ := inv_step hk hcfg i hst
      rcases i'.flt with h1 | ⟨h1, _⟩ <;> rw [h1] <;> simp
  have hsame : ∀ {e' S' : State α} {tC' : Nat → Nat} {ev' : Option (Ev α)}, Step cfg e ev' e' →
      e'.w = e.w → Sim S' e' tP tC' → ∃ e' tP' tC', Step cfg e ev' e' ∧ Sim S' e' tP' tC' ∧
      (∀ k, k < e.w.length → tP' k = tP k) ∧ e.w.length ≤ e'.w.length :=
    fun h1 h2 h3 => ⟨_, _, _, h1, h3, fun _ _ => rfl, by rw [h2]⟩
  cases hs with
  | pushCall hf hpc =>
    exact hsame (.pushCall (h.fault ▸ hf) (h.ppc ▸ hpc)) rfl
      (h.setP h.prod le_rfl _)
  | pushLoadW hf hpc hl =>
    obtain ⟨te, h1, h2, h3, _⟩ := loadW_sim h h.prod hl
    exact hsame (.pushLoadW (h.fault ▸ hf) (h.ppc ▸ hpc) h1) rfl
      (h.setP h2 h3 _)
  | pushFull hf hpc hl hn =>
    obtain ⟨te, h1, h2, h3, _⟩ := loadR_sim h h.prod hl
    exact hsame (.pushFull (h.fault ▸ hf) (h.ppc ▸ hpc) h1 hn) rfl
      (h.setP h2 h3 _)
  | pushRoom hf hpc hl hn =>
    obtain ⟨te, h1, h2, h3, _⟩ := loadR_sim h h.prod hl
    exact hsame (.pushRoom (h.fault ▸ hf) (h.ppc ▸ hpc) h1 hn) rfl
      (h.setP h2 h3 _)
  | pushConstructThrows hf hpc =>
    exact hsame (.pushConstructThrows (h.fault ▸ hf) (h.ppc ▸ hpc)) rfl
      (h.setP h.prod le_rfl _)
  | pushConstruct hf hpc hlt hc ho =>
    rename_i v wi
    have ho' : prodOrdered e wi.toNat := by
      by_contra hno
      exact hnorace (.pushConstructRace (h.fault ▸ hf) (h.ppc ▸ hpc) hno) rfl
    refine hsame (tC' := tC) (.pushConstruct (h.fault ▸ hf) (h.ppc ▸ hpc) hlt
      ((h.cell _).symm.trans hc) ho') rfl ?_
    have hp := i.pclkP
    have := (h.slot wi.toNat (a := { S.slots wi.toNat with cell := some v, lastP := S.prod.clk.p })
      (b := { e.slots wi.toNat with cell := some v, lastP := e.prod.clk.p }) rfl le_rfl
      (h.curC _) (fun hx => by dsimp only at hx; omega) (h.lastC _))
    exact this.setP this.prod le_rfl _
  | pushConstructBad hf hpc hb =>
    exact hsame (.pushConstructBad (h.fault ▸ hf) (h.ppc ▸ hpc) (by rw [← h.cell]; exact hb)) rfl
      ({ h with fault := rfl })
  | pushConstructRace hf hpc hb =>
    exact hsame (.pushConstructRace (h.fault ▸ hf) (h.ppc ▸ hpc)
      (fun ho => hb (i.ordC h _ ho))) rfl
      ({ h with fault := rfl })
  | pushStore hf hpc =>
    refine ⟨_, fun k => if k = e.w.length then S.prod.clk.p else tP k, tC,
      .pushStore (h.fault ▸ hf) (h.ppc ▸ hpc), ?_, fun k hk => if_neg (by omega),
      by simp [storeW]⟩
    have := h.storeW i
    exact (this _).setP (this _).prod le_rfl _
  | pushReturn hf hpc =>
    exact hsame (.pushReturn (h.fault ▸ hf) (h.ppc ▸ hpc)) rfl
      (h.setP h.prod le_rfl _)
  | pWaCall hf hpc =>
    exact hsame (.pWaCall (h.fault ▸ hf) (h.ppc ▸ hpc)) rfl
      (h.setP h.prod le_rfl _)
  | pWaLoadW hf hpc hl =>
    obtain ⟨te, h1, h2, h3, _⟩ := loadW_sim h h.prod hl
    exact hsame (.pWaLoadW (h.fault ▸ hf) (h.ppc ▸ hpc) h1) rfl
      (h.setP h2 h3 _)
  | pWaLoadR hf hpc hl =>
    obtain ⟨te, h1, h2, h3, _⟩ := loadR_sim h h.prod hl
    exact hsame (.pWaLoadR (h.fault ▸ hf) (h.ppc ▸ hpc) h1) rfl
      (h.setP h2 h3 _)
  | pRaCall hf hpc =>
    exact hsame (.pRaCall (h.fault ▸ hf) (h.ppc ▸ hpc)) rfl
      (h.setP h.prod le_rfl _)
  | pRaLoadW hf hpc hl =>
    obtain ⟨te, h1, h2, h3, _⟩ := loadW_sim h h.prod hl
    exact hsame (.pRaLoadW (h.fault ▸ hf) (h.ppc ▸ hpc) h1) rfl
      (h.setP h2 h3 _)
  | pRaLoadR hf hpc hl =>
    obtain ⟨te, h1, h2, h3, _⟩ := loadR_sim h h.prod hl
    exact hsame (.pRaLoadR (h.fault ▸ hf) (h.ppc ▸ hpc) h1) rfl
      (h.setP h2 h3 _)
  | popCall hf hpc hb =>
    have hbud := h.budget
    exact hsame (.popCall (h.fault ▸ hf) (h.cpc ▸ hpc) (fun hd => by have := hb hd; omega)) rfl
      (h.setC h.cons le_rfl _ (by omega))
  | popLoadR hf hpc hl =>
    obtain ⟨te, h1, h2, _, h3, _⟩ := loadR_sim h h.cons hl
    exact hsame (.popLoadR (h.fault ▸ hf) (h.cpc ▸ hpc) h1) rfl
      (h.setC h2 h3 _ h.budget)
  | popAssertFails hf hpc hl hn =>
    obtain ⟨te, h1, h2, _, h3, _⟩ := loadW_sim h h.cons hl
    have := h.setC h2 h3 S.cpc h.budget
    exact hsame (.popAssertFails (h.fault ▸ hf) (h.cpc ▸ hpc) h1 hn) rfl
      ({ this with fault := rfl, cpc := h.cpc })
  | popAssertHolds hf hpc hl hn =>
    obtain ⟨te, h1, h2, _, h3, _⟩ := loadW_sim h h.cons hl
    exact hsame (.popAssertHolds (h.fault ▸ hf) (h.cpc ▸ hpc) h1 hn) rfl
      (h.setC h2 h3 _ h.budget)
  | consumeFn hf hpc hlt hc ho =>
    rename_i ri v
    have ho' : consOrdered e ri.toNat := by
      by_contra hno
      exact hnorace (.consumeFnRace (h.fault ▸ hf) (h.cpc ▸ hpc) hno) rfl
    refine hsame (tC' := tC) (.consumeFn (h.fault ▸ hf) (h.cpc ▸ hpc) hlt
      ((h.cell _).symm.trans hc) ho') rfl ?_
    have hp := i.cclkC
    have := (h.slot ri.toNat (a := { S.slots ri.toNat with lastC := S.cons.clk.c })
      (b := { e.slots ri.toNat with lastC := e.cons.clk.c }) (h.cell _) (h.curP _) le_rfl
      (h.lastP _) (fun hx => by dsimp only at hx; omega))
    exact this.setC this.cons le_rfl _ this.budget
  | consumeFnThrows hf hpc hlt hc ho =>
    rename_i ri v
    have ho' : consOrdered e ri.toNat := by
      by_contra hno
      exact hnorace (.consumeFnRace (h.fault ▸ hf) (h.cpc ▸ hpc) hno) rfl
    refine hsame (tC' := tC) (.consumeFnThrows (h.fault ▸ hf) (h.cpc ▸ hpc) hlt
      ((h.cell _).symm.trans hc) ho') rfl ?_
    have hp := i.cclkC
    have := (h.slot ri.toNat (a := { S.slots ri.toNat with lastC := S.cons.clk.c })
      (b := { e.slots ri.toNat with lastC := e.cons.clk.c }) (h.cell _) (h.curP _) le_rfl
      (h.lastP _) (fun hx => by dsimp only at hx; omega))
    exact this.setC this.cons le_rfl _ this.budget
  | consumeFnBad hf hpc hb =>
    exact hsame (.consumeFnBad (h.fault ▸ hf) (h.cpc ▸ hpc) (by rw [← h.cell]; exact hb)) rfl
      ({ h with fault := rfl })
  | consumeFnRace hf hpc hb =>
    exact hsame (.consumeFnRace (h.fault ▸ hf) (h.cpc ▸ hpc)
      (fun ho => hb (i.ordP h _ ho))) rfl
      ({ h with fault := rfl })
  | popDestroy hf hpc hlt hc ho hev =>
    rename_i fn ri
    have ho' : consOrdered e ri.toNat := by
      by_contra hno
      exact hnorace (.popDestroyRace (h.fault ▸ hf) (h.cpc ▸ hpc) hno) rfl
    refine hsame (tC' := tC) (.popDestroy (h.fault ▸ hf) (h.cpc ▸ hpc) hlt
      (by rw [← h.cell]; exact hc) ho' hev) rfl ?_
    have hp := i.cclkC
    have := (h.slot ri.toNat (a := { S.slots ri.toNat with cell := none, lastC := S.cons.clk.c })
      (b := { e.slots ri.toNat with cell := none, lastC := e.cons.clk.c }) rfl (h.curP _) le_rfl
      (h.lastP _) (fun hx => by dsimp only at hx; omega))
    exact this.setC this.cons le_rfl _ this.budget
  | popDestroyBad hf hpc hb =>
    exact hsame (.popDestroyBad (h.fault ▸ hf) (h.cpc ▸ hpc) (by rw [← h.cell]; exact hb)) rfl
      ({ h with fault := rfl })
  | popDestroyRace hf hpc hb =>
    exact hsame (.popDestroyRace (h.fault ▸ hf) (h.cpc ▸ hpc)
      (fun ho => hb (i.ordP h _ ho))) rfl
      ({ h with fault := rfl })
  | popStore hf hpc =>
    refine hsame (.popStore (h.fault ▸ hf) (h.cpc ▸ hpc)) rfl
      (tC' := fun k => if k = e.r.length then S.cons.clk.c else tC k) ?_
    have := h.storeR i
    exact (this _).setC (this _).cons le_rfl _ (this _).budget
  | cRaCall hf hpc =>
    exact hsame (.cRaCall (h.fault ▸ hf) (h.cpc ▸ hpc)) rfl
      (h.setC h.cons le_rfl _ h.budget)
  | cRaLoadW hf hpc hl =>
    obtain ⟨te, h1, h2, _, h3, _⟩ := loadW_sim h h.cons hl
    exact hsame (.cRaLoadW (h.fault ▸ hf) (h.cpc ▸ hpc) h1) rfl
      (h.setC h2 h3 _ h.budget)
  | cRaLoadR hf hpc hl =>
    obtain ⟨te, h1, h2, _, h3, _⟩ := loadR_sim h h.cons hl
    exact hsame (.cRaLoadR (h.fault ▸ hf) (h.cpc ▸ hpc) h1) rfl
      (h.setC h2 h3 _ le_rfl)
  | cWaCall hf hpc =>
    exact hsame (.cWaCall (h.fault ▸ hf) (h.cpc ▸ hpc)) rfl
      (h.setC h.cons le_rfl _ h.budget)
  | cWaLoadW hf hpc hl =>
    obtain ⟨te, h1, h2, _, h3, _⟩ := loadW_sim h h.cons hl
    exact hsame (.cWaLoadW (h.fault ▸ hf) (h.cpc ▸ hpc) h1) rfl
      (h.setC h2 h3 _ h.budget)
  | cWaLoadR hf hpc hl =>
    obtain ⟨te, h1, h2, _, h3, _⟩ := loadR_sim h h.cons hl
    exact hsame (.cWaLoadR (h.fault ▸ hf) (h.cpc ▸ hpc) h1) rfl
      (h.setC h2 h3 _ h.budget)

/-- No thread has seen a message that does not exist. -/
structure Bnd (s : State α) : Prop where
  pw : s.prod.seenW < s.w.length
  pr : s.prod.seenR < s.r.length
  cw : s.cons.seenW < s.w.length
  cr : s.cons.seenR < s.r.length

/-- What both threads have seen only grows. -/
structure Grows (s s' : State α) : Prop where
  w : s.w.length ≤ s'.w.length
  r : s.r.length ≤ s'.r.length
  pw : s.prod.seenW ≤ s'.prod.seenW
  pr : s.prod.seenR ≤ s'.prod.seenR
  cw : s.cons.seenW ≤ s'.cons.seenW
  cr : s.cons.seenR ≤ s'.cons.seenR

theorem Grows.rfl' {s s' : State α} (h1 : s'.w = s.w) (h2 : s'.r = s.r) (h3 : s'.prod = s.prod)
    (h4 : s'.cons = s.cons) : Grows s s' := by
  constructor <;> simp [h1, h2, h3, h4]

theorem Bnd.rfl' {s s' : State α} (b : Bnd s) (h1 : s'.w = s.w) (h2 : s'.r = s.r)
    (h3 : s'.prod = s.prod) (h4 : s'.cons = s.cons) : Bnd s' := by
  constructor
  · rw [h3, h1]; exact b.pw
  · rw [h3, h2]; exact b.pr
  · rw [h4, h1]; exact b.cw
  · rw [h4, h2]; exact b.cr

theorem Bnd.setP {s : State α} (b : Bnd s) {t : Thread} {pc : PPc α}
    (h1 : s.prod.seenW ≤ t.seenW) (h2 : s.prod.seenR ≤ t.seenR)
    (h3 : t.seenW < s.w.length) (h4 : t.seenR < s.r.length) :
    Bnd { s with prod := t, ppc := pc } ∧ Grows s { s with prod := t, ppc := pc } :=
  ⟨⟨h3, h4, b.cw, b.cr⟩, ⟨le_rfl, le_rfl, h1, h2, le_rfl, le_rfl⟩⟩

theorem Bnd.setC {s : State α} (b : Bnd s) {t : Thread} {pc : CPc α} {bu : Nat} {f : Option Fault}
    (h1 : s.cons.seenW ≤ t.seenW) (h2 : s.cons.seenR ≤ t.seenR)
    (h3 : t.seenW < s.w.length) (h4 : t.seenR < s.r.length) :
    Bnd { s with cons := t, cpc := pc, budget := bu, fault := f } ∧
    Grows s { s with cons := t, cpc := pc, budget := bu, fault := f } :=
  ⟨⟨b.pw, b.pr, h3, h4⟩, ⟨le_rfl, le_rfl, le_rfl, le_rfl, h1, h2⟩⟩

theorem step_grows {S S' : State α} {ev : Option (Ev α)} (b : Bnd S) (hs : Step cfg S ev S') :
    Bnd S' ∧ Grows S S' := by
  have hb := b.pw
  have hb2 := b.pr
  have hb3 := b.cw
  have hb4 := b.cr
  cases hs with
  | pushLoadW _ _ hl =>
    obtain ⟨_, _, h2, h3, _, h5, h6, _⟩ := loadW_some hl
    exact b.setP (by omega) (by omega) (by omega) (by omega)
  | pushFull _ _ hl =>
    obtain ⟨_, _, h2, h3, _, h5, h6, _⟩ := loadR_some hl
    exact b.setP (by omega) (by omega) (by omega) (by omega)
  | pushRoom _ _ hl =>
    obtain ⟨_, _, h2, h3, _, h5, h6, _⟩ := loadR_some hl
    exact b.setP (by omega) (by omega) (by omega) (by omega)
  | pWaLoadW _ _ hl =>
    obtain ⟨_, _, h2, h3, _, h5, h6, _⟩ := loadW_some hl
    exact b.setP (by omega) (by omega) (by omega) (by omega)
  | pWaLoadR _ _ hl =>
    obtain ⟨_, _, h2, h3, _, h5, h6, _⟩ := loadR_some hl
    exact b.setP (by omega) (by omega) (by omega) (by omega)
  | pRaLoadW _ _ hl =>
    obtain ⟨_, _, h2, h3, _, h5, h6, _⟩ := loadW_some hl
    exact b.setP (by omega) (by omega) (by omega) (by omega)
  | pRaLoadR _ _ hl =>
    obtain ⟨_, _, h2, h3, _, h5, h6, _⟩ := loadR_some hl
    exact b.setP (by omega) (by omega) (by omega) (by omega)
  | popLoadR _ _ hl =>
    obtain ⟨_, _, h2, h3, _, h5, h6, _⟩ := loadR_some hl
    exact b.setC (by omega) (by omega) (by omega) (by omega)
  | popAssertFails _ _ hl =>
    obtain ⟨_, _, h2, h3, _, h5, h6, _⟩ := loadW_some hl
    exact b.setC (by omega) (by omega) (by omega) (by omega)
  | popAssertHolds _ _ hl =>
    obtain ⟨_, _, h2, h3, _, h5, h6, _⟩ := loadW_some hl
    exact b.setC (by omega) (by omega) (by omega) (by omega)
  | cRaLoadW _ _ hl =>
    obtain ⟨_, _, h2, h3, _, h5, h6, _⟩ := loadW_some hl
    exact b.setC (by omega) (by omega) (by omega) (by omega)
  | cRaLoadR _ _ hl =>
    obtain ⟨_, _, h2, h3, _, h5, h6, _⟩ := loadR_some hl
    exact b.setC (by omega) (by omega) (by omega) (by omega)
  | cWaLoadW _ _ hl =>
    obtain ⟨_, _, h2, h3, _, h5, h6, _⟩ := loadW_some hl
    exact b.setC (by omega) (by omega) (by omega) (by omega)
  | cWaLoadR _ _ hl =>
    obtain ⟨_, _, h2, h3, _, h5, h6, _⟩ := loadR_some hl
    exact b.setC (by omega) (by omega) (by omega) (by omega)
  | pushStore =>
    constructor <;> constructor <;> simp [storeW] <;> omega
  | popStore =>
    constructor <;> constructor <;> simp [storeR] <;> omega
  | _ => exact ⟨b.rfl' rfl rfl rfl rfl, Grows.rfl' rfl rfl rfl rfl⟩

/-- Invariant of executions with external synchronisation. -/
structure SInv (cfg : Cfg) (tr : List (SEv α)) (s : SState α) (e : State α) (W R : Nat)
    (vals : List α) (tP tC : Nat → Nat) : Prop where
  inv : Inv cfg (calls tr) e W R vals
  sim : Sim s.q e tP tC
  bnd : Bnd s.q
  mail : ∀ x ∈ s.mail, x.2.seenW < s.q.w.length ∧ x.2.seenR < s.q.r.length
  mailP : ∀ x ∈ s.mail, x.1 = true → ∀ k, k ≤ x.2.seenW → tP k ≤ x.2.clk.p
  /-- between its two loads, `read_available()` of the consumer holds the newest index it has seen -/
  ra2 : ∀ wi, s.q.cpc = .ra2 wi → wi = idx cfg.max.toNat s.q.cons.seenW

theorem calls_append (a b : List (SEv α)) : calls (a ++ b) = calls a ++ calls b := by
  induction a with
  | nil => rfl
  | cons e a ih => cases e <;> simp [calls, ih]

theorem SInv.w_eq {tr : List (SEv α)} {s : SState α} {e : State α} {W R : Nat} {vals : List α}
    {tP tC : Nat → Nat} (h : SInv cfg tr s e W R vals tP tC) : s.q.w.length = W + 1 := by
  rw [h.sim.w.1, h.inv.wlen]

theorem SInv.r_eq {tr : List (SEv α)} {s : SState α} {e : State α} {W R : Nat} {vals : List α}
    {tP tC : Nat → Nat} (h : SInv cfg tr s e W R vals tP tC) : s.q.r.length = R + 1 := by
  rw [h.sim.r.1, h.inv.rlen]

theorem SInv.pseenW {tr : List (SEv α)} {s : SState α} {e : State α} {W R : Nat} {vals : List α}
    {tP tC : Nat → Nat} (h : SInv cfg tr s e W R vals tP tC) : s.q.prod.seenW = W := by
  have h1 := h.sim.prod.1
  have h2 := h.inv.pseenW
  have h3 := h.bnd.pw
  have h4 := h.w_eq
  omega

theorem SInv.cseenR {tr : List (SEv α)} {s : SState α} {e : State α} {W R : Nat} {vals : List α}
    {tP tC : Nat → Nat} (h : SInv cfg tr s e W R vals tP tC) : s.q.cons.seenR = R := by
  have h1 := h.sim.cons.2.1
  have h2 := h.inv.cseenR
  have h3 := h.bnd.cr
  have h4 := h.r_eq
  omega

theorem SInv.wval {tr : List (SEv α)} {s : SState α} {e : State α} {W R : Nat} {vals : List α}
    {tP tC : Nat → Nat} (h : SInv cfg tr s e W R vals tP tC) {m : Nat} {msg : Msg}
    (hm : s.q.w[m]? = some msg) : msg.val = idx cfg.max.toNat m := by
  have h1 : m < e.w.length := by
    rw [← h.sim.w.1]; exact (List.getElem?_eq_some_iff.mp hm).1
  have h2 := (h.sim.w.2 m msg e.w[m] hm (List.getElem?_eq_getElem h1)).1
  rw [h2]
  exact (h.inv.wmsg m _ (List.getElem?_eq_getElem h1)).1

theorem SInv.rval {tr : List (SEv α)} {s : SState α} {e : State α} {W R : Nat} {vals : List α}
    {tP tC : Nat → Nat} (h : SInv cfg tr s e W R vals tP tC) {m : Nat} {msg : Msg}
    (hm : s.q.r[m]? = some msg) : msg.val = idx cfg.max.toNat m := by
  have h1 : m < e.r.length := by
    rw [← h.sim.r.1]; exact (List.getElem?_eq_some_iff.mp hm).1
  have h2 := (h.sim.r.2 m msg e.r[m] hm (List.getElem?_eq_getElem h1)).1
  rw [h2]
  exact (h.inv.rmsg m _ (List.getElem?_eq_getElem h1)).1

/-- The consumer learns that `m` elements have been published. -/
theorem Inv.tell {tr : List (Ev α)} {e : State α} {W R : Nat} {vals : List α}
    (i : Inv cfg tr e W R vals) (hpc : e.cpc = .idle) {m : Nat} (hm : m ≤ W) :
    Inv cfg tr { e with
      cons := ⟨⟨max e.cons.clk.p m, e.cons.clk.c⟩, max e.cons.seenW m, e.cons.seenR⟩
      budget := max e.budget (m - R) } W R vals := by
  have h1 := i.cseenW
  have h2 := i.avail
  have h3 := i.cclkP
  exact { i with
    cseenR := i.cseenR
    cseenW := by simp only; omega
    avail := by simp only; omega
    cclkC := i.cclkC
    cclkP := by simp only; omega
    cpc := by
      have hc := i.cpc
      rw [hpc] at hc ⊢
      simp only [CPc.ok] at hc ⊢
      intro hd
      obtain ⟨a, b⟩ := hc hd
      by_cases hx : m ≤ R <;> constructor <;> omega }

theorem sinv_init (hpos : 0 < cfg.max.toNat) :
    SInv cfg ([] : List (SEv α)) ⟨State.init α, []⟩ (State.init α) 0 0 [] (fun _ => 0)
      (fun _ => 0) where
  inv := inv_init cfg hpos
  sim := by
    have hc : ∀ (P C : Nat) (a b : VC), Cov (fun _ => 0) (fun _ => 0) P C b a :=
      fun _ _ _ _ => ⟨fun _ _ _ => Nat.zero_le _, fun _ _ _ => Nat.zero_le _⟩
    exact {
      w := ⟨rfl, fun m a b ha hb => by rw [ha] at hb; cases hb; exact ⟨rfl, hc _ _ _ _⟩⟩
      r := ⟨rfl, fun m a b ha hb => by rw [ha] at hb; cases hb; exact ⟨rfl, hc _ _ _ _⟩⟩
      cell := fun _ => rfl
      curP := fun _ => Nat.zero_le _
      curC := fun _ => Nat.zero_le _
      lastP := fun _ _ => Nat.zero_le _
      lastC := fun _ _ => Nat.zero_le _
      prod := ⟨le_rfl, le_rfl, hc _ _ _ _⟩
      cons := ⟨le_rfl, le_rfl, hc _ _ _ _⟩
      ppc := rfl
      cpc := rfl
      budget := le_rfl
      fault := rfl }
  bnd := ⟨Nat.zero_lt_one, Nat.zero_lt_one, Nat.zero_lt_one, Nat.zero_lt_one⟩
  mail := by simp
  mailP := by simp
  ra2 := by intro wi h; cases h

theorem TCov.grow {tP tC : Nat → Nat} {P C : Nat} {te tS tS' : Thread}
    (h : TCov tP tC P C te tS) (h1 : tS.seenW ≤ tS'.seenW) (h2 : tS.seenR ≤ tS'.seenR)
    (h3 : tS.clk.p ≤ tS'.clk.p) (h4 : tS.clk.c ≤ tS'.clk.c) : TCov tP tC P C te tS' :=
  ⟨le_trans h.1 h1, le_trans h.2.1 h2, h.2.2.mono h3 h4⟩

theorem sinv_step {k : Nat} (hk : cfg.max.toNat = 2 ^ k)
    (hcfg : cfg.debug = true ∨ cfg.disciplined = true) {tr : List (SEv α)} {s s' : SState α}
    {e : State α} {W R : Nat} {vals : List α} {tP tC : Nat → Nat}
    (h : SInv cfg tr s e W R vals tP tC) {ev : Option (SEv α)} (hs : SStep cfg s ev s') :
    ∃ e' W' R' vals' tP' tC', SInv cfg (tr ++ ev.toList) s' e' W' R' vals' tP' tC' := by
  have hW := h.w_eq
  have hR := h.r_eq
  have hpw := h.pseenW
  have hcr := h.cseenR
  cases hs with
  | @call e0 q' hst =>
    obtain ⟨e', tP', tC', h1, h2, h3, h4⟩ := sim_step hk hcfg h.inv h.sim hst
    obtain ⟨W', R', vals', i'⟩ := inv_step hk hcfg h.inv h1
    obtain ⟨b', g⟩ := step_grows h.bnd hst
    refine ⟨e', W', R', vals', tP', tC', ⟨?_, h2, b', ?_, ?_, ?_⟩⟩
    · have : calls (tr ++ (e0.map SEv.call).toList) = calls tr ++ e0.toList := by
        rw [calls_append]
        cases e0 <;> rfl
      rw [this]; exact i'
    · intro x hx
      obtain ⟨a, b⟩ := h.mail x hx
      exact ⟨lt_of_lt_of_le a g.w, lt_of_lt_of_le b g.r⟩
    · intro x hx hb j hj
      obtain ⟨a, b⟩ := h.mail x hx
      rw [h3 j (by rw [← h.sim.w.1]; omega)]
      exact h.mailP x hx hb j hj
    · intro wi hwi
      cases hst with
      | cRaLoadW hf hpc hl =>
        obtain ⟨msg, h1, _, _, h5, h6, _⟩ := loadW_some hl
        simp only [CPc.ra2.injEq] at hwi
        rw [← hwi, h5, h.wval h1, h6]
      | popLoadR hf hpc hl =>
        simp only at hwi
        split at hwi <;> first | cases hwi | (split at hwi <;> cases hwi)
      | popAssertHolds hf hpc hl =>
        simp only at hwi
        split at hwi <;> cases hwi
      | popAssertFails hf hpc hl =>
        simp only at hwi
        rw [hpc] at hwi
        cases hwi
      | pushCall => exact h.ra2 wi hwi
      | pushLoadW => exact h.ra2 wi hwi
      | pushFull => exact h.ra2 wi hwi
      | pushRoom => exact h.ra2 wi hwi
      | pushConstructThrows => exact h.ra2 wi hwi
      | pushConstruct => exact h.ra2 wi hwi
      | pushConstructBad => exact h.ra2 wi hwi
      | pushConstructRace => exact h.ra2 wi hwi
      | pushStore => exact h.ra2 wi hwi
      | pushReturn => exact h.ra2 wi hwi
      | pWaCall => exact h.ra2 wi hwi
      | pWaLoadW => exact h.ra2 wi hwi
      | pWaLoadR => exact h.ra2 wi hwi
      | pRaCall => exact h.ra2 wi hwi
      | pRaLoadW => exact h.ra2 wi hwi
      | pRaLoadR => exact h.ra2 wi hwi
      | consumeFnBad => exact h.ra2 wi hwi
      | consumeFnRace => exact h.ra2 wi hwi
      | popDestroyBad => exact h.ra2 wi hwi
      | popDestroyRace => exact h.ra2 wi hwi
      | _ => cases hwi
  | prodSignal hf hu =>
    refine ⟨e, W, R, vals, tP, tC, ⟨?_, ?_, ?_, ?_, ?_, h.ra2⟩⟩
    · rw [calls_append]; simpa [calls] using h.inv
    · exact { h.sim with
        curP := fun j => le_trans (h.sim.curP j) (Nat.le_succ _)
        prod := h.sim.prod.grow le_rfl le_rfl (Nat.le_succ _) le_rfl }
    · exact ⟨h.bnd.pw, h.bnd.pr, h.bnd.cw, h.bnd.cr⟩
    · intro x hx
      rcases List.mem_append.mp hx with hx | hx
      · exact h.mail x hx
      · rw [List.mem_singleton] at hx; subst hx
        exact ⟨h.bnd.pw, h.bnd.pr⟩
    · intro x hx hb j hj
      rcases List.mem_append.mp hx with hx | hx
      · exact h.mailP x hx hb j hj
      · rw [List.mem_singleton] at hx; subst hx
        have h1 := h.inv.pclkP
        have h2 := h.inv.wlen
        simp only at hj ⊢
        exact h.sim.prod.2.2.1 j (by omega) (by omega)
  | consSignal hf hu =>
    refine ⟨e, W, R, vals, tP, tC, ⟨?_, ?_, ?_, ?_, ?_, h.ra2⟩⟩
    · rw [calls_append]; simpa [calls] using h.inv
    · exact { h.sim with
        curC := fun j => le_trans (h.sim.curC j) (Nat.le_succ _)
        cons := h.sim.cons.grow le_rfl le_rfl le_rfl (Nat.le_succ _) }
    · exact ⟨h.bnd.pw, h.bnd.pr, h.bnd.cw, h.bnd.cr⟩
    · intro x hx
      rcases List.mem_append.mp hx with hx | hx
      · exact h.mail x hx
      · rw [List.mem_singleton] at hx; subst hx
        exact ⟨h.bnd.cw, h.bnd.cr⟩
    · intro x hx hb j hj
      rcases List.mem_append.mp hx with hx | hx
      · exact h.mailP x hx hb j hj
      · rw [List.mem_singleton] at hx; subst hx
        cases hb
  | prodWait hf hu hm =>
    rename_i i0 b0 t0
    obtain ⟨m1, m2⟩ := h.mail _ (List.mem_of_getElem? hm)
    simp only at m1 m2
    refine ⟨e, W, R, vals, tP, tC, ⟨?_, ?_, ?_, h.mail, h.mailP, h.ra2⟩⟩
    · rw [calls_append]; simpa [calls] using h.inv
    · exact { h.sim with
        curP := fun j => le_trans (h.sim.curP j) (le_max_left _ _)
        prod := h.sim.prod.grow (le_max_left _ _) (le_max_left _ _) (le_max_left _ _)
          (le_max_left _ _) }
    · exact ⟨max_lt h.bnd.pw m1, max_lt h.bnd.pr m2, h.bnd.cw, h.bnd.cr⟩
  | consWait hf hu hm =>
    rename_i i0 t0
    have hmem := List.mem_of_getElem? hm
    obtain ⟨m1, m2⟩ := h.mail _ hmem
    simp only at m1 m2
    have i' := h.inv.tell (h.sim.cpc ▸ hu) (m := t0.seenW) (by omega)
    refine ⟨{ e with
      cons := ⟨⟨max e.cons.clk.p t0.seenW, e.cons.clk.c⟩, max e.cons.seenW t0.seenW, e.cons.seenR⟩
      budget := max e.budget (t0.seenW - R) },
      W, R, vals, tP, tC, ⟨?_, ?_, ?_, h.mail, h.mailP, ?_⟩⟩
    · rw [calls_append]
      simpa [calls] using i'
    · exact { h.sim with
        curC := fun j => le_trans (h.sim.curC j) (le_max_left _ _)
        cons := by
          refine ⟨?_, le_trans h.sim.cons.2.1 (le_max_left _ _), ?_, ?_⟩
          · exact max_le_max h.sim.cons.1 le_rfl
          · intro j h1 h2
            simp only [Thread.learn, VC.join] at h1 ⊢
            rcases le_max_iff.mp h1 with h1 | h1
            · exact le_trans (h.sim.cons.2.2.1 j h1 h2) (le_max_left _ _)
            · exact le_trans (h.mailP _ hmem rfl j h1) (le_max_right _ _)
          · intro j h1 h2
            exact le_trans (h.sim.cons.2.2.2 j h1 h2) (le_max_left _ _)
        budget := by
          simp only
          rw [hcr]
          exact max_le_max h.sim.budget le_rfl }
    · exact ⟨h.bnd.pw, h.bnd.pr, max_lt h.bnd.cw m1, max_lt h.bnd.cr m2⟩
    · intro wi hwi
      simp only at hwi
      rw [hu] at hwi
      cases hwi
  | consWaitInside hf hu hm =>
    rename_i i0 b0 t0
    obtain ⟨m1, m2⟩ := h.mail _ (List.mem_of_getElem? hm)
    simp only at m1 m2
    refine ⟨e, W, R, vals, tP, tC, ⟨?_, ?_, ?_, h.mail, h.mailP, ?_⟩⟩
    · rw [calls_append]; simpa [calls] using h.inv
    · exact { h.sim with
        curC := fun j => le_trans (h.sim.curC j) (le_max_left _ _)
        cons := h.sim.cons.grow (le_max_left _ _) (le_max_left _ _) (le_max_left _ _)
          (le_max_left _ _) }
    · exact ⟨h.bnd.pw, h.bnd.pr, max_lt h.bnd.cw m1, max_lt h.bnd.cr m2⟩
    · intro wi hwi
      simp only at hwi
      rw [hwi] at hu
      cases hu

theorem sexec_inv {k : Nat} (hk : cfg.max.toNat = 2 ^ k)
    (hcfg : cfg.debug = true ∨ cfg.disciplined = true) {tr : List (SEv α)} {s : SState α}
    (h : SExec cfg tr s) : ∃ e W R vals tP tC, SInv cfg tr s e W R vals tP tC := by
  induction h with
  | init => exact ⟨_, _, _, _, _, _, sinv_init (by rw [hk]; exact Nat.two_pow_pos k)⟩
  | step _ hs ih =>
    obtain ⟨e, W, R, vals, tP, tC, i⟩ := ih
    exact sinv_step hk hcfg i hs

end Verif.SPSC.Conc
