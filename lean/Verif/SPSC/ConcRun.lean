import Verif.SPSC.ConcStep

/-! Sequential runs of single operations inside the concurrent model (helper lemmas used for
"nothing is lost", for witnesses and for non-vacuity examples). -/

set_option autoImplicit false

namespace Verif.SPSC.Conc

variable {α : Type} {cfg : Cfg} {tr : List (Ev α)} {s : State α} {W R : Nat} {vals : List α}

theorem Exec.trans {tr tr' : List (Ev α)} {s s' : State α} (h : Exec cfg tr s)
    (h' : Steps cfg s tr' s') : Exec cfg (tr ++ tr') s' := by
  induction h' with
  | refl => simpa using h
  | snoc _ hs ih => rw [← List.append_assoc]; exact ih.step hs

theorem Steps.trans {tr tr' : List (Ev α)} {s s1 s' : State α} (h : Steps cfg s tr s1)
    (h' : Steps cfg s1 tr' s') : Steps cfg s (tr ++ tr') s' := by
  induction h' with
  | refl => simpa using h
  | snoc _ hs ih => rw [← List.append_assoc]; exact ih.snoc hs

theorem Steps.one {s s' : State α} {e : Option (Ev α)} (h : Step cfg s e s') :
    Steps cfg s e.toList s' := by
  simpa using Steps.refl.snoc h

theorem loadW_ok {s : State α} {t : Thread} {o : Order} {m : Nat} (h : m < s.w.length)
    (h' : t.seenW ≤ m) : loadW s t o m = some (s.w[m].val, { t with
        seenW := m, clk := if o = .acquire then t.clk.join s.w[m].view else t.clk }) := by
  simp [loadW, List.getElem?_eq_getElem h, h']

theorem loadR_ok {s : State α} {t : Thread} {o : Order} {m : Nat} (h : m < s.r.length)
    (h' : t.seenR ≤ m) : loadR s t o m = some (s.r[m].val, { t with
        seenR := m, clk := if o = .acquire then t.clk.join s.r[m].view else t.clk }) := by
  simp [loadR, List.getElem?_eq_getElem h, h']

/-- Steps of one thread inside a call. -/
def Mid (a b : State α) : Prop := (b.cpc = a.cpc ∧ a.ppc ≠ .idle) ∨ (b.ppc = a.ppc ∧ a.cpc ≠ .idle)

/-- Sequences of such steps. -/
inductive Own (cfg : Cfg) : State α → List (Ev α) → State α → Prop
  | refl {s : State α} : Own cfg s [] s
  | snoc {s s1 s2 : State α} {tr : List (Ev α)} {e : Option (Ev α)} : Own cfg s tr s1 → Step cfg s1 e s2 →
      Mid s1 s2 → Own cfg s (tr ++ e.toList) s2

theorem Own.steps {tr : List (Ev α)} {s s' : State α} (h : Own cfg s tr s') : Steps cfg s tr s' := by
  induction h with
  | refl => exact .refl
  | snoc _ hs _ ih => exact ih.snoc hs

theorem Own.trans {tr tr' : List (Ev α)} {s s1 s' : State α} (h : Own cfg s tr s1)
    (h' : Own cfg s1 tr' s') : Own cfg s (tr ++ tr') s' := by
  induction h' with
  | refl => simpa using h
  | snoc _ hs hm ih => rw [← List.append_assoc]; exact ih.snoc hs hm

theorem Steps.cons_own {s s1 s' : State α} {e : Option (Ev α)} {tr : List (Ev α)} (h : Step cfg s e s1)
    (h' : Own cfg s1 tr s') : Steps cfg s (e.toList ++ tr) s' := (Steps.one h).trans h'.steps

/-- A push that runs alone and reads the newest read index, with room in the queue, succeeds. -/
theorem run_push_own {k : Nat} (hk : cfg.max.toNat = 2 ^ k)
    (hcfg : cfg.debug = true ∨ cfg.disciplined = true)
    (he : Exec cfg tr s) (hf : s.fault = none) (hpc : s.ppc = .idle)
    (hroom : s.w.length + 1 < s.r.length + cfg.max.toNat) (v : α) :
    ∃ s', Own cfg { s with ppc := .e1 v } [.pushRet v true] s' ∧ s'.fault = none ∧ s'.ppc = .idle ∧
      s'.cpc = s.cpc ∧ s'.budget = s.budget ∧ s'.w.length = s.w.length + 1 ∧
      s'.r.length = s.r.length ∧ s'.cons = s.cons := by
  have hpos : 0 < cfg.max.toNat := by rw [hk]; exact Nat.two_pow_pos k
  have hN := cfg.max.isLt
  -- call
  have st1 : Step cfg s (some (.pushCall v)) { s with ppc := .e1 v } := .pushCall hf hpc
  have e1 := he.step st1
  obtain ⟨W, R, vals, i1⟩ := exec_inv hk hcfg e1
  have hwl := i1.wlen; have hrl := i1.rlen
  have hpsW := i1.pseenW; have hpsR := i1.pseenR
  simp only at hwl hrl hpsW hpsR
  -- load of the write index
  have l1 := loadW_ok (s := { s with ppc := .e1 v }) (t := s.prod) (o := .relaxed) (m := W)
    (by simp only; omega) (by omega)
  obtain ⟨s2, wi, st2, hs2w, hs2r, hs2f, hs2c, hs2b, hs2p, hs2n⟩ : ∃ s2 wi,
      Step cfg { s with ppc := .e1 v } none s2 ∧ s2.w = s.w ∧ s2.r = s.r ∧ s2.fault = none ∧
      s2.cpc = s.cpc ∧ s2.budget = s.budget ∧ s2.ppc = .e2 v wi ∧ s2.cons = s.cons :=
    ⟨_, _, Step.pushLoadW (cfg := cfg) (s := { s with ppc := .e1 v }) hf rfl l1,
      rfl, rfl, hf, rfl, rfl, rfl, rfl⟩
  have e2 := e1.step st2
  obtain ⟨W2, R2, vals2, i2⟩ := exec_inv hk hcfg e2
  have hwl2 := i2.wlen; have hrl2 := i2.rlen
  rw [hs2w] at hwl2
  rw [hs2r] at hrl2
  obtain rfl : W2 = W := by omega
  obtain rfl : R2 = R := by omega
  -- load of the read index
  have l2 := loadR_ok (s := s2) (t := s2.prod) (o := .acquire) (m := R2)
    (by rw [hs2r]; omega) i2.pseenR
  have hne : nextIndex cfg.max wi ≠ (s2.r[R2]'(by rw [hs2r]; omega)).val := by
    rw [Ne, inv_prod hk i2 hs2p l2]
    omega
  obtain ⟨s3, st3, hs3w, hs3r, hs3f, hs3c, hs3b, hs3p, hs3n⟩ : ∃ s3,
      Step cfg s2 none s3 ∧ s3.w = s2.w ∧ s3.r = s2.r ∧ s3.fault = none ∧
      s3.cpc = s2.cpc ∧ s3.budget = s2.budget ∧ s3.ppc = .e3 v wi ∧ s3.cons = s2.cons :=
    ⟨_, Step.pushRoom (cfg := cfg) hs2f hs2p l2 hne, rfl, rfl, hs2f, rfl, rfl, rfl, rfl⟩
  have e3 := e2.step st3
  -- construct
  have hok : wi.toNat < cfg.max.toNat ∧ (s3.slots wi.toNat).cell = none := by
    by_contra hbad
    have := exec_inv hk hcfg (e3.step (Step.pushConstructBad (cfg := cfg) hs3f hs3p hbad))
    obtain ⟨_, _, _, i⟩ := this
    have := i.flt
    simp at this
  have hord : prodOrdered s3 wi.toNat := by
    by_contra hbad
    have := exec_inv hk hcfg (e3.step (Step.pushConstructRace (cfg := cfg) hs3f hs3p hbad))
    obtain ⟨_, _, _, i⟩ := this
    have := i.flt
    simp at this
  have st4 := Step.pushConstruct (cfg := cfg) hs3f hs3p hok.1 hok.2 hord
  have st5 := Step.pushStore (cfg := cfg) (v := v) (wi := wi) (s := { setSlot s3 wi.toNat
        { s3.slots wi.toNat with cell := some v, lastP := s3.prod.clk.p } with ppc := .e4 v wi })
        hs3f rfl
  have st6 := Step.pushReturn (cfg := cfg) (v := v) (s := { storeW { setSlot s3 wi.toNat
        { s3.slots wi.toNat with cell := some v, lastP := s3.prod.clk.p } with ppc := .e4 v wi }
        .release (nextIndex cfg.max wi) with ppc := .e5 v }) hs3f rfl
  have key : Own cfg { s with ppc := .e1 v } [.pushRet v true] _ :=
    (((((Own.refl.snoc st2 (.inl ⟨hs2c, nofun⟩)).snoc st3 (.inl ⟨hs3c, by rw [hs2p]; nofun⟩)).snoc st4
      (.inl ⟨rfl, by rw [hs3p]; nofun⟩)).snoc st5 (.inl ⟨rfl, nofun⟩)).snoc st6 (.inl ⟨rfl, nofun⟩))
  refine ⟨_, key, hs3f, rfl, ?_, ?_, ?_, ?_, ?_⟩
  · show s3.cpc = _; rw [hs3c, hs2c]
  · show s3.budget = _; rw [hs3b, hs2b]
  · show (s3.w ++ _).length = _; simp [hs3w, hs2w]
  · show s3.r.length = _; rw [hs3r, hs2r]
  · show s3.cons = _; rw [hs3n, hs2n]

/-- The same as one sequence. -/
theorem run_push_cons {k : Nat} (hk : cfg.max.toNat = 2 ^ k)
    (hcfg : cfg.debug = true ∨ cfg.disciplined = true)
    (he : Exec cfg tr s) (hf : s.fault = none) (hpc : s.ppc = .idle)
    (hroom : s.w.length + 1 < s.r.length + cfg.max.toNat) (v : α) :
    ∃ s', Steps cfg s [.pushCall v, .pushRet v true] s' ∧ s'.fault = none ∧ s'.ppc = .idle ∧
      s'.cpc = s.cpc ∧ s'.budget = s.budget ∧ s'.w.length = s.w.length + 1 ∧
      s'.r.length = s.r.length ∧ s'.cons = s.cons := by
  obtain ⟨s', h1, h2⟩ := run_push_own hk hcfg he hf hpc hroom v
  exact ⟨s', Steps.cons_own (.pushCall hf hpc) h1, h2⟩

/-- The same without the consumer's view. -/
theorem run_push {k : Nat} (hk : cfg.max.toNat = 2 ^ k)
    (hcfg : cfg.debug = true ∨ cfg.disciplined = true)
    (he : Exec cfg tr s) (hf : s.fault = none) (hpc : s.ppc = .idle)
    (hroom : s.w.length + 1 < s.r.length + cfg.max.toNat) (v : α) :
    ∃ s', Steps cfg s [.pushCall v, .pushRet v true] s' ∧ s'.fault = none ∧ s'.ppc = .idle ∧
      s'.cpc = s.cpc ∧ s'.budget = s.budget ∧ s'.w.length = s.w.length + 1 ∧
      s'.r.length = s.r.length := by
  obtain ⟨s', h1, h2, h3, h4, h5, h6, h7, -⟩ := run_push_cons hk hcfg he hf hpc hroom v
  exact ⟨s', h1, h2, h3, h4, h5, h6, h7⟩

/-- `read_available` by the consumer that runs alone and reads the newest write index. -/
theorem run_readAvail_own {k : Nat} (hk : cfg.max.toNat = 2 ^ k)
    (hcfg : cfg.debug = true ∨ cfg.disciplined = true)
    (he : Exec cfg tr s) (hf : s.fault = none) (hpc : s.cpc = .idle) :
    ∃ s' n, Own cfg { s with cpc := .ra1 } [.cReadAvail n] s' ∧ n.toNat = s.w.length - s.r.length ∧
      s'.fault = none ∧ s'.cpc = .idle ∧
      s'.ppc = s.ppc ∧ s'.budget = s.w.length - s.r.length ∧ s'.w = s.w ∧
      s'.r = s.r ∧ s'.slots = s.slots := by
  have hpos : 0 < cfg.max.toNat := by rw [hk]; exact Nat.two_pow_pos k
  have st1 : Step cfg s none { s with cpc := .ra1 } := .cRaCall hf hpc
  have e1 := he.step st1
  obtain ⟨W, R, vals, i1⟩ := exec_inv hk hcfg e1
  have hwl := i1.wlen; have hrl := i1.rlen
  have hcsW := i1.cseenW; have hcsR := i1.cseenR
  obtain ⟨hRW, hWR⟩ := i1.bounds
  simp only at hwl hrl hcsW hcsR
  have l1 := loadW_ok (s := { s with cpc := .ra1 }) (t := s.cons) (o := .acquire) (m := W)
    (by simp only; omega) hcsW
  have hv1 := (i1.consW l1).1
  obtain ⟨s2, st2, hs2w, hs2r, hs2s, hs2f, hs2p, hs2c⟩ : ∃ s2,
      Step cfg { s with cpc := .ra1 } none s2 ∧ s2.w = s.w ∧ s2.r = s.r ∧ s2.slots = s.slots ∧
      s2.fault = none ∧ s2.ppc = s.ppc ∧ s2.cpc = .ra2 (idx cfg.max.toNat W) :=
    ⟨_, Step.cRaLoadW (cfg := cfg) (s := { s with cpc := .ra1 }) hf rfl l1,
      rfl, rfl, rfl, hf, rfl, by simp only [← hv1]⟩
  have e2 := e1.step st2
  obtain ⟨W2, R2, vals2, i2⟩ := exec_inv hk hcfg e2
  have hrl2 := i2.rlen
  rw [hs2r] at hrl2
  obtain rfl : R2 = R := by omega
  have l2 := loadR_ok (s := s2) (t := s2.cons) (o := .relaxed) (m := R2)
    (by rw [hs2r]; omega) (by rw [i2.cseenR])
  have hv2 := (i2.ownR l2).1
  have st3 := Step.cRaLoadR (cfg := cfg) hs2f hs2c l2
  have hn := readAvail_idx hpos hRW hWR
  rw [← hv2] at hn
  have key : Own cfg { s with cpc := .ra1 } [.cReadAvail _] _ :=
    (Own.refl.snoc st2 (.inr ⟨hs2p, nofun⟩)).snoc st3 (.inr ⟨rfl, by rw [hs2c]; nofun⟩)
  refine ⟨_, _, key, ?_, hs2f, rfl, hs2p, ?_,
    hs2w, hs2r, hs2s⟩
  · rw [hn]; omega
  · show (readAvail _ _ _).toNat = _
    rw [hn]; omega

/-- The same as one sequence. -/
theorem run_readAvail {k : Nat} (hk : cfg.max.toNat = 2 ^ k)
    (hcfg : cfg.debug = true ∨ cfg.disciplined = true)
    (he : Exec cfg tr s) (hf : s.fault = none) (hpc : s.cpc = .idle) :
    ∃ s' n, Steps cfg s [.cReadAvail n] s' ∧ n.toNat = s.w.length - s.r.length ∧
      s'.fault = none ∧ s'.cpc = .idle ∧
      s'.ppc = s.ppc ∧ s'.budget = s.w.length - s.r.length ∧ s'.w = s.w ∧
      s'.r = s.r ∧ s'.slots = s.slots := by
  obtain ⟨s', n, h1, h2⟩ := run_readAvail_own hk hcfg he hf hpc
  exact ⟨s', n, Steps.cons_own (.cRaCall hf hpc) h1, h2⟩

/-- A `consume` that runs alone on a non-empty queue hands out the oldest element. -/
theorem run_consume_own {k : Nat} (hk : cfg.max.toNat = 2 ^ k)
    (hcfg : cfg.debug = true ∨ cfg.disciplined = true)
    (he : Exec cfg tr s) (hf : s.fault = none) (hpc : s.cpc = .idle)
    (hb : cfg.disciplined = true → 0 < s.budget)
    (hne : s.r.length < s.w.length) :
    ∃ s' v, Own cfg { s with cpc := .c1 true, budget := s.budget - 1 } [.got v] s' ∧ s'.fault = none ∧ s'.cpc = .idle ∧
      s'.ppc = s.ppc ∧ s'.budget = s.budget - 1 ∧ s'.w.length = s.w.length ∧
      s'.r.length = s.r.length + 1 := by
  have hpos : 0 < cfg.max.toNat := by rw [hk]; exact Nat.two_pow_pos k
  have st1 : Step cfg s none { s with cpc := .c1 true, budget := s.budget - 1 } :=
    .popCall hf hpc hb
  have e1 := he.step st1
  obtain ⟨W, R, vals, i1⟩ := exec_inv hk hcfg e1
  have hwl := i1.wlen; have hrl := i1.rlen
  have hcsW := i1.cseenW; have hcsR := i1.cseenR
  obtain ⟨hRW, hWR⟩ := i1.bounds
  simp only at hwl hrl hcsW hcsR
  have l1 := loadR_ok (s := { s with cpc := .c1 true, budget := s.budget - 1 }) (t := s.cons)
    (o := .relaxed) (m := R) (by simp only; omega) (by omega)
  have hv1 := (i1.ownR l1).1
  obtain ⟨s2, st2, hs2w, hs2r, hs2f, hs2p, hs2b, hs2c⟩ : ∃ s2,
      Step cfg { s with cpc := .c1 true, budget := s.budget - 1 } none s2 ∧
      s2.w = s.w ∧ s2.r = s.r ∧ s2.fault = none ∧ s2.ppc = s.ppc ∧ s2.budget = s.budget - 1 ∧
      s2.cpc = if cfg.debug then .c2 true (idx cfg.max.toNat R)
        else .c3 (idx cfg.max.toNat R) :=
    ⟨_, Step.popLoadR (cfg := cfg) (s := { s with cpc := .c1 true, budget := s.budget - 1 })
      hf rfl l1, rfl, rfl, hf, rfl, rfl, by simp only [← hv1, if_true]⟩
  have e2 := e1.step st2
  -- reach c3
  obtain ⟨s3, hst3, e3, hs3w, hs3r, hs3f, hs3p, hs3b, hs3c⟩ : ∃ s3, Own cfg s2 [] s3 ∧
      Exec cfg (tr ++ (none : Option (Ev α)).toList ++ (none : Option (Ev α)).toList) s3 ∧
      s3.w = s.w ∧ s3.r = s.r ∧
      s3.fault = none ∧ s3.ppc = s.ppc ∧ s3.budget = s.budget - 1 ∧
      s3.cpc = .c3 (idx cfg.max.toNat R) := by
    by_cases hd : cfg.debug = true
    · rw [if_pos hd] at hs2c
      obtain ⟨W2, R2, vals2, i2⟩ := exec_inv hk hcfg e2
      have hwl2 := i2.wlen; have hrl2 := i2.rlen
      rw [hs2w] at hwl2
      rw [hs2r] at hrl2
      obtain rfl : W2 = W := by omega
      obtain rfl : R2 = R := by omega
      have l2 := loadW_ok (s := s2) (t := s2.cons) (o := .acquire) (m := W2)
        (by rw [hs2w]; omega) i2.cseenW
      have hv2 := (i2.consW l2).1
      have hemp : isEmpty (s2.w[W2]'(by rw [hs2w]; omega)).val (idx cfg.max.toNat R2) = false := by
        simp only [isEmpty, beq_eq_false_iff_ne]
        rw [hv2, Ne, idx_eq_iff hpos cfg.max.isLt]
        intro hc
        have := idx_mod_inj hc.symm hRW hWR
        omega
      have st3 := Step.popAssertHolds (cfg := cfg) hs2f hs2c l2 hemp
      have key : Own cfg s2 [] _ := Own.refl.snoc st3 (.inr ⟨rfl, by rw [hs2c]; nofun⟩)
      have e3 := e2.step st3
      rw [Option.toList_none, List.append_nil] at e3
      exact ⟨_, key, e3, hs2w, hs2r, hs2f, hs2p, hs2b, rfl⟩
    · rw [if_neg hd] at hs2c
      exact ⟨s2, .refl, e2, hs2w, hs2r, hs2f, hs2p, hs2b, hs2c⟩
  -- the function call
  have hgood : ((idx cfg.max.toNat R).toNat < cfg.max.toNat ∧
      (s3.slots (idx cfg.max.toNat R).toNat).cell ≠ none) := by
    by_contra hbad
    obtain ⟨_, _, _, i⟩ := exec_inv hk hcfg (e3.step (Step.consumeFnBad (cfg := cfg) hs3f hs3c hbad))
    have := i.flt
    simp at this
  have hord : consOrdered s3 (idx cfg.max.toNat R).toNat := by
    by_contra hbad
    obtain ⟨_, _, _, i⟩ := exec_inv hk hcfg (e3.step (Step.consumeFnRace (cfg := cfg) hs3f hs3c hbad))
    have := i.flt
    simp at this
  obtain ⟨v, hv⟩ := Option.ne_none_iff_exists'.mp hgood.2
  obtain ⟨s4, st4, hs4w, hs4r, hs4f, hs4p, hs4b, hs4c⟩ : ∃ s4,
      Step cfg s3 (some (.got v)) s4 ∧
      s4.w = s3.w ∧ s4.r = s3.r ∧ s4.fault = none ∧ s4.ppc = s3.ppc ∧ s4.budget = s3.budget ∧
      s4.cpc = .c4 true (idx cfg.max.toNat R) :=
    ⟨_, Step.consumeFn (cfg := cfg) hs3f hs3c hgood.1 hv hord, rfl, rfl, hs3f, rfl, rfl, rfl⟩
  have e4 := e3.step st4
  -- destroy
  have hgood4 : ((idx cfg.max.toNat R).toNat < cfg.max.toNat ∧
      (s4.slots (idx cfg.max.toNat R).toNat).cell ≠ none) := by
    by_contra hbad
    obtain ⟨_, _, _, i⟩ := exec_inv hk hcfg (e4.step (Step.popDestroyBad (cfg := cfg) hs4f hs4c hbad))
    have := i.flt
    simp at this
  have hord4 : consOrdered s4 (idx cfg.max.toNat R).toNat := by
    by_contra hbad
    obtain ⟨_, _, _, i⟩ := exec_inv hk hcfg (e4.step (Step.popDestroyRace (cfg := cfg) hs4f hs4c hbad))
    have := i.flt
    simp at this
  have st5 := Step.popDestroy (cfg := cfg) hs4f hs4c hgood4.1 hgood4.2 hord4 rfl
  have st6 := Step.popStore (cfg := cfg) (ri := idx cfg.max.toNat R) (s := { setSlot s4
    (idx cfg.max.toNat R).toNat { s4.slots (idx cfg.max.toNat R).toNat with
      cell := none, lastC := s4.cons.clk.c } with cpc := .c5 (idx cfg.max.toNat R) }) hs4f rfl
  have key : Own cfg { s with cpc := .c1 true, budget := s.budget - 1 } [.got v] _ :=
    ((((Own.refl.snoc st2 (.inr ⟨hs2p, nofun⟩)).trans hst3).snoc st4 (.inr ⟨hs4p, by rw [hs3c]; nofun⟩)).snoc st5
      (.inr ⟨rfl, by rw [hs4c]; nofun⟩)).snoc st6 (.inr ⟨rfl, nofun⟩)
  refine ⟨_, v, key, hs4f, rfl, ?_, ?_, ?_, ?_⟩
  · show s4.ppc = _; rw [hs4p, hs3p]
  · show s4.budget = _; rw [hs4b, hs3b]
  · show s4.w.length = _; rw [hs4w, hs3w]
  · show (s4.r ++ _).length = _; simp [hs4r, hs3r]

/-- The same as one sequence. -/
theorem run_consume {k : Nat} (hk : cfg.max.toNat = 2 ^ k)
    (hcfg : cfg.debug = true ∨ cfg.disciplined = true)
    (he : Exec cfg tr s) (hf : s.fault = none) (hpc : s.cpc = .idle)
    (hb : cfg.disciplined = true → 0 < s.budget)
    (hne : s.r.length < s.w.length) :
    ∃ s' v, Steps cfg s [.got v] s' ∧ s'.fault = none ∧ s'.cpc = .idle ∧
      s'.ppc = s.ppc ∧ s'.budget = s.budget - 1 ∧ s'.w.length = s.w.length ∧
      s'.r.length = s.r.length + 1 := by
  obtain ⟨s', v, h1, h2⟩ := run_consume_own hk hcfg he hf hpc hb hne
  exact ⟨s', v, Steps.cons_own (.popCall hf hpc hb) h1, h2⟩

end Verif.SPSC.Conc
