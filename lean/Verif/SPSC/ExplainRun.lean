import Verif.SPSC.Explain

/-! Runs of single operations by a thread that sees nothing new (helper lemmas for C164). -/

set_option autoImplicit false

namespace Verif.SPSC.Conc

variable {α : Type} {cfg : Cfg} {tr : List (Ev α)} {s : State α} {W R : Nat} {vals : List α}

/-- A `consume` by a consumer that has seen the oldest element but looks at no newer value of the write index. -/
theorem run_consume_view {k : Nat} (hk : cfg.max.toNat = 2 ^ k)
    (hcfg : cfg.debug = true ∨ cfg.disciplined = true)
    (he : Exec cfg tr s) (hf : s.fault = none) (hpc : s.cpc = .idle)
    (hb : cfg.disciplined = true → 0 < s.budget)
    (hne : s.r.length ≤ s.cons.seenW) :
    ∃ s' v, Steps cfg s [.got v] s' ∧ s'.fault = none ∧ s'.cpc = .idle ∧
      s'.ppc = s.ppc ∧ s'.budget = s.budget - 1 ∧ s'.w.length = s.w.length ∧
      s'.r.length = s.r.length + 1 ∧ s'.cons.seenW = s.cons.seenW := by
  have hpos : 0 < cfg.max.toNat := by rw [hk]; exact Nat.two_pow_pos k
  have st1 : Step cfg s none { s with cpc := .c1 true, budget := s.budget - 1 } :=
    .popCall hf hpc hb
  have e1 := he.step st1
  obtain ⟨W, R, vals, i1⟩ := exec_inv hk hcfg e1
  have hwl := i1.wlen; have hrl := i1.rlen
  have hcsW := i1.cseenW; have hcsR := i1.cseenR
  obtain ⟨hRW, hWR⟩ := i1.bounds
  simp only at hwl hrl hcsW hcsR
  have l1 := loadR_ok (s := { s with cpc := .c1 true, budget := s.budget - 1 }) (t := s.cons)
    (o := .relaxed) (m := R) (by simp only; omega) (by omega)
  have hv1 := (i1.ownR l1).1
  obtain ⟨s2, st2, hs2w, hs2r, hs2f, hs2p, hs2b, hs2c, hs2n⟩ : ∃ s2,
      Step cfg { s with cpc := .c1 true, budget := s.budget - 1 } none s2 ∧
      s2.w = s.w ∧ s2.r = s.r ∧ s2.fault = none ∧ s2.ppc = s.ppc ∧ s2.budget = s.budget - 1 ∧
      s2.cpc = (if cfg.debug then .c2 true (idx cfg.max.toNat R)
        else .c3 (idx cfg.max.toNat R)) ∧ s2.cons.seenW = s.cons.seenW :=
    ⟨_, Step.popLoadR (cfg := cfg) (s := { s with cpc := .c1 true, budget := s.budget - 1 })
      hf rfl l1, rfl, rfl, hf, rfl, rfl, by simp only [← hv1, if_true], rfl⟩
  have e2 := e1.step st2
  -- reach c3
  obtain ⟨s3, hst3, e3, hs3w, hs3r, hs3f, hs3p, hs3b, hs3c, hs3n⟩ : ∃ s3, Steps cfg s2 [] s3 ∧
      Exec cfg (tr ++ (none : Option (Ev α)).toList ++ (none : Option (Ev α)).toList) s3 ∧
      s3.w = s.w ∧ s3.r = s.r ∧
      s3.fault = none ∧ s3.ppc = s.ppc ∧ s3.budget = s.budget - 1 ∧
      s3.cpc = .c3 (idx cfg.max.toNat R) ∧ s3.cons.seenW = s.cons.seenW := by
    by_cases hd : cfg.debug = true
    · rw [if_pos hd] at hs2c
      obtain ⟨W2, R2, vals2, i2⟩ := exec_inv hk hcfg e2
      have hwl2 := i2.wlen; have hrl2 := i2.rlen
      rw [hs2w] at hwl2
      rw [hs2r] at hrl2
      obtain rfl : W2 = W := by omega
      obtain rfl : R2 = R := by omega
      have l2 := loadW_ok (s := s2) (t := s2.cons) (o := .acquire) (m := s.cons.seenW)
        (by rw [hs2w]; omega) (by rw [hs2n])
      have hv2 := (i2.consW l2).1
      have hemp : isEmpty (s2.w[s.cons.seenW]'(by rw [hs2w]; omega)).val (idx cfg.max.toNat R2) = false := by
        simp only [isEmpty, beq_eq_false_iff_ne]
        rw [hv2, Ne, idx_eq_iff hpos cfg.max.isLt]
        intro hc
        have := idx_mod_inj hc.symm (by omega) (by omega)
        omega
      have st3 := Step.popAssertHolds (cfg := cfg) hs2f hs2c l2 hemp
      have key : Steps cfg s2 [] _ := Steps.one st3
      have e3 := e2.step st3
      rw [Option.toList_none, List.append_nil] at e3
      exact ⟨_, key, e3, hs2w, hs2r, hs2f, hs2p, hs2b, rfl, rfl⟩
    · rw [if_neg hd] at hs2c
      exact ⟨s2, .refl, e2, hs2w, hs2r, hs2f, hs2p, hs2b, hs2c, hs2n⟩
  -- the function call
  have hgood : ((idx cfg.max.toNat R).toNat < cfg.max.toNat ∧
      (s3.slots (idx cfg.max.toNat R).toNat).cell ≠ none) := by
    by_contra hbad
    obtain ⟨_, _, _, i⟩ := exec_inv hk hcfg (e3.step (Step.consumeFnBad (cfg := cfg) hs3f hs3c hbad))
    have := i.flt
    simp at this
  have hord : consOrdered s3 (idx cfg.max.toNat R).toNat := by
    by_contra hbad
    obtain ⟨_, _, _, i⟩ := exec_inv hk hcfg (e3.step (Step.consumeFnRace (cfg := cfg) hs3f hs3c hbad))
    have := i.flt
    simp at this
  obtain ⟨v, hv⟩ := Option.ne_none_iff_exists'.mp hgood.2
  obtain ⟨s4, st4, hs4w, hs4r, hs4f, hs4p, hs4b, hs4c, hs4n⟩ : ∃ s4,
      Step cfg s3 (some (.got v)) s4 ∧
      s4.w = s3.w ∧ s4.r = s3.r ∧ s4.fault = none ∧ s4.ppc = s3.ppc ∧ s4.budget = s3.budget ∧
      s4.cpc = .c4 true (idx cfg.max.toNat R) ∧ s4.cons = s3.cons :=
    ⟨_, Step.consumeFn (cfg := cfg) hs3f hs3c hgood.1 hv hord, rfl, rfl, hs3f, rfl, rfl, rfl, rfl⟩
  have e4 := e3.step st4
  -- destroy
  have hgood4 : ((idx cfg.max.toNat R).toNat < cfg.max.toNat ∧
      (s4.slots (idx cfg.max.toNat R).toNat).cell ≠ none) := by
    by_contra hbad
    obtain ⟨_, _, _, i⟩ := exec_inv hk hcfg (e4.step (Step.popDestroyBad (cfg := cfg) hs4f hs4c hbad))
    have := i.flt
    simp at this
  have hord4 : consOrdered s4 (idx cfg.max.toNat R).toNat := by
    by_contra hbad
    obtain ⟨_, _, _, i⟩ := exec_inv hk hcfg (e4.step (Step.popDestroyRace (cfg := cfg) hs4f hs4c hbad))
    have := i.flt
    simp at this
  have st5 := Step.popDestroy (cfg := cfg) hs4f hs4c hgood4.1 hgood4.2 hord4 rfl
  have st6 := Step.popStore (cfg := cfg) (ri := idx cfg.max.toNat R) (s := { setSlot s4
    (idx cfg.max.toNat R).toNat { s4.slots (idx cfg.max.toNat R).toNat with
      cell := none, lastC := s4.cons.clk.c } with cpc := .c5 (idx cfg.max.toNat R) }) hs4f rfl
  have key : Steps cfg s [.got v] _ :=
    (((((Steps.refl.snoc st1).snoc st2).trans hst3).snoc st4).snoc st5).snoc st6
  refine ⟨_, v, key, hs4f, rfl, ?_, ?_, ?_, ?_, ?_⟩
  · show s4.ppc = _; rw [hs4p, hs3p]
  · show s4.budget = _; rw [hs4b, hs3b]
  · show s4.w.length = _; rw [hs4w, hs3w]
  · show (s4.r ++ _).length = _; simp [hs4r, hs3r]
  · show s4.cons.seenW = _; rw [hs4n, hs3n]

/-- A push on a full queue returns `false`. -/
theorem run_push_full {k : Nat} (hk : cfg.max.toNat = 2 ^ k)
    (hcfg : cfg.debug = true ∨ cfg.disciplined = true)
    (he : Exec cfg tr s) (hf : s.fault = none) (hpc : s.ppc = .idle)
    (hfull : s.w.length + 1 = s.r.length + cfg.max.toNat) (v : α) :
    ∃ s', Steps cfg s [.pushCall v, .pushRet v false] s' ∧ s'.fault = none ∧ s'.ppc = .idle ∧
      s'.cpc = s.cpc ∧ s'.budget = s.budget ∧ s'.w = s.w ∧ s'.r = s.r ∧ s'.cons = s.cons := by
  have st1 : Step cfg s (some (.pushCall v)) { s with ppc := .e1 v } := .pushCall hf hpc
  have e1 := he.step st1
  obtain ⟨W, R, vals, i1⟩ := exec_inv hk hcfg e1
  have hwl := i1.wlen; have hrl := i1.rlen
  have hpsW := i1.pseenW; have hpsR := i1.pseenR
  simp only at hwl hrl hpsW hpsR
  have l1 := loadW_ok (s := { s with ppc := .e1 v }) (t := s.prod) (o := .relaxed) (m := W)
    (by simp only; omega) (by omega)
  obtain ⟨s2, wi, st2, hs2w, hs2r, hs2f, hs2c, hs2b, hs2p, hs2n⟩ : ∃ s2 wi,
      Step cfg { s with ppc := .e1 v } none s2 ∧ s2.w = s.w ∧ s2.r = s.r ∧ s2.fault = none ∧
      s2.cpc = s.cpc ∧ s2.budget = s.budget ∧ s2.ppc = .e2 v wi ∧ s2.cons = s.cons :=
    ⟨_, _, Step.pushLoadW (cfg := cfg) (s := { s with ppc := .e1 v }) hf rfl l1,
      rfl, rfl, hf, rfl, rfl, rfl, rfl⟩
  have e2 := e1.step st2
  obtain ⟨W2, R2, vals2, i2⟩ := exec_inv hk hcfg e2
  have hwl2 := i2.wlen; have hrl2 := i2.rlen
  rw [hs2w] at hwl2
  rw [hs2r] at hrl2
  obtain rfl : W2 = W := by omega
  obtain rfl : R2 = R := by omega
  have l2 := loadR_ok (s := s2) (t := s2.prod) (o := .acquire) (m := R2)
    (by rw [hs2r]; omega) i2.pseenR
  have heq : nextIndex cfg.max wi = (s2.r[R2]'(by rw [hs2r]; omega)).val := by
    rw [inv_prod hk i2 hs2p l2]
    omega
  have st3 := Step.pushFull (cfg := cfg) hs2f hs2p l2 heq
  have key : Steps cfg s [.pushCall v, .pushRet v false] _ :=
    ((Steps.refl.snoc st1).snoc st2).snoc st3
  exact ⟨_, key, hs2f, rfl, hs2c, hs2b, hs2w, hs2r, hs2n⟩

/-- `read_available` by a consumer that sees no newer value of the write index. -/
theorem run_readAvail_view {k : Nat} (hk : cfg.max.toNat = 2 ^ k)
    (hcfg : cfg.debug = true ∨ cfg.disciplined = true)
    (he : Exec cfg tr s) (hf : s.fault = none) (hpc : s.cpc = .idle) :
    ∃ s' n, Steps cfg s [.cReadAvail n] s' ∧ n.toNat = s.cons.seenW + 1 - s.r.length ∧
      s'.fault = none ∧ s'.cpc = .idle ∧ s'.ppc = s.ppc ∧ s'.w = s.w ∧ s'.r = s.r := by
  have hpos : 0 < cfg.max.toNat := by rw [hk]; exact Nat.two_pow_pos k
  have st1 : Step cfg s none { s with cpc := .ra1 } := .cRaCall hf hpc
  have e1 := he.step st1
  obtain ⟨W, R, vals, i1⟩ := exec_inv hk hcfg e1
  have hwl := i1.wlen; have hrl := i1.rlen
  have hcsW := i1.cseenW; have hcsR := i1.cseenR; have hav := i1.avail
  obtain ⟨hRW, hWR⟩ := i1.bounds
  simp only at hwl hrl hcsW hcsR hav
  have l1 := loadW_ok (s := { s with cpc := .ra1 }) (t := s.cons) (o := .acquire) (m := s.cons.seenW)
    (by simp only; omega) (Nat.le_refl _)
  have hv1 := (i1.consW l1).1
  obtain ⟨s2, st2, hs2w, hs2r, hs2f, hs2p, hs2c⟩ : ∃ s2,
      Step cfg { s with cpc := .ra1 } none s2 ∧ s2.w = s.w ∧ s2.r = s.r ∧
      s2.fault = none ∧ s2.ppc = s.ppc ∧ s2.cpc = .ra2 (idx cfg.max.toNat s.cons.seenW) :=
    ⟨_, Step.cRaLoadW (cfg := cfg) (s := { s with cpc := .ra1 }) hf rfl l1,
      rfl, rfl, hf, rfl, by simp only [← hv1]⟩
  have e2 := e1.step st2
  obtain ⟨W2, R2, vals2, i2⟩ := exec_inv hk hcfg e2
  have hrl2 := i2.rlen
  rw [hs2r] at hrl2
  obtain rfl : R2 = R := by omega
  have l2 := loadR_ok (s := s2) (t := s2.cons) (o := .relaxed) (m := R2)
    (by rw [hs2r]; omega) (by rw [i2.cseenR])
  have hv2 := (i2.ownR l2).1
  have st3 := Step.cRaLoadR (cfg := cfg) hs2f hs2c l2
  have hn := readAvail_idx hpos hav (W := s.cons.seenW) (by omega)
  rw [← hv2] at hn
  have key : Steps cfg s [.cReadAvail _] _ := ((Steps.refl.snoc st1).snoc st2).snoc st3
  exact ⟨_, _, key, by rw [hn]; omega, hs2f, rfl, hs2p, hs2w, hs2r⟩

end Verif.SPSC.Conc
