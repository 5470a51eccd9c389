import Verif.SPSC.ConcInv

/-! Preservation of the invariant of the concurrent queue model by every step. -/

set_option autoImplicit false

namespace Verif.SPSC.Conc

variable {α : Type} {cfg : Cfg} {tr : List (Ev α)} {s : State α} {W R : Nat} {vals : List α}

theorem Inv.bounds (h : Inv cfg tr s W R vals) : R ≤ W ∧ W < R + cfg.max.toNat := by
  have := h.cseenW; have := h.avail; have := h.room; have := h.pseenR
  omega

/-- The producer reads its own index exactly. -/
theorem Inv.ownW (h : Inv cfg tr s W R vals) {o m x t} (hl : loadW s s.prod o m = some (x, t)) :
    x = idx cfg.max.toNat W ∧ t.seenW = W ∧ t.seenR = s.prod.seenR ∧
      t.clk.p = W + 1 ∧ t.clk.c ≤ R ∧ s.prod.clk.c ≤ t.clk.c := by
  obtain ⟨msg, h1, h2, h3, h4, h5, h6, h7⟩ := loadW_some hl
  have hm : m = W := by have := h.pseenW; have := h.wlen; omega
  subst hm
  obtain ⟨h8, h9, h10⟩ := h.wmsg _ _ h1
  have hp := h.pclkP
  have hc := h.pclkC
  refine ⟨by rw [h4, h8], h5, h6, ?_, ?_, ?_⟩
  all_goals
    rw [h7]; split
    · simp only [VC.join]; omega
    · omega

theorem Inv.prodR (h : Inv cfg tr s W R vals) {o m x t} (hl : loadR s s.prod o m = some (x, t)) :
    x = idx cfg.max.toNat m ∧ t.seenW = W ∧ t.seenR = m ∧ s.prod.seenR ≤ m ∧ m ≤ R ∧
      t.clk.p = W + 1 ∧ t.clk.c ≤ R ∧ (o = .acquire → m ≤ t.clk.c) := by
  obtain ⟨msg, h1, h2, h3, h4, h5, h6, h7⟩ := loadR_some hl
  have := h.rlen
  obtain ⟨h8, h9, h10⟩ := h.rmsg _ _ h1
  have hp := h.pclkP
  have hc := h.pclkC
  have hs := h.pseenW
  refine ⟨by rw [h4, h8], by omega, h5, h2, by omega, ?_, ?_, ?_⟩
  · rw [h7]; split
    · simp only [VC.join]; omega
    · omega
  · rw [h7]; split
    · simp only [VC.join]; omega
    · omega
  · intro ho
    rw [h7, if_pos ho]; simp only [VC.join]; omega

theorem Inv.ownR (h : Inv cfg tr s W R vals) {o m x t} (hl : loadR s s.cons o m = some (x, t)) :
    x = idx cfg.max.toNat R ∧ t.seenR = R ∧ t.seenW = s.cons.seenW ∧
      t.clk.c = R + 1 ∧ t.clk.p ≤ W ∧ s.cons.clk.p ≤ t.clk.p := by
  obtain ⟨msg, h1, h2, h3, h4, h5, h6, h7⟩ := loadR_some hl
  have hm : m = R := by have := h.cseenR; have := h.rlen; omega
  subst hm
  obtain ⟨h8, h9, h10⟩ := h.rmsg _ _ h1
  have hp := h.cclkP
  have hc := h.cclkC
  refine ⟨by rw [h4, h8], h5, h6, ?_, ?_, ?_⟩
  all_goals
    rw [h7]; split
    · simp only [VC.join]; omega
    · omega

theorem Inv.consW (h : Inv cfg tr s W R vals) {o m x t} (hl : loadW s s.cons o m = some (x, t)) :
    x = idx cfg.max.toNat m ∧ t.seenR = R ∧ t.seenW = m ∧ s.cons.seenW ≤ m ∧ m ≤ W ∧
      t.clk.c = R + 1 ∧ t.clk.p ≤ W ∧ s.cons.clk.p ≤ t.clk.p ∧
      (o = .acquire → m ≤ t.clk.p) := by
  obtain ⟨msg, h1, h2, h3, h4, h5, h6, h7⟩ := loadW_some hl
  have := h.wlen
  obtain ⟨h8, h9, h10⟩ := h.wmsg _ _ h1
  have hp := h.cclkP
  have hc := h.cclkC
  have hs := h.cseenR
  refine ⟨by rw [h4, h8], by omega, h5, h2, by omega, ?_, ?_, ?_, ?_⟩
  · rw [h7]; split
    · simp only [VC.join]; omega
    · omega
  · rw [h7]; split
    · simp only [VC.join]; omega
    · omega
  · rw [h7]; split
    · simp only [VC.join]; omega
    · omega
  · intro ho
    rw [h7, if_pos ho]; simp only [VC.join]; omega

/-- The write index value read by the producer never makes a full queue look non-full. -/
theorem next_ne_room {max : Size} {k : Nat} (hk : max.toNat = 2 ^ k) {W m : Nat}
    (h1 : m ≤ W) (h2 : W < m + max.toNat) :
    nextIndex max (idx max.toNat W) = idx max.toNat m ↔ W + 1 = m + max.toNat := by
  have hpos : 0 < max.toNat := by rw [hk]; exact Nat.two_pow_pos k
  rw [nextIndex_idx hk, idx_eq_iff hpos max.isLt]
  constructor
  · intro h
    by_contra hc
    have := idx_mod_inj h.symm (by omega) (by omega)
    omega
  · intro h; rw [h]; simp


/-- Steps of the producer that touch neither slots nor histories. -/
theorem Inv.prodUpdate (h : Inv cfg tr s W R vals) {tr' : List (Ev α)} {t : Thread} {pc : PPc α}
    (hq : pushedOk tr' ++ pc.tail = pushedOk tr ++ s.ppc.tail) (hx : pc.extra = s.ppc.extra)
    (hp : pending tr' = pc.arg) (hd : delivered tr' = delivered tr)
    (h1 : t.seenW = W) (h2 : t.seenR ≤ R) (h3 : W < t.seenR + cfg.max.toNat)
    (h4 : t.clk.p = W + 1) (h5 : t.clk.c ≤ R) (h6 : pc.ok cfg.max.toNat W t (owed tr')) :
    Inv cfg tr' { s with prod := t, ppc := pc } W R vals where
  wlen := h.wlen
  rlen := h.rlen
  wmsg := h.wmsg
  rmsg := h.rmsg
  pseenW := h1
  pseenR := h2
  cseenR := h.cseenR
  cseenW := h.cseenW
  room := h3
  avail := h.avail
  pclkP := h4
  pclkC := h5
  cclkC := h.cclkC
  cclkP := h.cclkP
  ppc := h6
  cpc := h.cpc
  slots := by have := h.slots; rw [← hx] at this; exact this
  valsEq := by rw [hq]; exact h.valsEq
  valsLen := by rw [hx]; exact h.valsLen
  pend := hp
  delLen := by rw [hd]; exact h.delLen
  del := by rw [hd]; exact h.del
  flt := h.flt

/-- Steps of the consumer that touch neither slots nor histories. -/
theorem Inv.consUpdate (h : Inv cfg tr s W R vals) {tr' : List (Ev α)} {t : Thread} {pc : CPc α}
    {b : Nat}
    (hq : pushedOk tr' = pushedOk tr) (hp : pending tr' = pending tr) (ho : owed tr' = owed tr)
    (hd : delivered tr' = delivered tr) (hg : pc.gone = s.cpc.gone) (hgi : pc.given = s.cpc.given)
    (h1 : t.seenR = R) (h2 : t.seenW ≤ W) (h3 : R ≤ t.seenW)
    (h4 : t.clk.c = R + 1) (h5 : t.clk.p ≤ W)
    (h6 : pc.ok cfg.max.toNat R t cfg.disciplined cfg.debug b) :
    Inv cfg tr' { s with cons := t, cpc := pc, budget := b } W R vals where
  wlen := h.wlen
  rlen := h.rlen
  wmsg := h.wmsg
  rmsg := h.rmsg
  pseenW := h.pseenW
  pseenR := h.pseenR
  cseenR := h1
  cseenW := h2
  room := h.room
  avail := h3
  pclkP := h.pclkP
  pclkC := h.pclkC
  cclkC := h4
  cclkP := h5
  ppc := by rw [ho]; exact h.ppc
  cpc := h6
  slots := by have := h.slots; rw [← hg] at this; exact this
  valsEq := by rw [hq]; exact h.valsEq
  valsLen := h.valsLen
  pend := by rw [hp]; exact h.pend
  delLen := by rw [hd, hgi]; exact h.delLen
  del := by rw [hd]; exact h.del
  flt := h.flt

theorem inv_prod {k : Nat} (hk : cfg.max.toNat = 2 ^ k)
    (h : Inv cfg tr s W R vals) {v : α} {wi ri : Size} {t : Thread} {m : Nat}
    (hpc : s.ppc = .e2 v wi) (hl : loadR s s.prod .acquire m = some (ri, t)) :
    (nextIndex cfg.max wi = ri ↔ W + 1 = m + cfg.max.toNat) := by
  obtain ⟨hRW, hWR⟩ := h.bounds
  obtain ⟨h1, h2, h3, h4, h5, h6, h7, h8⟩ := h.prodR hl
  have hp := h.ppc
  rw [hpc] at hp
  rw [hp.2, h1]
  exact next_ne_room hk (by omega) (by have := h.room; omega)

theorem inv_step {k : Nat} (hk : cfg.max.toNat = 2 ^ k)
    (hcfg : cfg.debug = true ∨ cfg.disciplined = true)
    (h : Inv cfg tr s W R vals) {e : Option (Ev α)} {s' : State α} (hs : Step cfg s e s') :
    ∃ W' R' vals', Inv cfg (tr ++ e.toList) s' W' R' vals' := by
  have hpos : 0 < cfg.max.toNat := by rw [hk]; exact Nat.two_pow_pos k
  have hN := cfg.max.isLt
  obtain ⟨hRW, hWR⟩ := h.bounds
  have hroom := h.room
  have hpsW := h.pseenW
  have hpsR := h.pseenR
  have hcsR := h.cseenR
  have hcsW := h.cseenW
  have hav := h.avail
  have hpP := h.pclkP
  have hpC := h.pclkC
  have hcC := h.cclkC
  have hcP := h.cclkP
  have hppc := h.ppc
  have hcpc := h.cpc
  have hpend := h.pend
  have hdl := h.delLen
  have hvl := h.valsLen
  have hve := h.valsEq
  cases hs with
  | pushCall hf hpc =>
    rw [hpc] at hppc
    refine ⟨W, R, vals, h.prodUpdate ?_ ?_ ?_ ?_ hpsW hpsR hroom hpP hpC ?_⟩
    · simp [pushedOk_append, pushedOk, hpc, PPc.tail]
    · simp [hpc, PPc.extra]
    · simp [pending_snoc, PPc.arg]
    · simp [delivered_append, delivered]
    · simpa [PPc.ok, owed_snoc] using hppc
  | pushLoadW hf hpc hl =>
    rw [hpc] at hppc hpend
    obtain ⟨h1, h2, h3, h4, h5, h6⟩ := h.ownW hl
    refine ⟨W, R, vals, h.prodUpdate ?_ ?_ ?_ ?_ h2 (by omega) (by omega) h4 h5 ?_⟩
    · simp [hpc, PPc.tail]
    · simp [hpc, PPc.extra]
    · simpa [PPc.arg] using hpend
    · simp
    · simp only [Option.toList, List.append_nil, PPc.ok] at hppc ⊢
      exact ⟨by omega, h1⟩
  | pushFull hf hpc hl hne =>
    rw [inv_prod hk h hpc hl] at hne
    rw [hpc] at hppc hpend
    obtain ⟨h1, h2, h3, h4, h5, h6, h7, h8⟩ := h.prodR hl
    refine ⟨W, R, vals, h.prodUpdate ?_ ?_ ?_ ?_ h2 (by omega) (by omega) h6 h7 ?_⟩
    · simp [hpc, PPc.tail, pushedOk_append, pushedOk]
    · simp [hpc, PPc.extra]
    · simp [PPc.arg, pending_snoc]
    · simp [delivered_append, delivered]
    · simp only [Option.toList, PPc.ok, owed_snoc] at hppc ⊢
      omega
  | pushRoom hf hpc hl hne =>
    rw [Ne, inv_prod hk h hpc hl] at hne
    rw [hpc] at hppc hpend
    obtain ⟨h1, h2, h3, h4, h5, h6, h7, h8⟩ := h.prodR hl
    refine ⟨W, R, vals, h.prodUpdate ?_ ?_ ?_ ?_ h2 (by omega) (by omega) h6 h7 ?_⟩
    · simp [hpc, PPc.tail]
    · simp [hpc, PPc.extra]
    · simpa [PPc.arg] using hpend
    · simp
    · simp only [Option.toList, List.append_nil, PPc.ok] at hppc ⊢
      have := h8 rfl
      exact ⟨by omega, hppc.2, by omega, by omega⟩
  | pushConstructThrows hf hpc =>
    rw [hpc] at hppc
    refine ⟨W, R, vals, h.prodUpdate ?_ ?_ ?_ ?_ hpsW hpsR hroom hpP hpC ?_⟩
    · simp [pushedOk_append, pushedOk, hpc, PPc.tail]
    · simp [hpc, PPc.extra]
    · simp [pending_snoc, PPc.arg]
    · simp [delivered_append, delivered]
    · simp only [Option.toList, PPc.ok, owed_snoc] at hppc ⊢; exact hppc.1
  | pushConstruct hf hpc hlt hcell hord =>
    rename_i v wi
    rw [hpc] at hppc hpend hvl hve
    have hsl := h.slots
    rw [hpc] at hsl
    simp only [PPc.ok, PPc.extra, PPc.tail, Nat.add_zero, List.append_nil] at hppc hvl hve hsl
    obtain ⟨p1, p2, p3, p4⟩ := hppc
    have hwi : wi.toNat = W % cfg.max.toNat := by rw [p2, idx_toNat hpos hN]
    have hgone : s.cpc.gone ≤ 1 := by cases s.cpc <;> simp [CPc.gone]
    have hgl : R + s.cpc.gone ≤ W := by
      cases hc : s.cpc <;> simp only [CPc.gone] <;> try omega
      rw [hc] at hcpc; simp only [CPc.ok] at hcpc; omega
    refine ⟨W, R, vals ++ [v], { h with
      ppc := ?_, slots := ?_, valsEq := ?_, valsLen := ?_, pend := ?_, delLen := ?_, del := ?_ }⟩
    · simp only [Option.toList, List.append_nil, PPc.ok]; exact ⟨p1, p2, p3⟩
    · have := hsl.construct hvl (by omega) (by omega) v
      simp only [setSlot, PPc.extra, hwi, hpP]
      exact this
    · simp [PPc.tail, hve]
    · simp [PPc.extra, hvl]
    · simpa [PPc.arg] using hpend
    · simpa [setSlot] using h.delLen
    · intro j x hj
      simp only [Option.toList, List.append_nil] at hj
      have := h.del j x hj
      rw [List.getElem?_append_left (List.getElem?_eq_some_iff.mp this).1]
      exact this
  | pushConstructBad hf hpc hbad =>
    exfalso
    rename_i v wi
    rw [hpc] at hppc
    have hsl := h.slots
    rw [hpc] at hsl
    simp only [PPc.ok, PPc.extra, Nat.add_zero] at hppc hsl
    obtain ⟨p1, p2, p3, p4⟩ := hppc
    have hwi : wi.toNat = W % cfg.max.toNat := by rw [p2, idx_toNat hpos hN]
    apply hbad
    rw [hwi]
    exact ⟨Nat.mod_lt _ hpos, hsl.free (by omega)⟩
  | pushConstructRace hf hpc hbad =>
    exfalso
    rename_i v wi
    rw [hpc] at hppc
    have hsl := h.slots
    rw [hpc] at hsl
    simp only [PPc.ok, PPc.extra, Nat.add_zero] at hppc hsl
    obtain ⟨p1, p2, p3, p4⟩ := hppc
    have hwi : wi.toNat = W % cfg.max.toNat := by rw [p2, idx_toNat hpos hN]
    apply hbad
    unfold prodOrdered
    rw [hwi]
    rcases hsl.lastC_le (Nat.min_le_right _ _) with h1 | h1 <;> omega
  | pushStore hf hpc =>
    rename_i v wi
    have hsl := h.slots
    rw [hpc] at hppc hpend hvl hve hsl
    simp only [PPc.ok, PPc.extra, PPc.tail] at hppc hvl hve hsl
    obtain ⟨p1, p2, p3⟩ := hppc
    have hnext : nextIndex cfg.max wi = idx cfg.max.toNat (W + 1) := by
      rw [p2, nextIndex_idx hk]
    refine ⟨W + 1, R, vals, { h with
      wlen := ?_, wmsg := ?_, rmsg := ?_, pseenW := ?_, cseenW := ?_, room := ?_, pclkP := ?_,
      cclkP := ?_, ppc := ?_, slots := ?_, valsEq := ?_, valsLen := ?_, pend := ?_, delLen := ?_,
      del := ?_ }⟩
    · simp [storeW, h.wlen]
    · intro m msg hm
      simp only [storeW] at hm
      rw [List.getElem?_append] at hm
      split at hm
      · exact h.wmsg m msg hm
      · rename_i hlt
        have hm' : m = W + 1 := by
          have := (List.getElem?_eq_some_iff.mp hm).1
          have := h.wlen
          simp at *; omega
        subst hm'
        rw [h.wlen] at hm
        simp at hm
        subst hm
        exact ⟨hnext, hpP, hpC⟩
    · intro m msg hm
      obtain ⟨a, b, c⟩ := h.rmsg m msg hm
      exact ⟨a, b, by omega⟩
    · simp [storeW, h.wlen]
    · simp only [storeW]; omega
    · simp only [storeW]; omega
    · simp [storeW, hpP]
    · simp only [storeW]; omega
    · simp only [storeW, PPc.ok, Option.toList, List.append_nil]; omega
    · simp only [storeW, PPc.extra]; exact hsl.mono (by omega)
    · simpa [PPc.tail] using hve
    · simpa [PPc.extra] using hvl
    · simpa [PPc.arg] using hpend
    · simpa [storeW] using hdl
    · simpa using h.del
  | pushReturn hf hpc =>
    rw [hpc] at hppc hve
    refine ⟨W, R, vals, h.prodUpdate ?_ ?_ ?_ ?_ hpsW hpsR hroom hpP hpC ?_⟩
    · simp [pushedOk_append, pushedOk, hpc, PPc.tail]
    · simp [hpc, PPc.extra]
    · simp [pending_snoc, PPc.arg]
    · simp [delivered_append, delivered]
    · simpa [PPc.ok, owed_snoc] using hppc
  | pWaCall hf hpc =>
    rw [hpc] at hppc hpend
    refine ⟨W, R, vals, h.prodUpdate ?_ ?_ ?_ ?_ hpsW hpsR hroom hpP hpC ?_⟩
    · simp [hpc, PPc.tail]
    · simp [hpc, PPc.extra]
    · simpa [PPc.arg] using hpend
    · simp
    · simpa [PPc.ok] using hppc
  | pWaLoadW hf hpc hl =>
    rw [hpc] at hppc hpend
    obtain ⟨h1, h2, h3, h4, h5, h6⟩ := h.ownW hl
    refine ⟨W, R, vals, h.prodUpdate ?_ ?_ ?_ ?_ h2 (by omega) (by omega) h4 h5 ?_⟩
    · simp [hpc, PPc.tail]
    · simp [hpc, PPc.extra]
    · simpa [PPc.arg] using hpend
    · simp
    · simp only [Option.toList, List.append_nil, PPc.ok] at hppc ⊢
      exact ⟨by omega, h1⟩
  | pWaLoadR hf hpc hl =>
    rename_i wi ri t m
    rw [hpc] at hppc hpend
    obtain ⟨h1, h2, h3, h4, h5, h6, h7, h8⟩ := h.prodR hl
    simp only [PPc.ok] at hppc
    refine ⟨W, R, vals, h.prodUpdate ?_ ?_ ?_ ?_ h2 (by omega) (by omega) h6 h7 ?_⟩
    · simp [hpc, PPc.tail, pushedOk_append, pushedOk]
    · simp [hpc, PPc.extra]
    · simpa [PPc.arg, pending_snoc] using hpend
    · simp [delivered_append, delivered]
    · simp only [Option.toList, PPc.ok, owed_snoc]
      have := writeAvail_idx hpos (W := W) (R := m) (by omega) (by omega)
      rw [← h1, ← hppc.2] at this
      omega
  | pRaCall hf hpc =>
    rw [hpc] at hppc hpend
    refine ⟨W, R, vals, h.prodUpdate ?_ ?_ ?_ ?_ hpsW hpsR hroom hpP hpC ?_⟩
    · simp [hpc, PPc.tail]
    · simp [hpc, PPc.extra]
    · simpa [PPc.arg] using hpend
    · simp
    · simpa [PPc.ok] using hppc
  | pRaLoadW hf hpc hl =>
    rw [hpc] at hppc hpend
    obtain ⟨h1, h2, h3, h4, h5, h6⟩ := h.ownW hl
    refine ⟨W, R, vals, h.prodUpdate ?_ ?_ ?_ ?_ h2 (by omega) (by omega) h4 h5 ?_⟩
    · simp [hpc, PPc.tail]
    · simp [hpc, PPc.extra]
    · simpa [PPc.arg] using hpend
    · simp
    · simp only [Option.toList, List.append_nil, PPc.ok] at hppc ⊢
      exact ⟨by omega, h1⟩
  | pRaLoadR hf hpc hl =>
    rw [hpc] at hppc hpend
    obtain ⟨h1, h2, h3, h4, h5, h6, h7, h8⟩ := h.prodR hl
    simp only [PPc.ok] at hppc
    refine ⟨W, R, vals, h.prodUpdate ?_ ?_ ?_ ?_ h2 (by omega) (by omega) h6 h7 ?_⟩
    · simp [hpc, PPc.tail, pushedOk_append, pushedOk]
    · simp [hpc, PPc.extra]
    · simpa [PPc.arg, pending_snoc] using hpend
    · simp [delivered_append, delivered]
    · simp only [Option.toList, PPc.ok, owed_snoc]
      omega
  | popCall hf hpc hb =>
    rename_i fn
    rw [hpc] at hcpc
    refine ⟨W, R, vals, h.consUpdate ?_ ?_ ?_ ?_ ?_ ?_ hcsR hcsW hav hcC hcP ?_⟩
    all_goals try simp [hpc, CPc.gone, CPc.given]
    simp only [CPc.ok] at hcpc ⊢
    intro hd
    have := hcpc hd
    have := hb hd
    omega
  | popLoadR hf hpc hl =>
    rename_i fn ri t m
    rw [hpc] at hcpc
    obtain ⟨h1, h2, h3, h4, h5, h6⟩ := h.ownR hl
    simp only [CPc.ok] at hcpc
    refine ⟨W, R, vals, h.consUpdate (b := s.budget) ?_ ?_ ?_ ?_ ?_ ?_ h2 (by omega) (by omega)
      h4 h5 ?_⟩
    · simp
    · simp
    · simp
    · simp
    · rw [hpc]; split_ifs <;> simp [CPc.gone]
    · rw [hpc]; split_ifs with hd hfn
      · simp [CPc.given]
      · simp [CPc.given]
      · cases fn <;> simp_all [CPc.given]
    · split_ifs with hd hfn
      · simp only [CPc.ok]
        refine ⟨h1, hd, fun hdd => ?_⟩
        have := hcpc hdd
        omega
      · have hdd : cfg.disciplined = true := by rcases hcfg with hc | hc; exact absurd hc hd; exact hc
        have := hcpc hdd
        simp only [CPc.ok]
        exact ⟨h1, by omega, by omega, fun _ => by omega⟩
      · have hdd : cfg.disciplined = true := by rcases hcfg with hc | hc; exact absurd hc hd; exact hc
        have := hcpc hdd
        simp only [CPc.ok]
        exact ⟨h1, by omega, by omega, fun _ => by omega⟩
  | popAssertFails hf hpc hl he =>
    rename_i fn ri wi t m
    obtain ⟨h1, h2, h3, h4, h5, h6, h7, h8, h9⟩ := h.consW hl
    have hcpc' := hcpc
    rw [hpc] at hcpc
    simp only [CPc.ok] at hcpc
    have hm : m = R := by
      simp only [isEmpty, beq_iff_eq] at he
      rw [h1, hcpc.1, idx_eq_iff hpos hN] at he
      exact (idx_mod_inj he.symm (by omega) (by omega)).symm
    have hnd : cfg.disciplined = false := by
      by_contra hd
      have := hcpc.2.2 (by simpa using hd)
      omega
    refine ⟨W, R, vals, { h with
      cseenR := ?_, cseenW := ?_, avail := ?_, cclkC := ?_, cclkP := ?_, ppc := ?_, cpc := ?_,
      valsEq := ?_, pend := ?_, delLen := ?_, del := ?_, flt := ?_ }⟩
    · exact h2
    · show t.seenW ≤ W; omega
    · show R ≤ t.seenW; omega
    · exact h6
    · exact h7
    · simpa using hppc
    · rw [hpc]
      simp only [CPc.ok]
      exact ⟨hcpc.1, hcpc.2.1, fun hd => by rw [hnd] at hd; cases hd⟩
    · simpa using hve
    · simpa using hpend
    · simpa using hdl
    · simpa using h.del
    · right; exact ⟨rfl, hcpc.2.1, hnd⟩
  | popAssertHolds hf hpc hl he =>
    rename_i fn ri wi t m
    obtain ⟨h1, h2, h3, h4, h5, h6, h7, h8, h9⟩ := h.consW hl
    rw [hpc] at hcpc
    simp only [CPc.ok] at hcpc
    have hm : m ≠ R := by
      rintro rfl
      simp only [isEmpty, beq_eq_false_iff_ne] at he
      exact he (by rw [h1, hcpc.1])
    have := h9 rfl
    refine ⟨W, R, vals, h.consUpdate (b := s.budget) ?_ ?_ ?_ ?_ ?_ ?_ h2 (by omega) (by omega)
      h6 h7 ?_⟩
    · simp
    · simp
    · simp
    · simp
    · rw [hpc]; split_ifs <;> simp [CPc.gone]
    · rw [hpc]; cases fn <;> simp [CPc.given]
    · split_ifs with hfn
      all_goals
        simp only [CPc.ok]
        exact ⟨hcpc.1, by omega, by omega, fun hd => by have := hcpc.2.2 hd; omega⟩
  | consumeFn hf hpc hlt hcell hord =>
    rename_i ri v
    have hsl := h.slots
    rw [hpc] at hcpc hdl hsl
    simp only [CPc.ok, CPc.gone, CPc.given, Nat.add_zero] at hcpc hdl hsl
    have hri : ri.toNat = R % cfg.max.toNat := by rw [hcpc.1, idx_toNat hpos hN]
    obtain ⟨v', hv1, hv2⟩ := hsl.live R (by omega) (by omega)
    have hvv : v' = v := by rw [hri, hv2] at hcell; simpa using hcell
    subst hvv
    refine ⟨W, R, vals, { h with
      ppc := ?_, cpc := ?_, slots := ?_, valsEq := ?_, pend := ?_, delLen := ?_, del := ?_ }⟩
    · simpa [owed_snoc, setSlot] using hppc
    · simp only [CPc.ok, setSlot]; exact hcpc
    · have := hsl.touch (by omega)
      simp only [setSlot, CPc.gone, hri, hcC, Nat.add_zero]
      exact this.mono (by omega)
    · simpa [pushedOk_append, pushedOk, setSlot] using hve
    · simpa [pending_snoc, setSlot] using hpend
    · simp [delivered_append, delivered, CPc.given, hdl]
    · intro j x hj
      simp only [Option.toList, delivered_append, delivered] at hj
      rw [List.getElem?_append] at hj
      split at hj
      · exact h.del j x hj
      · rename_i hge
        have hjl : j = R := by
          have := (List.getElem?_eq_some_iff.mp hj).1
          simp at this; omega
        subst hjl
        simp [hdl] at hj
        rw [← hj]; exact hv1
  | consumeFnThrows hf hpc hlt hcell hord =>
    rename_i ri v
    have hsl := h.slots
    rw [hpc] at hcpc hdl hsl
    simp only [CPc.ok, CPc.gone, CPc.given, Nat.add_zero] at hcpc hdl hsl
    have hri : ri.toNat = R % cfg.max.toNat := by rw [hcpc.1, idx_toNat hpos hN]
    refine ⟨W, R, vals, { h with
      ppc := ?_, cpc := ?_, slots := ?_, valsEq := ?_, pend := ?_, delLen := ?_, del := ?_ }⟩
    · simpa [owed_snoc, setSlot] using hppc
    · simp only [CPc.ok, setSlot]; intro hd; have := hcpc.2.2.2 hd; omega
    · have := hsl.touch (by omega)
      simp only [setSlot, CPc.gone, hri, hcC, Nat.add_zero]
      exact this.mono (by omega)
    · simpa [pushedOk_append, pushedOk, setSlot] using hve
    · simpa [pending_snoc, setSlot] using hpend
    · simp [delivered_append, delivered, CPc.given, hdl]
    · intro j x hj
      simp only [Option.toList, delivered_append, delivered, List.append_nil] at hj
      exact h.del j x hj
  | consumeFnBad hf hpc hbad =>
    exfalso
    rename_i ri
    have hsl := h.slots
    rw [hpc] at hcpc hsl
    simp only [CPc.ok, CPc.gone, Nat.add_zero] at hcpc hsl
    have hri : ri.toNat = R % cfg.max.toNat := by rw [hcpc.1, idx_toNat hpos hN]
    obtain ⟨v', hv1, hv2⟩ := hsl.live R (by omega) (by omega)
    apply hbad
    rw [hri]
    exact ⟨Nat.mod_lt _ hpos, by rw [hv2]; simp⟩
  | consumeFnRace hf hpc hbad =>
    exfalso
    rename_i ri
    have hsl := h.slots
    rw [hpc] at hcpc hsl
    simp only [CPc.ok] at hcpc
    have hri : ri.toNat = R % cfg.max.toNat := by rw [hcpc.1, idx_toNat hpos hN]
    apply hbad
    unfold consOrdered
    rw [hri]
    have hx : s.ppc.extra ≤ 1 := by cases s.ppc <;> simp [PPc.extra]
    have := hsl.lastP_le (R := R) (by omega)
    omega
  | popDestroy hf hpc hlt hcell hord hev =>
    rename_i fn ri
    subst hev
    have hsl := h.slots
    have hx : s.ppc.extra ≤ 1 := by cases s.ppc <;> simp [PPc.extra]
    rw [hpc] at hcpc hdl hsl
    simp only [CPc.ok, CPc.gone, Nat.add_zero] at hcpc hsl
    have hri : ri.toNat = R % cfg.max.toNat := by rw [hcpc.1, idx_toNat hpos hN]
    refine ⟨W, R, vals, { h with
      ppc := ?_, cpc := ?_, slots := ?_, valsEq := ?_, pend := ?_, delLen := ?_, del := ?_ }⟩
    · cases fn <;> simpa [owed_snoc, setSlot] using hppc
    · simp only [CPc.ok, setSlot]; exact hcpc
    · have := hsl.destroy (Nat.min_le_left _ _) (by omega)
      simp only [setSlot, CPc.gone, hri, hcC]
      exact this.mono (by omega)
    · cases fn <;> simpa [pushedOk_append, pushedOk, setSlot] using hve
    · cases fn <;> simpa [pending_snoc, setSlot] using hpend
    · cases fn <;> simp [delivered_append, delivered, CPc.given, hdl]
    · intro j x hj
      cases fn
      · have hj' : (delivered tr ++ [none])[j]? = some (some x) := by
          rw [← hj]; simp [delivered_append, delivered]
        rw [List.getElem?_append] at hj'
        split at hj'
        · exact h.del j x hj'
        · rename_i hge
          have := (List.getElem?_eq_some_iff.mp hj').1
          rw [show j - (delivered tr).length = 0 by simp at this; omega] at hj'
          simp at hj'
      · simp only [Option.toList, if_true, List.append_nil] at hj
        exact h.del j x hj
  | popDestroyBad hf hpc hbad =>
    exfalso
    rename_i fn ri
    have hsl := h.slots
    rw [hpc] at hcpc hsl
    simp only [CPc.ok, CPc.gone, Nat.add_zero] at hcpc hsl
    have hri : ri.toNat = R % cfg.max.toNat := by rw [hcpc.1, idx_toNat hpos hN]
    obtain ⟨v', hv1, hv2⟩ := hsl.live R (by omega) (by omega)
    apply hbad
    rw [hri]
    exact ⟨Nat.mod_lt _ hpos, by rw [hv2]; simp⟩
  | popDestroyRace hf hpc hbad =>
    exfalso
    rename_i fn ri
    have hsl := h.slots
    rw [hpc] at hcpc hsl
    simp only [CPc.ok] at hcpc
    have hri : ri.toNat = R % cfg.max.toNat := by rw [hcpc.1, idx_toNat hpos hN]
    apply hbad
    unfold consOrdered
    rw [hri]
    have hx : s.ppc.extra ≤ 1 := by cases s.ppc <;> simp [PPc.extra]
    have := hsl.lastP_le (R := R) (by omega)
    omega
  | popStore hf hpc =>
    rename_i ri
    have hsl := h.slots
    rw [hpc] at hcpc hdl hsl
    simp only [CPc.ok, CPc.gone, CPc.given] at hcpc hdl hsl
    have hnext : nextIndex cfg.max ri = idx cfg.max.toNat (R + 1) := by
      rw [hcpc.1, nextIndex_idx hk]
    refine ⟨W, R + 1, vals, { h with
      rlen := ?_, wmsg := ?_, rmsg := ?_, pseenR := ?_, cseenR := ?_, avail := ?_, pclkC := ?_,
      cclkC := ?_, ppc := ?_, cpc := ?_, slots := ?_, valsEq := ?_, pend := ?_, delLen := ?_,
      del := ?_ }⟩
    · simp [storeR, h.rlen]
    · intro m msg hm
      obtain ⟨a, b, c⟩ := h.wmsg m msg hm
      exact ⟨a, b, by omega⟩
    · intro m msg hm
      simp only [storeR] at hm
      rw [List.getElem?_append] at hm
      split at hm
      · exact h.rmsg m msg hm
      · rename_i hlt
        have hm' : m = R + 1 := by
          have := (List.getElem?_eq_some_iff.mp hm).1
          have := h.rlen
          simp at *; omega
        subst hm'
        rw [h.rlen] at hm
        simp at hm
        subst hm
        exact ⟨hnext, hcC, hcP⟩
    · simp only [storeR]; omega
    · simp [storeR, h.rlen]
    · simp only [storeR]; omega
    · simp only [storeR]; omega
    · simp [storeR, hcC]
    · simpa [storeR] using hppc
    · simp only [storeR, CPc.ok]
      intro hd
      have := hcpc.2.2.2 hd
      simp
      omega
    · simp only [storeR, CPc.gone, Nat.add_zero]; exact hsl.mono (by omega)
    · simpa [storeR] using hve
    · simpa [storeR] using hpend
    · simpa [CPc.given] using hdl
    · simpa using h.del
  | cRaCall hf hpc =>
    rw [hpc] at hcpc
    refine ⟨W, R, vals, h.consUpdate (b := s.budget) ?_ ?_ ?_ ?_ ?_ ?_ hcsR hcsW hav hcC hcP ?_⟩
    all_goals try simp [hpc, CPc.gone, CPc.given]
    simpa [CPc.ok] using hcpc
  | cRaLoadW hf hpc hl =>
    rename_i wi t m
    obtain ⟨h1, h2, h3, h4, h5, h6, h7, h8, h9⟩ := h.consW hl
    rw [hpc] at hcpc
    simp only [CPc.ok] at hcpc
    have := h9 rfl
    refine ⟨W, R, vals, h.consUpdate (b := s.budget) ?_ ?_ ?_ ?_ ?_ ?_ h2 (by omega) (by omega)
      h6 h7 ?_⟩
    all_goals try simp [hpc, CPc.gone, CPc.given]
    simp only [CPc.ok]
    exact ⟨fun hd => by have := hcpc hd; omega, m, h1, by omega, by omega, by omega⟩
  | cRaLoadR hf hpc hl =>
    rename_i wi ri t m
    obtain ⟨h1, h2, h3, h4, h5, h6⟩ := h.ownR hl
    rw [hpc] at hcpc
    simp only [CPc.ok] at hcpc
    obtain ⟨hc1, q, hq1, hq2, hq3, hq4⟩ := hcpc
    refine ⟨W, R, vals, h.consUpdate ?_ ?_ ?_ ?_ ?_ ?_ h2 (by omega) (by omega) h4 h5 ?_⟩
    · simp [pushedOk_append, pushedOk]
    · simp [pending_snoc]
    · simp [owed_snoc]
    · simp [delivered_append, delivered]
    · simp [hpc, CPc.gone]
    · simp [hpc, CPc.given]
    · simp only [CPc.ok]
      intro _
      rw [h1, hq1, readAvail_idx hpos hq2 (by omega)]
      omega
  | cWaCall hf hpc =>
    rw [hpc] at hcpc
    refine ⟨W, R, vals, h.consUpdate (b := s.budget) ?_ ?_ ?_ ?_ ?_ ?_ hcsR hcsW hav hcC hcP ?_⟩
    all_goals try simp [hpc, CPc.gone, CPc.given]
    simpa [CPc.ok] using hcpc
  | cWaLoadW hf hpc hl =>
    rename_i wi t m
    obtain ⟨h1, h2, h3, h4, h5, h6, h7, h8, h9⟩ := h.consW hl
    rw [hpc] at hcpc
    simp only [CPc.ok] at hcpc
    refine ⟨W, R, vals, h.consUpdate (b := s.budget) ?_ ?_ ?_ ?_ ?_ ?_ h2 (by omega) (by omega)
      h6 h7 ?_⟩
    all_goals try simp [hpc, CPc.gone, CPc.given]
    simp only [CPc.ok]
    exact ⟨fun hd => by have := hcpc hd; omega, m, h1, by omega, by omega⟩
  | cWaLoadR hf hpc hl =>
    rename_i wi ri t m
    obtain ⟨h1, h2, h3, h4, h5, h6⟩ := h.ownR hl
    rw [hpc] at hcpc
    simp only [CPc.ok] at hcpc
    refine ⟨W, R, vals, h.consUpdate (b := s.budget) ?_ ?_ ?_ ?_ ?_ ?_ h2 (by omega) (by omega)
      h4 h5 ?_⟩
    · simp [pushedOk_append, pushedOk]
    · simp [pending_snoc]
    · simp [owed_snoc]
    · simp [delivered_append, delivered]
    · simp [hpc, CPc.gone]
    · simp [hpc, CPc.given]
    · simp only [CPc.ok]
      intro hd
      have := hcpc.1 hd
      omega

theorem exec_inv {k : Nat} (hk : cfg.max.toNat = 2 ^ k)
    (hcfg : cfg.debug = true ∨ cfg.disciplined = true) (h : Exec cfg tr s) :
    ∃ W R vals, Inv cfg tr s W R vals := by
  induction h with
  | init => exact ⟨0, 0, [], inv_init cfg (by rw [hk]; exact Nat.two_pow_pos k)⟩
  | step _ hs ih =>
    obtain ⟨W, R, vals, ih⟩ := ih
    exact inv_step hk hcfg ih hs

end Verif.SPSC.Conc
