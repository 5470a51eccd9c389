import Verif.SPSC.ConcRun
import Mathlib.Data.List.Induction

/-!
Property theorems about the concurrent model of `SPSCQueue` (C23-C27, C29).

`Exec cfg tr s` ranges over every interleaving of one producer and one consumer thread and over
every stale-but-coherent choice of the atomic loads; `tr` is the trace of observable events.
-/

set_option autoImplicit false

namespace Verif.SPSC.Conc

variable {α : Type} {cfg : Cfg} {tr : List (Ev α)} {s : State α}

/-- Values the producer has offered: those whose push returned `true`, plus the argument of the
call in progress (which may already have taken effect). -/
def offered (tr : List (Ev α)) : List α := pushedOk tr ++ (pending tr).toList

/-- **C23** FIFO without loss, duplication or reordering, under every schedule and every visibility
order: the `j`-th removed element is the `j`-th offered element. -/
theorem spsc_fifo {k : Nat} (hk : cfg.max.toNat = 2 ^ k)
    (hcfg : cfg.debug = true ∨ cfg.disciplined = true) (h : Exec cfg tr s) :
    (delivered tr).length ≤ (offered tr).length ∧
    ∀ (j : Nat) (v : α), (delivered tr)[j]? = some (some v) → (offered tr)[j]? = some v := by
  obtain ⟨W, R, vals, i⟩ := exec_inv hk hcfg h
  have hpre : vals <+: offered tr := by
    rw [i.valsEq, offered, i.pend, List.prefix_append_right_inj]
    cases s.ppc <;> simp [PPc.tail, PPc.arg]
  obtain ⟨hRW, hWR⟩ := i.bounds
  refine ⟨?_, fun j v hj => ?_⟩
  · have h1 := hpre.length_le
    have h2 := i.valsLen
    have h3 := i.delLen
    have h4 : R + s.cpc.given ≤ W := by
      have hcpc := i.cpc
      have := i.cseenW
      cases hc : s.cpc with
      | c4 fn ri =>
        rw [hc] at hcpc; simp only [CPc.ok] at hcpc
        cases fn <;> simp only [CPc.given] <;> omega
      | c5 ri =>
        rw [hc] at hcpc; simp only [CPc.ok] at hcpc
        simp only [CPc.given]; omega
      | _ => simp only [CPc.given]; omega
    omega
  · have := i.del j v hj
    obtain ⟨rest, hr⟩ := hpre
    rw [← hr, List.getElem?_append_left (List.getElem?_eq_some_iff.mp this).1]
    exact this

/-- A consumer running alone takes out all that is left. -/
theorem drain_aux {k : Nat} (hk : cfg.max.toNat = 2 ^ k)
    (hcfg : cfg.debug = true ∨ cfg.disciplined = true) (d : Nat) :
    ∀ (tr : List (Ev α)) (s : State α), Exec cfg tr s → s.fault = none → s.cpc = .idle →
      s.w.length = s.r.length + d → (cfg.disciplined = true → d ≤ s.budget) →
      ∃ (vs : List α) (s' : State α), vs.length = d ∧ Exec cfg (tr ++ vs.map .got) s' := by
  induction d with
  | zero => intro tr s h _ _ _ _; exact ⟨[], s, rfl, by simpa using h⟩
  | succ d ih =>
    intro tr s h hf hpc hl hb
    obtain ⟨s1, v, h1, h2, h3, h4, h5, h6, h7⟩ :=
      run_consume hk hcfg h hf hpc (fun hd => by have := hb hd; omega) (by omega)
    obtain ⟨vs, s', hvs, he⟩ := ih (tr ++ [.got v]) s1 (h.trans h1) h2 h3 (by omega)
      (fun hd => by have := hb hd; omega)
    exact ⟨v :: vs, s', by simp [hvs], by simpa using he⟩

/-- **C23** Nothing is lost: whenever both threads are between calls, a consumer that then asks
`read_available()` and consumes that many elements can be told exactly the number of remaining
elements and is handed exactly the remaining elements, in order. -/
theorem spsc_no_loss {k : Nat} (hk : cfg.max.toNat = 2 ^ k)
    (hcfg : cfg.debug = true ∨ cfg.disciplined = true) (h : Exec cfg tr s)
    (hf : s.fault = none) (hp : s.ppc = .idle) (hc : s.cpc = .idle) :
    ∃ (n : Size) (s' : State α), n.toNat = (pushedOk tr).length - (delivered tr).length ∧
      Exec cfg (tr ++ .cReadAvail n ::
        ((pushedOk tr).drop (delivered tr).length).map .got) s' := by
  obtain ⟨W, R, vals, i⟩ := exec_inv hk hcfg h
  obtain ⟨hRW, hWR⟩ := i.bounds
  obtain ⟨s1, n, h1, h2, h3, h4, h5, h6, h7, h8, h9⟩ := run_readAvail hk hcfg h hf hc
  have hwl := i.wlen
  have hrl := i.rlen
  have e1 := h.trans h1
  obtain ⟨vs, s', hvs, e2⟩ := drain_aux hk hcfg (s.w.length - s.r.length) _ s1 e1 h3 h4
    (by rw [h7, h8]; omega) (fun _ => by omega)
  have hpl : (pushedOk tr).length = W := by
    have a := i.valsEq
    have b := i.valsLen
    rw [hp] at a b
    simp only [PPc.tail, PPc.extra, List.append_nil] at a b
    rw [← a, b]; rfl
  have hdl : (delivered tr).length = R := by
    have a := i.delLen
    rw [hc] at a
    simpa [CPc.given] using a
  refine ⟨n, s', by omega, ?_⟩
  have hpend : pending (tr ++ [.cReadAvail n] ++ vs.map .got) = pending tr := by
    simp only [pending, List.foldl_append, List.foldl_cons, List.foldl_nil, List.foldl_map]
    generalize hx : List.foldl _ none tr = x
    clear * -
    induction vs with
    | nil => rfl
    | cons a t ih => simpa using ih
  have hpn : pending tr = none := by rw [i.pend, hp]; rfl
  have hgot : ∀ l : List α, delivered (l.map .got) = l.map some := by
    intro l; induction l with
    | nil => rfl
    | cons a t ih => simp [delivered, ih]
  have hpg : ∀ l : List α, pushedOk (l.map .got) = [] := by
    intro l; induction l with
    | nil => rfl
    | cons a t ih => simp [pushedOk, ih]
  have hvd : vs = (pushedOk tr).drop (delivered tr).length := by
    obtain ⟨_, hfifo⟩ := spsc_fifo hk hcfg e2
    apply List.ext_getElem?
    intro j
    by_cases hj : j < vs.length
    · rw [List.getElem?_drop]
      have := hfifo ((delivered tr).length + j) vs[j] (by
        simp [delivered_append, delivered, hgot, hj])
      rw [offered, hpend, hpn] at this
      simp only [pushedOk_append, pushedOk, hpg, List.append_nil, Option.toList] at this
      rw [this, List.getElem?_eq_getElem hj]
    · rw [List.getElem?_eq_none (by omega), List.getElem?_eq_none]
      rw [List.length_drop]; omega
  rw [← hvd]
  simpa using e2

/-- **C24** No data race, no construction over a live element, no use of an empty slot, no
out-of-bounds access: the only fault that can occur is the documented assertion, and only if the
consumer removes elements it has not been told about. -/
theorem spsc_race_free {k : Nat} (hk : cfg.max.toNat = 2 ^ k)
    (hcfg : cfg.debug = true ∨ cfg.disciplined = true) (h : Exec cfg tr s) :
    s.fault ≠ some .race ∧ s.fault ≠ some .badSlot ∧
    (cfg.disciplined = true → s.fault = none) := by
  obtain ⟨W, R, vals, i⟩ := exec_inv hk hcfg h
  rcases i.flt with h1 | ⟨h1, h2, h3⟩
  · rw [h1]; simp
  · rw [h1, h3]; simp

/-- **C24** The hypothesis is needed: without assertions, a consumer that does not consult
`read_available()` reaches undefined behaviour (it destroys a slot that holds no element). -/
theorem spsc_undisciplined_ub (max : Size) :
    ∃ (tr : List (Ev α)) (s : State α),
      Exec ⟨max, false, false⟩ tr s ∧ s.fault = some .badSlot := by
  have e0 := Exec.init (α := α) (cfg := ⟨max, false, false⟩)
  have e1 := e0.step (Step.popCall (fn := false) rfl rfl (by simp))
  have e2 := e1.step (Step.popLoadR (fn := false) (m := 0) rfl rfl (loadR_ok (by simp [State.init])
    (by simp [State.init])))
  have e3 := e2.step (Step.popDestroyBad (fn := false) rfl rfl (by simp [State.init]))
  exact ⟨_, _, e3, rfl⟩

/-- **C25** At no moment are more than `N - 1` elements in the queue. -/
theorem spsc_capacity {k : Nat} (hk : cfg.max.toNat = 2 ^ k)
    (hcfg : cfg.debug = true ∨ cfg.disciplined = true) (h : Exec cfg tr s) :
    (pushedOk tr).length ≤ (delivered tr).length + (cfg.max.toNat - 1) := by
  obtain ⟨W, R, vals, i⟩ := exec_inv hk hcfg h
  obtain ⟨hRW, hWR⟩ := i.bounds
  have h1 := i.valsEq
  have h2 := i.valsLen
  have h3 := i.delLen
  have h4 : (pushedOk tr).length + s.ppc.tail.length = W + s.ppc.extra := by
    rw [← h2, h1, List.length_append]
  have h5 : s.ppc.extra ≤ s.ppc.tail.length := by cases s.ppc <;> simp [PPc.tail, PPc.extra]
  omega

/-- **C25** A push reports "full" exactly when the newest read index it sees says that `N - 1`
elements are unconsumed; `m` is the number of removals it has observed. With `m` the newest
message (no concurrent consumer) this is: exactly when `N - 1` elements are stored. -/
theorem spsc_push_full_iff {k : Nat} (hk : cfg.max.toNat = 2 ^ k)
    (hcfg : cfg.debug = true ∨ cfg.disciplined = true) (h : Exec cfg tr s)
    {v : α} {wi ri : Size} {t : Thread} {m : Nat} (hpc : s.ppc = .e2 v wi)
    (hl : loadR s s.prod .acquire m = some (ri, t)) :
    m ≤ (delivered tr).length ∧
    (nextIndex cfg.max wi = ri ↔ (pushedOk tr).length = m + (cfg.max.toNat - 1)) := by
  have hpos : 0 < cfg.max.toNat := by rw [hk]; exact Nat.two_pow_pos k
  obtain ⟨W, R, vals, i⟩ := exec_inv hk hcfg h
  have h1 := i.valsEq
  have h2 := i.valsLen
  have h3 := i.delLen
  rw [hpc] at h1 h2
  simp only [PPc.tail, PPc.extra, List.append_nil, Nat.add_zero] at h1 h2
  obtain ⟨_, _, _, _, h5, _⟩ := i.prodR hl
  refine ⟨by omega, ?_⟩
  rw [inv_prod hk i hpc hl, ← h1, h2]
  omega

/-- **C25** A push that returns `false` leaves no trace in the queue: slots and both indices are
as before. -/
theorem spsc_push_false_unchanged {s' : State α} {v : α}
    (hs : Step cfg s (some (.pushRet v false)) s') :
    s'.slots = s.slots ∧ s'.w = s.w ∧ s'.r = s.r := by
  cases hs with
  | popDestroy _ _ _ _ _ hev => split at hev <;> cases hev
  | pushFull => exact ⟨rfl, rfl, rfl⟩

/-- Number of successful pushes in a trace. -/
def okCount (tr : List (Ev α)) : Nat := (pushedOk tr).length

theorem owed_ge (tr1 tr2 : List (Ev α)) (n : Size) :
    n.toNat ≤ owed (tr1 ++ .pWriteAvail n :: tr2) + okCount tr2 := by
  induction tr2 using List.reverseRecOn with
  | nil => rw [owed_snoc]; simp only [okCount, pushedOk, List.length_nil]; omega
  | append_singleton t e ih =>
    rw [show tr1 ++ Ev.pWriteAvail n :: (t ++ [e]) = (tr1 ++ Ev.pWriteAvail n :: t) ++ [e] by simp,
      owed_snoc]
    simp only [okCount, pushedOk_append] at ih ⊢
    cases e with
    | pushRet v ok => cases ok <;> simp [pushedOk] <;> omega
    | pWriteAvail m => simp [pushedOk]; omega
    | _ => simpa [pushedOk] using ih

/-- **C26** `write_available()` is a promise: after the producer was told `n`, no push returns
`false` before `n` more pushes have succeeded. -/
theorem spsc_write_available_sound {k : Nat} (hk : cfg.max.toNat = 2 ^ k)
    (hcfg : cfg.debug = true ∨ cfg.disciplined = true)
    {tr1 tr2 : List (Ev α)} {n : Size} {v : α}
    (h : Exec cfg (tr1 ++ .pWriteAvail n :: tr2) s) {s' : State α}
    (hs : Step cfg s (some (.pushRet v false)) s') : n.toNat ≤ okCount tr2 := by
  obtain ⟨W, R, vals, i⟩ := exec_inv hk hcfg h
  have ho := owed_ge tr1 tr2 n
  cases hs with
  | popDestroy _ _ _ _ _ hev => split at hev <;> cases hev
  | pushFull hf hpc hl hne =>
    rw [inv_prod hk i hpc hl] at hne
    have hp := i.ppc
    rw [hpc] at hp
    simp only [PPc.ok] at hp
    obtain ⟨_, _, _, h4, _⟩ := i.prodR hl
    omega

/-- **C26** `read_available()` by the consumer never exceeds what is there, and never exceeds
`N - 1`; a consumer obeying it never fails (see `spsc_race_free`). -/
theorem spsc_read_available_sound {k : Nat} (hk : cfg.max.toNat = 2 ^ k)
    (hcfg : cfg.debug = true ∨ cfg.disciplined = true)
    (h : Exec cfg tr s) {s' : State α} {n : Size}
    (hs : Step cfg s (some (.cReadAvail n)) s') :
    (delivered tr).length + n.toNat ≤ (offered tr).length ∧ n.toNat ≤ cfg.max.toNat - 1 := by
  have hpos : 0 < cfg.max.toNat := by rw [hk]; exact Nat.two_pow_pos k
  obtain ⟨W, R, vals, i⟩ := exec_inv hk hcfg h
  obtain ⟨hRW, hWR⟩ := i.bounds
  cases hs with
  | popDestroy _ _ _ _ _ hev => split at hev <;> cases hev
  | cRaLoadR hf hpc hl =>
    obtain ⟨h1, h2, h3, h4, h5, h6⟩ := i.ownR hl
    have hc := i.cpc
    have hd := i.delLen
    rw [hpc] at hc hd
    simp only [CPc.ok, CPc.given] at hc hd
    obtain ⟨_, q, hq1, hq2, hq3, _⟩ := hc
    have := i.cseenW
    rw [h1, hq1, readAvail_idx hpos hq2 (by omega)]
    have hv := i.valsLen
    have hpre : vals <+: offered tr := by
      rw [i.valsEq, offered, i.pend, List.prefix_append_right_inj]
      cases s.ppc <;> simp [PPc.tail, PPc.arg]
    have := hpre.length_le
    omega

/-- **C26** `read_available()` called by the producer and `write_available()` called by the consumer
err on the other side: the former never under-reports, the latter never under-reports the free
space left by completed operations. -/
theorem spsc_foreign_available_upper {k : Nat} (hk : cfg.max.toNat = 2 ^ k)
    (hcfg : cfg.debug = true ∨ cfg.disciplined = true)
    (h : Exec cfg tr s) {s' : State α} {n : Size} :
    (Step cfg s (some (.pReadAvail n)) s' →
      (pushedOk tr).length ≤ (delivered tr).length + n.toNat ∧ n.toNat ≤ cfg.max.toNat - 1) ∧
    (Step cfg s (some (.cWriteAvail n)) s' →
      (delivered tr).length + (cfg.max.toNat - 1) ≤ (offered tr).length + n.toNat ∧
      n.toNat ≤ cfg.max.toNat - 1) := by
  have hpos : 0 < cfg.max.toNat := by rw [hk]; exact Nat.two_pow_pos k
  obtain ⟨W, R, vals, i⟩ := exec_inv hk hcfg h
  obtain ⟨hRW, hWR⟩ := i.bounds
  have hd := i.delLen
  have hv := i.valsLen
  have hve := i.valsEq
  have hroom := i.room
  constructor
  · intro hs
    cases hs with
    | popDestroy _ _ _ _ _ hev => split at hev <;> cases hev
    | pRaLoadR hf hpc hl =>
      rename_i wi ri t m
      obtain ⟨h1, h2, h3, h4, h5, _⟩ := i.prodR hl
      have hp := i.ppc
      rw [hpc] at hp hve hv
      simp only [PPc.ok, PPc.tail, PPc.extra, List.append_nil, Nat.add_zero] at hp hve hv
      rw [hp.2, h1, readAvail_idx hpos (by omega) (by omega), ← hve, hv]
      omega
  · intro hs
    cases hs with
    | popDestroy _ _ _ _ _ hev => split at hev <;> cases hev
    | cWaLoadR hf hpc hl =>
      obtain ⟨h1, h2, h3, h4, h5, h6⟩ := i.ownR hl
      have hc := i.cpc
      rw [hpc] at hc hd
      simp only [CPc.ok, CPc.given] at hc hd
      obtain ⟨_, q, hq1, hq2, hq3⟩ := hc
      have := i.cseenW
      rw [h1, hq1, writeAvail_idx hpos hq2 (by omega)]
      have hpre : vals <+: offered tr := by
        rw [i.valsEq, offered, i.pend, List.prefix_append_right_inj]
        cases s.ppc <;> simp [PPc.tail, PPc.arg]
      have := hpre.length_le
      omega

/-! ### C27: a third thread -/

/-- `read_available()` by a thread that is neither producer nor consumer: it loads some message of
`m_write_index` in state `s1` and, any number of steps of the others later, some message of
`m_read_index` in state `s2` (spsc_queue_base.hpp:31-37; the loads do not change the queue). -/
def ObserverReads {α : Type} (cfg : Cfg) (s1 : State α) (tr : List (Ev α)) (s2 : State α)
    (n : Size) : Prop :=
  Steps cfg s1 tr s2 ∧ ∃ m1 ∈ s1.w, ∃ m2 ∈ s2.r, n = readAvail cfg.max m1.val m2.val

/-- Elements in the queue of a state: published minus removed. -/
def inQueue {α : Type} (s : State α) : Nat := s.w.length - s.r.length

/-- **C27** The claim is false for a third thread: for every capacity `N = 2^k >= 4` there is a run in
which the queue never holds more than one element and yet an observer is told `N - 1`. -/
theorem spsc_observer_wrong {k : Nat} (hk2 : 2 ≤ k) (max : Size) (hk : max.toNat = 2 ^ k) (v : α) :
    ∃ (s2 : State α) (tr : List (Ev α)) (n : Size),
      ObserverReads ⟨max, true, true⟩ (State.init α) tr s2 n ∧
      n.toNat = max.toNat - 1 ∧ 3 ≤ n.toNat ∧ (pushedOk tr).length ≤ 1 ∧ inQueue s2 = 0 := by
  have hpos : 0 < max.toNat := by rw [hk]; exact Nat.two_pow_pos k
  have hbig : 4 ≤ max.toNat := by
    rw [hk]; calc 4 = 2 ^ 2 := rfl
      _ ≤ 2 ^ k := Nat.pow_le_pow_right (by norm_num) hk2
  have hlt := max.isLt
  have e0 : Exec (α := α) ⟨max, true, true⟩ [] (State.init α) := .init
  obtain ⟨s1, a1, a2, a3, a4, a5, a6, a7⟩ := run_push (cfg := ⟨max, true, true⟩) hk (by simp) e0 rfl
    rfl (by simp [State.init]; omega) v
  have e1 := e0.trans a1
  obtain ⟨s2, n2, b1, b2, b3, b4, b5, b6, b7, b8, b9⟩ := run_readAvail (cfg := ⟨max, true, true⟩) hk
    (by simp) e1 a2 (by rw [a4]; rfl)
  have e2 := e1.trans b1
  simp only [State.init, List.length_cons, List.length_nil] at a6 a7
  obtain ⟨s3, x, c1, c2, c3, c4, c5, c6, c7⟩ := run_consume (cfg := ⟨max, true, true⟩) hk
    (by simp) e2 b3 b4 (by intro _; omega) (by rw [b7, b8]; omega)
  have e3 := e2.trans c1
  have hs : Steps ⟨max, true, true⟩ (State.init α) _ s3 := (a1.trans b1).trans c1
  obtain ⟨W, R, vals, i⟩ := exec_inv (cfg := ⟨max, true, true⟩) hk (by simp) e3
  have hrl := i.rlen
  have hwl := i.wlen
  rw [c7, b8, a7] at hrl
  rw [c6, b7, a6] at hwl
  have hR : R = 1 := by omega
  have h0 : (0 : Size) = idx max.toNat 0 := by simp [idx]
  obtain ⟨msg, hmsg⟩ : ∃ msg, s3.r[1]? = some msg :=
    ⟨_, List.getElem?_eq_getElem (by rw [c7, b8, a7]; omega)⟩
  have hval := (i.rmsg 1 msg hmsg).1
  simp only at hval
  have hn : (readAvail max 0 msg.val).toNat = max.toNat - 1 := by
    rw [hval]
    have h1 : (idx max.toNat 1).toNat = 1 := by
      rw [idx_toNat hpos hlt]; exact Nat.mod_eq_of_lt (by omega)
    rw [readAvail, if_neg (by rw [ge_iff_le, BitVec.le_def, h1]; simp), BitVec.toNat_sub,
      BitVec.toNat_add, h1]
    simp only [BitVec.ofNat_eq_ofNat, BitVec.toNat_ofNat, Nat.zero_mod, Nat.zero_add]
    omega
  refine ⟨s3, _, readAvail max 0 msg.val, ⟨hs, ⟨0, ⟨0, 0⟩⟩, by simp [State.init], msg,
    List.mem_of_getElem? hmsg, rfl⟩, hn, by omega, ?_, ?_⟩
  · simp [pushedOk]
  · simp only [inQueue]; rw [c6, c7, b7, b8]; omega

/-- **C27** (partial) What does hold for an arbitrary observer of a queue with capacity `2^k`: the
number it is told is less than the capacity.  (For the consumer and the producer the sharper
statements are `spsc_read_available_sound` and `spsc_foreign_available_upper`.)
Missing: that the number was ever the number of stored elements, which is false by
`spsc_observer_wrong`. -/
theorem spsc_observer_partial {k : Nat} (hk : cfg.max.toNat = 2 ^ k)
    (hcfg : cfg.debug = true ∨ cfg.disciplined = true) {tr' : List (Ev α)}
    {s2 : State α} {n : Size} (h : Exec cfg tr s) (ho : ObserverReads cfg s tr' s2 n) :
    n.toNat < cfg.max.toNat := by
  have hpos : 0 < cfg.max.toNat := by rw [hk]; exact Nat.two_pow_pos k
  have hlt := cfg.max.isLt
  obtain ⟨hs, m1, hm1, m2, hm2, rfl⟩ := ho
  obtain ⟨W, R, vals, i⟩ := exec_inv hk hcfg h
  obtain ⟨W', R', vals', i'⟩ := exec_inv hk hcfg (h.trans hs)
  obtain ⟨j, hj⟩ := List.mem_iff_getElem?.mp hm1
  obtain ⟨l, hl⟩ := List.mem_iff_getElem?.mp hm2
  rw [(i.wmsg j m1 hj).1, (i'.rmsg l m2 hl).1]
  have a := idx_toNat hpos hlt j
  have b := idx_toNat hpos hlt l
  have c := Nat.mod_lt j hpos
  have d := Nat.mod_lt l hpos
  unfold readAvail
  split
  · rename_i hle
    rw [BitVec.toNat_sub_of_le hle]; omega
  · rename_i hle
    rw [ge_iff_le, BitVec.le_def] at hle
    rw [BitVec.toNat_sub, BitVec.toNat_add]; omega

/-! ### C29: progress -/

/-- Own steps a producer call still needs. -/
def PPc.rank : PPc α → Nat
  | .idle => 0
  | .e1 _ => 5
  | .e2 _ _ => 4
  | .e3 _ _ => 3
  | .e4 _ _ => 2
  | .e5 _ => 1
  | .wa1 => 2
  | .wa2 _ => 1
  | .ra1 => 2
  | .ra2 _ => 1

/-- Own steps a consumer call still needs. -/
def CPc.rank : CPc α → Nat
  | .idle => 0
  | .c1 _ => 5
  | .c2 _ _ => 4
  | .c3 _ => 3
  | .c4 _ _ => 2
  | .c5 _ => 1
  | .ra1 => 2
  | .ra2 _ => 1
  | .wa1 => 2
  | .wa2 _ => 1

/-- **C29** Wait-freedom.  In every reachable fault-free state a thread that is inside a call has an
enabled step of its own that brings the call closer to its return, whatever the other thread has
done (it is never blocked); ... -/
theorem spsc_never_blocked {k : Nat} (hk : cfg.max.toNat = 2 ^ k)
    (hcfg : cfg.debug = true ∨ cfg.disciplined = true) (h : Exec cfg tr s)
    (hf : s.fault = none) :
    (s.ppc ≠ .idle → ∃ e s', Step cfg s e s' ∧ s'.ppc.rank < s.ppc.rank ∧ s'.cpc = s.cpc) ∧
    (s.cpc ≠ .idle → ∃ e s', Step cfg s e s' ∧
      (s'.cpc.rank < s.cpc.rank ∨ s'.fault = some .assertion) ∧ s'.ppc = s.ppc) := by
  obtain ⟨W, R, vals, i⟩ := exec_inv hk hcfg h
  have hwl := i.wlen
  have hrl := i.rlen
  constructor
  · intro hne
    cases hpc : s.ppc with
    | idle => exact absurd hpc hne
    | e1 v =>
      exact ⟨_, _, .pushLoadW hf hpc (loadW_ok (m := W) (by omega) (by rw [i.pseenW])),
        by simp [PPc.rank], rfl⟩
    | e2 v wi =>
      have l := loadR_ok (s := s) (t := s.prod) (o := .acquire) (m := R) (by omega) i.pseenR
      by_cases hc : nextIndex cfg.max wi = (s.r[R]'(by omega)).val
      · exact ⟨_, _, .pushFull hf hpc l hc, by simp [PPc.rank], rfl⟩
      · exact ⟨_, _, .pushRoom hf hpc l hc, by simp [PPc.rank], rfl⟩
    | e3 v wi =>
      have h1 : wi.toNat < cfg.max.toNat ∧ (s.slots wi.toNat).cell = none := by
        by_contra hbad
        obtain ⟨_, _, _, i'⟩ := exec_inv hk hcfg (h.step (Step.pushConstructBad hf hpc hbad))
        simpa using i'.flt
      have h2 : prodOrdered s wi.toNat := by
        by_contra hbad
        obtain ⟨_, _, _, i'⟩ := exec_inv hk hcfg (h.step (Step.pushConstructRace hf hpc hbad))
        simpa using i'.flt
      exact ⟨_, _, .pushConstruct hf hpc h1.1 h1.2 h2, by simp [PPc.rank], rfl⟩
    | e4 v wi => exact ⟨_, _, .pushStore hf hpc, by simp [PPc.rank], rfl⟩
    | e5 v => exact ⟨_, _, .pushReturn hf hpc, by simp [PPc.rank], rfl⟩
    | wa1 =>
      exact ⟨_, _, .pWaLoadW hf hpc (loadW_ok (m := W) (by omega) (by rw [i.pseenW])),
        by simp [PPc.rank], rfl⟩
    | wa2 wi =>
      exact ⟨_, _, .pWaLoadR hf hpc (loadR_ok (m := R) (by omega) i.pseenR),
        by simp [PPc.rank], rfl⟩
    | ra1 =>
      exact ⟨_, _, .pRaLoadW hf hpc (loadW_ok (m := W) (by omega) (by rw [i.pseenW])),
        by simp [PPc.rank], rfl⟩
    | ra2 wi =>
      exact ⟨_, _, .pRaLoadR hf hpc (loadR_ok (m := R) (by omega) i.pseenR),
        by simp [PPc.rank], rfl⟩
  · intro hne
    cases hpc : s.cpc with
    | idle => exact absurd hpc hne
    | c1 fn =>
      refine ⟨_, _, .popLoadR hf hpc (loadR_ok (m := R) (by omega) (by rw [i.cseenR])), ?_, rfl⟩
      left; split_ifs <;> simp [CPc.rank]
    | c2 fn ri =>
      have l := loadW_ok (s := s) (t := s.cons) (o := .acquire) (m := W) (by omega) i.cseenW
      by_cases hc : isEmpty (s.w[W]'(by omega)).val ri = true
      · exact ⟨_, _, .popAssertFails hf hpc l hc, Or.inr rfl, rfl⟩
      · refine ⟨_, _, .popAssertHolds hf hpc l (by simpa using hc), Or.inl ?_, rfl⟩
        split_ifs <;> simp [CPc.rank]
    | c3 ri =>
      have h1 : ri.toNat < cfg.max.toNat ∧ (s.slots ri.toNat).cell ≠ none := by
        by_contra hbad
        obtain ⟨_, _, _, i'⟩ := exec_inv hk hcfg (h.step (Step.consumeFnBad hf hpc hbad))
        simpa using i'.flt
      have h2 : consOrdered s ri.toNat := by
        by_contra hbad
        obtain ⟨_, _, _, i'⟩ := exec_inv hk hcfg (h.step (Step.consumeFnRace hf hpc hbad))
        simpa using i'.flt
      obtain ⟨v, hv⟩ := Option.ne_none_iff_exists'.mp h1.2
      exact ⟨_, _, .consumeFn hf hpc h1.1 hv h2, Or.inl (by simp [CPc.rank]), rfl⟩
    | c4 fn ri =>
      have h1 : ri.toNat < cfg.max.toNat ∧ (s.slots ri.toNat).cell ≠ none := by
        by_contra hbad
        obtain ⟨_, _, _, i'⟩ := exec_inv hk hcfg (h.step (Step.popDestroyBad hf hpc hbad))
        simpa using i'.flt
      have h2 : consOrdered s ri.toNat := by
        by_contra hbad
        obtain ⟨_, _, _, i'⟩ := exec_inv hk hcfg (h.step (Step.popDestroyRace hf hpc hbad))
        simpa using i'.flt
      exact ⟨_, _, (.popDestroy hf hpc h1.1 h1.2 h2 rfl), Or.inl (by simp [CPc.rank]), rfl⟩
    | c5 ri => exact ⟨_, _, .popStore hf hpc, Or.inl (by simp [CPc.rank]), rfl⟩
    | ra1 =>
      exact ⟨_, _, .cRaLoadW hf hpc (loadW_ok (m := W) (by omega) i.cseenW),
        Or.inl (by simp [CPc.rank]), rfl⟩
    | ra2 wi =>
      exact ⟨_, _, .cRaLoadR hf hpc (loadR_ok (m := R) (by omega) (by rw [i.cseenR])),
        Or.inl (by simp [CPc.rank]), rfl⟩
    | wa1 =>
      exact ⟨_, _, .cWaLoadW hf hpc (loadW_ok (m := W) (by omega) i.cseenW),
        Or.inl (by simp [CPc.rank]), rfl⟩
    | wa2 wi =>
      exact ⟨_, _, .cWaLoadR hf hpc (loadR_ok (m := R) (by omega) (by rw [i.cseenR])),
        Or.inl (by simp [CPc.rank]), rfl⟩

/-- Runs during which the producer stays inside one call; `n` counts the producer's own steps
(those that change its program counter), all others are the consumer's. -/
inductive BusyProd {α : Type} (cfg : Cfg) : State α → Nat → State α → Prop
  | refl {s : State α} : BusyProd cfg s 0 s
  | own {s s1 s2 : State α} {n : Nat} {e : Option (Ev α)} : BusyProd cfg s n s1 → s1.ppc ≠ .idle → Step cfg s1 e s2 →
      s2.ppc ≠ s1.ppc → BusyProd cfg s (n + 1) s2
  | other {s s1 s2 : State α} {n : Nat} {e : Option (Ev α)} : BusyProd cfg s n s1 → s1.ppc ≠ .idle → Step cfg s1 e s2 →
      s2.ppc = s1.ppc → BusyProd cfg s n s2

/-- The same for the consumer. -/
inductive BusyCons {α : Type} (cfg : Cfg) : State α → Nat → State α → Prop
  | refl {s : State α} : BusyCons cfg s 0 s
  | own {s s1 s2 : State α} {n : Nat} {e : Option (Ev α)} : BusyCons cfg s n s1 → s1.cpc ≠ .idle → Step cfg s1 e s2 →
      s2.cpc ≠ s1.cpc → BusyCons cfg s (n + 1) s2
  | other {s s1 s2 : State α} {n : Nat} {e : Option (Ev α)} : BusyCons cfg s n s1 → s1.cpc ≠ .idle → Step cfg s1 e s2 →
      s2.cpc = s1.cpc → BusyCons cfg s n s2

theorem prod_step_rank {s' : State α} {e : Option (Ev α)} (hs : Step cfg s e s')
    (h1 : s.ppc ≠ .idle) (h2 : s'.ppc ≠ s.ppc) : s'.ppc.rank < s.ppc.rank := by
  cases hs <;> simp_all [PPc.rank, setSlot, storeR]

theorem cons_step_rank {s' : State α} {e : Option (Ev α)} (hs : Step cfg s e s')
    (h1 : s.cpc ≠ .idle) (h2 : s'.cpc ≠ s.cpc) : s'.cpc.rank < s.cpc.rank := by
  cases hs <;> simp_all [CPc.rank, setSlot, storeW]
  all_goals split_ifs <;> simp

/-- **C29** ... and it returns after at most 5 own steps (2 for the availability queries),
independently of the other thread's steps in between. -/
theorem spsc_wait_free {s' : State α} {n : Nat} :
    (BusyProd cfg s n s' → n ≤ s.ppc.rank ∧ s.ppc.rank ≤ 5) ∧
    (BusyCons cfg s n s' → n ≤ s.cpc.rank ∧ s.cpc.rank ≤ 5) := by
  constructor
  · intro h
    have key : n + s'.ppc.rank ≤ s.ppc.rank := by
      induction h with
      | refl => simp
      | own _ h1 hs h2 ih => have := prod_step_rank hs h1 h2; omega
      | other _ h1 hs h2 ih => rw [h2]; exact ih
    exact ⟨by omega, by cases s.ppc <;> simp [PPc.rank]⟩
  · intro h
    have key : n + s'.cpc.rank ≤ s.cpc.rank := by
      induction h with
      | refl => simp
      | own _ h1 hs h2 ih => have := cons_step_rank hs h1 h2; omega
      | other _ h1 hs h2 ih => rw [h2]; exact ih
    exact ⟨by omega, by cases s.cpc <;> simp [CPc.rank]⟩

/-! ### The hypotheses are satisfiable -/

/-- A concrete run: capacity 4, checked build, push 10 and 20, then read_available and consume. -/
example : ∃ (tr : List (Ev Nat)) (s : State Nat), Exec ⟨4, true, true⟩ tr s ∧
    pushedOk tr = [10, 20] ∧ delivered tr = [some 10] ∧ s.fault = none ∧ s.ppc = .idle ∧
    s.cpc = .idle := by
  have hk : (4 : Size).toNat = 2 ^ 2 := rfl
  have e0 : Exec (α := Nat) ⟨4, true, true⟩ [] (State.init Nat) := .init
  obtain ⟨s1, a1, a2, a3, a4, a5, a6, a7⟩ := run_push (cfg := ⟨4, true, true⟩) hk (by simp) e0 rfl rfl
    (by decide) 10
  have e1 := e0.trans a1
  simp only [State.init, List.length_cons, List.length_nil] at a6 a7
  obtain ⟨s2, b1, b2, b3, b4, b5, b6, b7⟩ := run_push (cfg := ⟨4, true, true⟩) hk (by simp) e1 a2 a3
    (by rw [a6, a7]; decide) 20
  have e2 := e1.trans b1
  obtain ⟨s3, n3, c1, c2, c3, c4, c5, c6, c7, c8, c9⟩ := run_readAvail (cfg := ⟨4, true, true⟩) hk
    (by simp) e2 b2 (by rw [b4, a4]; rfl)
  have e3 := e2.trans c1
  obtain ⟨s4, x, d1, d2, d3, d4, d5, d6, d7⟩ := run_consume (cfg := ⟨4, true, true⟩) hk
    (by simp) e3 c3 c4 (by intro _; omega) (by rw [c7, c8]; omega)
  have e4 := e3.trans d1
  have hx := (spsc_fifo hk (by simp) e4).2 0 x (by simp [delivered])
  simp [offered, pushedOk] at hx
  subst hx
  refine ⟨_, s4, e4, by simp [pushedOk], by simp [delivered], d2, ?_, d3⟩
  rw [d4, c5, b3]

end Verif.SPSC.Conc
