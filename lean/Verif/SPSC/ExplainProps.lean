import Verif.SPSC.ExplainRun

/-!
C164: can the results of the calls on an `SPSCQueue` (`/repo/private/container/spsc_queue_base.hpp`) be explained by
one sequential queue on which the calls were made one after the other?

`Fits` and `SeqRun` (`Verif/SPSC/Explain.lean`) are that sequential queue: a list, with the exact answer of every call.
-/

set_option autoImplicit false

namespace Verif.SPSC.Conc

variable {α : Type} {cfg : Cfg} {tr : List (Ev α)} {s : State α}

/-- The results of `tr` are those of some order of the same calls, each thread's calls in its own order, on one
sequential queue. -/
def OneQueue (cfg : Cfg) (tr : List (Ev α)) : Prop :=
  ∃ (order : List (Ev α)) (q : List α),
    order.filter Ev.byProducer = tr.filter Ev.byProducer ∧
    order.filter Ev.byConsumer = tr.filter Ev.byConsumer ∧
    SeqRun (cfg.max.toNat - 1) order [] q

/-- Calls that do not change the contents can be left out. -/
theorem SeqRun.leave_out {cap : Nat} {p : Ev α → Bool}
    (hp : ∀ (e : Ev α) (q q' : List α), p e = false → Fits cap e q q' → q' = q)
    {a : List (Ev α)} {q q' : List α} (h : SeqRun cap a q q') : SeqRun cap (a.filter p) q q' := by
  induction a generalizing q with
  | nil => exact h
  | cons e a ih =>
    obtain ⟨q1, h1, h2⟩ := h
    rw [List.filter_cons]
    cases hpe : p e with
    | true => exact ⟨q1, h1, ih h2⟩
    | false =>
      rw [hp e q q1 hpe h1] at h2
      simpa using ih h2

/-- **C164** (partial) What every execution satisfies on the producer's side: all results of the producer — which
pushes succeeded, which found the queue full, what `write_available()` and `read_available()` said — together with all
removals are exactly those of one sequential queue, in an order that keeps each thread's calls in its own order.
Missing: the answers the consumer got from its own `read_available()` and `write_available()`, which the next theorem
explains by another order; one order for both need not exist (`spsc_one_queue_wrong`). -/
theorem spsc_producer_explained_partial {k : Nat} (hk : cfg.max.toNat = 2 ^ k)
    (hcfg : cfg.debug = true ∨ cfg.disciplined = true) (h : Exec cfg tr s) (hp : s.ppc = .idle) :
    ∃ (order : List (Ev α)) (q : List α),
      order.filter Ev.byProducer = tr.filter Ev.byProducer ∧
      order.filter Ev.byConsumer = tr.filter Ev.takes ∧
      SeqRun (cfg.max.toNat - 1) order [] q := by
  obtain ⟨hle, order, rest, a1, a2, a3, a4, a5⟩ := exec_invA hk hcfg h
  rw [hp] at a5
  simp only [PPc.tail, List.append_nil] at a5
  have hrun := (a4.append a5).leave_out (p := fun e => e.byProducer || e.takes) (by
    intro e q q' he hf
    cases e with
    | pushCall v => exact hf
    | cReadAvail n => exact hf.2
    | cWriteAvail n => exact hf.2
    | _ => simp [Ev.byProducer, Ev.takes] at he)
  refine ⟨_, _, ?_, ?_, hrun⟩
  · rw [List.filter_filter, ← a1]
    have h1 : (fun a : Ev α => a.byProducer && (a.byProducer || a.takes)) = Ev.byProducer := by
      funext a; cases a <;> rfl
    rw [h1, List.filter_append, filter_takes_producer a3, List.append_nil]
  · rw [List.filter_filter, ← a2]
    have h1 : (fun a : Ev α => a.byConsumer && (a.byProducer || a.takes)) = Ev.takes := by
      funext a; cases a <;> rfl
    rw [h1, List.filter_append, filter_takes_self a3]

/-- **C164** (partial) What every execution satisfies on the consumer's side: all results of the consumer — the
elements in their order, what `read_available()` and `write_available()` said — together with all successful pushes are
exactly those of one sequential queue, in an order that keeps each thread's calls in its own order.
Missing: the pushes that found the queue full and the producer's queries (`spsc_one_queue_wrong`). -/
theorem spsc_consumer_explained_partial {k : Nat} (hk : cfg.max.toNat = 2 ^ k)
    (hcfg : cfg.debug = true ∨ cfg.disciplined = true) (h : Exec cfg tr s) (hp : s.ppc = .idle) :
    ∃ (order : List (Ev α)) (q : List α),
      order.filter Ev.byProducer = tr.filter Ev.puts ∧
      order.filter Ev.byConsumer = tr.filter Ev.byConsumer ∧
      SeqRun (cfg.max.toNat - 1) order [] q := by
  obtain ⟨W, R, vals, hi⟩ := exec_inv hk hcfg h
  obtain ⟨hRW, hWR⟩ := hi.bounds
  obtain ⟨-, order, a1, a2, a3⟩ := exec_invC hk hcfg h
  have hvl := hi.valsLen
  have hv := hi.valsEq
  have hrl := hi.rlen
  have hcs := hi.cseenW
  have hav := hi.avail
  have hcpc := hi.cpc
  have hg : R + s.cpc.given ≤ s.cons.seenW := by
    cases hc : s.cpc with
    | c4 fn ri =>
      rw [hc] at hcpc; simp only [CPc.ok] at hcpc
      cases fn <;> simp only [CPc.given] <;> omega
    | c5 ri =>
      rw [hc] at hcpc; simp only [CPc.ok] at hcpc
      simp only [CPc.given]; omega
    | _ => simp only [CPc.given]; omega
  rw [hp] at a2 a3 hv hvl
  simp only [PPc.tail, PPc.extra, List.append_nil] at a2 a3 hv hvl
  rw [← hv] at a2 a3
  have hlen : ((vals.take s.cons.seenW).drop (s.r.length - 1 + s.cpc.given)).length +
      (vals.drop s.cons.seenW).length ≤ cfg.max.toNat - 1 := by
    rw [List.length_drop, List.length_drop, List.length_take]; omega
  have a4 := a3.append (SeqRun.pushes (vals.drop s.cons.seenW) _ hlen)
  have hrun := a4.leave_out (p := fun e => e.byConsumer || e.puts) (by
    intro e q q' he hf
    cases e with
    | pushCall v => exact hf
    | pushRet v ok =>
      cases ok with
      | false => exact hf.2
      | true => simp [Ev.byConsumer, Ev.puts] at he
    | pushThrow v => exact hf.2
    | pWriteAvail n => exact hf.2
    | pReadAvail n => exact hf.2
    | _ => simp [Ev.byConsumer, Ev.puts] at he)
  refine ⟨_, _, ?_, ?_, hrun⟩
  · rw [List.filter_filter, filter_puts_eq]
    have h1 : (fun a : Ev α => a.byProducer && (a.byConsumer || a.puts)) = Ev.puts := by
      funext a
      cases a with
      | pushRet v ok => cases ok <;> rfl
      | _ => rfl
    rw [h1, List.filter_append, filter_pushes_puts, a2, ← List.map_append, List.take_append_drop, hv]
  · rw [List.filter_filter, ← a1]
    have h1 : (fun a : Ev α => a.byConsumer && (a.byConsumer || a.puts)) = Ev.byConsumer := by
      funext a
      cases a with
      | pushRet v ok => cases ok <;> rfl
      | _ => rfl
    rw [h1, List.filter_append, filter_pushes_producer, List.append_nil]

/-- **C164** (partial) One sequential queue explains all results when the consumer only removes (it asks no
`read_available()`; a checked build stops it if there is nothing), or when no push is refused and the producer asks
nothing.  Missing: programs in which both sides act on what the queue tells them about the other. -/
theorem spsc_one_queue_partial {k : Nat} (hk : cfg.max.toNat = 2 ^ k)
    (hcfg : cfg.debug = true ∨ cfg.disciplined = true) (h : Exec cfg tr s) (hp : s.ppc = .idle)
    (hq : (∀ e ∈ tr, e.byConsumer = true → e.takes = true) ∨
      (∀ e ∈ tr, e.byProducer = true → e.puts = true)) : OneQueue cfg tr := by
  rcases hq with hq | hq
  · obtain ⟨order, q, h1, h2, h3⟩ := spsc_producer_explained_partial hk hcfg h hp
    refine ⟨order, q, h1, ?_, h3⟩
    rw [h2]
    apply List.filter_congr
    intro e he
    have := hq e he
    cases e <;> simp [Ev.byConsumer, Ev.takes] at this ⊢
  · obtain ⟨order, q, h1, h2, h3⟩ := spsc_consumer_explained_partial hk hcfg h hp
    refine ⟨order, q, ?_, h2, h3⟩
    rw [h1]
    apply List.filter_congr
    intro e he
    have := hq e he
    cases e with
    | pushRet v ok => cases ok <;> simp [Ev.byProducer, Ev.puts] at this ⊢
    | _ => simp [Ev.byProducer, Ev.puts] at this ⊢

/-! ### One queue for both sides does not exist -/

/-- Several pushes in a row. -/
theorem push_many {k : Nat} (hk : cfg.max.toNat = 2 ^ k)
    (hcfg : cfg.debug = true ∨ cfg.disciplined = true) (v : α) (n : Nat) :
    ∀ (tr : List (Ev α)) (s : State α), Exec cfg tr s → s.fault = none → s.ppc = .idle →
      s.w.length + n < s.r.length + cfg.max.toNat →
      ∃ (ps : List (Ev α)) (s' : State α), Exec cfg (tr ++ ps) s' ∧
        ps.filter Ev.byProducer = List.replicate n (.pushRet v true) ∧
        ps.filter Ev.byConsumer = [] ∧ s'.fault = none ∧ s'.ppc = .idle ∧ s'.cpc = s.cpc ∧
        s'.budget = s.budget ∧ s'.w.length = s.w.length + n ∧ s'.r.length = s.r.length ∧
        s'.cons = s.cons := by
  induction n with
  | zero =>
    intro tr s h hf hp _
    exact ⟨[], s, by simpa using h, rfl, rfl, hf, hp, rfl, rfl, rfl, rfl, rfl⟩
  | succ n ih =>
    intro tr s h hf hp hroom
    obtain ⟨s1, a1, a2, a3, a4, a5, a6, a7, a8⟩ := run_push_cons hk hcfg h hf hp (by omega) v
    obtain ⟨ps, s2, b1, b2, b3, b4, b5, b6, b7, b8, b9, b10⟩ :=
      ih _ s1 (h.trans a1) a2 a3 (by omega)
    refine ⟨[.pushCall v, .pushRet v true] ++ ps, s2, by rw [← List.append_assoc]; exact b1, ?_, ?_, b4,
      b5, by rw [b6, a4], by rw [b7, a5], by omega, by omega, by rw [b10, a8]⟩
    · rw [List.filter_append, b2, List.replicate_succ]; simp [List.filter_cons, Ev.byProducer]
    · rw [List.filter_append, b3]; simp [Ev.byConsumer]

/-- Several `consume`s in a row by a consumer that sees nothing new. -/
theorem consume_many {k : Nat} (hk : cfg.max.toNat = 2 ^ k)
    (hcfg : cfg.debug = true ∨ cfg.disciplined = true) (n : Nat) :
    ∀ (tr : List (Ev α)) (s : State α), Exec cfg tr s → s.fault = none → s.cpc = .idle →
      (cfg.disciplined = true → n ≤ s.budget) → s.r.length + n ≤ s.cons.seenW + 1 →
      ∃ (vs : List α) (s' : State α), vs.length = n ∧ Exec cfg (tr ++ vs.map Ev.got) s' ∧
        s'.fault = none ∧ s'.cpc = .idle ∧ s'.ppc = s.ppc ∧ s'.r.length = s.r.length + n ∧
        s'.w.length = s.w.length ∧ s'.cons.seenW = s.cons.seenW := by
  induction n with
  | zero =>
    intro tr s h hf hp _ _
    exact ⟨[], s, rfl, by simpa using h, hf, hp, rfl, rfl, rfl, rfl⟩
  | succ n ih =>
    intro tr s h hf hc hb hr
    obtain ⟨s1, v, a1, a2, a3, a4, a5, a6, a7, a8⟩ :=
      run_consume_view hk hcfg h hf hc (fun hd => by have := hb hd; omega) (by omega)
    obtain ⟨vs, s2, b1, b2, b3, b4, b5, b6, b7, b8⟩ :=
      ih _ s1 (h.trans a1) a2 a3 (fun hd => by have := hb hd; omega) (by omega)
    refine ⟨v :: vs, s2, by simp [b1], ?_, b3, b4, by rw [b5, a4], by omega, by omega, by omega⟩
    simpa using b2

/-- No sequential queue is found full with `N - 1` elements pushed by the end of a history in which it was found empty
after `N - 2` of them had been removed. -/
theorem no_one_queue {N : Nat} (hN : 3 ≤ N) {v : α} {n n' : Size} {vs : List α} {order : List (Ev α)}
    {q : List α} (hn : n'.toNat = 0) (hvs : vs.length = N - 2)
    (h1 : order.filter Ev.byProducer =
      List.replicate (N - 1) (.pushRet v true) ++ [.pushRet v false])
    (h2 : order.filter Ev.byConsumer = (.cReadAvail n :: vs.map Ev.got) ++ [.cReadAvail n'])
    (h3 : SeqRun (N - 1) order [] q) : False := by
  have hrep : ∀ m : Nat, pushedOk (List.replicate m (Ev.pushRet v true)) = List.replicate m v := by
    intro m
    induction m with
    | zero => rfl
    | succ m ih => simp [List.replicate_succ, pushedOk, ih]
  have hgot : ∀ l : List α, delivered (l.map Ev.got) = l.map some := by
    intro l; induction l with
    | nil => rfl
    | cons a t ih => simp [delivered, ih]
  -- the moment the producer finds the queue full
  obtain ⟨m1, m2, hm, hm1, hm2⟩ := List.filter_eq_append_iff.mp h1
  obtain ⟨x, y, rfl, hx, -, -⟩ := List.filter_eq_cons_iff.mp hm2
  have ha : pushedOk (m1 ++ x) = List.replicate (N - 1) v := by
    rw [← pushedOk_filter_producer, List.filter_append, hm1,
      List.filter_eq_nil_iff.mpr (by simpa using hx), List.append_nil, hrep]
  have hm' : order = (m1 ++ x) ++ .pushRet v false :: y := by rw [hm]; simp
  have h3' := h3
  rw [hm'] at h3'
  obtain ⟨qa, hr1, qb, hfit, -⟩ := h3'.split
  have hl1 := hr1.length
  rw [ha, List.length_replicate, hfit.1, List.length_nil] at hl1
  -- the moment the consumer finds it empty
  obtain ⟨o1, o2, ho, ho1, ho2⟩ := List.filter_eq_append_iff.mp h2
  obtain ⟨z, w, rfl, hz, -, -⟩ := List.filter_eq_cons_iff.mp ho2
  have hb : delivered (o1 ++ z) = vs.map some := by
    rw [← delivered_filter_consumer, List.filter_append, ho1,
      List.filter_eq_nil_iff.mpr (by simpa using hz), List.append_nil]
    simp [delivered, hgot]
  have ho' : order = (o1 ++ z) ++ .cReadAvail n' :: w := by rw [ho]; simp
  rw [ho'] at h3
  obtain ⟨qc, hr2, qd, hfit2, -⟩ := h3.split
  have hl2 := hr2.length
  have hqc : qc.length = 0 := by rw [← hfit2.1, hn]
  rw [hb, List.length_map, hvs, hqc, List.length_nil] at hl2
  -- one of the two moments comes first
  have hp1 : (m1 ++ x) <+: order := ⟨_, hm'.symm⟩
  have hp2 : (o1 ++ z) <+: order := ⟨_, ho'.symm⟩
  rcases List.prefix_or_prefix_of_prefix hp1 hp2 with ⟨t, ht⟩ | ⟨t, ht⟩
  · have : (pushedOk (o1 ++ z)).length = (pushedOk (m1 ++ x)).length + (pushedOk t).length := by
      rw [← ht, pushedOk_append, List.length_append]
    rw [ha, List.length_replicate] at this
    omega
  · have : (delivered (m1 ++ x)).length = (delivered (o1 ++ z)).length + (delivered t).length := by
      rw [← ht, delivered_append, List.length_append]
    rw [hb, List.length_map, hvs] at this
    omega

/-- **C164** One order for both sides need not exist: for every capacity `N = 2^k >= 4`, with and without assertions
and for a consumer that only removes what it was told about, there is an execution after which both threads are
between calls, the producer's last answer is that the queue is full, the consumer's last answer is that it is empty, and
no order of the calls on one sequential queue gives these answers.  Threads that go to sleep on these answers, each to be
woken by the other, both sleep. -/
theorem spsc_one_queue_wrong {k : Nat} (hk2 : 2 ≤ k) (max : Size) (hk : max.toNat = 2 ^ k) (dbg : Bool)
    (v : α) :
    ∃ (tr : List (Ev α)) (s : State α), Exec ⟨max, dbg, true⟩ tr s ∧ s.fault = none ∧
      s.ppc = .idle ∧ s.cpc = .idle ∧
      (tr.filter Ev.byProducer).getLast? = some (.pushRet v false) ∧
      (tr.filter Ev.byConsumer).getLast? = some (.cReadAvail 0) ∧
      ¬ OneQueue ⟨max, dbg, true⟩ tr := by
  have hbig : 4 ≤ max.toNat := by
    rw [hk]; calc 4 = 2 ^ 2 := rfl
      _ ≤ 2 ^ k := Nat.pow_le_pow_right (by norm_num) hk2
  have hcfg : (⟨max, dbg, true⟩ : Cfg).debug = true ∨ (⟨max, dbg, true⟩ : Cfg).disciplined = true :=
    Or.inr rfl
  have e0 : Exec (α := α) ⟨max, dbg, true⟩ [] (State.init α) := .init
  -- all but one of the places are filled
  obtain ⟨p1, s1, a1, a2, a3, a4, a5, a6, a7, a8, a9, a10⟩ := push_many (cfg := ⟨max, dbg, true⟩) hk hcfg
    v (max.toNat - 2) [] _ e0 rfl rfl (by simp [State.init]; omega)
  simp only [State.init, List.length_cons, List.length_nil] at a8 a9
  -- the consumer is told
  obtain ⟨s2, n, b1, b2, b3, b4, b5, b6, b7, b8, -⟩ := run_readAvail (cfg := ⟨max, dbg, true⟩) hk hcfg a1
    a4 (by rw [a6]; rfl)
  have e2 := a1.trans b1
  obtain ⟨W, R, vals, hi⟩ := exec_inv (cfg := ⟨max, dbg, true⟩) hk hcfg e2
  have hsee : s2.cons.seenW = max.toNat - 2 := by
    have h1 := hi.cpc
    rw [b4] at h1
    have h2 := (h1 rfl).1
    have h3 := hi.cseenW
    have h4 := hi.wlen
    have h5 := hi.rlen
    rw [b7] at h4; rw [b8] at h5
    omega
  -- the last place is filled, and one more push is refused
  obtain ⟨s3, c1, c2, c3, c4, c5, c6, c7, c8⟩ := run_push_cons (cfg := ⟨max, dbg, true⟩) hk hcfg e2 b3
    (by rw [b5, a5]) (by rw [b7, b8, a8, a9]; simp only; omega) v
  have e3 := e2.trans c1
  obtain ⟨s4, d1, d2, d3, d4, d5, d6, d7, d8⟩ := run_push_full (cfg := ⟨max, dbg, true⟩) hk hcfg e3 c2 c3
    (by rw [c6, c7, b7, b8, a8, a9]; simp only; omega) v
  have e4 := e3.trans d1
  -- the consumer removes what it was told about and asks again, seeing nothing new
  obtain ⟨vs, s5, f1, f2, f3, f4, f5, f6, f7, f8⟩ := consume_many (cfg := ⟨max, dbg, true⟩) hk hcfg
    (max.toNat - 2) _ s4 e4 d2 (by rw [d4, c4, b4])
    (by intro _; rw [d5, c5, b6, a8, a9]; omega)
    (by rw [d7, c7, b8, a9, d8, c8, hsee]; omega)
  obtain ⟨s6, n', g1, g2, g3, g4, g5, g6, g7⟩ := run_readAvail_view (cfg := ⟨max, dbg, true⟩) hk hcfg f2 f3
    f4
  have e6 := f2.trans g1
  have hn' : n'.toNat = 0 := by
    rw [g2, f6, f8, d8, c8, hsee, d7, c7, b8, a9]; omega
  have hn0 : n' = 0 := BitVec.eq_of_toNat_eq (by rw [hn']; rfl)
  have hgp : (vs.map Ev.got).filter Ev.byProducer = [] := by
    rw [List.filter_eq_nil_iff]; simp [Ev.byProducer]
  have hgc : (vs.map Ev.got).filter Ev.byConsumer = vs.map Ev.got := by
    rw [List.filter_eq_self]; simp [Ev.byConsumer]
  have hprod : List.filter Ev.byProducer ([] ++ p1 ++ [.cReadAvail n] ++ [.pushCall v, .pushRet v true] ++
      [.pushCall v, .pushRet v false] ++ vs.map Ev.got ++ [.cReadAvail n']) =
      List.replicate (max.toNat - 1) (.pushRet v true) ++ [.pushRet v false] := by
    simp only [List.filter_append, a2, hgp, List.append_nil, List.nil_append]
    have : max.toNat - 1 = max.toNat - 2 + 1 := by omega
    rw [this, List.replicate_succ']
    simp [List.filter_cons, Ev.byProducer]
  have hcons : List.filter Ev.byConsumer ([] ++ p1 ++ [.cReadAvail n] ++ [.pushCall v, .pushRet v true] ++
      [.pushCall v, .pushRet v false] ++ vs.map Ev.got ++ [.cReadAvail n']) =
      (.cReadAvail n :: vs.map Ev.got) ++ [.cReadAvail n'] := by
    simp only [List.filter_append, a3, hgc, List.nil_append]
    simp [List.filter_cons, Ev.byConsumer]
  refine ⟨_, s6, e6, g3, ?_, g4, ?_, ?_, ?_⟩
  · rw [g5, f5, d3]
  · rw [hprod, List.getLast?_append]; rfl
  · rw [hcons, List.getLast?_append, hn0]; rfl
  · rintro ⟨order, q, h1, h2, h3⟩
    exact no_one_queue (N := max.toNat) (by omega) hn' f1 (h1.trans hprod) (h2.trans hcons) h3

/-- The smallest such queue, of `SPSCQueue<bool, 4>`. -/
example : ∃ (tr : List (Ev Bool)) (s : State Bool), Exec ⟨4, true, true⟩ tr s ∧ s.fault = none ∧
    s.ppc = .idle ∧ s.cpc = .idle ∧
    (tr.filter Ev.byProducer).getLast? = some (.pushRet true false) ∧
    (tr.filter Ev.byConsumer).getLast? = some (.cReadAvail 0) ∧
    ¬ OneQueue ⟨4, true, true⟩ tr :=
  spsc_one_queue_wrong (k := 2) (by norm_num) 4 rfl true true

/-- The hypotheses of the partial theorems are met by an execution with a refused push: a queue of capacity 2 takes one
element and refuses the next. -/
example : ∃ (tr : List (Ev Bool)) (s : State Bool), Exec ⟨2, true, true⟩ tr s ∧ s.ppc = .idle ∧
    tr.filter Ev.byProducer = [.pushRet true true, .pushRet true false] ∧
    OneQueue ⟨2, true, true⟩ tr := by
  have hk : (⟨2, true, true⟩ : Cfg).max.toNat = 2 ^ 1 := rfl
  obtain ⟨s1, a1, a2, a3, a4, a5, a6, a7⟩ := run_push (cfg := ⟨2, true, true⟩) hk (Or.inl rfl)
    (.init : Exec _ [] (State.init Bool)) rfl rfl (by decide) true
  have e1 := (Exec.init : Exec (α := Bool) ⟨2, true, true⟩ [] _).trans a1
  obtain ⟨s2, b1, b2, b3, -⟩ := run_push_full (cfg := ⟨2, true, true⟩) hk (Or.inl rfl) e1 a2 a3
    (by rw [a6, a7]; rfl) true
  refine ⟨_, s2, e1.trans b1, b3, rfl, ?_⟩
  refine spsc_one_queue_partial hk (Or.inl rfl) (e1.trans b1) b3 (Or.inl ?_)
  intro e he
  simp at he
  rcases he with rfl | rfl | rfl | rfl <;> simp [Ev.byConsumer]

end Verif.SPSC.Conc
