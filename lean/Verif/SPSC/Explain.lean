import Verif.SPSC.ConcRun

/-!
A sequential bounded queue, as a specification of the results of `SPSCQueue`
(`/repo/private/container/spsc_queue_base.hpp`), and the helper lemmas for C164: executions of the concurrent model
whose results are those of some order of the calls on one sequential queue.
-/

set_option autoImplicit false

namespace Verif.SPSC.Conc

variable {α : Type}

/-! ### Specification -/

/-- The event is a result of a call of the producer. Specification, not part of the code. -/
def Ev.byProducer : Ev α → Bool
  | .pushRet _ _ => true
  | .pushThrow _ => true
  | .pWriteAvail _ => true
  | .pReadAvail _ => true
  | _ => false

/-- The event is a result of a call of the consumer. Specification, not part of the code. -/
def Ev.byConsumer : Ev α → Bool
  | .cReadAvail _ => true
  | .cWriteAvail _ => true
  | .got _ => true
  | .fnThrew _ => true
  | .popped => true
  | _ => false

/-- The consumer looks at or removes an element. Specification, not part of the code. -/
def Ev.takes : Ev α → Bool
  | .got _ => true
  | .fnThrew _ => true
  | .popped => true
  | _ => false

/-- The producer adds an element. Specification, not part of the code. -/
def Ev.puts : Ev α → Bool
  | .pushRet _ true => true
  | _ => false

/-- What a sequential queue with room for `cap` elements answers: the result `e` of one call on a queue that holds
`q` (oldest first), and the contents afterwards. Specification, not part of the code. -/
def Fits (cap : Nat) : Ev α → List α → List α → Prop
  | .pushCall _, q, q' => q' = q
  | .pushRet v true, q, q' => q.length < cap ∧ q' = q ++ [v]
  | .pushRet _ false, q, q' => q.length = cap ∧ q' = q
  | .pushThrow _, q, q' => q.length < cap ∧ q' = q
  | .pWriteAvail n, q, q' => n.toNat + q.length = cap ∧ q' = q
  | .pReadAvail n, q, q' => n.toNat = q.length ∧ q' = q
  | .cReadAvail n, q, q' => n.toNat = q.length ∧ q' = q
  | .cWriteAvail n, q, q' => n.toNat + q.length = cap ∧ q' = q
  | .got v, q, q' => q = v :: q'
  | .fnThrew v, q, q' => q.head? = some v ∧ q' = q
  | .popped, q, q' => ∃ v, q = v :: q'

/-- The results of calls made one after the other on a sequential queue. Specification, not part of the code. -/
def SeqRun (cap : Nat) : List (Ev α) → List α → List α → Prop
  | [], q, q' => q' = q
  | e :: es, q, q'' => ∃ q', Fits cap e q q' ∧ SeqRun cap es q' q''

/-! ### Lemmas -/

theorem SeqRun.append {cap : Nat} {a b : List (Ev α)} {q q' q'' : List α} (h : SeqRun cap a q q')
    (h' : SeqRun cap b q' q'') : SeqRun cap (a ++ b) q q'' := by
  induction a generalizing q with
  | nil => simp only [SeqRun] at h; subst h; exact h'
  | cons e a ih =>
    obtain ⟨q1, h1, h2⟩ := h
    exact ⟨q1, h1, ih h2⟩

theorem SeqRun.split {cap : Nat} {a b : List (Ev α)} {q q'' : List α}
    (h : SeqRun cap (a ++ b) q q'') : ∃ q', SeqRun cap a q q' ∧ SeqRun cap b q' q'' := by
  induction a generalizing q with
  | nil => exact ⟨q, rfl, h⟩
  | cons e a ih =>
    obtain ⟨q1, h1, h2⟩ := h
    obtain ⟨q', h3, h4⟩ := ih h2
    exact ⟨q', ⟨q1, h1, h3⟩, h4⟩

theorem SeqRun.snoc {cap : Nat} {a : List (Ev α)} {e : Ev α} {q q' q'' : List α}
    (h : SeqRun cap a q q') (h' : Fits cap e q' q'') : SeqRun cap (a ++ [e]) q q'' :=
  h.append ⟨q'', h', rfl⟩

/-- Length accounting: what is in the queue is what was put minus what was removed. -/
theorem SeqRun.length {cap : Nat} {a : List (Ev α)} {q q' : List α} (h : SeqRun cap a q q') :
    q'.length + (delivered a).length = q.length + (pushedOk a).length := by
  induction a generalizing q with
  | nil => simp only [SeqRun] at h; subst h; rfl
  | cons e a ih =>
    obtain ⟨q1, h1, h2⟩ := h
    have h3 := ih h2
    cases e with
    | pushRet v ok =>
      cases ok
      · simp only [Fits] at h1; simp only [delivered, pushedOk]; rw [h3, h1.2]
      · simp only [Fits] at h1; simp only [delivered, pushedOk]
        rw [h3, h1.2]; simp only [List.length_append, List.length_cons, List.length_nil]; omega
    | got v =>
      simp only [Fits] at h1; simp only [delivered, pushedOk, List.length_cons]
      rw [h1, List.length_cons]; omega
    | popped =>
      simp only [Fits] at h1; simp only [delivered, pushedOk, List.length_cons]
      obtain ⟨v, h1⟩ := h1
      rw [h1, List.length_cons]; omega
    | pushCall v => simp only [Fits] at h1; simp only [delivered, pushedOk]; rw [h3, h1]
    | _ => simp only [Fits] at h1; simp only [delivered, pushedOk]; rw [h3, h1.2]

/-- Taking elements does not look at later ones. -/
theorem SeqRun.takes_mono {cap : Nat} {a : List (Ev α)} (ha : ∀ e ∈ a, e.takes = true)
    {q q' : List α} (x : List α) (h : SeqRun cap a q q') : SeqRun cap a (q ++ x) (q' ++ x) := by
  induction a generalizing q with
  | nil => simp only [SeqRun] at h ⊢; rw [h]
  | cons e a ih =>
    obtain ⟨q1, h1, h2⟩ := h
    refine ⟨q1 ++ x, ?_, ih (fun e he => ha e (List.mem_cons_of_mem _ he)) h2⟩
    have he := ha e (List.mem_cons_self ..)
    cases e with
    | got v => simp only [Fits] at h1 ⊢; rw [h1]; rfl
    | popped =>
      simp only [Fits] at h1 ⊢
      obtain ⟨v, h1⟩ := h1
      exact ⟨v, by rw [h1]; rfl⟩
    | fnThrew v =>
      simp only [Fits] at h1 ⊢
      refine ⟨?_, by rw [h1.2]⟩
      cases q with
      | nil => simp at h1
      | cons y q => simpa using h1.1
    | _ => simp [Ev.takes] at he

/-- A run of removals can be stopped after any number of removed elements. -/
theorem SeqRun.takes_split {cap : Nat} {a : List (Ev α)} (ha : ∀ e ∈ a, e.takes = true)
    {q q' : List α} (h : SeqRun cap a q q') {k : Nat} (hk : k ≤ (delivered a).length) :
    ∃ a1 a2, a = a1 ++ a2 ∧ SeqRun cap a1 q (q.drop k) ∧ SeqRun cap a2 (q.drop k) q' := by
  induction a generalizing q k with
  | nil =>
    simp only [delivered, List.length_nil, Nat.le_zero] at hk
    subst hk
    exact ⟨[], [], rfl, rfl, h⟩
  | cons e a ih =>
    cases k with
    | zero => exact ⟨[], e :: a, rfl, rfl, h⟩
    | succ k =>
      obtain ⟨q1, h1, h2⟩ := h
      have he := ha e (List.mem_cons_self ..)
      have ha' : ∀ e ∈ a, e.takes = true := fun e he => ha e (List.mem_cons_of_mem _ he)
      cases e with
      | got v =>
        have h1' := h1
        simp only [Fits] at h1
        simp only [delivered, List.length_cons] at hk
        obtain ⟨a1, a2, e1, e2, e3⟩ := ih ha' h2 (k := k) (by omega)
        refine ⟨.got v :: a1, a2, by rw [e1]; rfl, ⟨q1, h1', ?_⟩, ?_⟩
        · rw [h1, List.drop_succ_cons]; exact e2
        · rw [h1, List.drop_succ_cons]; exact e3
      | popped =>
        have h1' := h1
        simp only [Fits] at h1
        obtain ⟨v, h1⟩ := h1
        simp only [delivered, List.length_cons] at hk
        obtain ⟨a1, a2, e1, e2, e3⟩ := ih ha' h2 (k := k) (by omega)
        refine ⟨.popped :: a1, a2, by rw [e1]; rfl, ⟨q1, h1', ?_⟩, ?_⟩
        · rw [h1, List.drop_succ_cons]; exact e2
        · rw [h1, List.drop_succ_cons]; exact e3
      | fnThrew v =>
        have h1' := h1
        simp only [Fits] at h1
        obtain ⟨a1, a2, e1, e2, e3⟩ := ih ha' h2 (k := k + 1) hk
        obtain ⟨_, rfl⟩ := h1
        exact ⟨.fnThrew v :: a1, a2, by rw [e1]; rfl, ⟨q1, h1', e2⟩, e3⟩
      | _ => simp [Ev.takes] at he

/-- A run of successful pushes. -/
theorem SeqRun.pushes {cap : Nat} (vs q : List α) (h : q.length + vs.length ≤ cap) :
    SeqRun cap (vs.map fun v => Ev.pushRet v true) q (q ++ vs) := by
  induction vs generalizing q with
  | nil => simp [SeqRun]
  | cons v vs ih =>
    simp only [List.length_cons] at h
    have := ih (q ++ [v]) (by simp only [List.length_append, List.length_cons, List.length_nil]; omega)
    rw [List.append_assoc, List.singleton_append] at this
    exact ⟨q ++ [v], ⟨by omega, rfl⟩, this⟩

theorem filter_pushes_producer (vs : List α) :
    (vs.map fun v => Ev.pushRet v true).filter Ev.byConsumer = [] := by
  induction vs with
  | nil => rfl
  | cons v vs ih => simp [Ev.byConsumer]

theorem filter_pushes_puts (vs : List α) :
    (vs.map fun v => Ev.pushRet v true).filter Ev.puts = vs.map fun v => Ev.pushRet v true := by
  induction vs with
  | nil => rfl
  | cons v vs ih => simp [Ev.puts]

theorem filter_puts_eq (tr : List (Ev α)) :
    tr.filter Ev.puts = (pushedOk tr).map fun v => Ev.pushRet v true := by
  induction tr with
  | nil => rfl
  | cons e tr ih =>
    cases e with
    | pushRet v ok => cases ok <;> simp [List.filter_cons, Ev.puts, pushedOk, ih]
    | _ => simp [Ev.puts, pushedOk, ih]

theorem filter_takes_producer {a : List (Ev α)} (ha : ∀ e ∈ a, e.takes = true) :
    a.filter Ev.byProducer = [] := by
  rw [List.filter_eq_nil_iff]
  intro e he
  have := ha e he
  cases e <;> simp [Ev.takes, Ev.byProducer] at this ⊢

theorem filter_takes_self {a : List (Ev α)} (ha : ∀ e ∈ a, e.takes = true) :
    a.filter Ev.takes = a := List.filter_eq_self.mpr ha

theorem delivered_filter_takes (tr : List (Ev α)) : delivered (tr.filter Ev.takes) = delivered tr := by
  induction tr with
  | nil => rfl
  | cons e tr ih => cases e <;> simp [List.filter_cons, Ev.takes, delivered, ih]

theorem delivered_filter_consumer (tr : List (Ev α)) :
    delivered (tr.filter Ev.byConsumer) = delivered tr := by
  induction tr with
  | nil => rfl
  | cons e tr ih => cases e <;> simp [List.filter_cons, Ev.byConsumer, delivered, ih]

theorem pushedOk_filter_producer (tr : List (Ev α)) :
    pushedOk (tr.filter Ev.byProducer) = pushedOk tr := by
  induction tr with
  | nil => rfl
  | cons e tr ih =>
    cases e with
    | pushRet v ok => cases ok <;> simp [List.filter_cons, Ev.byProducer, pushedOk, ih]
    | _ => simp [List.filter_cons, Ev.byProducer, pushedOk, ih]

/-! ### The order the producer can believe in -/

variable {cfg : Cfg} {tr : List (Ev α)} {s : State α} {W R : Nat} {vals : List α}

/-- The producer's results so far fit an order in which exactly the removals it has seen came before; `rest` are the
other removals. -/
def InvA (cfg : Cfg) (tr : List (Ev α)) (s : State α) : Prop :=
  s.prod.seenR ≤ (pushedOk tr).length ∧ ∃ order rest : List (Ev α),
    order.filter Ev.byProducer = tr.filter Ev.byProducer ∧
    order.filter Ev.takes ++ rest = tr.filter Ev.takes ∧
    (∀ e ∈ rest, e.takes = true) ∧
    SeqRun (cfg.max.toNat - 1) order [] ((pushedOk tr).drop s.prod.seenR) ∧
    SeqRun (cfg.max.toNat - 1) rest ((pushedOk tr ++ s.ppc.tail).drop s.prod.seenR)
      ((pushedOk tr ++ s.ppc.tail).drop (s.r.length - 1 + s.cpc.given))

theorem InvA.silent (h : InvA cfg tr s) {s' : State α} (h1 : s'.prod.seenR = s.prod.seenR)
    (h2 : s'.ppc.tail = s.ppc.tail)
    (h3 : s'.r.length - 1 + s'.cpc.given = s.r.length - 1 + s.cpc.given) : InvA cfg tr s' := by
  unfold InvA at *
  rw [h1, h2, h3]
  exact h

/-- An event that concerns neither the producer nor a removal. -/
theorem InvA.query (h : InvA cfg tr s) {e : Ev α} (he : e.byProducer = false) (he' : e.takes = false)
    {s' : State α} (h1 : s'.prod.seenR = s.prod.seenR) (h2 : s'.ppc.tail = s.ppc.tail)
    (h3 : s'.r.length - 1 + s'.cpc.given = s.r.length - 1 + s.cpc.given) :
    InvA cfg (tr ++ [e]) s' := by
  have hp : pushedOk (tr ++ [e]) = pushedOk tr := by
    rw [pushedOk_append]
    cases e <;> simp [Ev.byProducer] at he <;> simp [pushedOk]
  unfold InvA at *
  rw [h1, h2, h3, hp, List.filter_append, List.filter_append, List.filter_cons, List.filter_cons, he, he']
  simpa using h

/-- The producer learns of removals. -/
theorem InvA.learn (h : InvA cfg tr s) (hi : Inv cfg tr s W R vals) (ht : s.ppc.tail = []) {m : Nat}
    (h1 : s.prod.seenR ≤ m) (h2 : m ≤ R) {s' : State α} (h3 : s'.prod.seenR = m)
    (h4 : s'.ppc.tail = []) (h5 : s'.r.length - 1 + s'.cpc.given = s.r.length - 1 + s.cpc.given) :
    InvA cfg tr s' := by
  obtain ⟨hle, order, rest, a1, a2, a3, a4, a5⟩ := h
  obtain ⟨hRW, _⟩ := hi.bounds
  have hv := hi.valsEq
  have hvl := hi.valsLen
  have hx : s.ppc.extra = 0 := by
    cases hp : s.ppc <;> rw [hp] at ht <;> simp [PPc.tail, PPc.extra] at ht ⊢
  rw [ht, List.append_nil] at hv
  rw [hx] at hvl
  have hpl : (pushedOk tr).length = W := by rw [← hv]; omega
  have hdl := hi.delLen
  have hrl := hi.rlen
  have hlen : (delivered (order.filter Ev.takes)).length + (delivered rest).length
      = (delivered tr).length := by
    rw [← List.length_append, ← delivered_append, a2, delivered_filter_takes]
  rw [delivered_filter_takes] at hlen
  have hol := a4.length
  have hpo : pushedOk order = pushedOk tr := by
    rw [← pushedOk_filter_producer, a1, pushedOk_filter_producer]
  rw [hpo, List.length_drop, List.length_nil] at hol
  rw [ht, List.append_nil] at a5
  obtain ⟨r1, r2, e1, e2, e3⟩ := SeqRun.takes_split a3 a5 (k := m - s.prod.seenR) (by omega)
  rw [List.drop_drop, show s.prod.seenR + (m - s.prod.seenR) = m by omega] at e2 e3
  have hr1 : ∀ e ∈ r1, e.takes = true := fun e he => a3 e (by rw [e1]; exact List.mem_append_left _ he)
  have hr2 : ∀ e ∈ r2, e.takes = true := fun e he => a3 e (by rw [e1]; exact List.mem_append_right _ he)
  refine ⟨by omega, order ++ r1, r2, ?_, ?_, hr2, ?_, ?_⟩
  · rw [List.filter_append, filter_takes_producer hr1, List.append_nil, a1]
  · rw [List.filter_append, filter_takes_self hr1, List.append_assoc, ← e1, a2]
  · rw [h3]; exact a4.append e2
  · rw [h3, h4, h5, List.append_nil]; exact e3

/-- A result of the producer that does not change what the consumer will see. -/
theorem InvA.answer (h : InvA cfg tr s) {e : Ev α} (he : e.byProducer = true) (hput : e.puts = false)
    (hfit : Fits (cfg.max.toNat - 1) e ((pushedOk tr).drop s.prod.seenR)
      ((pushedOk tr).drop s.prod.seenR)) (ht : s.ppc.tail = [])
    {s' : State α} (h1 : s'.prod.seenR = s.prod.seenR) (h2 : s'.ppc.tail = [])
    (h3 : s'.r.length - 1 + s'.cpc.given = s.r.length - 1 + s.cpc.given) :
    InvA cfg (tr ++ [e]) s' := by
  have hp : pushedOk (tr ++ [e]) = pushedOk tr := by
    rw [pushedOk_append]
    cases e with
    | pushRet v ok => cases ok <;> simp [Ev.puts] at hput <;> simp [pushedOk]
    | _ => simp [pushedOk]
  have htk : e.takes = false := by cases e <;> simp [Ev.byProducer] at he <;> rfl
  obtain ⟨hle, order, rest, a1, a2, a3, a4, a5⟩ := h
  rw [ht] at a5
  refine ⟨by rw [h1, hp]; exact hle, order ++ [e], rest, ?_, ?_, a3, ?_, ?_⟩
  · rw [List.filter_append, List.filter_append, a1]
  · rw [List.filter_append, List.filter_append, List.filter_cons, htk]; simpa using a2
  · rw [hp, h1]; exact a4.snoc hfit
  · rw [hp, h1, h2, h3]; exact a5

/-- The consumer takes an element. -/
theorem InvA.take (h : InvA cfg tr s) {e : Ev α} (he : e.takes = true) {s' : State α}
    (hfit : Fits (cfg.max.toNat - 1) e
      ((pushedOk tr ++ s.ppc.tail).drop (s.r.length - 1 + s.cpc.given))
      ((pushedOk tr ++ s.ppc.tail).drop (s'.r.length - 1 + s'.cpc.given)))
    (h1 : s'.prod.seenR = s.prod.seenR) (h2 : s'.ppc.tail = s.ppc.tail) :
    InvA cfg (tr ++ [e]) s' := by
  have hp : pushedOk (tr ++ [e]) = pushedOk tr := by
    rw [pushedOk_append]
    cases e <;> simp [Ev.takes] at he <;> simp [pushedOk]
  have hbp : e.byProducer = false := by cases e <;> simp [Ev.takes] at he <;> rfl
  obtain ⟨hle, order, rest, a1, a2, a3, a4, a5⟩ := h
  refine ⟨by rw [h1, hp]; exact hle, order, rest ++ [e], ?_, ?_, ?_, ?_, ?_⟩
  · rw [List.filter_append, List.filter_cons, hbp, a1]; simp
  · rw [List.filter_append, List.filter_cons, he, ← List.append_assoc, a2]; simp
  · intro x hx
    rcases List.mem_append.mp hx with hx | hx
    · exact a3 x hx
    · simp only [List.mem_singleton] at hx; rw [hx]; exact he
  · rw [hp, h1]; exact a4
  · rw [hp, h1, h2]; exact a5.snoc hfit

/-- The element at the read index of a consumer about to use it. -/
theorem Inv.front (h : Inv cfg tr s W R vals) (hpos : 0 < cfg.max.toNat) {ri : Size} {v : α}
    (hri : ri = idx cfg.max.toNat R) (hW : R + 1 ≤ W) (hg : s.cpc.gone = 0)
    (hc : (s.slots ri.toNat).cell = some v) : vals[R]? = some v := by
  obtain ⟨x, hx, hx'⟩ := h.slots.live R (by omega) (by omega)
  rw [hri, idx_toNat hpos cfg.max.isLt] at hc
  rw [hx'] at hc
  rw [hx]; exact hc

theorem drop_eq_cons {l : List α} {n : Nat} {v : α} (h : l[n]? = some v) :
    l.drop n = v :: l.drop (n + 1) := by
  obtain ⟨hl, hv⟩ := List.getElem?_eq_some_iff.mp h
  rw [List.drop_eq_getElem_cons hl, hv]

theorem invA_init (cfg : Cfg) : InvA cfg [] (State.init α) :=
  ⟨by simp [State.init], [], [], rfl, rfl, by simp, by simp [SeqRun, pushedOk], by
    simp [SeqRun, pushedOk, State.init, PPc.tail]⟩

theorem invA_step {k : Nat} (hk : cfg.max.toNat = 2 ^ k)
    (hi : Inv cfg tr s W R vals) (h : InvA cfg tr s) {e : Option (Ev α)} {s' : State α}
    (hs : Step cfg s e s') : InvA cfg (tr ++ e.toList) s' := by
  have hpos : 0 < cfg.max.toNat := by rw [hk]; exact Nat.two_pow_pos k
  obtain ⟨hRW, hWR⟩ := hi.bounds
  have hrl := hi.rlen
  have hvl := hi.valsLen
  have hv := hi.valsEq
  have hcsW := hi.cseenW
  cases hs with
  | pushCall hf hp =>
    exact h.query rfl rfl rfl (by rw [hp]; rfl) rfl
  | pushLoadW hf hp hl =>
    rw [Option.toList_none, List.append_nil]
    exact h.silent (hi.ownW hl).2.2.1 (by rw [hp]; rfl) rfl
  | @pushFull v wi ri t m hf hp hl hn =>
    have ht : s.ppc.tail = [] := by rw [hp]; rfl
    obtain ⟨b1, b2, b3, b4, b5, -⟩ := hi.prodR hl
    have hl' := h.learn hi ht b4 b5 (s' := { s with prod := t, ppc := .idle }) b3 rfl rfl
    have hfull := (inv_prod hk hi hp hl).mp hn
    refine hl'.answer (e := .pushRet v false) rfl rfl ?_ rfl rfl rfl rfl
    refine ⟨?_, rfl⟩
    rw [hp] at hvl hv
    simp only [PPc.extra, PPc.tail, List.append_nil] at hvl hv
    show ((pushedOk tr).drop t.seenR).length = _
    rw [List.length_drop, b3, ← hv, hvl]; omega
  | @pushRoom v wi ri t m hf hp hl hn =>
    rw [Option.toList_none, List.append_nil]
    have ht : s.ppc.tail = [] := by rw [hp]; rfl
    obtain ⟨b1, b2, b3, b4, b5, -⟩ := hi.prodR hl
    exact h.learn hi ht b4 b5 b3 rfl rfl
  | @pushConstructThrows v wi hf hp =>
    have ht : s.ppc.tail = [] := by rw [hp]; rfl
    have hok := hi.ppc
    have hps := hi.pseenR
    rw [hp] at hok hvl hv
    simp only [PPc.ok] at hok
    simp only [PPc.extra, PPc.tail, List.append_nil] at hvl hv
    refine h.answer (e := .pushThrow v) rfl rfl ?_ ht rfl rfl rfl
    refine ⟨?_, rfl⟩
    rw [List.length_drop, ← hv, hvl]; omega
  | @pushConstruct v wi hf hp hlt hcell hord =>
    rw [Option.toList_none, List.append_nil]
    have ht : s.ppc.tail = [] := by rw [hp]; rfl
    have hps := hi.pseenR
    rw [hp] at hvl hv
    simp only [PPc.extra, PPc.tail, List.append_nil] at hvl hv
    obtain ⟨hle, order, rest, a1, a2, a3, a4, a5⟩ := h
    refine ⟨hle, order, rest, a1, a2, a3, a4, ?_⟩
    rw [ht, List.append_nil] at a5
    have := a5.takes_mono a3 [v]
    have hg : s.r.length - 1 + s.cpc.given ≤ (pushedOk tr).length := by
      rw [← hv, hvl, hrl]
      have hcpc := hi.cpc
      cases hc : s.cpc with
      | c4 fn ri =>
        rw [hc] at hcpc; simp only [CPc.ok] at hcpc
        cases fn <;> simp only [CPc.given] <;> omega
      | c5 ri =>
        rw [hc] at hcpc; simp only [CPc.ok] at hcpc
        simp only [CPc.given]; omega
      | _ => simp only [CPc.given]; omega
    rw [← List.drop_append_of_le_length hle, ← List.drop_append_of_le_length hg] at this
    exact this
  | pushConstructBad hf hp hbad =>
    rw [Option.toList_none, List.append_nil]; exact h.silent rfl rfl rfl
  | pushConstructRace hf hp hbad =>
    rw [Option.toList_none, List.append_nil]; exact h.silent rfl rfl rfl
  | pushStore hf hp =>
    rw [Option.toList_none, List.append_nil]
    exact h.silent rfl (by rw [hp]; rfl) rfl
  | @pushReturn v hf hp =>
    have hok := hi.ppc
    have hroom := hi.room
    rw [hp] at hvl hv
    simp only [PPc.extra, PPc.tail] at hvl hv
    obtain ⟨hle, order, rest, a1, a2, a3, a4, a5⟩ := h
    have hpo : pushedOk (tr ++ [.pushRet v true]) = pushedOk tr ++ [v] := by
      rw [pushedOk_append]; rfl
    refine ⟨?_, order ++ [.pushRet v true], rest, ?_, ?_, a3, ?_, ?_⟩
    · show s.prod.seenR ≤ (pushedOk (tr ++ [.pushRet v true])).length
      rw [hpo, List.length_append]; omega
    · show _ = List.filter _ (tr ++ [.pushRet v true])
      rw [List.filter_append, List.filter_append, a1]
    · show _ = List.filter _ (tr ++ [.pushRet v true])
      rw [List.filter_append, List.filter_append, List.filter_cons]; simpa [Ev.takes] using a2
    · show SeqRun _ _ [] ((pushedOk (tr ++ [.pushRet v true])).drop s.prod.seenR)
      rw [hpo, List.drop_append_of_le_length hle]
      refine a4.snoc ⟨?_, rfl⟩
      have hl : (pushedOk tr).length + 1 = W := by
        have := congrArg List.length hv
        rw [hvl, List.length_append, List.length_singleton] at this
        omega
      rw [List.length_drop]; omega
    · show SeqRun _ _ ((pushedOk (tr ++ [Ev.pushRet v true]) ++ []).drop s.prod.seenR)
        ((pushedOk (tr ++ [Ev.pushRet v true]) ++ []).drop (s.r.length - 1 + s.cpc.given))
      rw [hpo, List.append_nil]
      rw [hp] at a5
      exact a5
  | pWaCall hf hp =>
    rw [Option.toList_none, List.append_nil]; exact h.silent rfl (by rw [hp]; rfl) rfl
  | pWaLoadW hf hp hl =>
    rw [Option.toList_none, List.append_nil]
    exact h.silent (hi.ownW hl).2.2.1 (by rw [hp]; rfl) rfl
  | @pWaLoadR wi ri t m hf hp hl =>
    have ht : s.ppc.tail = [] := by rw [hp]; rfl
    obtain ⟨b1, b2, b3, b4, b5, -⟩ := hi.prodR hl
    have hl' := h.learn hi ht b4 b5 (s' := { s with prod := t, ppc := .idle }) b3 rfl rfl
    refine hl'.answer (e := .pWriteAvail (writeAvail cfg.max wi ri)) rfl rfl ?_ rfl rfl rfl rfl
    have hok := hi.ppc
    have hroom := hi.room
    rw [hp] at hok hvl hv
    simp only [PPc.ok] at hok
    simp only [PPc.extra, PPc.tail, List.append_nil] at hvl hv
    refine ⟨?_, rfl⟩
    show _ + ((pushedOk tr).drop t.seenR).length = _
    rw [hok.2, b1, writeAvail_idx hpos (by omega) (by omega), List.length_drop, b3, ← hv, hvl]
    omega
  | pRaCall hf hp =>
    rw [Option.toList_none, List.append_nil]; exact h.silent rfl (by rw [hp]; rfl) rfl
  | pRaLoadW hf hp hl =>
    rw [Option.toList_none, List.append_nil]
    exact h.silent (hi.ownW hl).2.2.1 (by rw [hp]; rfl) rfl
  | @pRaLoadR wi ri t m hf hp hl =>
    have ht : s.ppc.tail = [] := by rw [hp]; rfl
    obtain ⟨b1, b2, b3, b4, b5, -⟩ := hi.prodR hl
    have hl' := h.learn hi ht b4 b5 (s' := { s with prod := t, ppc := .idle }) b3 rfl rfl
    refine hl'.answer (e := .pReadAvail (readAvail cfg.max wi ri)) rfl rfl ?_ rfl rfl rfl rfl
    have hok := hi.ppc
    have hroom := hi.room
    rw [hp] at hok hvl hv
    simp only [PPc.ok] at hok
    simp only [PPc.extra, PPc.tail, List.append_nil] at hvl hv
    refine ⟨?_, rfl⟩
    show _ = ((pushedOk tr).drop t.seenR).length
    rw [hok.2, b1, readAvail_idx hpos (by omega) (by omega), List.length_drop, b3, ← hv, hvl]
    omega
  | popCall hf hc hb =>
    rw [Option.toList_none, List.append_nil]
    exact h.silent rfl rfl (by rw [hc]; rfl)
  | @popLoadR fn ri t m hf hc hl =>
    rw [Option.toList_none, List.append_nil]
    refine h.silent rfl rfl ?_
    rw [hc]
    cases cfg.debug <;> cases fn <;> rfl
  | popAssertFails hf hc hl he =>
    rw [Option.toList_none, List.append_nil]; exact h.silent rfl rfl rfl
  | @popAssertHolds fn ri wi t m hf hc hl he =>
    rw [Option.toList_none, List.append_nil]
    refine h.silent rfl rfl ?_
    rw [hc]
    cases fn <;> rfl
  | @consumeFn ri v hf hc hlt hcell hord =>
    have hok := hi.cpc
    rw [hc] at hok; simp only [CPc.ok] at hok
    have hfr := hi.front hpos hok.1 (by omega) (by rw [hc]; rfl) hcell
    rw [hv] at hfr
    refine h.take (e := .got v) rfl ?_ rfl rfl
    show (pushedOk tr ++ s.ppc.tail).drop (s.r.length - 1 + s.cpc.given) =
      v :: (pushedOk tr ++ s.ppc.tail).drop (s.r.length - 1 + 1)
    rw [hc, hrl]
    exact drop_eq_cons hfr
  | @consumeFnThrows ri v hf hc hlt hcell hord =>
    have hok := hi.cpc
    rw [hc] at hok; simp only [CPc.ok] at hok
    have hfr := hi.front hpos hok.1 (by omega) (by rw [hc]; rfl) hcell
    rw [hv] at hfr
    refine h.take (e := .fnThrew v) rfl ?_ rfl rfl
    show ((pushedOk tr ++ s.ppc.tail).drop (s.r.length - 1 + s.cpc.given)).head? = some v ∧
      (pushedOk tr ++ s.ppc.tail).drop (s.r.length - 1 + 0) =
      (pushedOk tr ++ s.ppc.tail).drop (s.r.length - 1 + s.cpc.given)
    rw [hc, hrl]
    refine ⟨?_, rfl⟩
    show ((pushedOk tr ++ s.ppc.tail).drop R).head? = some v
    rw [drop_eq_cons hfr]; rfl
  | consumeFnBad hf hc hbad =>
    rw [Option.toList_none, List.append_nil]; exact h.silent rfl rfl rfl
  | consumeFnRace hf hc hbad =>
    rw [Option.toList_none, List.append_nil]; exact h.silent rfl rfl rfl
  | @popDestroy fn ri e hf hc hlt hcell hord he =>
    subst he
    cases fn with
    | true =>
      simp only [if_true, Option.toList_none, List.append_nil]
      exact h.silent rfl rfl (by rw [hc]; rfl)
    | false =>
      have hok := hi.cpc
      rw [hc] at hok; simp only [CPc.ok] at hok
      refine h.take (e := .popped) rfl ?_ rfl rfl
      have hlt : R < (pushedOk tr ++ s.ppc.tail).length := by rw [← hv, hvl]; omega
      refine ⟨(pushedOk tr ++ s.ppc.tail)[R], ?_⟩
      show (pushedOk tr ++ s.ppc.tail).drop (s.r.length - 1 + s.cpc.given) =
        _ :: (pushedOk tr ++ s.ppc.tail).drop (s.r.length - 1 + 1)
      rw [hc, hrl]
      exact drop_eq_cons (List.getElem?_eq_getElem hlt)
  | popDestroyBad hf hc hbad =>
    rw [Option.toList_none, List.append_nil]; exact h.silent rfl rfl rfl
  | popDestroyRace hf hc hbad =>
    rw [Option.toList_none, List.append_nil]; exact h.silent rfl rfl rfl
  | @popStore ri hf hc =>
    rw [Option.toList_none, List.append_nil]
    refine h.silent rfl rfl ?_
    show (s.r ++ [_]).length - 1 + 0 = s.r.length - 1 + s.cpc.given
    rw [hc, List.length_append, List.length_singleton]
    simp only [CPc.given]; omega
  | cRaCall hf hc =>
    rw [Option.toList_none, List.append_nil]; exact h.silent rfl rfl (by rw [hc]; rfl)
  | cRaLoadW hf hc hl =>
    rw [Option.toList_none, List.append_nil]; exact h.silent rfl rfl (by rw [hc]; rfl)
  | cRaLoadR hf hc hl => exact h.query rfl rfl rfl rfl (by rw [hc]; rfl)
  | cWaCall hf hc =>
    rw [Option.toList_none, List.append_nil]; exact h.silent rfl rfl (by rw [hc]; rfl)
  | cWaLoadW hf hc hl =>
    rw [Option.toList_none, List.append_nil]; exact h.silent rfl rfl (by rw [hc]; rfl)
  | cWaLoadR hf hc hl => exact h.query rfl rfl rfl rfl (by rw [hc]; rfl)

theorem exec_invA {k : Nat} (hk : cfg.max.toNat = 2 ^ k)
    (hcfg : cfg.debug = true ∨ cfg.disciplined = true) (h : Exec cfg tr s) : InvA cfg tr s := by
  induction h with
  | init => exact invA_init cfg
  | step he hs ih =>
    obtain ⟨W, R, vals, hi⟩ := exec_inv hk hcfg he
    exact invA_step hk hi ih hs

/-! ### The order the consumer can believe in -/

/-- The consumer's results so far fit an order in which exactly the pushes it has seen came before. -/
def InvC (cfg : Cfg) (tr : List (Ev α)) (s : State α) : Prop :=
  (∀ wi, s.cpc = .ra2 wi ∨ s.cpc = .wa2 wi → wi = idx cfg.max.toNat s.cons.seenW) ∧
  ∃ order : List (Ev α),
    order.filter Ev.byConsumer = tr.filter Ev.byConsumer ∧
    order.filter Ev.puts =
      (((pushedOk tr ++ s.ppc.tail).take s.cons.seenW).map fun v => Ev.pushRet v true) ∧
    SeqRun (cfg.max.toNat - 1) order []
      (((pushedOk tr ++ s.ppc.tail).take s.cons.seenW).drop (s.r.length - 1 + s.cpc.given))

/-- A step that does not concern the consumer's view: it may add to what is pushed. -/
theorem InvC.silent (h : InvC cfg tr s) (hi : Inv cfg tr s W R vals) {tr' : List (Ev α)} {s' : State α}
    (hpre : vals <+: pushedOk tr' ++ s'.ppc.tail)
    (hcon : tr'.filter Ev.byConsumer = tr.filter Ev.byConsumer)
    (hw : ∀ wi, s'.cpc = .ra2 wi ∨ s'.cpc = .wa2 wi → s.cpc = s'.cpc)
    (h1 : s'.cons.seenW = s.cons.seenW)
    (h3 : s'.r.length - 1 + s'.cpc.given = s.r.length - 1 + s.cpc.given) : InvC cfg tr' s' := by
  have hvl := hi.valsLen
  have hcs := hi.cseenW
  obtain ⟨hq, order, a1, a2, a3⟩ := h
  rw [← hi.valsEq] at a2 a3
  obtain ⟨x, hx⟩ := hpre
  have ht : (vals ++ x).take s.cons.seenW = vals.take s.cons.seenW :=
    List.take_append_of_le_length (by omega)
  refine ⟨fun wi hwi => ?_, order, ?_, ?_, ?_⟩
  · rw [h1]; refine hq wi ?_; rw [hw wi hwi]; exact hwi
  · rw [hcon]; exact a1
  · rw [← hx, h1, ht]; exact a2
  · rw [← hx, h1, h3, ht]; exact a3

/-- The consumer learns of pushes. -/
theorem InvC.learn (h : InvC cfg tr s) (hi : Inv cfg tr s W R vals) (hg : s.cpc.given = 0) {m : Nat}
    (h1 : s.cons.seenW ≤ m) (h2 : m ≤ W) {s' : State α} (h3 : s'.cons.seenW = m)
    (hp : s'.ppc = s.ppc) (h4 : s'.cpc.given = 0) (h5 : s'.r = s.r)
    (hw : ∀ wi, s'.cpc = .ra2 wi ∨ s'.cpc = .wa2 wi → wi = idx cfg.max.toNat m) :
    InvC cfg tr s' := by
  obtain ⟨hRW, hWR⟩ := hi.bounds
  have hvl := hi.valsLen
  have hrl := hi.rlen
  have hav := hi.avail
  obtain ⟨hq, order, a1, a2, a3⟩ := h
  rw [← hi.valsEq] at a2 a3
  have hsplit : vals.take m = vals.take s.cons.seenW ++ (vals.take m).drop s.cons.seenW := by
    conv_lhs => rw [← List.take_append_drop s.cons.seenW (vals.take m)]
    rw [List.take_take, Nat.min_eq_left h1]
  refine ⟨fun wi hwi => by rw [h3]; exact hw wi hwi,
    order ++ ((vals.take m).drop s.cons.seenW).map (fun v => Ev.pushRet v true), ?_, ?_, ?_⟩
  · rw [List.filter_append, filter_pushes_producer, List.append_nil, a1]
  · rw [List.filter_append, filter_pushes_puts, a2, h3, hp, ← hi.valsEq, ← List.map_append, ← hsplit]
  · rw [h3, hp, h4, h5, ← hi.valsEq]
    rw [hg] at a3
    refine a3.append ?_
    have hlen : ((vals.take s.cons.seenW).drop (s.r.length - 1 + 0)).length +
        ((vals.take m).drop s.cons.seenW).length ≤ cfg.max.toNat - 1 := by
      rw [List.length_drop, List.length_drop, List.length_take, List.length_take]; omega
    have := SeqRun.pushes ((vals.take m).drop s.cons.seenW) _ hlen
    rw [← List.drop_append_of_le_length (by rw [List.length_take]; omega), ← hsplit] at this
    exact this

/-- A result of the consumer. -/
theorem InvC.answer (h : InvC cfg tr s) {e : Ev α} (he : e.byConsumer = true) {s' : State α}
    (hfit : Fits (cfg.max.toNat - 1) e
      (((pushedOk tr ++ s.ppc.tail).take s.cons.seenW).drop (s.r.length - 1 + s.cpc.given))
      (((pushedOk tr ++ s.ppc.tail).take s.cons.seenW).drop (s'.r.length - 1 + s'.cpc.given)))
    (hp : s'.ppc = s.ppc) (h3 : s'.cons.seenW = s.cons.seenW)
    (hw : ∀ wi, ¬ (s'.cpc = .ra2 wi ∨ s'.cpc = .wa2 wi)) : InvC cfg (tr ++ [e]) s' := by
  have hpo : pushedOk (tr ++ [e]) = pushedOk tr := by
    rw [pushedOk_append]
    cases e <;> simp [Ev.byConsumer] at he <;> simp [pushedOk]
  have hput : e.puts = false := by cases e <;> simp [Ev.byConsumer] at he <;> rfl
  obtain ⟨hq, order, a1, a2, a3⟩ := h
  refine ⟨fun wi hwi => absurd hwi (hw wi), order ++ [e], ?_, ?_, ?_⟩
  · rw [List.filter_append, List.filter_append, a1]
  · rw [List.filter_append, List.filter_cons, hput, hpo, hp, h3]; simpa using a2
  · rw [hpo, hp, h3]; exact a3.snoc hfit

theorem invC_init (cfg : Cfg) : InvC cfg [] (State.init α) :=
  ⟨by simp [State.init], [], rfl, by simp [State.init, pushedOk, PPc.tail], by
    simp [SeqRun, pushedOk, State.init, PPc.tail]⟩

theorem invC_step {k : Nat} (hk : cfg.max.toNat = 2 ^ k)
    (hi : Inv cfg tr s W R vals) (h : InvC cfg tr s) {e : Option (Ev α)} {s' : State α}
    (hs : Step cfg s e s') : InvC cfg (tr ++ e.toList) s' := by
  have hpos : 0 < cfg.max.toNat := by rw [hk]; exact Nat.two_pow_pos k
  obtain ⟨hRW, hWR⟩ := hi.bounds
  have hrl := hi.rlen
  have hvl := hi.valsLen
  have hv := hi.valsEq
  have hcsW := hi.cseenW
  have hav := hi.avail
  have hfilt : ∀ e : Ev α, e.byConsumer = false →
      (tr ++ [e]).filter Ev.byConsumer = tr.filter Ev.byConsumer := by
    intro e he
    rw [List.filter_append, List.filter_cons, he]; simp
  have hself : vals <+: pushedOk tr ++ s.ppc.tail := by rw [hv]; exact List.prefix_rfl
  cases hs with
  | pushCall hf hp =>
    refine h.silent hi ?_ (hfilt _ rfl) (fun _ _ => rfl) rfl rfl
    show vals <+: pushedOk (tr ++ [_]) ++ []
    rw [hv, hp, pushedOk_append]; simp [pushedOk, PPc.tail]
  | pushLoadW hf hp hl =>
    rw [Option.toList_none, List.append_nil]
    exact h.silent hi (by rw [hv, hp]; exact List.prefix_rfl) rfl (fun _ _ => rfl) rfl rfl
  | pushFull hf hp hl hn =>
    refine h.silent hi ?_ (hfilt _ rfl) (fun _ _ => rfl) rfl rfl
    show vals <+: pushedOk (tr ++ [_]) ++ []
    rw [hv, hp, pushedOk_append]; simp [pushedOk, PPc.tail]
  | pushRoom hf hp hl hn =>
    rw [Option.toList_none, List.append_nil]
    exact h.silent hi (by rw [hv, hp]; exact List.prefix_rfl) rfl (fun _ _ => rfl) rfl rfl
  | pushConstructThrows hf hp =>
    refine h.silent hi ?_ (hfilt _ rfl) (fun _ _ => rfl) rfl rfl
    show vals <+: pushedOk (tr ++ [_]) ++ []
    rw [hv, hp, pushedOk_append]; simp [pushedOk, PPc.tail]
  | @pushConstruct v wi hf hp hlt hcell hord =>
    rw [Option.toList_none, List.append_nil]
    refine h.silent hi ?_ rfl (fun _ _ => rfl) rfl rfl
    show vals <+: pushedOk tr ++ [v]
    rw [hv, hp]; simp [PPc.tail]
  | pushConstructBad hf hp hbad =>
    rw [Option.toList_none, List.append_nil]
    exact h.silent hi hself rfl (fun _ _ => rfl) rfl rfl
  | pushConstructRace hf hp hbad =>
    rw [Option.toList_none, List.append_nil]
    exact h.silent hi hself rfl (fun _ _ => rfl) rfl rfl
  | pushStore hf hp =>
    rw [Option.toList_none, List.append_nil]
    exact h.silent hi (by rw [hv, hp]; exact List.prefix_rfl) rfl (fun _ _ => rfl) rfl rfl
  | @pushReturn v hf hp =>
    refine h.silent hi ?_ (hfilt _ rfl) (fun _ _ => rfl) rfl rfl
    show vals <+: pushedOk (tr ++ [_]) ++ []
    rw [hv, hp, pushedOk_append]; simp [pushedOk, PPc.tail]
  | pWaCall hf hp =>
    rw [Option.toList_none, List.append_nil]
    exact h.silent hi (by rw [hv, hp]; exact List.prefix_rfl) rfl (fun _ _ => rfl) rfl rfl
  | pWaLoadW hf hp hl =>
    rw [Option.toList_none, List.append_nil]
    exact h.silent hi (by rw [hv, hp]; exact List.prefix_rfl) rfl (fun _ _ => rfl) rfl rfl
  | pWaLoadR hf hp hl =>
    refine h.silent hi ?_ (hfilt _ rfl) (fun _ _ => rfl) rfl rfl
    show vals <+: pushedOk (tr ++ [_]) ++ []
    rw [hv, hp, pushedOk_append]; simp [pushedOk, PPc.tail]
  | pRaCall hf hp =>
    rw [Option.toList_none, List.append_nil]
    exact h.silent hi (by rw [hv, hp]; exact List.prefix_rfl) rfl (fun _ _ => rfl) rfl rfl
  | pRaLoadW hf hp hl =>
    rw [Option.toList_none, List.append_nil]
    exact h.silent hi (by rw [hv, hp]; exact List.prefix_rfl) rfl (fun _ _ => rfl) rfl rfl
  | pRaLoadR hf hp hl =>
    refine h.silent hi ?_ (hfilt _ rfl) (fun _ _ => rfl) rfl rfl
    show vals <+: pushedOk (tr ++ [_]) ++ []
    rw [hv, hp, pushedOk_append]; simp [pushedOk, PPc.tail]
  | popCall hf hc hb =>
    rw [Option.toList_none, List.append_nil]
    exact h.silent hi hself rfl (fun _ hw => by simp at hw) rfl (by rw [hc]; rfl)
  | @popLoadR fn ri t m hf hc hl =>
    rw [Option.toList_none, List.append_nil]
    refine h.silent hi hself rfl (fun _ hw => ?_) (hi.ownR hl).2.2.1 ?_
    · revert hw
      cases cfg.debug <;> cases fn <;> simp
    · rw [hc]
      cases cfg.debug <;> cases fn <;> rfl
  | @popAssertFails fn ri wi t m hf hc hl he =>
    rw [Option.toList_none, List.append_nil]
    obtain ⟨b1, b2, b3, b4, b5, -⟩ := hi.consW hl
    exact h.learn hi (by rw [hc]; rfl) b4 b5 b3 rfl (by show s.cpc.given = 0; rw [hc]; rfl) rfl
      (fun _ hw => by simp [hc] at hw)
  | @popAssertHolds fn ri wi t m hf hc hl he =>
    rw [Option.toList_none, List.append_nil]
    obtain ⟨b1, b2, b3, b4, b5, -⟩ := hi.consW hl
    refine h.learn hi (by rw [hc]; rfl) b4 b5 b3 rfl ?_ rfl (fun _ hw => ?_)
    · cases fn <;> rfl
    · revert hw; cases fn <;> simp
  | @consumeFn ri v hf hc hlt hcell hord =>
    have hok := hi.cpc
    rw [hc] at hok; simp only [CPc.ok] at hok
    have hfr := hi.front hpos hok.1 (by omega) (by rw [hc]; rfl) hcell
    rw [hv] at hfr
    refine h.answer (e := .got v) rfl ?_ rfl rfl (fun _ hw => by simp at hw)
    show ((pushedOk tr ++ s.ppc.tail).take s.cons.seenW).drop (s.r.length - 1 + s.cpc.given) =
      v :: ((pushedOk tr ++ s.ppc.tail).take s.cons.seenW).drop (s.r.length - 1 + 1)
    rw [hc, hrl]
    have hfr' : ((pushedOk tr ++ s.ppc.tail).take s.cons.seenW)[R]? = some v := by
      rw [List.getElem?_take_of_lt (by omega)]; exact hfr
    exact drop_eq_cons hfr'
  | @consumeFnThrows ri v hf hc hlt hcell hord =>
    have hok := hi.cpc
    rw [hc] at hok; simp only [CPc.ok] at hok
    have hfr := hi.front hpos hok.1 (by omega) (by rw [hc]; rfl) hcell
    rw [hv] at hfr
    refine h.answer (e := .fnThrew v) rfl ?_ rfl rfl (fun _ hw => by simp at hw)
    show (((pushedOk tr ++ s.ppc.tail).take s.cons.seenW).drop (s.r.length - 1 + s.cpc.given)).head?
        = some v ∧ ((pushedOk tr ++ s.ppc.tail).take s.cons.seenW).drop (s.r.length - 1 + 0) =
      ((pushedOk tr ++ s.ppc.tail).take s.cons.seenW).drop (s.r.length - 1 + s.cpc.given)
    rw [hc, hrl]
    refine ⟨?_, rfl⟩
    show (((pushedOk tr ++ s.ppc.tail).take s.cons.seenW).drop R).head? = some v
    rw [drop_eq_cons (v := v) (by rw [List.getElem?_take_of_lt (by omega)]; exact hfr)]; rfl
  | consumeFnBad hf hc hbad =>
    rw [Option.toList_none, List.append_nil]
    exact h.silent hi hself rfl (fun _ _ => rfl) rfl rfl
  | consumeFnRace hf hc hbad =>
    rw [Option.toList_none, List.append_nil]
    exact h.silent hi hself rfl (fun _ _ => rfl) rfl rfl
  | @popDestroy fn ri e hf hc hlt hcell hord he =>
    subst he
    cases fn with
    | true =>
      simp only [if_true, Option.toList_none, List.append_nil]
      exact h.silent hi hself rfl (fun _ hw => by simp at hw) rfl (by rw [hc]; rfl)
    | false =>
      have hok := hi.cpc
      rw [hc] at hok; simp only [CPc.ok] at hok
      refine h.answer (e := .popped) rfl ?_ rfl rfl (fun _ hw => by simp at hw)
      have hlt : R < ((pushedOk tr ++ s.ppc.tail).take s.cons.seenW).length := by
        rw [← hv, List.length_take, hvl]; omega
      refine ⟨((pushedOk tr ++ s.ppc.tail).take s.cons.seenW)[R], ?_⟩
      show ((pushedOk tr ++ s.ppc.tail).take s.cons.seenW).drop (s.r.length - 1 + s.cpc.given) =
        _ :: ((pushedOk tr ++ s.ppc.tail).take s.cons.seenW).drop (s.r.length - 1 + 1)
      rw [hc, hrl]
      exact drop_eq_cons (List.getElem?_eq_getElem hlt)
  | popDestroyBad hf hc hbad =>
    rw [Option.toList_none, List.append_nil]
    exact h.silent hi hself rfl (fun _ _ => rfl) rfl rfl
  | popDestroyRace hf hc hbad =>
    rw [Option.toList_none, List.append_nil]
    exact h.silent hi hself rfl (fun _ _ => rfl) rfl rfl
  | @popStore ri hf hc =>
    rw [Option.toList_none, List.append_nil]
    refine h.silent hi hself rfl (fun _ hw => by simp at hw) rfl ?_
    show (s.r ++ [_]).length - 1 + 0 = s.r.length - 1 + s.cpc.given
    rw [hc, List.length_append, List.length_singleton]
    simp only [CPc.given]; omega
  | cRaCall hf hc =>
    rw [Option.toList_none, List.append_nil]
    exact h.silent hi hself rfl (fun _ hw => by simp at hw) rfl (by rw [hc]; rfl)
  | @cRaLoadW wi t m hf hc hl =>
    rw [Option.toList_none, List.append_nil]
    obtain ⟨b1, b2, b3, b4, b5, -⟩ := hi.consW hl
    refine h.learn hi (by rw [hc]; rfl) b4 b5 b3 rfl rfl rfl (fun x hw => ?_)
    simp only [CPc.ra2.injEq, reduceCtorEq, or_false] at hw
    rw [← hw, b1]
  | @cRaLoadR wi ri t m hf hc hl =>
    obtain ⟨b1, b2, b3, -⟩ := hi.ownR hl
    have hwi := h.1 wi (Or.inl hc)
    refine h.answer (e := .cReadAvail (readAvail cfg.max wi ri)) rfl ?_ rfl b3
      (fun _ hw => by simp at hw)
    show (readAvail cfg.max wi ri).toNat =
        (((pushedOk tr ++ s.ppc.tail).take s.cons.seenW).drop (s.r.length - 1 + s.cpc.given)).length ∧
      ((pushedOk tr ++ s.ppc.tail).take s.cons.seenW).drop (s.r.length - 1 + 0) =
        ((pushedOk tr ++ s.ppc.tail).take s.cons.seenW).drop (s.r.length - 1 + s.cpc.given)
    rw [hc]
    refine ⟨?_, rfl⟩
    rw [hwi, b1, readAvail_idx hpos (by omega) (by omega), List.length_drop, List.length_take, ← hv,
      hvl, hrl]
    simp only [CPc.given]; omega
  | cWaCall hf hc =>
    rw [Option.toList_none, List.append_nil]
    exact h.silent hi hself rfl (fun _ hw => by simp at hw) rfl (by rw [hc]; rfl)
  | @cWaLoadW wi t m hf hc hl =>
    rw [Option.toList_none, List.append_nil]
    obtain ⟨b1, b2, b3, b4, b5, -⟩ := hi.consW hl
    refine h.learn hi (by rw [hc]; rfl) b4 b5 b3 rfl rfl rfl (fun x hw => ?_)
    simp only [CPc.wa2.injEq, reduceCtorEq, false_or] at hw
    rw [← hw, b1]
  | @cWaLoadR wi ri t m hf hc hl =>
    obtain ⟨b1, b2, b3, -⟩ := hi.ownR hl
    have hwi := h.1 wi (Or.inr hc)
    refine h.answer (e := .cWriteAvail (writeAvail cfg.max wi ri)) rfl ?_ rfl b3
      (fun _ hw => by simp at hw)
    show (writeAvail cfg.max wi ri).toNat +
        (((pushedOk tr ++ s.ppc.tail).take s.cons.seenW).drop (s.r.length - 1 + s.cpc.given)).length
        = _ ∧
      ((pushedOk tr ++ s.ppc.tail).take s.cons.seenW).drop (s.r.length - 1 + 0) =
        ((pushedOk tr ++ s.ppc.tail).take s.cons.seenW).drop (s.r.length - 1 + s.cpc.given)
    rw [hc]
    refine ⟨?_, rfl⟩
    rw [hwi, b1, writeAvail_idx hpos (by omega) (by omega), List.length_drop, List.length_take, ← hv,
      hvl, hrl]
    simp only [CPc.given]; omega

theorem exec_invC {k : Nat} (hk : cfg.max.toNat = 2 ^ k)
    (hcfg : cfg.debug = true ∨ cfg.disciplined = true) (h : Exec cfg tr s) : InvC cfg tr s := by
  induction h with
  | init => exact invC_init cfg
  | step he hs ih =>
    obtain ⟨W, R, vals, hi⟩ := exec_inv hk hcfg he
    exact invC_step hk hi ih hs

end Verif.SPSC.Conc
