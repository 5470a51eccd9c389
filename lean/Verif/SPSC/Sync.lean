import Verif.SPSC.Conc

/-!
`SPSCQueue` in a program whose threads also synchronise by other means, and its destruction
(`/repo/private/container/spsc_queue_base.hpp`).

`Conc.Step` knows the two threads only through the queue. Here they may in addition signal and wait:
a signal leaves a snapshot of what the signalling thread knows, a wait for it takes that knowledge
over. Every synchronisation object of the C++ library (mutex, semaphore, latch, condition variable,
joining a thread, another atomic) has its "synchronises with" edges described by such pairs: the
release is the signal, the acquire the wait. The waiting may happen between calls or inside the
element's constructor and the callback of `consume`, where user code runs.

The second part is the destructor of the queue, run by a thread `d` after the last call.
-/

set_option autoImplicit false

namespace Verif.SPSC.Conc

variable {α : Type}

/-- The producer is running code of the user: between calls, or the element's constructor
(spsc_queue_base.hpp:62). -/
def PPc.user : PPc α → Bool
  | .idle => true
  | .e3 _ _ => true
  | _ => false

/-- The producer is between calls. -/
def PPc.between : PPc α → Bool
  | .idle => true
  | _ => false

/-- The consumer is running code of the user: between calls, the callback (spsc_queue_base.hpp:80) or
the element's destructor (:71, :81). -/
def CPc.user : CPc α → Bool
  | .idle => true
  | .c3 _ => true
  | .c4 _ _ => true
  | _ => false

/-- The consumer is between calls. -/
def CPc.between : CPc α → Bool
  | .idle => true
  | _ => false

/-- What a thread knows after learning what `u` knew: the clocks are joined, and no load may return a
message older than one that `u` had seen. Part of the model, not of the code. -/
def Thread.learn (t u : Thread) : Thread :=
  ⟨t.clk.join u.clk, max t.seenW u.seenW, max t.seenR u.seenR⟩

/-- The queue with its two threads, and the snapshots left by the signals so far, each with
whether the producer gave it. Part of the model, not of the code. -/
structure SState (α : Type) where
  q : State α
  mail : List (Bool × Thread)

/-- Events: those of the queue, and the signals and waits. `producer` names the thread, `between` says
that the signal was given between two calls; `i` is the number of the signal waited for. -/
inductive SEv (α : Type)
  | call (e : Ev α)
  | signal (producer between : Bool)
  | wait (producer : Bool) (i : Nat)

/-- A signal starts a new epoch of the producer, so that what it does afterwards is not covered by the
snapshot. Part of the model, not of the code. -/
def Thread.tickP (t : Thread) : Thread := { t with clk := { t.clk with p := t.clk.p + 1 } }

/-- The same for the consumer. Part of the model, not of the code. -/
def Thread.tickC (t : Thread) : Thread := { t with clk := { t.clk with c := t.clk.c + 1 } }

/-- One step of the program: a step of the queue (spsc_queue_base.hpp:31-83), a signal or a wait. A
consumer that waits for the producer between calls may count on the elements published before the
signal: the discipline of `Cfg.disciplined` accepts them like those reported by `read_available()`. -/
inductive SStep (cfg : Cfg) : SState α → Option (SEv α) → SState α → Prop
  | call {s e q'} : Step cfg s.q e q' → SStep cfg s (e.map .call) ⟨q', s.mail⟩
  | prodSignal {s} : s.q.fault = none → s.q.ppc.user = true →
      SStep cfg s (some (.signal true s.q.ppc.between))
        ⟨{ s.q with prod := s.q.prod.tickP }, s.mail ++ [(true, s.q.prod)]⟩
  | consSignal {s} : s.q.fault = none → s.q.cpc.user = true →
      SStep cfg s (some (.signal false s.q.cpc.between))
        ⟨{ s.q with cons := s.q.cons.tickC }, s.mail ++ [(false, s.q.cons)]⟩
  | prodWait {s i b t} : s.q.fault = none → s.q.ppc.user = true → s.mail[i]? = some (b, t) →
      SStep cfg s (some (.wait true i)) ⟨{ s.q with prod := s.q.prod.learn t }, s.mail⟩
  | consWait {s i t} : s.q.fault = none → s.q.cpc = .idle → s.mail[i]? = some (true, t) →
      SStep cfg s (some (.wait false i)) ⟨{ s.q with
        cons := s.q.cons.learn t
        budget := max s.q.budget (t.seenW - s.q.cons.seenR) }, s.mail⟩
  | consWaitInside {s i b t} : s.q.fault = none → s.q.cpc.user = true → s.mail[i]? = some (b, t) →
      SStep cfg s (some (.wait false i)) ⟨{ s.q with cons := s.q.cons.learn t }, s.mail⟩

/-- Executions from the freshly constructed queue. Part of the model, not of the code. -/
inductive SExec (cfg : Cfg) : List (SEv α) → SState α → Prop
  | init : SExec cfg [] ⟨State.init α, []⟩
  | step {tr s e s'} : SExec cfg tr s → SStep cfg s e s' → SExec cfg (tr ++ e.toList) s'

/-- Sequences of steps between arbitrary states. Part of the model, not of the code. -/
inductive SSteps (cfg : Cfg) : SState α → List (SEv α) → SState α → Prop
  | refl {s} : SSteps cfg s [] s
  | snoc {s tr s1 e s2} : SSteps cfg s tr s1 → SStep cfg s1 e s2 → SSteps cfg s (tr ++ e.toList) s2

/-- The calls of the queue in a trace. Specification, not part of the code. -/
def calls : List (SEv α) → List (Ev α)
  | [] => []
  | .call e :: tr => e :: calls tr
  | _ :: tr => calls tr

/-! ### destruction -/

/-- Where the destructor is (spsc_queue_base.hpp:106-111, 161-165). -/
inductive DPc
  /-- before the load of `m_read_index` in the loop condition, :107, :162 -/
  | head
  /-- before the load of `m_write_index` in the loop condition, :107, :162 -/
  | cmp (ri : Size)
  /-- before the load of `m_read_index` in the argument of `destroy_at`, :108, :163 -/
  | arg
  /-- before `destroy_at`, :108, :163 -/
  | kill (ri : Size)
  /-- before the load of `m_read_index` in the argument of `next_index`, :109, :164 -/
  | next
  /-- before the assignment to `m_read_index`, :109, :164 -/
  | store (ri : Size)
  /-- after the loop -/
  | done

/-- The queue, the destroying thread, and the elements destroyed so far, oldest first. -/
structure DState (α : Type) where
  q : State α
  d : Thread
  pc : DPc
  out : List α

/-- One step of `~StaticSPSCQueue` (spsc_queue_base.hpp:106-111, for elements that are not trivially
destructible) or of the loop of `~DynamicSPSCQueue` (:161-165). The indices are read and written
through `operator size_type` and `operator=` of `std::atomic`, that is sequentially consistently; the
model uses only that such a load acquires and such a store releases. -/
inductive DStep (max : Size) : DState α → DState α → Prop
  | head {x ri t m} : x.q.fault = none → x.pc = .head → loadR x.q x.d .acquire m = some (ri, t) →
      DStep max x { x with d := t, pc := .cmp ri }
  | leave {x ri wi t m} : x.q.fault = none → x.pc = .cmp ri →
      loadW x.q x.d .acquire m = some (wi, t) → ri = wi →
      DStep max x { x with d := t, pc := .done }
  | enter {x ri wi t m} : x.q.fault = none → x.pc = .cmp ri →
      loadW x.q x.d .acquire m = some (wi, t) → ri ≠ wi →
      DStep max x { x with d := t, pc := .arg }
  | arg {x ri t m} : x.q.fault = none → x.pc = .arg → loadR x.q x.d .acquire m = some (ri, t) →
      DStep max x { x with d := t, pc := .kill ri }
  | kill {x ri v} : x.q.fault = none → x.pc = .kill ri → ri.toNat < max.toNat →
      (x.q.slots ri.toNat).cell = some v →
      (x.q.slots ri.toNat).lastP ≤ x.d.clk.p → (x.q.slots ri.toNat).lastC ≤ x.d.clk.c →
      DStep max x { x with
        q := setSlot x.q ri.toNat { x.q.slots ri.toNat with cell := none }
        pc := .next, out := x.out ++ [v] }
  | killBad {x ri} : x.q.fault = none → x.pc = .kill ri →
      ¬ (ri.toNat < max.toNat ∧ (x.q.slots ri.toNat).cell ≠ none) →
      DStep max x { x with q := { x.q with fault := some .badSlot } }
  | killRace {x ri} : x.q.fault = none → x.pc = .kill ri →
      ¬ ((x.q.slots ri.toNat).lastP ≤ x.d.clk.p ∧ (x.q.slots ri.toNat).lastC ≤ x.d.clk.c) →
      DStep max x { x with q := { x.q with fault := some .race } }
  | next {x ri t m} : x.q.fault = none → x.pc = .next → loadR x.q x.d .acquire m = some (ri, t) →
      DStep max x { x with d := t, pc := .store (nextIndex max ri) }
  | store {x ri} : x.q.fault = none → x.pc = .store ri →
      DStep max x { x with
        q := { x.q with r := x.q.r ++ [⟨ri, x.d.clk⟩] }
        d := { x.d with seenR := x.q.r.length }
        pc := .head }

/-- `n` steps of the destructor. Part of the model, not of the code. -/
inductive DRun (max : Size) : DState α → Nat → DState α → Prop
  | refl {x} : DRun max x 0 x
  | snoc {x n y z} : DRun max x n y → DStep max y z → DRun max x (n + 1) z

/-- The destructor is called by a thread that knows `d`. -/
def DState.start (s : State α) (d : Thread) : DState α := ⟨s, d, .head, []⟩

/-- Thread `d` knows all that `t` knew: what `t` did happens before what `d` does next (for instance
because `d` has joined `t`). Part of the model, not of the code. -/
def Thread.knows (d t : Thread) : Prop :=
  t.clk.p ≤ d.clk.p ∧ t.clk.c ≤ d.clk.c ∧ t.seenW ≤ d.seenW ∧ t.seenR ≤ d.seenR

end Verif.SPSC.Conc
