import Verif.SPSC.Index

/-!
Concurrent model of `SPSCQueue` (`/repo/include/xme/container/spsc_queue.hpp`,
`/repo/private/container/spsc_queue_base.hpp`): one producer thread, one consumer thread,
one transition per memory access, and a release/acquire memory model.

Memory model.  Each atomic index has a modification order (a list of messages).  A load may
return *any* message that is not older than the newest one the loading thread has already
read or written (read coherence); this allows stale reads.  A release store attaches the
storing thread's vector clock to its message, an acquire load joins it into the loading
thread's clock; relaxed accesses do neither.  A slot access is a data race if the other
thread's last access to the slot is not covered by the accessing thread's clock (the usual
vector-clock characterisation of happens-before).  This permits at least the executions
C++20 permits for this code: the additional happens-before coherence constraints between
*different* atomic variables are not imposed.
-/

set_option autoImplicit false

namespace Verif.SPSC.Conc

/-- `std::memory_order` arguments used by the code. spsc_queue_base.hpp:32-33, 40-41, 58, 60, 63, 68-69, 72,
77-78, 82. -/
inductive Order
  | relaxed
  | acquire
  | release
  deriving DecidableEq

/-- Vector clock: how many release epochs of the producer/consumer are known. Part of the model, not of the
code. -/
structure VC where
  p : Nat
  c : Nat
  deriving DecidableEq

/-- What is known after learning `b`. Part of the model, not of the code. -/
def VC.join (a b : VC) : VC := ⟨max a.p b.p, max a.c b.c⟩

/-- One entry of the modification order of an atomic index. Part of the model, not of the code. The indices are
spsc_queue_base.hpp:85, 88. -/
structure Msg where
  val : Size
  view : VC

/-- What a thread knows: its clock and, per atomic variable, the position in the modification order of the
newest message it has read or written. Part of the model, not of the code. -/
structure Thread where
  clk : VC
  seenW : Nat
  seenR : Nat

/-- One element slot of the buffer: the live object, if any, and the epochs of the last accesses by either
thread. spsc_queue_base.hpp:144, 197. -/
structure Slot (α : Type) where
  cell : Option α
  lastP : Nat
  lastC : Nat

/-- What can go wrong. Part of the model, not of the code. -/
inductive Fault
  /-- unordered conflicting accesses to a slot: undefined behaviour -/
  | race
  /-- access outside the buffer, construction over a live element, or use of a slot that
  holds no element: undefined behaviour (or a lost element) -/
  | badSlot
  /-- `assert` of `pop`/`consume` failed (spsc_queue_base.hpp:69, 78) -/
  | assertion
  deriving DecidableEq

/-- Producer program counter; the registers are the locals of the C++ functions. spsc_queue_base.hpp:31-46,
56-65. -/
inductive PPc (α : Type)
  | idle
  /-- before the load of `m_write_index`, spsc_queue_base.hpp:58 -/
  | e1 (v : α)
  /-- before the load of `m_read_index`, spsc_queue_base.hpp:60 -/
  | e2 (v : α) (wi : Size)
  /-- before `construct_at`, spsc_queue_base.hpp:62 -/
  | e3 (v : α) (wi : Size)
  /-- before the store of `m_write_index`, spsc_queue_base.hpp:63 -/
  | e4 (v : α) (wi : Size)
  /-- before `return true`, spsc_queue_base.hpp:64 -/
  | e5 (v : α)
  /-- `write_available`: before the first load, spsc_queue_base.hpp:40 -/
  | wa1
  /-- `write_available`: before the second load, spsc_queue_base.hpp:41 -/
  | wa2 (wi : Size)
  /-- `read_available` called by the producer: before the first load, :32 -/
  | ra1
  /-- `read_available` called by the producer: before the second load, :33 -/
  | ra2 (wi : Size)

/-- Consumer program counter. `fn = true` for `consume`, `false` for `pop`. spsc_queue_base.hpp:31-46, 67-83. -/
inductive CPc (α : Type)
  | idle
  /-- before the load of `m_read_index`, spsc_queue_base.hpp:68, 77 -/
  | c1 (fn : Bool)
  /-- before the load inside `assert`, spsc_queue_base.hpp:69, 78 (checked builds only) -/
  | c2 (fn : Bool) (ri : Size)
  /-- `consume`: before `fn(std::move(buffer[read_index]))`, spsc_queue_base.hpp:80 -/
  | c3 (ri : Size)
  /-- before `destroy_at`, spsc_queue_base.hpp:71, 81 -/
  | c4 (fn : Bool) (ri : Size)
  /-- before the store of `m_read_index`, spsc_queue_base.hpp:72, 82 -/
  | c5 (ri : Size)
  /-- `read_available`: before the first load, spsc_queue_base.hpp:32 -/
  | ra1
  /-- `read_available`: before the second load, spsc_queue_base.hpp:33 -/
  | ra2 (wi : Size)
  /-- `write_available` called by the consumer: before the first load, :40 -/
  | wa1
  /-- `write_available` called by the consumer: before the second load, :41 -/
  | wa2 (wi : Size)

/-- Observable events. Calls and returns of spsc_queue_base.hpp:31, 39, 56, 67, 75. -/
inductive Ev (α : Type)
  /-- producer calls `push(v)` / `emplace(v)` -/
  | pushCall (v : α)
  /-- that call returns -/
  | pushRet (v : α) (ok : Bool)
  /-- that call is left by an exception of the element constructor -/
  | pushThrow (v : α)
  /-- producer's `write_available()` / `read_available()` returns -/
  | pWriteAvail (n : Size)
  | pReadAvail (n : Size)
  /-- consumer's `read_available()` / `write_available()` returns -/
  | cReadAvail (n : Size)
  | cWriteAvail (n : Size)
  /-- `consume` hands `v` to the user's function -/
  | got (v : α)
  /-- `consume` hands `v` to the user's function, which throws; the call is left by the exception -/
  | fnThrew (v : α)
  /-- `pop` destroys the element -/
  | popped

/-- The queue, the two threads and what happened so far; spsc_queue_base.hpp:85, 88, 97, 144, 197-198. -/
structure State (α : Type) where
  /-- modification order of `m_write_index` (spsc_queue_base.hpp:85) -/
  w : List Msg
  /-- modification order of `m_read_index` (spsc_queue_base.hpp:88) -/
  r : List Msg
  /-- the element buffer (spsc_queue_base.hpp:144, 197) -/
  slots : Nat → Slot α
  prod : Thread
  cons : Thread
  ppc : PPc α
  cpc : CPc α
  /-- how many elements the consumer program may still remove according to its last
  `read_available()` (bookkeeping of the client, not of the queue) -/
  budget : Nat
  fault : Option Fault

/-- Both indices start at 0 (spsc_queue_base.hpp:85, 88); no slot holds an element.  The
construction of the queue happens before both threads start. -/
def State.init (α : Type) : State α where
  w := [⟨0, ⟨0, 0⟩⟩]
  r := [⟨0, ⟨0, 0⟩⟩]
  slots := fun _ => ⟨none, 0, 0⟩
  prod := ⟨⟨1, 0⟩, 0, 0⟩
  cons := ⟨⟨0, 1⟩, 0, 0⟩
  ppc := .idle
  cpc := .idle
  budget := 0
  fault := none

/-- `m_write_index.load(o)` by a thread, returning the `m`-th message. `m_write_index.load`,
spsc_queue_base.hpp:32, 40, 58, 69, 78. -/
def loadW {α : Type} (s : State α) (t : Thread) (o : Order) (m : Nat) : Option (Size × Thread) :=
  match s.w[m]? with
  | none => none
  | some msg =>
    if t.seenW ≤ m then
      some (msg.val, { t with
        seenW := m, clk := if o = .acquire then t.clk.join msg.view else t.clk })
    else none

/-- `m_read_index.load(o)` by a thread, returning the `m`-th message. `m_read_index.load`,
spsc_queue_base.hpp:33, 41, 60, 68, 77. -/
def loadR {α : Type} (s : State α) (t : Thread) (o : Order) (m : Nat) : Option (Size × Thread) :=
  match s.r[m]? with
  | none => none
  | some msg =>
    if t.seenR ≤ m then
      some (msg.val, { t with
        seenR := m, clk := if o = .acquire then t.clk.join msg.view else t.clk })
    else none

/-- `m_write_index.store(v, o)` by the producer. A release store publishes the thread's clock and starts a new
epoch. `m_write_index.store`, spsc_queue_base.hpp:63. -/
def storeW {α : Type} (s : State α) (o : Order) (v : Size) : State α :=
  { s with
    w := s.w ++ [⟨v, if o = .release then s.prod.clk else ⟨0, 0⟩⟩]
    prod := { s.prod with
      seenW := s.w.length
      clk := if o = .release then { s.prod.clk with p := s.prod.clk.p + 1 } else s.prod.clk } }

/-- `m_read_index.store(v, o)` by the consumer. `m_read_index.store`, spsc_queue_base.hpp:72, 82. -/
def storeR {α : Type} (s : State α) (o : Order) (v : Size) : State α :=
  { s with
    r := s.r ++ [⟨v, if o = .release then s.cons.clk else ⟨0, 0⟩⟩]
    cons := { s.cons with
      seenR := s.r.length
      clk := if o = .release then { s.cons.clk with c := s.cons.clk.c + 1 } else s.cons.clk } }

/-- One slot changes. Part of the model, not of the code. -/
def setSlot {α : Type} (s : State α) (i : Nat) (sl : Slot α) : State α :=
  { s with slots := fun j => if j = i then sl else s.slots j }

/-- The producer's access to slot `i` is ordered after the consumer's last one. Part of the model, not of the
code. -/
def prodOrdered {α : Type} (s : State α) (i : Nat) : Prop := (s.slots i).lastC ≤ s.prod.clk.c

/-- The consumer's access to slot `i` is ordered after the producer's last one. Part of the model, not of the
code. -/
def consOrdered {α : Type} (s : State α) (i : Nat) : Prop := (s.slots i).lastP ≤ s.cons.clk.p

/-- Build/client configuration. Part of the model, not of the code. -/
structure Cfg where
  /-- `max_size` -/
  max : Size
  /-- assertions compiled in (no `NDEBUG`) -/
  debug : Bool
  /-- the consumer only pops/consumes as many elements as its last `read_available()`
  reported -/
  disciplined : Bool

/-- One step of the system, with the event it emits. spsc_queue_base.hpp:31-83, line by line. -/
inductive Step {α : Type} (cfg : Cfg) : State α → Option (Ev α) → State α → Prop
  -- emplace, spsc_queue_base.hpp:56-65 (push forwards to it, :123-126, :179-182)
  | pushCall {s v} : s.fault = none → s.ppc = .idle →
      Step cfg s (some (.pushCall v)) { s with ppc := .e1 v }
  | pushLoadW {s v wi t m} : s.fault = none → s.ppc = .e1 v →
      loadW s s.prod .relaxed m = some (wi, t) →
      Step cfg s none { s with prod := t, ppc := .e2 v wi }
  | pushFull {s v wi ri t m} : s.fault = none → s.ppc = .e2 v wi →
      loadR s s.prod .acquire m = some (ri, t) → nextIndex cfg.max wi = ri →
      Step cfg s (some (.pushRet v false)) { s with prod := t, ppc := .idle }
  | pushRoom {s v wi ri t m} : s.fault = none → s.ppc = .e2 v wi →
      loadR s s.prod .acquire m = some (ri, t) → nextIndex cfg.max wi ≠ ri →
      Step cfg s none { s with prod := t, ppc := .e3 v wi }
  | pushConstructThrows {s v wi} : s.fault = none → s.ppc = .e3 v wi →
      Step cfg s (some (.pushThrow v)) { s with ppc := .idle }
  | pushConstruct {s v wi} : s.fault = none → s.ppc = .e3 v wi →
      wi.toNat < cfg.max.toNat → (s.slots wi.toNat).cell = none → prodOrdered s wi.toNat →
      Step cfg s none { setSlot s wi.toNat
        { s.slots wi.toNat with cell := some v, lastP := s.prod.clk.p } with ppc := .e4 v wi }
  | pushConstructBad {s v wi} : s.fault = none → s.ppc = .e3 v wi →
      ¬ (wi.toNat < cfg.max.toNat ∧ (s.slots wi.toNat).cell = none) →
      Step cfg s none { s with fault := some .badSlot }
  | pushConstructRace {s v wi} : s.fault = none → s.ppc = .e3 v wi →
      ¬ prodOrdered s wi.toNat →
      Step cfg s none { s with fault := some .race }
  | pushStore {s v wi} : s.fault = none → s.ppc = .e4 v wi →
      Step cfg s none { storeW s .release (nextIndex cfg.max wi) with ppc := .e5 v }
  | pushReturn {s v} : s.fault = none → s.ppc = .e5 v →
      Step cfg s (some (.pushRet v true)) { s with ppc := .idle }
  -- write_available by the producer, spsc_queue_base.hpp:39-46
  | pWaCall {s} : s.fault = none → s.ppc = .idle → Step cfg s none { s with ppc := .wa1 }
  | pWaLoadW {s wi t m} : s.fault = none → s.ppc = .wa1 →
      loadW s s.prod .relaxed m = some (wi, t) →
      Step cfg s none { s with prod := t, ppc := .wa2 wi }
  | pWaLoadR {s wi ri t m} : s.fault = none → s.ppc = .wa2 wi →
      loadR s s.prod .acquire m = some (ri, t) →
      Step cfg s (some (.pWriteAvail (writeAvail cfg.max wi ri))) { s with prod := t, ppc := .idle }
  -- read_available by the producer, spsc_queue_base.hpp:31-37
  | pRaCall {s} : s.fault = none → s.ppc = .idle → Step cfg s none { s with ppc := .ra1 }
  | pRaLoadW {s wi t m} : s.fault = none → s.ppc = .ra1 →
      loadW s s.prod .acquire m = some (wi, t) →
      Step cfg s none { s with prod := t, ppc := .ra2 wi }
  | pRaLoadR {s wi ri t m} : s.fault = none → s.ppc = .ra2 wi →
      loadR s s.prod .relaxed m = some (ri, t) →
      Step cfg s (some (.pReadAvail (readAvail cfg.max wi ri))) { s with prod := t, ppc := .idle }
  -- pop / consume, spsc_queue_base.hpp:67-83
  | popCall {s fn} : s.fault = none → s.cpc = .idle →
      (cfg.disciplined = true → 0 < s.budget) →
      Step cfg s none { s with cpc := .c1 fn, budget := s.budget - 1 }
  | popLoadR {s fn ri t m} : s.fault = none → s.cpc = .c1 fn →
      loadR s s.cons .relaxed m = some (ri, t) →
      Step cfg s none { s with
        cons := t
        cpc := if cfg.debug then .c2 fn ri else if fn then .c3 ri else .c4 fn ri }
  | popAssertFails {s fn ri wi t m} : s.fault = none → s.cpc = .c2 fn ri →
      loadW s s.cons .acquire m = some (wi, t) → isEmpty wi ri = true →
      Step cfg s none { s with cons := t, fault := some .assertion }
  | popAssertHolds {s fn ri wi t m} : s.fault = none → s.cpc = .c2 fn ri →
      loadW s s.cons .acquire m = some (wi, t) → isEmpty wi ri = false →
      Step cfg s none { s with cons := t, cpc := if fn then .c3 ri else .c4 fn ri }
  | consumeFn {s ri v} : s.fault = none → s.cpc = .c3 ri →
      ri.toNat < cfg.max.toNat → (s.slots ri.toNat).cell = some v → consOrdered s ri.toNat →
      Step cfg s (some (.got v)) { setSlot s ri.toNat
        { s.slots ri.toNat with lastC := s.cons.clk.c } with cpc := .c4 true ri }
  -- the exception leaves `consume`; an element is identified by what was pushed, whatever `fn` did to its value
  | consumeFnThrows {s ri v} : s.fault = none → s.cpc = .c3 ri →
      ri.toNat < cfg.max.toNat → (s.slots ri.toNat).cell = some v → consOrdered s ri.toNat →
      Step cfg s (some (.fnThrew v)) { setSlot s ri.toNat
        { s.slots ri.toNat with lastC := s.cons.clk.c } with cpc := .idle }
  | consumeFnBad {s ri} : s.fault = none → s.cpc = .c3 ri →
      ¬ (ri.toNat < cfg.max.toNat ∧ (s.slots ri.toNat).cell ≠ none) →
      Step cfg s none { s with fault := some .badSlot }
  | consumeFnRace {s ri} : s.fault = none → s.cpc = .c3 ri → ¬ consOrdered s ri.toNat →
      Step cfg s none { s with fault := some .race }
  | popDestroy {s fn ri e} : s.fault = none → s.cpc = .c4 fn ri →
      ri.toNat < cfg.max.toNat → (s.slots ri.toNat).cell ≠ none → consOrdered s ri.toNat →
      e = (if fn then none else some .popped) →
      Step cfg s e { setSlot s ri.toNat
        { s.slots ri.toNat with cell := none, lastC := s.cons.clk.c } with cpc := .c5 ri }
  | popDestroyBad {s fn ri} : s.fault = none → s.cpc = .c4 fn ri →
      ¬ (ri.toNat < cfg.max.toNat ∧ (s.slots ri.toNat).cell ≠ none) →
      Step cfg s none { s with fault := some .badSlot }
  | popDestroyRace {s fn ri} : s.fault = none → s.cpc = .c4 fn ri → ¬ consOrdered s ri.toNat →
      Step cfg s none { s with fault := some .race }
  | popStore {s ri} : s.fault = none → s.cpc = .c5 ri →
      Step cfg s none { storeR s .release (nextIndex cfg.max ri) with cpc := .idle }
  -- read_available by the consumer, spsc_queue_base.hpp:31-37
  | cRaCall {s} : s.fault = none → s.cpc = .idle → Step cfg s none { s with cpc := .ra1 }
  | cRaLoadW {s wi t m} : s.fault = none → s.cpc = .ra1 →
      loadW s s.cons .acquire m = some (wi, t) →
      Step cfg s none { s with cons := t, cpc := .ra2 wi }
  | cRaLoadR {s wi ri t m} : s.fault = none → s.cpc = .ra2 wi →
      loadR s s.cons .relaxed m = some (ri, t) →
      Step cfg s (some (.cReadAvail (readAvail cfg.max wi ri)))
        { s with cons := t, cpc := .idle, budget := (readAvail cfg.max wi ri).toNat }
  -- write_available by the consumer, spsc_queue_base.hpp:39-46
  | cWaCall {s} : s.fault = none → s.cpc = .idle → Step cfg s none { s with cpc := .wa1 }
  | cWaLoadW {s wi t m} : s.fault = none → s.cpc = .wa1 →
      loadW s s.cons .relaxed m = some (wi, t) →
      Step cfg s none { s with cons := t, cpc := .wa2 wi }
  | cWaLoadR {s wi ri t m} : s.fault = none → s.cpc = .wa2 wi →
      loadR s s.cons .acquire m = some (ri, t) →
      Step cfg s (some (.cWriteAvail (writeAvail cfg.max wi ri))) { s with cons := t, cpc := .idle }

/-- Executions from the freshly constructed queue, with the trace of events (oldest first). Part of the model,
not of the code. -/
inductive Exec {α : Type} (cfg : Cfg) : List (Ev α) → State α → Prop
  | init : Exec cfg [] (State.init α)
  | step {tr s e s'} : Exec cfg tr s → Step cfg s e s' → Exec cfg (tr ++ e.toList) s'

/-- Sequences of steps between arbitrary states. Part of the model, not of the code. -/
inductive Steps {α : Type} (cfg : Cfg) : State α → List (Ev α) → State α → Prop
  | refl {s} : Steps cfg s [] s
  | snoc {s tr s1 e s2} : Steps cfg s tr s1 → Step cfg s1 e s2 → Steps cfg s (tr ++ e.toList) s2

/-! ### Specification vocabulary: what a trace says, independently of the queue -/

/-- Values whose push returned `true`, in order. Specification, not part of the code. -/
def pushedOk {α : Type} : List (Ev α) → List α
  | [] => []
  | .pushRet v true :: tr => v :: pushedOk tr
  | _ :: tr => pushedOk tr

/-- The value of the push call in progress, if any. Specification, not part of the code. -/
def pending {α : Type} (tr : List (Ev α)) : Option α :=
  tr.foldl (fun acc e => match e with
    | .pushCall v => some v
    | .pushRet _ _ => none
    | .pushThrow _ => none
    | _ => acc) none

/-- What the consumer removed, in order: `some v` for a value handed out by `consume`, `none` for an element
dropped by `pop`. Specification, not part of the code. -/
def delivered {α : Type} : List (Ev α) → List (Option α)
  | [] => []
  | .got v :: tr => some v :: delivered tr
  | .popped :: tr => none :: delivered tr
  | _ :: tr => delivered tr

end Verif.SPSC.Conc
