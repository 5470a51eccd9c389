import Verif.SPSC.Conc
import Mathlib.Logic.Function.Basic

/-!
Pipelines: threads connected by queues (`/repo/private/container/spsc_queue_base.hpp`, every queue as in `SPSC/Conc`).
The first thread fills queue 0 from an input, thread `i + 1` takes elements from queue `i`, applies `f i` and puts the
results into queue `i + 1`, the last one only takes. Nothing here is in the code: it is a program that uses the queues.
-/

set_option autoImplicit false

namespace Verif.SPSC.Conc

/-- A pipeline program: `n` threads between the first and the last, so `n + 1` queues; how the queues are built
(spsc_queue_base.hpp:97, 144, 197-198); what the threads do with an element; the input of the first one. Part of the
model, not of the code. -/
structure Plan (α : Type) where
  n : Nat
  cfg : Nat → Cfg
  f : Nat → α → α
  input : List α

/-- The queues, the events of each (ghost state) and, for the thread between queue `i` and queue `i + 1`, the result it
has not yet been able to pass on. Part of the model, not of the code. -/
structure Pipe (α : Type) where
  q : Nat → State α
  tr : Nat → List (Ev α)
  held : Nat → Option α

/-- All queues newly constructed. Part of the model, not of the code; spsc_queue_base.hpp:85, 88 for each queue. -/
def Pipe.init {α : Type} : Pipe α := ⟨fun _ => .init α, fun _ => [], fun _ => none⟩

variable {α : Type}

/-- What the thread that fills queue `i` pushes when it calls `push`: the first input not yet accepted, or the result it
holds. It tries again after `false` and after an exception. Part of the model, not of the code. -/
def Plan.next (P : Plan α) (N : Pipe α) : Nat → Option α
  | 0 => P.input[(pushedOk (N.tr 0)).length]?
  | i + 1 => N.held i

/-- The thread that fills queue `i` begins a call on it only when it is in no call on queue `i - 1`; it pushes what it
has to push next. Part of the model, not of the code. -/
def Plan.prodMay (P : Plan α) (N : Pipe α) (i : Nat) (s' : State α) : Prop :=
  (N.q i).ppc = .idle → s'.ppc ≠ .idle →
    (∀ j, i = j + 1 → (N.q j).cpc = .idle) ∧ ∀ v, s'.ppc = .e1 v → P.next N i = some v

/-- The thread between queue `i` and queue `i + 1` begins a call on queue `i` only when it is in no call on queue
`i + 1`; it calls `consume`, never `pop`, and only when it holds no result. The last thread may do as it likes. Part of
the model, not of the code. -/
def Plan.consMay (P : Plan α) (N : Pipe α) (i : Nat) (s' : State α) : Prop :=
  (N.q i).cpc = .idle → s'.cpc ≠ .idle → i < P.n →
    (N.q (i + 1)).ppc = .idle ∧ ∀ fn, s'.cpc = .c1 fn → fn = true ∧ N.held i = none

/-- The callback of `consume` stores `f i` of the element; a result is given up once `push` has returned `true`. Part of
the model, not of the code. -/
def Plan.keep (P : Plan α) (held : Nat → Option α) (i : Nat) : Option (Ev α) → Nat → Option α
  | some (.got v) => if i < P.n then Function.update held i (some (P.f i v)) else held
  | some (.pushRet _ true) => match i with
    | 0 => held
    | j + 1 => Function.update held j none
  | _ => held

/-- The executions of a pipeline: any thread makes a step in one of its queues, every load returns any value that the
memory model of `SPSC/Conc` allows. Part of the model, not of the code; the steps are spsc_queue_base.hpp:31-83. -/
inductive Plan.Reach (P : Plan α) : Pipe α → Pipe α → Prop
  | refl {N : Pipe α} : Reach P N N
  | step {N₀ N : Pipe α} {i : Nat} {e : Option (Ev α)} {s' : State α} : Reach P N₀ N → i ≤ P.n →
      Step (P.cfg i) (N.q i) e s' → P.prodMay N i s' → P.consMay N i s' →
      Reach P N₀ ⟨Function.update N.q i s', Function.update N.tr i (N.tr i ++ e.toList), P.keep N.held i e⟩

/-- The states a pipeline gets into. Part of the model, not of the code. -/
def Plan.Run (P : Plan α) (N : Pipe α) : Prop := P.Reach .init N

/-- What becomes of an input before it is put into queue `i`. Specification, not part of the code. -/
def Plan.through (P : Plan α) : Nat → α → α
  | 0, x => x
  | i + 1, x => P.f i (P.through i x)

/-- Every queue has a capacity that is a power of two and at least two (with capacity one a queue never takes an
element), and every taking thread asks `read_available()` and takes no more than that. Specification, not part of the
code; the capacity is asserted in spsc_queue_base.hpp:100. -/
def Plan.Ok (P : Plan α) : Prop :=
  ∀ i, (∃ k, (P.cfg i).max.toNat = 2 ^ (k + 1)) ∧ (P.cfg i).disciplined = true

end Verif.SPSC.Conc
