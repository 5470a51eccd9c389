import Verif.SPSC.Index

/-!
Sequential model of `SPSCQueue` with element lifetimes and exceptions
(`/repo/private/container/spsc_queue_base.hpp`).  Used for the properties about one thread:
lifetimes, destructor, exceptions, capacities that are not powers of two.
-/

set_option autoImplicit false

namespace Verif.SPSC.Seq

/-- Outcome of a call. Part of the model, not of the code. -/
inductive Res (β : Type)
  | ok (b : β)
  /-- the call is left by an exception; the state after it -/
  | thrown (b : β)
  /-- undefined behaviour (out-of-bounds slot, destroying or reading a slot without element) or
  an element overwritten without being destroyed -/
  | ub
  /-- a failed `assert` -/
  | assertion
  deriving DecidableEq

/-- The queue.  Elements carry the serial number of their construction (ghost), so that "destroyed exactly once"
can be observed. spsc_queue_base.hpp:85, 88, 97, 144, 197-198. -/
structure Q (α : Type) where
  /-- `m_write_index`, spsc_queue_base.hpp:85 -/
  w : Size
  /-- `m_read_index`, spsc_queue_base.hpp:88 -/
  r : Size
  /-- `m_capacity` / `Size::capacity`, spsc_queue_base.hpp:97, 198 -/
  max : Size
  /-- the slots, spsc_queue_base.hpp:144, 197 -/
  cells : Nat → Option (Nat × α)
  /-- ghost: number of elements constructed so far -/
  made : Nat
  /-- ghost: serial numbers of destroyed elements, oldest first -/
  destroyed : List Nat
  /-- ghost: number of `deallocate` calls on the buffer -/
  freed : Nat

variable {α : Type}

/-- Constructors, spsc_queue_base.hpp:85, 88, 157-159 (the power-of-two assertion of
spsc_queue.hpp:29 / static_assert :100 is a hypothesis of the theorems). -/
def Q.init (max : Size) : Q α := ⟨0, 0, max, fun _ => none, 0, [], 0⟩

/-- One slot changes. Part of the model, not of the code. -/
def setCell (c : Nat → Option (Nat × α)) (i : Nat) (x : Option (Nat × α)) :
    Nat → Option (Nat × α) := fun j => if j = i then x else c j

/-- `emplace` / `push`, spsc_queue_base.hpp:56-65.  `throws`: the element constructor throws. -/
def emplace (q : Q α) (v : α) (throws : Bool) : Res (Q α × Bool) :=
  let next := nextIndex q.max q.w
  if next = q.r then .ok (q, false)
  else if q.w.toNat < q.max.toNat ∧ q.cells q.w.toNat = none then
    if throws then .thrown (q, false)
    else .ok ({ q with cells := setCell q.cells q.w.toNat (some (q.made, v)),
                       made := q.made + 1, w := next }, true)
  else .ub

/-- `destroy_at(buffer + i)`, spsc_queue_base.hpp:71, 81, 108, 163. -/
def destroyAt (q : Q α) (i : Size) : Option (Q α) :=
  if i.toNat < q.max.toNat then
    match q.cells i.toNat with
    | some (n, _) => some { q with cells := setCell q.cells i.toNat none,
                                   destroyed := q.destroyed ++ [n] }
    | none => none
  else none

/-- `pop`, spsc_queue_base.hpp:67-73. `debug`: assertions are compiled in. -/
def pop (debug : Bool) (q : Q α) : Res (Q α) :=
  if debug && isEmpty q.w q.r then .assertion
  else
    match destroyAt q q.r with
    | none => .ub
    | some q' => .ok { q' with r := nextIndex q.max q.r }

/-- `consume(fn)`, spsc_queue_base.hpp:75-83.  `f v = (v', throws)`: the function receives the
element by rvalue reference, leaves `v'` in it and possibly throws.  The value handed to the
function is returned. -/
def consume (debug : Bool) (q : Q α) (f : α → α × Bool) : Res (Q α × α) :=
  if debug && isEmpty q.w q.r then .assertion
  else if q.r.toNat < q.max.toNat then
    match q.cells q.r.toNat with
    | none => .ub
    | some (n, v) =>
      let q1 := { q with cells := setCell q.cells q.r.toNat (some (n, (f v).1)) }
      if (f v).2 then .thrown (q1, v)
      else match destroyAt q1 q1.r with
        | none => .ub
        | some q2 => .ok ({ q2 with r := nextIndex q.max q.r }, v)
  else .ub

/-- The loop of the destructors, spsc_queue_base.hpp:107-110, 162-165; `fuel` bounds the number of
iterations, `none` means undefined behaviour or fuel exhausted. -/
def destroyLoop : Nat → Q α → Option (Q α)
  | 0, q => if q.r = q.w then some q else none
  | fuel + 1, q =>
    if q.r = q.w then some q
    else match destroyAt q q.r with
      | none => none
      | some q' => destroyLoop fuel { q' with r := nextIndex q.max q.r }

/-- `~DynamicSPSCQueue`, spsc_queue_base.hpp:161-167. -/
def destruct (fuel : Nat) (q : Q α) : Option (Q α) :=
  (destroyLoop fuel q).map fun q => { q with freed := q.freed + 1 }

/-- `clear`, spsc_queue_base.hpp:18-29; `triv`: `is_trivially_destructible_v<T>`.  In the trivial
branch the elements' (empty) destructors are not run, their slots are simply reused: the model drops
the elements without logging them. -/
def clear (triv : Bool) (fuel : Nat) (q : Q α) : Option (Q α) :=
  if triv then some { q with w := 0, r := 0, cells := fun _ => none }
  else destroyLoop fuel q

/-- `read_available()`, spsc_queue_base.hpp:31-37 -/
def readAvailable (q : Q α) : Size := readAvail q.max q.w q.r

/-- `write_available()`, spsc_queue_base.hpp:39-46 -/
def writeAvailable (q : Q α) : Size := writeAvail q.max q.w q.r

/-- Calls of a client. spsc_queue_base.hpp:56 (`push` 123-126, 179-182), 67, 75. Simplification: `clear`, the
observers and the destructor are separate functions below. -/
inductive Op (α : Type)
  | push (v : α) (throws : Bool)
  | pop
  | consume (f : α → α × Bool)

/-- What a call reports to the client. The results of spsc_queue_base.hpp:56, 67, 75. -/
inductive Out (α : Type)
  | pushed (ok : Bool)
  | pushThrew
  | popped
  | consumed (v : α)
  | consumeThrew (v : α)

/-- Runs a client program; `none` if some call is undefined or fails its assertion. Part of the model, not of
the code. -/
def run (debug : Bool) : Q α → List (Op α) → Option (Q α × List (Out α))
  | q, [] => some (q, [])
  | q, .push v t :: ops =>
    match emplace q v t with
    | .ok (q', b) => (run debug q' ops).map fun (q'', o) => (q'', .pushed b :: o)
    | .thrown (q', _) => (run debug q' ops).map fun (q'', o) => (q'', .pushThrew :: o)
    | _ => none
  | q, .pop :: ops =>
    match pop debug q with
    | .ok q' => (run debug q' ops).map fun (q'', o) => (q'', .popped :: o)
    | _ => none
  | q, .consume f :: ops =>
    match consume debug q f with
    | .ok (q', v) => (run debug q' ops).map fun (q'', o) => (q'', .consumed v :: o)
    | .thrown (q', v) => (run debug q' ops).map fun (q'', o) => (q'', .consumeThrew v :: o)
    | _ => none

/-! ### Specification: a bounded FIFO with numbered elements -/

/-- Abstract queue: stored elements (oldest first, with serial numbers), elements made so far. Specification,
not part of the code. -/
structure Spec (α : Type) where
  items : List (Nat × α)
  made : Nat
  destroyed : List Nat

/-- Behaviour of a FIFO that holds at most `cap` elements; `none`: precondition violated. Specification, not
part of the code. -/
def Spec.run (cap : Nat) : Spec α → List (Op α) → Option (Spec α × List (Out α))
  | s, [] => some (s, [])
  | s, .push v t :: ops =>
    if s.items.length = cap then (Spec.run cap s ops).map fun (s', o) => (s', .pushed false :: o)
    else if t then (Spec.run cap s ops).map fun (s', o) => (s', .pushThrew :: o)
    else (Spec.run cap ⟨s.items ++ [(s.made, v)], s.made + 1, s.destroyed⟩ ops).map
      fun (s', o) => (s', .pushed true :: o)
  | s, .pop :: ops =>
    match s.items with
    | [] => none
    | (n, _) :: rest => (Spec.run cap ⟨rest, s.made, s.destroyed ++ [n]⟩ ops).map
      fun (s', o) => (s', .popped :: o)
  | s, .consume f :: ops =>
    match s.items with
    | [] => none
    | (n, v) :: rest =>
      if (f v).2 then (Spec.run cap ⟨(n, (f v).1) :: rest, s.made, s.destroyed⟩ ops).map
        fun (s', o) => (s', .consumeThrew v :: o)
      else (Spec.run cap ⟨rest, s.made, s.destroyed ++ [n]⟩ ops).map
        fun (s', o) => (s', .consumed v :: o)

end Verif.SPSC.Seq
