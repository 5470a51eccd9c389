import Verif.SPSC.SeqLemmas

/-!
User code that runs inside a call of `SPSCQueue` and itself uses the queue: the function passed to
`consume` and the constructor of an element being pushed
(`/repo/private/container/spsc_queue_base.hpp`).
-/

set_option autoImplicit false

namespace Verif.SPSC.Reenter

open Verif.SPSC Verif.SPSC.Seq

/-- A client of the queue: a tree of calls, each continued according to the result of the call.
Calls of spsc_queue_base.hpp:31, 39, 56, 67, 75.  Simplifications: `clear` and the destructor are
not called from within other calls, and the function passed to `consume` leaves its final value
`g v` in the element before it first uses the queue. -/
inductive Prog (α : Type)
  /-- the program, function or constructor returns -/
  | ret
  /-- it is left by an exception -/
  | throw
  /-- `read_available()` -/
  | readable (k : Nat → Prog α)
  /-- `write_available()` -/
  | writable (k : Nat → Prog α)
  /-- `push`/`emplace` of `v`; `ctor` is what the element's constructor does with the queue.
  `k none`: the call was left by an exception. -/
  | push (v : α) (ctor : Prog α) (k : Option Bool → Prog α)
  /-- `pop()` -/
  | pop (k : Prog α)
  /-- `consume(fn)`, where `fn(v)` leaves `g v` in the element and does `fn v` with the queue.
  `k true`: the call was left by an exception. -/
  | consume (g : α → α) (fn : α → Prog α) (k : Bool → Prog α)

/-- What the client observes: results of the calls of spsc_queue_base.hpp:31, 39, 56, 67, 75. -/
inductive Ev (α : Type)
  | readable (n : Nat)
  | writable (n : Nat)
  | pushed (ok : Bool)
  | pushThrew
  | popped
  /-- the function of a `consume` is entered with this value -/
  | handed (v : α)
  /-- a `consume` returned -/
  | consumed
  | consumeThrew
  deriving DecidableEq

variable {α : Type}

/-- Earlier events in front of those of the rest of the run. Part of the model, not of the code. -/
def after (e : List (Ev α)) : Res (Q α × List (Ev α)) → Res (Q α × List (Ev α))
  | .ok (q, o) => .ok (q, e ++ o)
  | .thrown (q, o) => .thrown (q, e ++ o)
  | .ub => .ub
  | .assertion => .assertion

/-- A client on the queue.  `push` is spsc_queue_base.hpp:56-65: the write index is read (58), the
constructor runs (62), then the index after the one that was read is stored (63).  `consume` is
spsc_queue_base.hpp:75-83: the read index is read (76), the function runs (79), then the element
at the index that was read is destroyed (81) and the index after it stored (82).  `pop` is
spsc_queue_base.hpp:67-73, the observers 31-46. -/
def exec (debug : Bool) : Q α → Prog α → Res (Q α × List (Ev α))
  | q, .ret => .ok (q, [])
  | q, .throw => .thrown (q, [])
  | q, .readable k => after [.readable (readAvailable q).toNat] (exec debug q (k (readAvailable q).toNat))
  | q, .writable k => after [.writable (writeAvailable q).toNat] (exec debug q (k (writeAvailable q).toNat))
  | q, .push v ctor k =>
    let w := q.w
    let next := nextIndex q.max w
    if next = q.r then after [.pushed false] (exec debug q (k (some false)))
    else match exec debug q ctor with
      | .ok (q1, e) =>
        if w.toNat < q1.max.toNat ∧ q1.cells w.toNat = none then
          after (e ++ [.pushed true])
            (exec debug { q1 with cells := setCell q1.cells w.toNat (some (q1.made, v)),
                                  made := q1.made + 1, w := next } (k (some true)))
        else .ub
      | .thrown (q1, e) => after (e ++ [.pushThrew]) (exec debug q1 (k none))
      | .ub => .ub
      | .assertion => .assertion
  | q, .pop k =>
    match Seq.pop debug q with
    | .ok q1 => after [.popped] (exec debug q1 k)
    | .thrown _ => .ub
    | .ub => .ub
    | .assertion => .assertion
  | q, .consume g fn k =>
    let r := q.r
    if debug && isEmpty q.w r then .assertion
    else if r.toNat < q.max.toNat then
      match q.cells r.toNat with
      | none => .ub
      | some (n, v) =>
        match exec debug { q with cells := setCell q.cells r.toNat (some (n, g v)) } (fn v) with
        | .ok (q1, e) =>
          match destroyAt q1 r with
          | none => .ub
          | some q2 => after (.handed v :: e ++ [.consumed])
              (exec debug { q2 with r := nextIndex q.max r } (k false))
        | .thrown (q1, e) => after (.handed v :: e ++ [.consumeThrew]) (exec debug q1 (k true))
        | .ub => .ub
        | .assertion => .assertion
    else .ub

/-! ### Specification -/

/-- The same client on a FIFO of at most `cap` elements: an element is in the queue from the
return of the `push` that stores it to the return of the `pop` or `consume` that removes it.
`none`: an element is taken from an empty queue.  The last component: the client ends with an
exception. Specification, not part of the code. -/
def specExec (cap : Nat) : Spec α → Prog α → Option (Spec α × List (Ev α) × Bool)
  | s, .ret => some (s, [], false)
  | s, .throw => some (s, [], true)
  | s, .readable k =>
    (specExec cap s (k s.items.length)).map fun (t, o, b) => (t, .readable s.items.length :: o, b)
  | s, .writable k =>
    (specExec cap s (k (cap - s.items.length))).map
      fun (t, o, b) => (t, .writable (cap - s.items.length) :: o, b)
  | s, .push v ctor k =>
    if s.items.length = cap then
      (specExec cap s (k (some false))).map fun (t, o, b) => (t, .pushed false :: o, b)
    else match specExec cap s ctor with
      | none => none
      | some (s1, e, false) =>
        (specExec cap ⟨s1.items ++ [(s1.made, v)], s1.made + 1, s1.destroyed⟩ (k (some true))).map
          fun (t, o, b) => (t, e ++ .pushed true :: o, b)
      | some (s1, e, true) =>
        (specExec cap s1 (k none)).map fun (t, o, b) => (t, e ++ .pushThrew :: o, b)
  | s, .pop k =>
    match s.items with
    | [] => none
    | x :: rest => (specExec cap ⟨rest, s.made, s.destroyed ++ [x.1]⟩ k).map
        fun (t, o, b) => (t, .popped :: o, b)
  | s, .consume g fn k =>
    match s.items with
    | [] => none
    | (n, v) :: rest =>
      match specExec cap ⟨(n, g v) :: rest, s.made, s.destroyed⟩ (fn v) with
      | none => none
      | some (s1, e, false) =>
        (specExec cap ⟨s1.items.tail, s1.made, s1.destroyed ++ [n]⟩ (k false)).map
          fun (t, o, b) => (t, .handed v :: e ++ .consumed :: o, b)
      | some (s1, e, true) =>
        (specExec cap s1 (k true)).map fun (t, o, b) => (t, .handed v :: e ++ .consumeThrew :: o, b)

/-- The rule for nested calls: code that runs inside a `consume` takes no element from the queue,
code that runs inside a `push` stores none.  `p`: storing is allowed here, `c`: taking is allowed
here. Specification, not part of the code. -/
def Disciplined : Bool → Bool → Prog α → Prop
  | _, _, .ret => True
  | _, _, .throw => True
  | p, c, .readable k => ∀ n, Disciplined p c (k n)
  | p, c, .writable k => ∀ n, Disciplined p c (k n)
  | p, c, .push _ ctor k => p = true ∧ Disciplined false c ctor ∧ ∀ b, Disciplined p c (k b)
  | p, c, .pop k => c = true ∧ Disciplined p c k
  | p, c, .consume _ fn k =>
    c = true ∧ (∀ v, Disciplined p false (fn v)) ∧ ∀ b, Disciplined p c (k b)

end Verif.SPSC.Reenter
