/-!
# Constant calls from several threads

The constant member functions of the containers as sequences of accesses to memory, and threads that interleave them. AR
stands for `include/xme/container/array.hpp`, LL for `include/xme/container/linked_list.hpp`, LB for
`private/container/linked_list_base.hpp`, HP for `include/xme/container/heap.hpp`, AV for
`include/xme/container/array_view.hpp`, IC for `include/xme/container/icontainer.hpp`, DE for
`include/xme/core/functional/delegate.hpp`, V for `include/xme/math/vector.hpp`, TB for `private/container/tuple_base.hpp`.

Every pointer, number and element takes one cell. Memory is sequentially consistent: by the memory model of C++ that is no
restriction for programs that have no race under it. What matters in a step is the cell it accesses and whether it writes.
-/

set_option autoImplicit false

namespace Verif.Shared

/-! ### Programs and threads -/

/-- Contents of the cells. Part of the model, not of the code. -/
abbrev Mem := Nat → Nat

/-- A program: what it accesses next depends on what it has read. `ub` is undefined behaviour. Part of the model, not of the
code. -/
inductive Prog (ρ : Type)
  | ret (r : ρ)
  | ub
  | read (a : Nat) (k : Nat → Prog ρ)
  | write (a v : Nat) (k : Prog ρ)

variable {ρ τ : Type}

/-- One program after the other. Part of the model, not of the code. -/
def Prog.bind : Prog ρ → (ρ → Prog τ) → Prog τ
  | .ret r, f => f r
  | .ub, _ => .ub
  | .read a k, f => .read a fun v => (k v).bind f
  | .write a v k, f => .write a v (k.bind f)

instance : Monad Prog where
  pure := .ret
  bind := .bind

/-- `*p`. Part of the model, not of the code. -/
def load (a : Nat) : Prog Nat := .read a .ret

/-- `*p = v`. Part of the model, not of the code. -/
def store (a v : Nat) : Prog Unit := .write a v (.ret ())

/-- A cell written. Part of the model, not of the code. -/
def upd (m : Mem) (a v : Nat) : Mem := fun b => if b = a then v else m b

/-- The next access of a program: the cell and whether it is written. Part of the model, not of the code. -/
def Prog.next : Prog ρ → Option (Nat × Bool)
  | .read a _ => some (a, false)
  | .write a _ _ => some (a, true)
  | _ => none

/-- One step of a program. Part of the model, not of the code. -/
def Prog.step (m : Mem) : Prog ρ → Mem × Prog ρ
  | .read a k => (m, k (m a))
  | .write a v k => (upd m a v, k)
  | p => (m, p)

/-- Memory and the rest of the program of each thread. Part of the model, not of the code. -/
structure Cfg (T ρ : Type) where
  m : Mem
  ts : T → Prog ρ

/-- What any interleaving of the threads can reach. Part of the model, not of the code. -/
inductive Reach {T : Type} [DecidableEq T] : Cfg T ρ → Cfg T ρ → Prop
  | refl (c : Cfg T ρ) : Reach c c
  | step {c d : Cfg T ρ} (t : T) : Reach c d →
      Reach c ⟨((d.ts t).step d.m).1, fun u => if u = t then ((d.ts t).step d.m).2 else d.ts u⟩

/-- Two threads are about to access the same cell and one of them writes: a data race. Part of the model, not of the
code. -/
def Race {T : Type} (c : Cfg T ρ) : Prop :=
  ∃ t u a w, t ≠ u ∧ (c.ts t).next = some (a, true) ∧ (c.ts u).next = some (a, w)

/-- A program that runs alone. Part of the model, not of the code. -/
inductive Alone : Mem → Prog ρ → Mem → Prog ρ → Prop
  | refl (m : Mem) (p : Prog ρ) : Alone m p m p
  | step {m m' : Mem} {p p' : Prog ρ} : Alone m p m' p' → Alone m p (p'.step m').1 (p'.step m').2

/-! ### Array and Heap

The object at `o` has the members `begin`, `end` and `storage_end` of AR 348-350 in the cells `o`, `o + 1`, `o + 2`. -/

/-- `begin() const`, AR 104-107; of a heap, HP 50-53. -/
def arrBegin (o : Nat) : Prog Nat := load o

/-- `end() const`, AR 114-117; of a heap, HP 55-58. -/
def arrEnd (o : Nat) : Prog Nat := load (o + 1)

/-- `capacity() const`, AR 119-123. -/
def arrCapacity (o : Nat) : Prog Nat := do
  let s ← load (o + 2)
  let b ← load o
  pure (s - b)

/-- `size() const`, IC 69-76. -/
def arrSize (o : Nat) : Prog Nat := do
  let e ← arrEnd o
  let b ← arrBegin o
  pure (e - b)

/-- `empty() const`, IC 37-45: arrays are sized ranges. -/
def arrEmpty (o : Nat) : Prog Nat := do
  let n ← arrSize o
  pure (if n = 0 then 1 else 0)

/-- `operator[](i) const`, IC 20-25. -/
def arrGet (o i : Nat) : Prog Nat := do
  let b ← arrBegin o
  load (b + i)

/-- `front() const`, IC 85-90. -/
def arrFront (o : Nat) : Prog Nat := do
  let b ← arrBegin o
  load b

/-- `back() const`, IC 99-104. -/
def arrBack (o : Nat) : Prog Nat := do
  let e ← arrEnd o
  load (e - 1)

/-- `for(; it != last; ++it) use(*it)`, a client's loop over AR 104-117, at most `fuel` times round: the elements read. The
copy constructor, AR 41, reads the same. -/
def visitFrom (last : Nat) : Nat → Nat → Prog (List Nat)
  | 0, _ => .ub
  | fuel + 1, it =>
    if it = last then pure []
    else do
      let x ← load it
      let xs ← visitFrom last fuel (it + 1)
      pure (x :: xs)

/-- The loop over a whole array or heap, AR 104-117, HP 50-58. -/
def arrVisit (fuel o : Nat) : Prog (List Nat) := do
  let b ← arrBegin o
  let e ← arrEnd o
  visitFrom e fuel b

/-! ### LinkedList

The object at `o` has the member `m_head.next` in the cell `o`; a node at `p` has `next` in the cell `p` and its element in
`p + 1`, LB 5-12. The null pointer is 0. -/

/-- `begin() const`, LL 116. -/
def listBegin (o : Nat) : Prog Nat := load o

/-- `empty() const`, IC 37-45: lists are not sized ranges; `end()` is null, LL 121. -/
def listEmpty (o : Nat) : Prog Nat := do
  let b ← listBegin o
  pure (if b = 0 then 1 else 0)

/-- `*it`, LB 85-87; dereferencing null is undefined. -/
def listStar (p : Nat) : Prog Nat := if p = 0 then .ub else load (p + 1)

/-- `front() const`, IC 85-90. -/
def listFront (o : Nat) : Prog Nat := do
  let b ← listBegin o
  listStar b

/-- The loop over LL 116-121 from a node on; `++it` is LB 89-92. -/
def listFrom : Nat → Nat → Prog (List Nat)
  | 0, _ => .ub
  | fuel + 1, it =>
    if it = 0 then pure []
    else do
      let x ← listStar it
      let it ← load it
      let xs ← listFrom fuel it
      pure (x :: xs)

/-- The loop over a whole list, LL 116-121. -/
def listVisit (fuel o : Nat) : Prog (List Nat) := do
  let b ← listBegin o
  listFrom fuel b

/-! ### ArrayView

The object at `o` has `m_view` in the cell `o` and the size in `o + 1`, AV 208-210. -/

/-- `begin() const`, AV 127-130. -/
def viewBegin (o : Nat) : Prog Nat := load o

/-- `size() const`, AV 145-148. -/
def viewSize (o : Nat) : Prog Nat := load (o + 1)

/-- `end() const`, AV 139-142. -/
def viewEnd (o : Nat) : Prog Nat := do
  let p ← load o
  let n ← viewSize o
  pure (p + n)

/-- `empty() const`, IC 37-45. -/
def viewEmpty (o : Nat) : Prog Nat := do
  let n ← viewSize o
  pure (if n = 0 then 1 else 0)

/-- `operator[](i) const`, IC 20-25. -/
def viewGet (o i : Nat) : Prog Nat := do
  let b ← viewBegin o
  load (b + i)

/-- `front() const`, IC 85-90. -/
def viewFront (o : Nat) : Prog Nat := do
  let b ← viewBegin o
  load b

/-- `back() const`, IC 99-104. -/
def viewBack (o : Nat) : Prog Nat := do
  let e ← viewEnd o
  load (e - 1)

/-- The loop over a whole view, AV 127-142. -/
def viewVisit (fuel o : Nat) : Prog (List Nat) := do
  let b ← viewBegin o
  let e ← viewEnd o
  visitFrom e fuel b

/-! ### Vectors, matrices, quaternions, tuples, pairs -/

/-- `operator[](i) const` and `get<i>`, V 93-97, TB 32-35: the components are the cells of the object. -/
def cellGet (o i : Nat) : Prog Nat := load (o + i)

/-! ### Delegate

The object at `o` has `m_storage`, `m_callable` and `m_manager` in the cells `o`, `o + 1` and `o + 2`, DE 199-201; 0 is the
null pointer. `code f p` is the call operator of the callable whose `invoke` is `f`, on the callable at `p`. -/

/-- `operator()() const`, DE 177-182, with `invoke` and `handle`, DE 61-71, for a callable stored in the delegate (`local`) or
on the heap. An exception is reported as the result `none`. -/
def call (code : Nat → Nat → Prog Nat) (isLocal : Nat → Bool) (o : Nat) : Prog (Option Nat) := do
  let m ← load (o + 2)
  if m = 0 then pure none
  else do
    let f ← load (o + 1)
    if isLocal f then do
      let r ← code f o
      pure (some r)
    else do
      let p ← load o
      let r ← code f p
      pure (some r)

/-! ### Clients -/

/-- A constant call on a shared object. Results are lists so that all calls have results of one type. Cites as above. -/
inductive Op
  | arrSize (o : Nat)
  | arrEmpty (o : Nat)
  | arrCapacity (o : Nat)
  | arrGet (o i : Nat)
  | arrFront (o : Nat)
  | arrBack (o : Nat)
  | arrVisit (fuel o : Nat)
  | listEmpty (o : Nat)
  | listFront (o : Nat)
  | listVisit (fuel o : Nat)
  | viewSize (o : Nat)
  | viewEmpty (o : Nat)
  | viewGet (o i : Nat)
  | viewFront (o : Nat)
  | viewBack (o : Nat)
  | viewVisit (fuel o : Nat)
  | cellGet (o i : Nat)
  | call (o : Nat)

/-- The program of a call. Part of the model, not of the code. -/
def Op.prog (code : Nat → Nat → Prog Nat) (isLocal : Nat → Bool) : Op → Prog (List Nat)
  | .arrSize o => do let n ← Shared.arrSize o; pure [n]
  | .arrEmpty o => do let n ← Shared.arrEmpty o; pure [n]
  | .arrCapacity o => do let n ← Shared.arrCapacity o; pure [n]
  | .arrGet o i => do let x ← Shared.arrGet o i; pure [x]
  | .arrFront o => do let x ← Shared.arrFront o; pure [x]
  | .arrBack o => do let x ← Shared.arrBack o; pure [x]
  | .arrVisit fuel o => Shared.arrVisit fuel o
  | .listEmpty o => do let n ← Shared.listEmpty o; pure [n]
  | .listFront o => do let x ← Shared.listFront o; pure [x]
  | .listVisit fuel o => Shared.listVisit fuel o
  | .viewSize o => do let n ← Shared.viewSize o; pure [n]
  | .viewEmpty o => do let n ← Shared.viewEmpty o; pure [n]
  | .viewGet o i => do let x ← Shared.viewGet o i; pure [x]
  | .viewFront o => do let x ← Shared.viewFront o; pure [x]
  | .viewBack o => do let x ← Shared.viewBack o; pure [x]
  | .viewVisit fuel o => Shared.viewVisit fuel o
  | .cellGet o i => do let x ← Shared.cellGet o i; pure [x]
  | .call o => do let r ← Shared.call code isLocal o; pure r.toList

/-- What a thread does: it calls constant functions of shared objects and uses memory of its own, each as the results so far
suggest. Part of the model, not of the code. -/
inductive Client (ρ : Type)
  | done (r : ρ)
  | own (a : Nat) (k : Nat → Client ρ)
  | put (a v : Nat) (k : Client ρ)
  | call (op : Op) (k : List Nat → Client ρ)

/-- The program of a client. Part of the model, not of the code. -/
def Client.prog (code : Nat → Nat → Prog Nat) (isLocal : Nat → Bool) : Client ρ → Prog ρ
  | .done r => .ret r
  | .own a k => .read a fun v => (k v).prog code isLocal
  | .put a v k => .write a v (k.prog code isLocal)
  | .call op k => (op.prog code isLocal).bind fun r => (k r).prog code isLocal

/-- `a[i] = v` with the `operator[]` that is not constant, IC 13-18, and `begin()`, AR 99-102. -/
def arrSet (o i v : Nat) : Prog Unit := do
  let b ← load o
  store (b + i) v

/-- A thread that assigns values to elements one after the other, IC 13-18. -/
def sets (o : Nat) : List (Nat × Nat) → Prog Unit
  | [] => pure ()
  | w :: ws => do
    arrSet o w.1 w.2
    sets o ws

end Verif.Shared
