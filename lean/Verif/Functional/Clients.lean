import Verif.Functional.Delegate

/-!
Two programs built from an array of delegates: signals, whose listeners are called when the signal is sent, and a queue of tasks
that are run later. The programs are client code; every operation in them is one of DG = delegate.hpp. The callables are handed
over as rvalues, do not throw and do not use the delegates they run through.
-/

set_option autoImplicit false

namespace Verif.Delegate

/-- One statement after the other: an exception ends the program. Part of the model, not of the code. -/
def Res.andThen (r : Res St) (f : St → Res St) : Res St :=
  match r with
  | .ok s => f s
  | .badCall s => .badCall s
  | .ub => .ub

/-- `Delegate<void()> d[n];`: the default constructor, DG 117, for the variables `i`, `i + 1`, ... -/
def declare : Nat → Nat → St → Res St
  | 0, _, s => .ok s
  | m + 1, i, s => (step (.default i) s).andThen (declare m (i + 1))

/-- The end of the array: the destructors, DG 145-148. -/
def release : Nat → Nat → St → Res St
  | 0, _, s => .ok s
  | m + 1, i, s => (step (.dtor i) s).andThen (release m (i + 1))

/-! ### Signals -/

/-- `for(; i < n; ++i) if(!d[i]) { d[i] = fn; return true; } return false;` with `operator bool`, DG 150, and `operator=(Fn&&)`, DG
171-175. -/
def connect (ty : Ty) : Nat → Nat → St → Res St
  | 0, _, s => .ok s
  | m + 1, i, s =>
    match s.dels i with
    | none => .ub
    | some d => if d.toBool then connect ty m (i + 1) s else step (.assignFn i ty false) s

/-- `for(; i < n; ++i) if(d[i]) d[i]();` with `operator bool`, DG 150, and `operator()`, DG 177-182. -/
def emit : Nat → Nat → St → Res St
  | 0, _, s => .ok s
  | m + 1, i, s =>
    match s.dels i with
    | none => .ub
    | some d => if d.toBool then (step (.call i) s).andThen (emit m (i + 1)) else emit m (i + 1) s

/-- What the program does with the signal; `disconnect` is `d[i] = nullptr;`, DG 162-169. -/
inductive SigOp
  | connect (ty : Ty)
  | disconnect (i : Nat)
  | emit

/-- One of these, for a signal with room for `n` listeners. DG 150-182. -/
def sigStep (n : Nat) (s : St) : SigOp → Res St
  | .connect ty => connect ty n 0 s
  | .disconnect i => step (.assignNull i) s
  | .emit => emit n 0 s

/-- Some of these. Part of the model, not of the code. -/
def sigRun (n : Nat) : List SigOp → St → Res St
  | [], s => .ok s
  | op :: ops, s => (sigStep n s op).andThen (sigRun n ops)

/-! ### A queue of tasks -/

/-- The ring: the position of the oldest task and the number of tasks. Part of the model, not of the code. -/
structure Ring where
  head : Nat
  count : Nat

/-- `if(count == n) return false; d[(head + count) % n] = fn; ++count;` with `operator=(Fn&&)`, DG 171-175. -/
def submit (n : Nat) (ty : Ty) (r : Ring) (s : St) : Res St × Ring :=
  if r.count = n then (.ok s, r) else (step (.assignFn ((r.head + r.count) % n) ty false) s, { r with count := r.count + 1 })

/-- `if(count == 0) return; Delegate<void()> t(std::move(d[head])); head = (head + 1) % n; --count; t();`: the move constructor, DG
127-133, `operator()`, DG 177-182, and the destructor of `t`, DG 145-148. `t` is variable `n`. -/
def runOne (n : Nat) (r : Ring) (s : St) : Res St × Ring :=
  if r.count = 0 then (.ok s, r)
  else
    ((step (.move n r.head) s).andThen fun s => (step (.call n) s).andThen (step (.dtor n)),
      ⟨(r.head + 1) % n, r.count - 1⟩)

/-- What the program does with the queue. Part of the model, not of the code. -/
inductive TaskOp
  | submit (ty : Ty)
  | run

/-- Some of these. Part of the model, not of the code. -/
def taskRun (n : Nat) : List TaskOp → Ring → St → Res St
  | [], _, s => .ok s
  | .submit ty :: ops, r, s => (submit n ty r s).1.andThen (taskRun n ops (submit n ty r s).2)
  | .run :: ops, r, s => (runOne n r s).1.andThen (taskRun n ops (runOne n r s).2)

end Verif.Delegate
