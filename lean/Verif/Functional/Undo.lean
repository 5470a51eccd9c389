import Verif.Functional.Scoped

/-!
Transactions: after each step the program declares a `ScopedDelegate` that undoes the step unless a flag says that the transaction is
complete. Client code; SD stands for `include/xme/core/functional/scoped_delegate.hpp`.
-/

set_option autoImplicit false

namespace Verif.Scoped

/-- What can happen at a step: it succeeds, it throws, or the program returns instead of making it. Part of the model, not of the
code. -/
inductive Step
  | succeeds (n : Nat)
  | throws (n : Nat)
  | returns

/-- `step_n(); ScopedDelegate undo([&] { if(!complete) undo_n(); });` for each step, then `complete = true;`. The action `n + 2` is step
`n`, the action 1 sets the flag. Each declaration is SD 11-13. -/
def transactionFrom : List Step → Prog
  | [] => .act 1 false .done
  | .succeeds n :: steps => .act (n + 2) false (.decl ⟨n, false⟩ (transactionFrom steps))
  | .throws n :: _ => .act (n + 2) true .done
  | .returns :: _ => .ret

/-- `bool complete = false;` (the action 0) and the steps. With SD 11-15. -/
def transaction (steps : List Step) : Prog := .act 0 false (transactionFrom steps)

/-- `try { transaction } catch(...) {}` for one transaction after the other. With SD 11-15. -/
def session : List (List Step) → Prog
  | [] => .done
  | steps :: rest => .tryCatch (transaction steps) .done (session rest)

/-- What an event does to the data of the program and to the flag: `act` and `undo` say what the steps do. The callable of `undo_n`,
called by SD 15, looks at the flag. -/
def effect {σ : Type} (act undo : Nat → σ → σ) : σ × Bool → Ev → σ × Bool
  | (s, _), .act 0 => (s, false)
  | (s, _), .act 1 => (s, true)
  | (s, c), .act (n + 2) => (act n s, c)
  | (s, c), .ran _ n => (if c then s else undo n s, c)
  | x, .made _ _ => x

end Verif.Scoped
