import Verif.Array.Clients

/-!
# Postfix expressions computed on an `Array`

Client code that uses an `Array` as a stack, over the functions of /repo/include/xme/container/array.hpp and
/repo/include/xme/container/icontainer.hpp. The functions of the client do not throw.
-/

set_option autoImplicit false

namespace Verif.Arr

variable {α : Type}

/-- What a postfix expression is written with. Part of the client, not of the code. -/
inductive Token (α : Type) where
  | value (v : α)
  | apply (f : α → α → α)

variable (cfg : Elem α)

/-- `for(auto& t : tokens) if(t.is_value()) stack.push_back(t.value()); else { if(stack.size() < 2) return false;`
`auto y = stack.back(); stack.pop_back(); auto x = stack.back(); stack.pop_back(); stack.push_back(t.apply(x, y)); } return true;`.
Calls array.hpp:221-223, 246-249, icontainer.hpp:61-76, 92-104. -/
def runTokens (a : Nat) : List (Token α) → M (World α) Bool
  | [] => pure true
  | .value v :: ts => do
    let _ ← call cfg (.pushBack a (.val v))
    runTokens a ts
  | .apply f :: ts => do
    let n ← ask (sizeOf' · a)
    if n < 2 then pure false
    else do
      let y ← ask (backOf · a)
      let _ ← call cfg (.popBack a)
      let x ← ask (backOf · a)
      let _ ← call cfg (.popBack a)
      let _ ← call cfg (.pushBack a (.val (f x y)))
      runTokens a ts

end Verif.Arr
