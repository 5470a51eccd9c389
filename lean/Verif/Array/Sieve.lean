import Verif.Array.Clients

/-!
# The prime numbers below `n`, with an `Array`

Client code: the element with index `k` tells whether `k` is prime. Uses the functions of /repo/include/xme/container/array.hpp and
/repo/include/xme/container/icontainer.hpp.
-/

set_option autoImplicit false

namespace Verif.Arr

variable (cfg : Elem Nat)

/-- `for(; k < n; ++k) a.push_back(k < 2 ? 0 : 1);`. Calls array.hpp:221-223. -/
def candidates (a : Nat) : Nat → Nat → M (World Nat) Unit
  | 0, _ => pure ()
  | m + 1, k => do
    let _ ← call cfg (.pushBack a (.val (if k < 2 then 0 else 1)))
    candidates a m (k + 1)

/-- `for(; j < a.size(); j += i) a[j] = 0;`. Calls icontainer.hpp:13-25, 61-76. -/
def crossOut (a i : Nat) : Nat → Nat → M (World Nat) Unit
  | 0, _ => M.ub
  | fuel + 1, j => do
    let n ← ask (sizeOf' · a)
    if (j : Int) < n then do
      let _ ← call cfg (.writeAt a j 0)
      crossOut a i fuel (j + i)
    else pure ()

/-- `for(; i * i < a.size(); ++i) if(a[i]) crossOut(a, i, i * i);`. Calls icontainer.hpp:13-25, 61-76. -/
def sieveFrom (a : Nat) : Nat → Nat → M (World Nat) Unit
  | 0, _ => M.ub
  | fuel + 1, i => do
    let n ← ask (sizeOf' · a)
    if ((i * i : Nat) : Int) < n then do
      let v ← ask (indexOf · a (i : Int))
      if v = 0 then sieveFrom a fuel (i + 1)
      else do
        crossOut cfg a i (n.toNat + 1) (i * i)
        sieveFrom a fuel (i + 1)
    else pure ()

/-- All together. Calls array.hpp:221-223, icontainer.hpp:13-25, 61-76. -/
def sieve (a n : Nat) : M (World Nat) Unit := do
  candidates cfg a n 0
  sieveFrom cfg a (n + 1) 2

end Verif.Arr
