import Verif.Array.Clients

/-!
# Disjoint sets kept in an `Array`

Client code: the element with index `i` is the index of another member of the set of `i`, or `i` itself. Uses the functions of
/repo/include/xme/container/array.hpp and /repo/include/xme/container/icontainer.hpp.
-/

set_option autoImplicit false

namespace Verif.Arr

variable (cfg : Elem Nat)

/-- `while(i < n) a.push_back(i++);`. Calls array.hpp:221-223. -/
def singletons (a : Nat) : Nat → Nat → M (World Nat) Unit
  | 0, _ => pure ()
  | m + 1, i => do
    let _ ← call cfg (.pushBack a (.val i))
    singletons a m (i + 1)

/-- `while(a[i] != i) { a[i] = a[a[i]]; i = a[i]; } return i;`. Calls icontainer.hpp:13-25. -/
def representative (a : Nat) : Nat → Nat → M (World Nat) Nat
  | 0, _ => M.ub
  | fuel + 1, i => do
    let p ← ask (indexOf · a (i : Int))
    if p = i then pure i
    else do
      let q ← ask (indexOf · a (p : Int))
      let _ ← call cfg (.writeAt a i q)
      representative a fuel q

/-- What the client does: joins the sets of two members, or asks whether two members are in the same set. Part of the model, not
of the code. -/
inductive SetOp
  | join (x y : Nat)
  | same (x y : Nat)

/-- `auto r = representative(x), s = representative(y); if(r == s) return true; a[r] = s; return false;`, without the assignment
for `same`. Calls icontainer.hpp:13-25. -/
def setStep (a fuel : Nat) : SetOp → M (World Nat) Bool
  | .join x y => do
    let r ← representative cfg a fuel x
    let s ← representative cfg a fuel y
    if r = s then pure true
    else do
      let _ ← call cfg (.writeAt a r s)
      pure false
  | .same x y => do
    let r ← representative cfg a fuel x
    let s ← representative cfg a fuel y
    pure (decide (r = s))

/-- Some of these. Part of the model, not of the code. -/
def setRun (a fuel : Nat) : List SetOp → M (World Nat) (List Bool)
  | [] => pure []
  | op :: ops => do
    let b ← setStep cfg a fuel op
    let bs ← setRun a fuel ops
    pure (b :: bs)

/-- All together. Calls array.hpp:221-223, icontainer.hpp:13-25. -/
def disjointSets (a fuel n : Nat) (ops : List SetOp) : M (World Nat) (List Bool) := do
  singletons cfg a n 0
  setRun cfg a fuel ops

end Verif.Arr
