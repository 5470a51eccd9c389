import Verif.Array.Clients

/-!
# A map kept as an `Array` of keys and values

Client code: the elements are pairs of a key and a value, in the order of their keys. Uses the functions of
/repo/include/xme/container/array.hpp and /repo/include/xme/container/icontainer.hpp.
-/

set_option autoImplicit false

namespace Verif.Arr

variable {K V : Type} [LT K] [DecidableLT K] (cfg : Elem (K × V))

/-- The first position between `lo` and `hi` whose key is not less than `k`, by bisection. Calls icontainer.hpp:13-25. -/
def lowerBound (a : Nat) (k : K) : Nat → Nat → Nat → M (World (K × V)) Nat
  | 0, _, _ => M.ub
  | fuel + 1, lo, hi =>
    if lo < hi then do
      let mid := lo + (hi - lo) / 2
      let x ← ask (indexOf · a mid)
      if x.1 < k then lowerBound a k fuel (mid + 1) hi else lowerBound a k fuel lo mid
    else pure lo

/-- The position of the key or the one where it belongs, and the value if the key is there.
Calls icontainer.hpp:13-25, 61-76. -/
def mapFind (a : Nat) (k : K) : M (World (K × V)) (Nat × Option V) := do
  let n ← ask (sizeOf' · a)
  let i ← lowerBound a k (n.toNat + 1) 0 n.toNat
  if (i : Int) = n then pure (i, none)
  else do
    let x ← ask (indexOf · a i)
    if k < x.1 then pure (i, none) else pure (i, some x.2)

/-- `if(found) a[i] = {k, v}; else a.insert(begin() + i, {k, v});`. Calls array.hpp:160-176, icontainer.hpp:13-25. -/
def mapPut (a : Nat) (k : K) (v : V) : M (World (K × V)) (Option V) := do
  let r ← mapFind a k
  match r.2 with
  | some _ => do
    let _ ← call cfg (.writeAt a r.1 (k, v))
    pure r.2
  | none => do
    let _ ← call cfg (.insert a r.1 (.val (k, v)))
    pure r.2

/-- `if(found) a.erase(begin() + i);`. Calls array.hpp:265-272. -/
def mapRemove (a : Nat) (k : K) : M (World (K × V)) (Option V) := do
  let r ← mapFind a k
  match r.2 with
  | some _ => do
    let _ ← call cfg (.erase a r.1)
    pure r.2
  | none => pure r.2

/-- What the client does with the map. Part of the model, not of the code. -/
inductive MapOp (K V : Type)
  | put (k : K) (v : V)
  | get (k : K)
  | remove (k : K)

/-- Some of these; each gives the value that the key had. Part of the model, not of the code. -/
def mapRun (a : Nat) : List (MapOp K V) → M (World (K × V)) (List (Option V))
  | [] => pure []
  | .put k v :: ops => do
    let r ← mapPut cfg a k v
    let rs ← mapRun a ops
    pure (r :: rs)
  | .get k :: ops => do
    let r ← mapFind a k
    let rs ← mapRun a ops
    pure (r.2 :: rs)
  | .remove k :: ops => do
    let r ← mapRemove cfg a k
    let rs ← mapRun a ops
    pure (r :: rs)

end Verif.Arr
