import Verif.LinkedList.Spec

/-!
# A cache of the keys requested last

Client code around `LinkedList`: a list with the last keys requested, the latest first. LL stands for
/repo/include/xme/container/linked_list.hpp, LB for /repo/private/container/linked_list_base.hpp; the calls are modelled in `Model.lean`.
-/

set_option autoImplicit false

namespace Verif.LL

variable {α : Type} [DecidableEq α] (E : Env α)

/-- `for(cur = next(prev); cur != end(); prev = cur, cur = next(cur)) if(*cur == key) { l.erase_after(prev); return true; } return
false;`. Calls LL 210-215, LB 37-44. -/
def eraseKey (key : α) : Nat → Ptr → M α Bool
  | 0, _ => M.hang
  | fuel + 1, prev => do
    let cur ← next prev
    if cur = «end» then pure false
    else do
      let v ← deref cur
      if v = key then do
        eraseAfter prev
        pure true
      else eraseKey key fuel cur

/-- Skips `n` elements after `prev` and erases those behind them. Calls LL 210-215, LB 37-44. -/
def trim : Nat → Nat → Ptr → M α Unit
  | 0, _, _ => M.hang
  | fuel + 1, n, prev => do
    let cur ← next prev
    if cur = «end» then pure ()
    else
      match n with
      | 0 => do
        eraseAfter prev
        trim fuel 0 prev
      | n + 1 => trim fuel n cur

/-- A request: `auto first = l.insert_after(l.before_begin(), key);`, then the older entry of the key is erased and the list is cut to
`cap` elements. Tells whether there was an older entry. Calls LL 109-111, 177-179, 210-215. -/
def request (cap fuel : Nat) (l : Nat) (key : α) : M α Bool := do
  let first ← insertAfter E (beforeBegin l) key
  let hit ← eraseKey key fuel first
  trim fuel cap (beforeBegin l)
  pure hit

/-- Requests one after the other. Calls LL 109-111, 177-179, 210-215. -/
def requests (cap fuel : Nat) (l : Nat) : List α → M α (List Bool)
  | [] => pure []
  | key :: keys => do
    let hit ← request E cap fuel l key
    let hits ← requests cap fuel l keys
    pure (hit :: hits)

end Verif.LL
