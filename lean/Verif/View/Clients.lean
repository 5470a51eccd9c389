import Verif.View.Model

/-!
# Programs that take a view apart

Functions a user writes with `ArrayView`: bisection, quicksort, reversal and processing in blocks, each on ever smaller
sub-views. The control flow is client code; every access and every sub-view is one of the class. AV stands for
`include/xme/container/array_view.hpp`, IC for `include/xme/container/icontainer.hpp`.

Loops and recursions carry a number of rounds they may take (`fuel`); the theorems are about enough of them.
-/

set_option autoImplicit false

namespace Verif.AV

/-- `T x = v[i]; T y = v[j]; v[i] = y; v[j] = x;` with `operator[]`, IC 14-25, and `data()`, AV 122-130. -/
def swapAt (v : View) (m : Mem) (i j : Nat) : Except Fault Mem := do
  let x ← v.read m i
  let y ← v.read m j
  let m ← v.write m i y
  v.write m j x

/-- The first position whose element is not less than `x`: `while(!v.empty()) { mid = v.size() / 2; if(v[mid] < x) { base += mid + 1;
v = v.last(v.size() - mid - 1); } else v = v.first(mid); } return base;` with AV 146-148, 186-189, 202-205 and IC 14-25. -/
def bisect (checked : Bool) (m : Mem) (lt : List Byte → List Byte → Bool) (x : List Byte) :
    Nat → View → Nat → Except Fault Nat
  | 0, _, base => .ok base
  | fuel + 1, v, base =>
    if v.size = 0 then .ok base
    else do
      let mid := v.size / 2
      let y ← v.read m mid
      if lt y x then do
        let w ← v.last checked m.length (v.size - mid - 1)
        bisect checked m lt x fuel w (base + mid + 1)
      else do
        let w ← v.first checked mid
        bisect checked m lt x fuel w base

/-- `for(; j < end; ++j) if(v[j] < pivot) { swap(v[i], v[j]); ++i; }` with IC 14-25; `r` rounds are left. -/
def partitionLoop (v : View) (lt : List Byte → List Byte → Bool) (pivot : List Byte) :
    Nat → Nat → Nat → Mem → Except Fault (Nat × Mem)
  | 0, i, _, m => .ok (i, m)
  | r + 1, i, j, m => do
    let x ← v.read m j
    if lt x pivot then do
      let m ← swapAt v m i j
      partitionLoop v lt pivot r (i + 1) (j + 1) m
    else partitionLoop v lt pivot r i (j + 1) m

/-- `void sort(ArrayView<T> v) { if(v.size() <= 1) return; T pivot = v[n - 1]; /* partition */ swap(v[i], v[n - 1]); sort(v.first(i));
sort(v.last(n - 1 - i)); }` with AV 146-148, 186-189, 202-205 and IC 14-25. -/
def quickSort (checked : Bool) (lt : List Byte → List Byte → Bool) : Nat → View → Mem → Except Fault Mem
  | 0, _, m => .ok m
  | fuel + 1, v, m =>
    if v.size ≤ 1 then .ok m
    else do
      let n := v.size
      let pivot ← v.read m (n - 1 : Nat)
      let (i, m) ← partitionLoop v lt pivot (n - 1) 0 0 m
      let m ← swapAt v m i (n - 1)
      let a ← v.first checked i
      let m ← quickSort checked lt fuel a m
      let b ← v.last checked m.length (n - 1 - i)
      quickSort checked lt fuel b m

/-- `while(v.size() >= 2) { swap(v[0], v[v.size() - 1]); v = v.subview(1, v.size() - 2); }` with AV 146-148, 168-173 and IC 14-25. -/
def flip (checked : Bool) : Nat → View → Mem → Except Fault Mem
  | 0, _, m => .ok m
  | fuel + 1, v, m =>
    if v.size < 2 then .ok m
    else do
      let m ← swapAt v m 0 (v.size - 1)
      let w ← v.subview checked m.length 1 (v.size - 2)
      flip checked fuel w m

/-- The blocks of `while(!v.empty()) { k = min(n, v.size()); use(v.first(k)); v = v.last(v.size() - k); }` with AV 146-148, 186-189,
202-205. -/
def blocks (checked : Bool) (len n : Nat) : Nat → View → Except Fault (List View)
  | 0, _ => .ok []
  | fuel + 1, v =>
    if v.size = 0 then .ok []
    else do
      let k := min n v.size
      let w ← v.first checked k
      let u ← v.last checked len (v.size - k)
      let ws ← blocks checked len n fuel u
      .ok (w :: ws)

end Verif.AV
