/-!
# Pointer arithmetic of `find` and `reverse`, and their constant evaluation

FD stands for `include/xme/core/algorithm/find.hpp`, RV for `include/xme/core/algorithm/reverse.hpp`. `Find.lean` and
`Reverse.lean` take positions for numbers. Here they are positions in an array of which the range is a part: arithmetic
that leaves the array (0 to its length, the end included) is undefined, and in constant evaluation so is every call of a
function that is not `constexpr`: `find_simd` (FD 13) and `reverse_simd` (RV 17) are not, nor are the intrinsics they use.

What a vector step finds or does to the elements is taken from the theorems about the other two models: the first equal
element of the block, or the two blocks reversed and exchanged. Alignment is C39. Elements that are not single bytes
are left out for `reverse`. `::ranges::find`, `::ranges::reverse` and `::ranges::iter_swap` are taken to be `constexpr` and to
stay inside the range, as documented.
-/

set_option autoImplicit false

namespace Verif.Algo.Ptr

/-- Why an evaluation does not end with a value: undefined pointer arithmetic, an access outside the array, a call that is not
allowed in a constant expression. `hang` is the end of the model's fuel. Part of the model, not of the code. -/
inductive Stop where
  | pointer
  | access
  | notConstant
  | hang
  deriving DecidableEq

/-- At run time or in a constant expression. Part of the model, not of the code. -/
inductive When where
  | runTime
  | compileTime
  deriving DecidableEq

/-- `p + n` in an array of `N` elements. FD 82, 85, 86, 90; RV 59, 63. -/
def plus (N p n : Nat) : Except Stop Nat := if p + n ≤ N then .ok (p + n) else .error .pointer

/-- `p - n`. RV 22, 34, 55, 60, 63. -/
def minus (p n : Nat) : Except Stop Nat := if n ≤ p then .ok (p - n) else .error .pointer

variable {α : Type} [DecidableEq α]

/-- `*p`: FD 89. -/
def deref (arr : List α) (p : Nat) : Except Stop α :=
  match arr[p]? with
  | some x => .ok x
  | none => .error .access

/-- A call of `find_simd` for the `rb` elements from `p` on: FD 12-68, 83. -/
def simd (w : When) (arr : List α) (rb p : Nat) (value : α) : Except Stop Nat :=
  match w with
  | .compileTime => .error .notConstant
  | .runTime =>
    if p + rb ≤ arr.length then .ok (((arr.drop p).take rb).findIdx (· = value)) else .error .access

/-- `while(compare != s && *compare != value) ++compare;` FD 89-92. -/
def tail (arr : List α) (value : α) (s : Nat) : Nat → Nat → Except Stop Nat
  | 0, _ => .error .hang
  | fuel + 1, compare =>
    if compare = s then .ok compare
    else do
      let x ← deref arr compare
      if x = value then pure compare
      else
        let compare ← plus arr.length compare 1
        tail arr value s fuel compare

/-- FD 81-92, a vector having `rb` elements. -/
def blocks (w : When) (arr : List α) (value : α) (rb i s : Nat) : Nat → Nat → Except Stop Nat
  | 0, _ => .error .hang
  | fuel + 1, compare => do
    let next ← plus arr.length compare rb
    if next ≤ s then
      let index ← simd w arr rb compare value
      if index ≠ rb then
        let r ← plus arr.length compare index
        plus arr.length i (r - i)
      else
        let compare ← plus arr.length compare rb
        blocks w arr value rb i s fuel compare
    else tail arr value s (fuel + 1) compare

/-- `find(i, s, value)`, FD 71-99, on contiguous elements; `rb` is `none` in a build without SSE2, and otherwise the number of
elements in a vector, FD 80. -/
def find (w : When) (rb : Option Nat) (arr : List α) (i s : Nat) (value : α) (fuel : Nat) : Except Stop Nat :=
  match rb with
  | none => tail arr value s fuel i
  | some rb => blocks w arr value rb i s fuel i

/-- A call of `reverse_simd` for single bytes: the blocks from `lhs` on and before `rhs`. RV 19-39, 58. -/
def reverseSimd (w : When) (rb : Nat) (arr : List α) (lhs rhs : Nat) : Except Stop (List α) :=
  match w with
  | .compileTime => .error .notConstant
  | .runTime => do
    let upper ← minus rhs rb
    if lhs + rb ≤ upper ∧ rhs ≤ arr.length then
      pure (arr.take lhs ++ ((arr.drop upper).take rb).reverse ++ (arr.drop (lhs + rb)).take (upper - (lhs + rb)) ++
        ((arr.drop lhs).take rb).reverse ++ arr.drop rhs)
    else .error .access

/-- `while(count--) { … }`, RV 57-61. -/
def revBlocks (w : When) (rb : Nat) : Nat → Nat → Nat → List α → Except Stop (List α × Nat × Nat)
  | 0, i, s, arr => .ok (arr, i, s)
  | count + 1, i, s, arr => do
    let arr ← reverseSimd w rb arr i s
    let i ← plus arr.length i rb
    let s ← minus s rb
    revBlocks w rb count i s arr

/-- `while(i < s) iter_swap(i++, --s);` RV 62-63. -/
def revSwaps : Nat → Nat → Nat → List α → Except Stop (List α)
  | 0, _, _, _ => .error .hang
  | fuel + 1, i, s, arr =>
    if i < s then do
      let i' ← plus arr.length i 1
      let s' ← minus s 1
      let x ← deref arr i
      let y ← deref arr s'
      revSwaps fuel i' s' ((arr.set i y).set s' x)
    else .ok arr

/-- `reverse(i, s)`, RV 47-71, on contiguous bytes: the array afterwards and the position returned. -/
def reverse (w : When) (rb : Option Nat) (arr : List α) (i s : Nat) (fuel : Nat) : Except Stop (List α × Nat) :=
  match rb with
  | none => do
    let arr ← revSwaps fuel i s arr
    pure (arr, s)
  | some rb => do
    let d ← minus s i
    let (arr, i', s') ← revBlocks w rb (d / 2 / rb) i s arr
    let arr ← revSwaps fuel i' s' arr
    pure (arr, s)

end Verif.Algo.Ptr
