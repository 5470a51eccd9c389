import Verif.Algo.Find

/-!
# Model of `xme::reverse` over contiguous ranges

RV stands for `include/xme/core/algorithm/reverse.hpp`. The memory is exactly the range: an access outside it is
undefined behaviour. Unaligned loads and stores (`loadu`, `storeu`) have no alignment requirement. Positions are
counted from the start of the range.

`::ranges::reverse` (RV 67, 69) and `::ranges::iter_swap` are not part of the repository and are taken to be the
swap loop, which returns the end of the range, and the swap their documentation describes. `_mm_shuffle_epi8` is an SSSE3 instruction although RV 31
only asks for SSE3; the model is of what it does where it exists.
-/

set_option autoImplicit false

namespace Verif.Algo.Rev

open Verif.Algo

variable {α : Type}

/-- `_mm256_loadu_si256` etc.; `off` is signed since RV 22 and RV 34 subtract. RV 21-22, 33-34. -/
def loadu (m : List Byte) (w : Nat) (off : Int) : Except Fault (List Byte) :=
  if 0 ≤ off ∧ off.toNat + w ≤ m.length then .ok (slice m off.toNat w) else .error .outside

/-- `_mm256_storeu_si256` etc. RV 27-28, 37-38. -/
def storeu (m : List Byte) (off : Int) (v : List Byte) : Except Fault (List Byte) :=
  if 0 ≤ off ∧ off.toNat + v.length ≤ m.length then
    .ok (m.take off.toNat ++ v ++ m.drop (off.toNat + v.length))
  else .error .outside

/-- `SEQ`, RV 13 -/
def seq : List Byte := [0, 1, 2, 3, 4, 5, 6, 7, 8, 9, 10, 11, 12, 13, 14, 15]

/-- `_mm_set_epi8`, `_mm256_set_epi8`: the arguments from the highest byte to the lowest.
RV 14, 20. -/
def setEpi8 (args : List Byte) : List Byte := args.reverse

/-- `_mm_shuffle_epi8` and, on each half separately, `_mm256_shuffle_epi8`: byte `p` of the result is zero if the
top bit of index byte `p` is set, else the byte its low four bits select in the half of `p`.
RV 23-24, 35-36. -/
def shuffleEpi8 (w : Nat) (v idx : List Byte) : List Byte :=
  (List.range w).map fun p =>
    let c := idx.getD p 0
    if c.msb then 0#8 else v.getD (p / 16 * 16 + c.toNat % 16) 0

/-- `_mm256_permute2x128_si256(a, b, imm)` without the zeroing bits. RV 25-26. -/
def permute2x128 (a b : List Byte) (imm : Nat) : List Byte :=
  let sel (c : Nat) : List Byte :=
    match c with
    | 0 => slice a 0 16
    | 1 => slice a 16 16
    | 2 => slice b 0 16
    | _ => slice b 16 16
  sel (imm % 4) ++ sel (imm / 16 % 4)

/-- `reverse_simd<1>` of the AVX2 build, RV 19-29 -/
def simdAvx2 (lhs rhs : Nat) (m : List Byte) : Except Fault (List Byte) := do
  let shuf := setEpi8 (seq ++ seq)
  let lower ← loadu m 32 lhs
  let upper ← loadu m 32 ((rhs : Int) - 32)
  let lower := shuffleEpi8 32 lower shuf
  let upper := shuffleEpi8 32 upper shuf
  let lower := permute2x128 lower lower 1
  let upper := permute2x128 upper upper 1
  let m ← storeu m lhs upper
  storeu m ((rhs : Int) - 32) lower

/-- `reverse_simd<1>` of the SSE3 build, RV 14, 32-39 -/
def simdSse3 (lhs rhs : Nat) (m : List Byte) : Except Fault (List Byte) := do
  let shuf := setEpi8 seq
  let lower ← loadu m 16 lhs
  let upper ← loadu m 16 ((rhs : Int) - 16)
  let lower := shuffleEpi8 16 lower shuf
  let upper := shuffleEpi8 16 upper shuf
  let m ← storeu m lhs upper
  storeu m ((rhs : Int) - 16) lower

/-- `reverse_simd<2>` of the SSE3 build, RV 40 -/
def simdSse3_2 (_lhs _rhs : Nat) (m : List α) : Except Fault (List α) := .ok m

/-- `::ranges::iter_swap` RV 63. -/
def iterSwap (i j : Nat) (m : List α) : Except Fault (List α) :=
  match m[i]?, m[j]? with
  | some x, some y => .ok ((m.set i y).set j x)
  | _, _ => .error .outside

/-- RV 57-61: `count` rounds, each followed by `i += readable_bytes; s -= readable_bytes`. -/
def blockLoop (block : Nat → Nat → List α → Except Fault (List α)) (rb : Nat) :
    Nat → Nat → Nat → List α → Except Fault (List α × Nat × Nat)
  | 0, i, s, m => .ok (m, i, s)
  | count + 1, i, s, m => do
    let m ← block i s m
    blockLoop block rb count (i + rb) (s - rb) m

/-- RV 62-63 -/
def swapLoop : Nat → Nat → Nat → List α → Res (List α)
  | 0, _, _, _ => .hang
  | fuel + 1, i, s, m =>
    if i < s then
      match iterSwap i (s - 1) m with
      | .ok m => swapLoop fuel (i + 1) (s - 1) m
      | .error f => .ub f
    else .ok m

/-- `return end`: the result of the call is the position `last`. RV 56, 64. -/
def returning {β : Type} (last : Nat) : Res β → Res (β × Nat)
  | .ok b => .ok (b, last)
  | .ub f => .ub f
  | .hang => .hang

/-- RV 54-64 for a range of `n` elements: the range afterwards and the position returned. -/
def vectorised (block : Nat → Nat → List α → Except Fault (List α)) (rb n fuel : Nat) (m : List α) :
    Res (List α × Nat) :=
  match blockLoop block rb (n / 2 / rb) 0 n m with
  | .ok (m, i, s) => returning n (swapLoop fuel i s m)
  | .error f => .ub f

/-- The build. RV 18, 31, 49. -/
inductive Isa where
  | avx2
  | sse3
  | scalar
  deriving DecidableEq

/-- `reverse` on one-byte elements, RV 47-71 -/
def reverse1 (isa : Isa) (n fuel : Nat) (m : List Byte) : Res (List Byte × Nat) :=
  match isa with
  | .avx2 => vectorised simdAvx2 (32 / 1) n fuel m
  | .sse3 => vectorised simdSse3 (16 / 1) n fuel m
  | .scalar => returning n (swapLoop fuel 0 n m)

/-- `reverse` on two-byte elements, RV 47-71. The AVX2 build does not compile (RV 43). -/
def reverse2 (isa : Isa) (n fuel : Nat) (m : List α) : Res (List α × Nat) :=
  match isa with
  | .avx2 => .ub .illFormed
  | .sse3 => vectorised simdSse3_2 (16 / 2) n fuel m
  | .scalar => returning n (swapLoop fuel 0 n m)

end Verif.Algo.Rev
