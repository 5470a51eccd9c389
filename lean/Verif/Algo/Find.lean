/-!
# Model of `xme::find` over contiguous ranges

FD stands for `include/xme/core/algorithm/find.hpp`. The range is a block of bytes at an address; elements are
groups of `k` bytes (`k = sizeof(T)`). Vector registers are lists of bytes, lowest address first. An access
outside the range, or an aligned vector access at an address that is not a multiple of the vector width, is
undefined behaviour (`ub`).

What the intrinsics do is taken from Intel's description: `cmpeq` fills each equal lane with ones and the others
with zeros, `movemask` collects the top bit of every lane.

`::ranges::find` (scalar builds, FD 95 and 97) is not part of the repository; it is taken to be the loop its
documentation describes. The code between FD 82 and FD 87 forms `compare + readable_bytes` even when that lies
beyond the end of the range; here positions are numbers and that is harmless.
-/

set_option autoImplicit false

namespace Verif.Algo

/-- A byte of the memory. Part of the model, not of the code. -/
abbrev Byte := BitVec 8

/-- The range: `last - first` elements of `k` bytes each, the first at address `base`. The arguments of FD 73.
-/
structure Mem where
  base : Nat
  bytes : List Byte

/-- Why an access is undefined: it leaves the range, or an aligned vector access is at an address that is not a
multiple of the width. `illFormed`: the build does not compile (FD 67). -/
inductive Fault where
  | outside
  | misaligned
  | illFormed
  deriving DecidableEq

/-- How a call ends. Part of the model, not of the code. -/
inductive Res (β : Type) where
  | ok (b : β)
  | ub (f : Fault)
  | hang
  deriving DecidableEq

/-- The build: which `XME_SIMD_USE_*` holds, FD 14, 39, 74. -/
inductive Isa where
  | avx2
  | sse2
  | scalar
  deriving DecidableEq

/-- Width of a vector in bytes, FD 80. -/
def Isa.width : Isa → Nat
  | .avx2 => 32
  | .sse2 => 16
  | .scalar => 16

/-- `n` bytes from `off` on. Part of the model, not of the code. -/
def slice (bs : List Byte) (off n : Nat) : List Byte := (bs.drop off).take n

/-- `*(__m256i*)data` (FD 17 etc.): the type has the alignment of the vector. -/
def loadVec (m : Mem) (w off : Nat) : Except Fault (List Byte) :=
  if m.bytes.length < off + w then .error .outside
  else if (m.base + off) % w ≠ 0 then .error .misaligned
  else .ok (slice m.bytes off w)

/-- `_mm256_set1_epi8` etc.: the value in every lane, FD 16, 22, 28, 34, 41, 47, 53, 59. -/
def set1 (w k : Nat) (value : List Byte) : List Byte := (List.range w).map fun p => value.getD (p % k) 0

/-- `_mm256_cmpeq_epi8` etc., FD 17, 23, 29, 35, 42, 48, 54, 60. -/
def cmpeq (w k : Nat) (a b : List Byte) : List Byte :=
  (List.range w).map fun p => if slice a (p / k * k) k = slice b (p / k * k) k then 0xff#8 else 0#8

/-- `_mm256_movemask_epi8` (`k = 1`), `_mm256_movemask_ps` (`k = 4`), `_mm256_movemask_pd` (`k = 8`): the top bit
of every lane of `k` bytes. -/
def movemask (w k : Nat) (v : List Byte) : List Bool :=
  (List.range (w / k)).map fun i => (v.getD (i * k + (k - 1)) 0).msb

/-- The mask stored in an unsigned integer of `bits` bits. FD 18, 24, 30, 36, 44, 50, 56, 62. -/
def toMask (bits : Nat) (bs : List Bool) : BitVec bits := (BitVec.ofBoolListLE bs).setWidth bits

/-- `std::countr_zero`. FD 19, 25, 31, 37, 45, 51, 57, 63. -/
def countrZero {bits : Nat} (m : BitVec bits) : Nat := (List.range bits).findIdx fun i => m.getLsbD i

/-- `find_simd<k>`, FD 12-68. -/
def findSimd (isa : Isa) (k : Nat) (m : Mem) (off : Nat) (value : List Byte) : Except Fault Nat :=
  match isa, k with
  | .avx2, 1 => do
    let v ← loadVec m 32 off
    let comp := cmpeq 32 1 v (set1 32 1 value)
    let mask := toMask 32 (movemask 32 1 comp)
    pure (countrZero mask)
  | .avx2, 2 => do
    let v ← loadVec m 32 off
    let comp := cmpeq 32 2 v (set1 32 2 value)
    let mask := toMask 32 (movemask 32 1 comp)
    pure (countrZero mask >>> 1)
  | .avx2, 4 => do
    let v ← loadVec m 32 off
    let comp := cmpeq 32 4 v (set1 32 4 value)
    let mask := toMask 8 (movemask 32 4 comp)
    pure (countrZero mask)
  | .avx2, 8 => do
    let v ← loadVec m 32 off
    let comp := cmpeq 32 8 v (set1 32 8 value)
    let mask := toMask 8 (movemask 32 8 comp)
    pure (if mask = 0#8 then 4 else countrZero mask)
  | .sse2, 1 => do
    let v ← loadVec m 16 off
    let comp := cmpeq 16 1 v (set1 16 1 value)
    let mask := toMask 16 (movemask 16 1 comp)
    pure (countrZero mask)
  | .sse2, 2 => do
    let v ← loadVec m 16 off
    let comp := cmpeq 16 2 v (set1 16 2 value)
    let mask := toMask 16 (movemask 16 1 comp)
    pure (countrZero mask >>> 1)
  | .sse2, 4 => do
    let v ← loadVec m 16 off
    let comp := cmpeq 16 4 v (set1 16 4 value)
    let mask := toMask 8 (movemask 16 4 comp)
    pure (if mask = 0#8 then 4 else countrZero mask)
  | .sse2, 8 => do
    let v ← loadVec m 16 off
    let comp := cmpeq 16 8 v (set1 16 8 value)
    let mask := toMask 8 (movemask 16 8 comp)
    pure (if mask = 0#8 then 2 else countrZero mask)
  | _, _ => .error .illFormed

/-- `*compare` FD 89. -/
def readElem (m : Mem) (k i : Nat) : Except Fault (List Byte) :=
  if i * k + k ≤ m.bytes.length then .ok (slice m.bytes (i * k) k) else .error .outside

/-- FD 89-92; `eqv` is the element type's `==`. -/
def findTail (eqv : List Byte → List Byte → Bool) (k last : Nat) (m : Mem) (value : List Byte) :
    Nat → Nat → Res Nat
  | 0, _ => .hang
  | fuel + 1, compare =>
    if compare ≠ last then
      match readElem m k compare with
      | .error f => .ub f
      | .ok x => if eqv x value then .ok compare else findTail eqv k last m value fuel (compare + 1)
    else .ok compare

/-- FD 82-87 -/
def findBlocks (eqv : List Byte → List Byte → Bool) (isa : Isa) (k last : Nat) (m : Mem) (value : List Byte) :
    Nat → Nat → Res Nat
  | 0, _ => .hang
  | fuel + 1, compare =>
    if compare + isa.width / k ≤ last then
      match findSimd isa k m (compare * k) value with
      | .error f => .ub f
      | .ok index =>
        if index ≠ isa.width / k then .ok (compare + index)
        else findBlocks eqv isa k last m value fuel (compare + isa.width / k)
    else findTail eqv k last m value (fuel + 1) compare

/-- `find`, FD 71-99: the position of the result, counted from `first`. -/
def find (eqv : List Byte → List Byte → Bool) (isa : Isa) (k last : Nat) (m : Mem) (value : List Byte)
    (fuel : Nat) : Res Nat :=
  match isa with
  | .scalar => findTail eqv k last m value fuel 0
  | isa => findBlocks eqv isa k last m value fuel 0

end Verif.Algo
