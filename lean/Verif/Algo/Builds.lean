import Verif.Hal.Simd

/-!
# Which calls of `find` and `reverse` compile in which build, and the instructions they use

FD stands for `include/xme/core/algorithm/find.hpp`, RV for `include/xme/core/algorithm/reverse.hpp`. A build is the set of
macros `XME_SIMD_ENABLE_*` defined; `Simd.use` is what `simd_detection.hpp` makes of it. A call is described by the few facts
about the iterator, the sentinel, the element type and the execution policy that the templates look at.

The instruction set of an intrinsic is taken from Intel's description. A compiler refuses an intrinsic of an instruction set
that it may not use; here the intrinsics are only listed. The requirements of `::ranges::find` and `::ranges::reverse`, which are
not part of the repository, are those of their documentation: an input iterator, and a bidirectional one whose elements can be
exchanged.
-/

set_option autoImplicit false

namespace Verif.Algo.Builds

open Verif.Simd (Isa Defs use)

/-- The strongest iterator concept met. FD 77, RV 52. -/
inductive Category
  | input | forward | bidirectional | randomAccess | contiguous
  deriving DecidableEq

/-- How strong the concept is. Part of the model, not of the code. -/
def Category.rank : Category → Nat
  | .input => 0 | .forward => 1 | .bidirectional => 2 | .randomAccess => 3 | .contiguous => 4

/-- What the templates look at: `I` and `S` (FD 71-72, RV 47), the policy (FD 71), `sizeof(T)` and whether elements can be
compared and exchanged. Part of the model, not of the code. -/
structure Call where
  cat : Category
  /-- `S` is `I` itself; otherwise it is a type that can only be compared with `==` -/
  common : Bool
  /-- the policy is derived from `std::execution::unsequenced_policy`, as the default is -/
  unsequenced : Bool
  size : Nat
  /-- `x != value`, `x == value` -/
  comparable : Bool
  /-- `iter_swap` -/
  swappable : Bool

/-- The intrinsics of `find_simd<size>` with their instruction sets, FD 12-68; `none` when `static_assert(size < 0)` is
reached. -/
def findSimd (u : Isa → Bool) (size : Nat) : Option (List Isa) :=
  if u .avx2 then
    if size = 1 then some [.avx, .avx2, .avx2]
    else if size = 2 then some [.avx, .avx2, .avx2]
    else if size = 4 then some [.avx, .avx2, .avx]
    else if size = 8 then some [.avx, .avx2, .avx]
    else none
  else if u .sse2 then
    if size = 1 then some [.sse2, .sse2, .sse2]
    else if size = 2 then some [.sse2, .sse2, .sse2]
    else if size = 4 then some [.sse2, .sse2, .sse]
    else if size = 8 then some [.sse2, .sse41, .sse2]
    else none
  else none

/-- `find(i, s, value)`, FD 71-99: the instruction sets of the intrinsics it uses, or `none` when the call does not compile.
-/
def find (enable : Defs) (c : Call) : Option (List Isa) :=
  let u := use enable
  -- FD 95, 97
  let ranges := if c.comparable then some [] else none
  if u .avx2 || u .sse2 then
    if c.cat = .contiguous ∧ c.unsequenced = true then
      -- FD 79
      if c.size = 1 ∨ c.size = 2 ∨ c.size = 4 ∨ c.size = 8 then
        -- FD 82, 89
        if c.common ∧ c.comparable then findSimd u c.size else none
      else none
    else ranges
  else ranges

/-- The intrinsics of `reverse_simd<size>` with their instruction sets, RV 16-44. -/
def reverseSimd (u : Isa → Bool) (size : Nat) : Option (List Isa) :=
  if u .avx2 then
    if size = 1 then some [.avx, .avx, .avx, .avx2, .avx2, .avx2, .avx2, .avx, .avx]
    else none
  else if u .sse3 then
    if size = 1 then some [.sse2, .sse2, .ssse3, .ssse3, .sse2, .sse2]
    else if size = 2 then some []
    else none
  else none

/-- `reverse(i, s)`, RV 47-71: as for `find`. The variable `shuffle` of RV 14 is part of every build. -/
def reverse (enable : Defs) (c : Call) : Option (List Isa) :=
  let u := use enable
  -- RV 67, 69
  let ranges := if Category.bidirectional.rank ≤ c.cat.rank ∧ c.swappable then some [] else none
  let r :=
    if u .avx2 || u .sse3 then
      if c.cat = .contiguous then
        -- RV 53
        if c.size = 1 ∨ c.size = 2 ∨ c.size = 4 ∨ c.size = 8 then
          -- RV 55, 58, 60, 63
          if c.common ∧ c.swappable then reverseSimd u c.size else none
        else none
      else ranges
    else ranges
  r.map (Isa.sse2 :: ·)

end Verif.Algo.Builds
