import Mathlib.Logic.Function.Basic

/-!
# Model of `simd_detection.hpp`

SI stands for `include/xme/hal/simd_detection.hpp`. The preprocessor is modelled by the set of macros defined when a
directive is reached. Defining a macro that is defined already with another value, about which compilers warn, is
not modelled.
-/

set_option autoImplicit false

namespace Verif.Simd

/-- The instruction sets of SI 8-66. -/
inductive Isa
  | mmx | sse | sse2 | sse3 | ssse3 | sse41 | sse42 | avx | avx2 | avx512f
  deriving DecidableEq

/-- Which of the macros `__MMX__`, … or `XME_SIMD_ENABLE_*` are defined. SI 8-66, 74-141. -/
abbrev Defs := Isa → Bool

/-- `XME_SIMD_HAS_*`, SI 8-66 -/
def has (compiler : Defs) (i : Isa) : Bool := if compiler i then true else false

/-- The macros `XME_SIMD_ENABLE_*` and `XME_SIMD_USE_*` defined so far: SI 74-141. -/
structure PP where
  enable : Defs
  use : Isa → Option Bool

/-- `#if defined(XME_SIMD_ENABLE_i)`, `#define XME_SIMD_ENABLE_next`, `#define XME_SIMD_USE_i true`, `#else`, `#define
XME_SIMD_USE_i false`, `#endif`: one of the blocks SI 74-141. -/
def block (i : Isa) (next : Option Isa) (s : PP) : PP :=
  if s.enable i then
    let enable := match next with
      | some n => Function.update s.enable n true
      | none => s.enable
    ⟨enable, Function.update s.use i (some true)⟩
  else
    ⟨s.enable, Function.update s.use i (some false)⟩

/-- SI 74-141 in order -/
def blocks (s : PP) : PP :=
  let s := block .avx512f (some .avx2) s
  let s := block .avx2 (some .avx) s
  let s := block .avx (some .sse42) s
  let s := block .sse42 (some .sse41) s
  let s := block .sse41 (some .ssse3) s
  let s := block .ssse3 (some .sse3) s
  let s := block .sse3 (some .sse2) s
  let s := block .sse2 (some .sse) s
  let s := block .sse (some .mmx) s
  block .mmx none s

/-- `XME_SIMD_USE_*` SI 74-141. -/
def use (enable : Defs) (i : Isa) : Bool := ((blocks ⟨enable, fun _ => none⟩).use i).getD false

/-- SI 146-155 -/
def flag : Isa → Nat
  | .mmx => 0x1 | .sse => 0x2 | .sse2 => 0x4 | .sse3 => 0x8 | .ssse3 => 0x10
  | .sse41 => 0x20 | .sse42 => 0x40 | .avx => 0x80 | .avx2 => 0x100 | .avx512f => 0x200

/-- SI 157-162 and 164-169 -/
def flagSet (b : Isa → Bool) : Nat :=
  (b .mmx).toNat * flag .mmx ||| (b .sse).toNat * flag .sse ||| (b .sse2).toNat * flag .sse2 |||
    (b .sse3).toNat * flag .sse3 ||| (b .ssse3).toNat * flag .ssse3 ||| (b .sse41).toNat * flag .sse41 |||
    (b .sse42).toNat * flag .sse42 ||| (b .avx).toNat * flag .avx ||| (b .avx2).toNat * flag .avx2 |||
    (b .avx512f).toNat * flag .avx512f

/-- `supported_simd`, SI 185 -/
def supported (compiler : Defs) : Nat := flagSet (has compiler)
/-- `enabled_simd`, SI 186 -/
def enabled (enable : Defs) : Nat := flagSet (use enable)

/-- `operator|`, SI 188-191 -/
def orE (e1 e2 : Nat) : Nat := e1 ||| e2
/-- `operator&`, SI 193-196 -/
def andE (e1 e2 : Nat) : Nat := e1 &&& e2

end Verif.Simd
