import Mathlib.Logic.Function.Basic

/-!
# Model of the environment functions

PF stands for `include/xme/hal/linux/platform.hpp`. A string view is a part of a buffer; `data()` is a pointer into the
buffer, which the C functions read up to the next zero byte, or out of the buffer if there is none. The C functions
are modelled by their POSIX descriptions.
-/

set_option autoImplicit false

namespace Verif.Env

/-- A string: its bytes. Part of the model, not of the code. -/
abbrev Str := List Nat

/-- `std::string_view` The parameters of PF 6 and 10. -/
structure SV where
  buf : Str
  off : Nat
  len : Nat

/-- The characters a string view stands for. Part of the model, not of the code. -/
def SV.chars (v : SV) : Str := (v.buf.drop v.off).take v.len

/-- The view lies in the buffer. Part of the model, not of the code. -/
def SV.WF (v : SV) : Prop := v.off + v.len ≤ v.buf.length

/-- What a C function reads from `data()`; `none` if it leaves the buffer. PF 7, 12, 15. -/
def cstr : Str → Option Str
  | [] => none
  | 0 :: _ => some []
  | c :: cs => (cstr cs).map (c :: ·)

/-- The C string at `name.data()`, PF 7, 12, 15. -/
def SV.data (v : SV) : Option Str := cstr (v.buf.drop v.off)

/-- The environment variables of the process. Part of the model, not of the code. -/
abbrev Environ := Str → Option Str

/-- POSIX `setenv`: fails (EINVAL) if the name is empty or contains `=`. `overwrite` is true here. Called at PF
15. -/
def setenv (env : Environ) (name value : Str) : Environ :=
  if name = [] ∨ 61 ∈ name then env else Function.update env name (some value)

/-- POSIX `unsetenv` Called at PF 12. -/
def unsetenv (env : Environ) (name : Str) : Environ :=
  if name = [] ∨ 61 ∈ name then env else Function.update env name none

/-- `secure_getenv`: null in secure execution. Called at PF 7. -/
def secureGetenv (secure : Bool) (env : Environ) (name : Str) : Option Str :=
  if secure then none else env name

/-- `get_environment_variable`, PF 6-8; the outer `none` is undefined behaviour, the inner one a null pointer. -/
def get (secure : Bool) (env : Environ) (name : SV) : Option (Option Str) :=
  name.data.map (secureGetenv secure env)

/-- `set_environment_variable`, PF 10-17 -/
def set (env : Environ) (name value : SV) : Option Environ :=
  if value.len = 0 then
    name.data.map (unsetenv env)
  else do
    let n ← name.data
    let v ← value.data
    pure (setenv env n v)

end Verif.Env
