import Verif.Hal.Env

/-!
# Environment variables set for a while

Client code. PF stands for `include/xme/hal/linux/platform.hpp`. Strings of the client are `std::string`s, so that a zero byte
follows their characters.
-/

set_option autoImplicit false

namespace Verif.Env

/-- The view of a `std::string`. Passed at PF 6, 10. -/
def str (s : Str) : SV := ⟨s ++ [0], 0, s.length⟩

/-- Variables set one inside the other, for the time `body` runs:
`auto old = get_environment_variable(name); std::string saved = old ? old : "";`
`set_environment_variable(name, value); …; set_environment_variable(name, saved);`. Calls PF 6-17. -/
def withVars (secure : Bool) (body : Environ → Environ) : List (Str × Str) → Environ → Option Environ
  | [], env => some (body env)
  | (name, value) :: rest, env => do
    let old ← get secure env (str name)
    let saved := old.getD []
    let env ← set env (str name) (str value)
    let env ← withVars secure body rest env
    set env (str name) (str saved)

end Verif.Env
