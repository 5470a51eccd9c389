import Verif.Hal.Env
import Mathlib.Data.List.Basic

/-! # Properties of the environment functions -/

set_option autoImplicit false

namespace Verif.Env

/-- A view whose characters are followed by a zero byte in its buffer, and contain none. -/
def SV.Terminated (v : SV) : Prop := v.buf[v.off + v.len]? = some 0 ∧ 0 ∉ v.chars ∧ v.WF

theorem cstr_append {a b : Str} (h : 0 ∉ a) : cstr (a ++ 0 :: b) = some a := by
  induction a with
  | nil => rfl
  | cons x a ih =>
    simp only [List.mem_cons, not_or] at h
    cases x with
    | zero => exact absurd rfl h.1
    | succ x => simp [cstr, ih h.2]

theorem data_terminated {v : SV} (h : v.Terminated) : v.data = some v.chars := by
  obtain ⟨h1, h2, -⟩ := h
  have hlt : v.off + v.len < v.buf.length := by
    by_contra hc
    rw [List.getElem?_eq_none (by omega)] at h1
    cases h1
  have e : v.buf.drop v.off = v.chars ++ 0 :: v.buf.drop (v.off + v.len + 1) := by
    have h3 : v.buf.drop v.off = v.chars ++ (v.buf.drop v.off).drop v.len := (List.take_append_drop _ _).symm
    rw [h3, List.drop_drop]
    congr 1
    rw [List.drop_eq_getElem_cons hlt]
    congr 1
    rw [List.getElem?_eq_getElem hlt] at h1
    exact Option.some.inj h1
  unfold SV.data
  rw [e]
  exact cstr_append h2

/-- C79, what holds. The full claim is "setting and then getting gives the value, leaves other variables alone, and an
empty value removes the variable, whatever buffers the views point into"; it holds if the views happen to be followed
by a zero byte. The name must be acceptable to the system, and the program not run in secure mode. -/
theorem environment_partial (env : Environ) {name value other : SV} (hn : name.Terminated) (hv : value.Terminated)
    (ho : other.Terminated) (h0 : name.chars ≠ []) (heq : 61 ∉ name.chars) :
    ∃ env', set env name value = some env' ∧
      (value.chars ≠ [] → get false env' name = some (some value.chars)) ∧
      (value.chars = [] → get false env' name = some none) ∧
      (other.chars ≠ name.chars → get false env' other = get false env other) ∧
      (∀ n, n ≠ name.chars → env' n = env n) := by
  have hlen : value.len = 0 ↔ value.chars = [] := by
    have := hv.2.2
    unfold SV.WF at this
    unfold SV.chars
    rw [← List.length_eq_zero_iff, List.length_take, List.length_drop]
    omega
  have hg : ¬ (name.chars = [] ∨ 61 ∈ name.chars) := by simp [h0, heq]
  by_cases hz : value.len = 0
  · refine ⟨Function.update env name.chars none, ?_, fun h => absurd (hlen.1 hz) h, fun _ => ?_, fun hne => ?_,
      fun n hne => ?_⟩
    · simp [set, hz, data_terminated hn, unsetenv, hg]
    · simp [get, data_terminated hn, secureGetenv]
    · simp [get, data_terminated ho, secureGetenv, hne]
    · simp [hne]
  · refine ⟨Function.update env name.chars (some value.chars), ?_, fun _ => ?_, fun h => absurd (hlen.2 h) hz,
      fun hne => ?_, fun n hne => ?_⟩
    · simp [set, hz, data_terminated hn, data_terminated hv, setenv, hg]
    · simp [get, data_terminated hn, secureGetenv]
    · simp [get, data_terminated ho, secureGetenv, hne]
    · simp [hne]

/-- C79 is false: if the buffer goes on behind the value, the variable gets more than the value. -/
theorem environment_value_wrong (env : Environ) {name value : SV} (hn : name.Terminated) (h0 : name.chars ≠ [])
    (heq : 61 ∉ name.chars) (more rest : Str) (hm : more ≠ []) (hz : 0 ∉ more) (hzv : 0 ∉ value.chars)
    (hl : value.len ≠ 0) (hb : value.buf.drop value.off = value.chars ++ more ++ 0 :: rest) :
    ∃ env', set env name value = some env' ∧ get false env' name = some (some (value.chars ++ more)) ∧
      value.chars ++ more ≠ value.chars := by
  have hg : ¬ (name.chars = [] ∨ 61 ∈ name.chars) := by simp [h0, heq]
  have hd : value.data = some (value.chars ++ more) := by
    unfold SV.data
    rw [hb]
    exact cstr_append (by simp [hz, hzv])
  refine ⟨Function.update env name.chars (some (value.chars ++ more)), ?_, ?_, by simpa using hm⟩
  · simp [set, hl, data_terminated hn, hd, setenv, hg]
  · simp [get, data_terminated hn, secureGetenv]

/-- C79 is false: if the buffer goes on behind the name, another variable is set, and if it goes on with `=`, none. -/
theorem environment_name_wrong (env : Environ) {name value : SV} (hv : value.Terminated) (hl : value.len ≠ 0)
    (more rest : Str) (hm : more ≠ []) (hz : 0 ∉ more) (hzn : 0 ∉ name.chars)
    (hb : name.buf.drop name.off = name.chars ++ more ++ 0 :: rest) :
    ∃ env', set env name value = some env' ∧ env' name.chars = env name.chars := by
  have hd : name.data = some (name.chars ++ more) := by
    unfold SV.data
    rw [hb]
    exact cstr_append (by simp [hz, hzn])
  refine ⟨setenv env (name.chars ++ more) value.chars, by simp [set, hl, hd, data_terminated hv], ?_⟩
  unfold setenv
  split
  · rfl
  · rw [Function.update_of_ne]
    simpa using hm.symm

/-- C79 is false: without a zero byte in the buffer behind the name both functions read outside it. -/
theorem environment_undefined (secure : Bool) (env : Environ) {name : SV} (value : SV)
    (hb : 0 ∉ name.buf.drop name.off) : get secure env name = none ∧ set env name value = none := by
  have : ∀ s : Str, 0 ∉ s → cstr s = none := by
    intro s
    induction s with
    | nil => intro _; rfl
    | cons x s ih =>
      intro h
      simp only [List.mem_cons, not_or] at h
      cases x with
      | zero => exact absurd rfl h.1
      | succ x => simp [cstr, ih h.2]
  have hd : name.data = none := this _ hb
  constructor
  · simp [get, hd]
  · unfold set
    split <;> simp [hd]

/-! ### Cases -/

section Examples

/-- "AB\0", of which the view shows "AB". -/
def whole : SV := ⟨[65, 66, 0], 0, 2⟩
/-- "AB\0", of which the view shows "A". -/
def part : SV := ⟨[65, 66, 0], 0, 1⟩
def val : SV := ⟨[49, 50, 51, 0], 0, 3⟩

example : whole.Terminated ∧ val.Terminated := by
  refine ⟨⟨rfl, by decide, by unfold SV.WF; decide⟩, ⟨rfl, by decide, by unfold SV.WF; decide⟩⟩
example : part.buf.drop part.off = part.chars ++ [66] ++ 0 :: [] := rfl
example : ((set (fun _ => none) part val).map fun e => (e [65], e [65, 66])) = some (none, some [49, 50, 51]) := by decide

end Examples

end Verif.Env
