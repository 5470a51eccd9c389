import Verif.Hal.EnvClient
import Verif.Hal.EnvProps

/-! # Environment variables set for a while (C186) -/

set_option autoImplicit false

namespace Verif.Env

/-! ## Specification -/

/-- A name the system accepts. -/
def GoodName (n : Str) : Prop := n ≠ [] ∧ 61 ∉ n ∧ 0 ∉ n

/-- What `body` shall see: the setting made last, none if that is empty, and otherwise the environment. -/
def inside (settings : List (Str × Str)) (env : Environ) (n : Str) : Option Str :=
  match settings.reverse.find? (fun p => p.1 = n) with
  | some p => if p.2 = [] then none else some p.2
  | none => env n

/-! ## Proofs -/

theorem str_chars (s : Str) : (str s).chars = s := by simp [str, SV.chars]

theorem str_terminated {s : Str} (h : 0 ∉ s) : (str s).Terminated := by
  refine ⟨?_, by rw [str_chars]; exact h, ?_⟩
  · simp [str]
  · simp [str, SV.WF]

theorem get_str (secure : Bool) (env : Environ) {n : Str} (h : 0 ∉ n) :
    get secure env (str n) = some (if secure then none else env n) := by
  rw [get, data_terminated (str_terminated h), str_chars]
  rfl

theorem set_str (env : Environ) {n v : Str} (hn : GoodName n) (hv : 0 ∉ v) :
    set env (str n) (str v) = some (Function.update env n (if v = [] then none else some v)) := by
  have hg : ¬(n = [] ∨ 61 ∈ n) := by simp [hn.1, hn.2.1]
  have hl : (str v).len = 0 ↔ v = [] := by simp [str]
  unfold set
  by_cases hz : v = []
  · rw [if_pos (hl.2 hz), data_terminated (str_terminated hn.2.2), str_chars]
    simp [unsetenv, hg, hz]
  · rw [if_neg fun e => hz (hl.1 e), data_terminated (str_terminated hn.2.2), data_terminated (str_terminated hv), str_chars, str_chars]
    simp [setenv, hg, hz]

theorem inside_cons (n v : Str) (rest : List (Str × Str)) (env : Environ) :
    inside ((n, v) :: rest) env = inside rest (Function.update env n (if v = [] then none else some v)) := by
  funext m
  unfold inside
  rw [List.reverse_cons, List.find?_append]
  cases h : rest.reverse.find? (fun p => p.1 = m) with
  | some p => simp
  | none =>
    by_cases e : n = m
    · subst e; simp
    · simp [e, Function.update_of_ne (Ne.symm e)]

/-- What every run of `withVars` does. -/
theorem withVars_exact (secure : Bool) (body : Environ → Environ) : ∀ (settings : List (Str × Str)) (env : Environ),
    (∀ p ∈ settings, GoodName p.1 ∧ 0 ∉ p.2) → (∀ n v, env n = some v → 0 ∉ v) →
    ∃ env', withVars secure body settings env = some env' ∧
      (∀ n, n ∈ settings.map Prod.fst → env' n = if secure ∨ env n = some [] then none else env n) ∧
      (∀ n, n ∉ settings.map Prod.fst → env' n = body (inside settings env) n)
  | [], env, _, _ => ⟨body env, rfl, by simp, fun n _ => by
      have : inside [] env = env := by funext m; rfl
      rw [this]⟩
  | (name, value) :: rest, env, hs, he => by
    obtain ⟨hn, hv⟩ := hs (name, value) (by simp)
    have hsaved : 0 ∉ (if secure then none else env name).getD [] := by
      cases secure
      · cases h : env name with
        | none => simp
        | some v => simpa [h] using he name v h
      · simp
    obtain ⟨env', h1, k2, h3⟩ := withVars_exact secure body rest (Function.update env name (if value = [] then none else some value))
      (fun p hp => hs p (by simp [hp])) (by
        intro n v h
        by_cases e : n = name
        · subst e
          rw [Function.update_self] at h
          split at h
          · cases h
          · cases h; exact hv
        · rw [Function.update_of_ne e] at h
          exact he n v h)
    refine ⟨Function.update env' name (if (if secure then none else env name).getD [] = [] then none
      else some ((if secure then none else env name).getD [])), ?_, ?_, ?_⟩
    · simp only [withVars, get_str secure env hn.2.2, Option.bind_eq_bind, Option.bind_some, set_str env hn hv, h1]
      exact set_str env' hn hsaved
    · intro n hmem
      by_cases e : n = name
      · subst e
        rw [Function.update_self]
        cases secure
        · cases h : env n with
          | none => simp
          | some v => by_cases hv0 : v = [] <;> simp [hv0]
        · simp
      · rw [Function.update_of_ne e]
        have : n ∈ rest.map Prod.fst := by
          rw [List.map_cons, List.mem_cons] at hmem
          exact hmem.resolve_left e
        rw [k2 n this, Function.update_of_ne e]
    · intro n hmem
      rw [List.map_cons, List.mem_cons, not_or] at hmem
      rw [Function.update_of_ne hmem.1, h3 n hmem.2, inside_cons]

/-- C186, what holds. The full claim is "while the body runs each variable has the value set last, and afterwards the variables set are
as before and all others as the body left them"; it holds outside secure mode for variables that were not set to an empty value. -/
theorem withVars_partial (body : Environ → Environ) (settings : List (Str × Str)) (env : Environ)
    (hs : ∀ p ∈ settings, GoodName p.1 ∧ 0 ∉ p.2) (he : ∀ n v, env n = some v → 0 ∉ v)
    (h0 : ∀ p ∈ settings, env p.1 ≠ some []) :
    ∃ env', withVars false body settings env = some env' ∧ (∀ n, n ∈ settings.map Prod.fst → env' n = env n) ∧
      (∀ n, n ∉ settings.map Prod.fst → env' n = body (inside settings env) n) := by
  obtain ⟨env', h1, h2, h3⟩ := withVars_exact false body settings env hs he
  refine ⟨env', h1, fun n hn => ?_, h3⟩
  obtain ⟨p, hp, rfl⟩ := List.mem_map.1 hn
  rw [h2 p.1 hn, if_neg (by simp [h0 p hp])]

/-- C186 is false: a variable that was set to an empty value is gone afterwards. -/
theorem withVars_empty_wrong (body : Environ → Environ) (settings : List (Str × Str)) (env : Environ)
    (hs : ∀ p ∈ settings, GoodName p.1 ∧ 0 ∉ p.2) (he : ∀ n v, env n = some v → 0 ∉ v) {n : Str} (hn : n ∈ settings.map Prod.fst)
    (h0 : env n = some []) : ∃ env', withVars false body settings env = some env' ∧ env' n = none := by
  obtain ⟨env', h1, h2, -⟩ := withVars_exact false body settings env hs he
  exact ⟨env', h1, by rw [h2 n hn, if_pos (.inr h0)]⟩

/-- C186 is false: in secure mode every variable set is gone afterwards. -/
theorem withVars_secure_wrong (body : Environ → Environ) (settings : List (Str × Str)) (env : Environ)
    (hs : ∀ p ∈ settings, GoodName p.1 ∧ 0 ∉ p.2) (he : ∀ n v, env n = some v → 0 ∉ v) {n : Str} (hn : n ∈ settings.map Prod.fst) :
    ∃ env', withVars true body settings env = some env' ∧ env' n = none := by
  obtain ⟨env', h1, h2, -⟩ := withVars_exact true body settings env hs he
  exact ⟨env', h1, by rw [h2 n hn, if_pos (.inl rfl)]⟩

/-! ## Examples -/

/-- "A" is "1"; it is set twice and "B" once, and the body copies "A" to "C". -/
def exEnv : Environ := fun n => if n = [65] then some [49] else if n = [69] then some [] else none

example : (∀ p ∈ [(([65], [50]) : Str × Str), ([66], [51]), ([65], [52, 53])], GoodName p.1 ∧ 0 ∉ p.2) ∧
    (∀ p ∈ [(([65], [50]) : Str × Str), ([66], [51]), ([65], [52, 53])], exEnv p.1 ≠ some []) := by
  simp [GoodName, exEnv]

example : (∀ n v, exEnv n = some v → 0 ∉ v) := by
  intro n v h
  unfold exEnv at h
  split at h
  · cases h; decide
  · split at h <;> cases h; decide

example : ((withVars false (fun e => Function.update e [67] (e [65])) [([65], [50]), ([66], [51]), ([65], [52, 53])] exEnv).map
    fun e => (e [65], e [66], e [67])) = some (some [49], none, some [52, 53]) := by decide

/-- "E" was set to an empty value. -/
example : ((withVars false id [([69], [50])] exEnv).map fun e => e [69]) = some none ∧ exEnv [69] = some [] := by decide

end Verif.Env
