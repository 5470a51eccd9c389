import Verif.Hal.SymbolsProps
import Verif.Hal.SharedLibraryExactProps

/-! # What `proc_address` finds, in every history -/

set_option autoImplicit false

namespace Verif.Lib

open Verif.Env (Str SV data_terminated)

/-! ### Specification -/

/-- What every object holds: nothing, or the library of that name; and whether `close()` was called on the holder. -/
abbrev Held := Nat → Option (Option (Str × Bool))

/-- What objects hold after an operation. The name the system gets is `n`. -/
def after (S : Sys) (n : Str) (op : NOp) (o : Held) : Held :=
  match op with
  | .new i => Function.update o i (some none)
  | .newOpen i _ => Function.update o i (some (if (S.libs n).isSome then some (n, false) else none))
  | .newMove i j => Function.update (Function.update o i (o j)) j (some none)
  | .moveAssign i j => Function.update (Function.update o i (o j)) j (o i)
  | .open_ i _ => Function.update o i (some (if (S.libs n).isSome then some (n, false) else none))
  | .close i => fun k => if k = i then (o i).map (Option.map fun p => (p.1, true)) else o k
  | .destroy i => Function.update o i none

/-- The bytes up to the first zero byte of what the name given to an operation points to. -/
def given : NOp → Str → Prop
  | .newOpen _ name, n => name.data = some n
  | .open_ _ name, n => name.data = some n
  | _, _ => True

/-- All histories, whatever is called in them. -/
inductive Any (S : Sys) : NSt → Held → Prop
  | init : Any S .init (fun _ => none)
  | step {s t : NSt} {o : Held} (op : NOp) {n : Str} : Any S s o → given op n → nstep S op s = some t → Any S t (after S n op o)

/-! ### Invariant -/

structure AInv (S : Sys) (s : NSt) (o : Held) : Prop where
  history : ∃ n fate, History s.lib n fate
  held : ∀ i, o i = (s.lib.objs i).map (Option.map fun x => (s.names x, decide (s.lib.closes x ≠ 0)))
  loadable : ∀ x, x < s.lib.next → (S.libs (s.names x)).isSome = true

theorem AInv.opened {S : Sys} {s : NSt} {o : Held} (h : AInv S s o) {i : Nat} {n : Str} {l : St} {op : Op}
    (hop : step op s.lib = some l)
    (ho : l.objs = Function.update s.lib.objs i (some (if (S.libs n).isSome then some s.lib.next else none)))
    (hc : l.closes = s.lib.closes) (hn : l.next = if (S.libs n).isSome then s.lib.next + 1 else s.lib.next) :
    AInv S (s.opened l (S.libs n).isSome n)
      (Function.update o i (some (if (S.libs n).isSome then some (n, false) else none))) := by
  obtain ⟨m, fate, hh⟩ := h.history
  have E := exact hh
  refine ⟨⟨_, _, hh.step op hop⟩, fun k => ?_, fun x hx => ?_⟩
  · simp only [NSt.opened, ho, hc]
    have hf : s.lib.closes s.lib.next = 0 := by
      have := E.fresh s.lib.next le_rfl
      rw [E.count, this.1, this.2]; simp
    by_cases hk : k = i
    · subst hk
      simp only [Function.update_self]
      cases hb : (S.libs n).isSome <;> simp [hf]
    · simp only [Function.update_of_ne hk]
      rw [h.held k]
      cases hx : s.lib.objs k with
      | none => rfl
      | some y =>
        cases y with
        | none => rfl
        | some x =>
          have hlt := E.old k x hx
          cases hb : (S.libs n).isSome
          · simp
          · simp [Function.update_of_ne (Nat.ne_of_lt hlt)]
  · simp only [NSt.opened] at hx ⊢
    rw [hn] at hx
    cases hb : (S.libs n).isSome with
    | false => rw [hb] at hx; simpa using h.loadable x (by simpa using hx)
    | true =>
      rw [hb] at hx
      simp only [if_true] at hx ⊢
      by_cases he : x = s.lib.next
      · subst he; rw [Function.update_self]; exact hb
      · rw [Function.update_of_ne he]; exact h.loadable x (by omega)

theorem any_inv {S : Sys} {s : NSt} {o : Held} (h : Any S s o) : AInv S s o := by
  induction h with
  | init => exact ⟨⟨_, _, .init⟩, fun i => rfl, fun x hx => absurd hx (Nat.not_lt_zero x)⟩
  | @step s t o op n _ hg hs ih =>
    obtain ⟨m, fate, hh⟩ := ih.history
    cases op with
    | new i =>
      obtain ⟨l, hl, rfl⟩ := Option.map_eq_some_iff.1 hs
      have h2 := hl
      simp only [step] at hl
      split at hl <;> cases hl
      refine ⟨⟨_, _, hh.step _ h2⟩, fun k => ?_, ih.loadable⟩
      by_cases hk : k = i
      · subst hk; simp [after, St.set]
      · simp only [after, St.set, Function.update_of_ne hk]; exact ih.held k
    | newOpen i name =>
      simp only [given] at hg
      simp only [nstep, hg, Option.bind_eq_bind, Option.bind_some] at hs
      obtain ⟨l, hl, e⟩ := Option.bind_eq_some_iff.1 hs
      cases e
      have h2 := hl
      simp only [step] at hl
      split at hl <;> cases hl
      refine ih.opened h2 ?_ ?_ ?_ <;> cases (S.libs n).isSome <;> simp [doOpen, dlopen, St.set]
    | open_ i name =>
      simp only [given] at hg
      simp only [nstep, hg, Option.bind_eq_bind, Option.bind_some] at hs
      obtain ⟨l, hl, e⟩ := Option.bind_eq_some_iff.1 hs
      cases e
      have h2 := hl
      simp only [step] at hl
      split at hl <;> cases hl
      refine ih.opened h2 ?_ ?_ ?_ <;> cases (S.libs n).isSome <;> simp [doOpen, dlopen, St.set]
    | newMove i j =>
      obtain ⟨l, hl, rfl⟩ := Option.map_eq_some_iff.1 hs
      have h2 := hl
      simp only [step] at hl
      split at hl <;> cases hl
      rename_i hj
      refine ⟨⟨_, _, hh.step _ h2⟩, fun k => ?_, ih.loadable⟩
      simp only [after, St.set]
      by_cases hk : k = j
      · subst hk; simp
      · rw [Function.update_of_ne hk, Function.update_of_ne hk]
        by_cases hi : k = i
        · subst hi; rw [Function.update_self, Function.update_self, ih.held j, hj]; rfl
        · rw [Function.update_of_ne hi, Function.update_of_ne hi]; exact ih.held k
    | moveAssign i j =>
      obtain ⟨l, hl, rfl⟩ := Option.map_eq_some_iff.1 hs
      have h2 := hl
      simp only [step] at hl
      split at hl <;> cases hl
      rename_i hi hj
      refine ⟨⟨_, _, hh.step _ h2⟩, fun k => ?_, ih.loadable⟩
      simp only [after, St.set]
      by_cases hk : k = j
      · subst hk; rw [Function.update_self, Function.update_self, ih.held i, hi]; rfl
      · rw [Function.update_of_ne hk, Function.update_of_ne hk]
        by_cases hi' : k = i
        · subst hi'; rw [Function.update_self, Function.update_self, ih.held j, hj]; rfl
        · rw [Function.update_of_ne hi', Function.update_of_ne hi']; exact ih.held k
    | close i =>
      obtain ⟨l, hl, rfl⟩ := Option.map_eq_some_iff.1 hs
      have h2 := hl
      simp only [step] at hl
      split at hl <;> cases hl
      rename_i x hi
      have hn : (doClose x s.lib).next = s.lib.next := by cases x <;> rfl
      refine ⟨⟨_, _, hh.step _ h2⟩, fun k => ?_, fun y hy => ih.loadable y (hn ▸ hy)⟩
      have ho : (doClose x s.lib).objs = s.lib.objs := by cases x <;> rfl
      simp only [after, ho]
      by_cases hk : k = i
      · subst hk
        rw [if_pos rfl, ih.held k, hi]
        cases x <;> simp [doClose, dlclose]
      · rw [if_neg hk, ih.held k]
        cases hy : s.lib.objs k with
        | none => rfl
        | some y =>
          cases y with
          | none => rfl
          | some y =>
            cases x with
            | none => rfl
            | some x =>
              have hne : y ≠ x := by rintro rfl; exact hk ((exact hh).inj k i y hy hi)
              simp [doClose, dlclose, Function.update_of_ne hne]
    | destroy i =>
      obtain ⟨l, hl, rfl⟩ := Option.map_eq_some_iff.1 hs
      have h2 := hl
      simp only [step] at hl
      split at hl <;> cases hl
      rename_i x hi
      refine ⟨⟨_, _, hh.step _ h2⟩, fun k => ?_, fun y hy => ih.loadable y (by cases x <;> exact hy)⟩
      simp only [after]
      by_cases hk : k = i
      · subst hk; simp [St.set]
      · rw [Function.update_of_ne hk, ih.held k]
        simp only [St.set, Function.update_of_ne hk]
        have ho : (if isOpen x = true then doClose x s.lib else s.lib).objs = s.lib.objs := by cases x <;> rfl
        rw [ho]
        cases hy : s.lib.objs k with
        | none => rfl
        | some y =>
          cases y with
          | none => rfl
          | some y =>
            cases x with
            | none => rfl
            | some x =>
              have hne : y ≠ x := by rintro rfl; exact hk ((exact hh).inj k i y hy hi)
              simp [isOpen, doClose, dlclose, Function.update_of_ne hne]

/-- C119, exactly, for every history: `proc_address(f)` gives the address of `f` in the library the object holds if
`close()` was not called on its holder, is undefined if it was, and searches the program if the object holds none. -/
theorem proc_address_exact {S : Sys} {s : NSt} {o : Held} (h : Any S s o) {i : Nat} {l : Option (Str × Bool)}
    (hi : o i = some l) :
    ∃ x, s.lib.objs i = some x ∧ isOpen x = l.isSome ∧ ∀ (f : SV) (n : Str), f.data = some n →
      (l = none → procAddress S s false x f = .addr (S.global n)) ∧
      (∀ m, l = some (m, false) → ∃ syms, S.libs m = some syms ∧ procAddress S s false x f = .addr (syms n)) ∧
      (∀ m, l = some (m, true) → procAddress S s false x f = .ub) := by
  have I := any_inv h
  have ho := I.held i
  rw [hi] at ho
  obtain ⟨x, hx, hl⟩ := Option.map_eq_some_iff.1 ho.symm
  refine ⟨x, hx, by rw [← hl]; cases x <;> rfl, fun f n hf => ⟨?_, fun m hm => ?_, fun m hm => ?_⟩⟩
  · rintro rfl
    obtain rfl : x = none := by cases x with
      | none => rfl
      | some y => simp at hl
    simp [procAddress, hf, dlsym]
  · subst hm
    obtain ⟨y, rfl, hy⟩ := Option.map_eq_some_iff.1 hl
    obtain ⟨n', fate, hh⟩ := I.history
    have hs := I.loadable y ((exact hh).old i y hx)
    have hc : s.lib.closes y = 0 := by simpa using congrArg Prod.snd hy
    have hm : s.names y = m := congrArg Prod.fst hy
    rw [hm] at hs
    obtain ⟨syms, hs⟩ := Option.isSome_iff_exists.1 hs
    exact ⟨syms, hs, by simp [procAddress, hf, dlsym, hc, hm, hs]⟩
  · subst hm
    obtain ⟨y, rfl, hy⟩ := Option.map_eq_some_iff.1 hl
    have hc : s.lib.closes y ≠ 0 := by simpa using congrArg Prod.snd hy
    simp [procAddress, hf, dlsym, hc]

/-! ### A case -/

/-- An object opens "a", is closed, and opens "a" again without being destroyed. -/
example : ∃ s o, Any demoSys s o ∧ o 0 = some (some ([97], false)) ∧ s.lib.closes 0 = 1 := by
  have h1 := (Any.init (S := demoSys)).step (.newOpen 0 nameA) (n := [97]) rfl rfl
  have h2 := h1.step (.close 0) (n := []) trivial rfl
  have h3 := h2.step (.open_ 0 nameA) (n := [97]) rfl rfl
  exact ⟨_, _, h3, rfl, by decide⟩

end Verif.Lib
