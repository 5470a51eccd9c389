import Verif.Hal.Symbols
import Verif.Hal.EnvProps
import Verif.Hal.SharedLibraryProps

/-! # Properties of names in `SharedLibrary` -/

set_option autoImplicit false

namespace Verif.Lib

open Verif.Env (Str SV data_terminated)

/-! ### Specification -/

/-- What every object holds according to its user: nothing, or the library of that name. -/
abbrev Owns := Nat → Option (Option Str)

/-- Histories with names followed by a zero byte, in which `open` is used on objects that hold nothing and `close` is
not used, with what the objects hold. -/
inductive Hist (S : Sys) : NSt → Owns → Prop
  | init : Hist S .init (fun _ => none)
  | new {s t : NSt} {o : Owns} (i : Nat) : Hist S s o → nstep S (.new i) s = some t →
      Hist S t (Function.update o i (some none))
  | newOpen {s t : NSt} {o : Owns} (i : Nat) {name : SV} (hn : name.Terminated) : Hist S s o →
      nstep S (.newOpen i name) s = some t →
      Hist S t (Function.update o i (some (if (S.libs name.chars).isSome then some name.chars else none)))
  | newMove {s t : NSt} {o : Owns} (i j : Nat) : Hist S s o → nstep S (.newMove i j) s = some t →
      Hist S t (Function.update (Function.update o i (o j)) j (some none))
  | moveAssign {s t : NSt} {o : Owns} (i j : Nat) : Hist S s o → nstep S (.moveAssign i j) s = some t →
      Hist S t (Function.update (Function.update o i (o j)) j (o i))
  | open_ {s t : NSt} {o : Owns} (i : Nat) {name : SV} (hn : name.Terminated) : Hist S s o → o i = some none →
      nstep S (.open_ i name) s = some t →
      Hist S t (Function.update o i (some (if (S.libs name.chars).isSome then some name.chars else none)))
  | destroy {s t : NSt} {o : Owns} (i : Nat) : Hist S s o → nstep S (.destroy i) s = some t →
      Hist S t (Function.update o i none)

/-! ### Invariant -/

/-- Every object holds a handle of the library its user thinks it holds. -/
structure NInv (S : Sys) (s : NSt) (o : Owns) : Prop where
  careful : Careful .init s.lib
  owns : ∀ i, o i = (s.lib.objs i).map (Option.map s.names)
  loadable : ∀ i n, o i = some (some n) → (S.libs n).isSome = true

theorem map_update {s : NSt} {o : Owns} (h : ∀ i, o i = (s.lib.objs i).map (Option.map s.names)) (f : Nat → Str)
    (hf : ∀ i x, s.lib.objs i = some (some x) → f x = s.names x) (i : Nat) : o i = (s.lib.objs i).map (Option.map f) := by
  rw [h i]
  rcases hi : s.lib.objs i with _ | _ | x
  · rfl
  · rfl
  · simp [hf i x hi]

theorem NInv.open_ {S : Sys} {s : NSt} {o : Owns} (h : NInv S s o) {i : Nat} {n : Str} {l : St}
    (hl : l = doOpen i (S.libs n).isSome s.lib ∨
      (s.lib.objs i = none ∧ l = doOpen i (S.libs n).isSome (s.lib.set i (some none))))
    (hc : Careful .init l) :
    NInv S (s.opened l (S.libs n).isSome n) (Function.update o i (some (if (S.libs n).isSome then some n else none))) := by
  have hinv := careful_inv h.careful
  have hobjs : l.objs = Function.update s.lib.objs i (some (if (S.libs n).isSome then some s.lib.next else none)) := by
    rcases hl with rfl | ⟨-, rfl⟩ <;> cases (S.libs n).isSome <;> simp [doOpen, dlopen, St.set]
  refine ⟨hc, fun k => ?_, fun k m hk => ?_⟩
  · have hold : o k = (s.lib.objs k).map (Option.map (s.opened l (S.libs n).isSome n).names) := by
      refine map_update h.owns _ (fun k x hx => ?_) k
      have := (hinv.held k x hx).1
      unfold NSt.opened
      split
      · exact Function.update_of_ne (by omega) _ _
      · rfl
    show _ = (l.objs k).map _
    rw [hobjs]
    by_cases hk : k = i
    · subst hk
      rw [Function.update_self, Function.update_self]
      cases hb : (S.libs n).isSome <;> simp [NSt.opened]
    · rw [Function.update_of_ne hk, Function.update_of_ne hk]
      exact hold
  · by_cases hk' : k = i
    · subst hk'
      rw [Function.update_self] at hk
      cases hb : (S.libs n).isSome with
      | true => rw [hb] at hk; simp at hk; rw [← hk]; exact hb
      | false => rw [hb] at hk; simp at hk
    · rw [Function.update_of_ne hk'] at hk
      exact h.loadable k m hk

theorem NInv.other {S : Sys} {s : NSt} {o o' : Owns} {l : St} (h : NInv S s o) (hc : Careful .init l)
    (ho : ∀ k, o' k = (l.objs k).map (Option.map s.names)) (hfrom : ∀ k n, o' k = some (some n) → ∃ j, o j = some (some n)) :
    NInv S ⟨l, s.names⟩ o' :=
  ⟨hc, ho, fun k n hk => by obtain ⟨j, hj⟩ := hfrom k n hk; exact h.loadable j n hj⟩

theorem hist_inv {S : Sys} {s : NSt} {o : Owns} (h : Hist S s o) : NInv S s o := by
  induction h with
  | init => exact ⟨.refl _, fun i => rfl, fun i n h => by cases h⟩
  | @new s t o i _ hs ih =>
    obtain ⟨l, hl, rfl⟩ := Option.map_eq_some_iff.1 hs
    have hc := Careful.new i ih.careful hl
    simp only [step] at hl
    cases hi : s.lib.objs i with
    | some x => simp [hi] at hl
    | none =>
      simp only [hi] at hl
      cases hl
      refine ih.other hc (fun k => ?_) (fun k n hk => ?_)
      · by_cases hk : k = i
        · subst hk; simp [St.set]
        · simp [St.set, hk, ih.owns]
      · by_cases hk' : k = i
        · subst hk'; simp at hk
        · exact ⟨k, by simpa [hk'] using hk⟩
  | @newOpen s t o i name hn _ hs ih =>
    simp only [nstep, data_terminated hn, Option.bind_eq_bind, Option.bind_some] at hs
    obtain ⟨l, hl, hl'⟩ := Option.bind_eq_some_iff.1 hs
    simp only [pure, Option.some.injEq] at hl'
    subst hl'
    have hc := Careful.newOpen i _ ih.careful hl
    simp only [step] at hl
    cases hi : s.lib.objs i with
    | some x => simp [hi] at hl
    | none =>
      simp only [hi] at hl
      cases hl
      exact ih.open_ (Or.inr ⟨hi, rfl⟩) hc
  | @newMove s t o i j _ hs ih =>
    obtain ⟨l, hl, rfl⟩ := Option.map_eq_some_iff.1 hs
    have hc := Careful.newMove i j ih.careful hl
    simp only [step] at hl
    cases hi : s.lib.objs i with
    | some x => simp [hi] at hl
    | none =>
      cases hj : s.lib.objs j with
      | none => simp [hi, hj] at hl
      | some y =>
        simp only [hi, hj] at hl
        cases hl
        refine ih.other hc (fun k => ?_) (fun k n hk => ?_)
        · by_cases hkj : k = j
          · subst hkj; simp [St.set]
          · by_cases hki : k = i
            · subst hki; simp [St.set, hkj, ih.owns, hj]
            · simp [St.set, hkj, hki, ih.owns]
        · by_cases hkj : k = j
          · subst hkj; simp at hk
          · by_cases hki : k = i
            · subst hki; exact ⟨j, by simpa [hkj] using hk⟩
            · exact ⟨k, by simpa [hkj, hki] using hk⟩
  | @moveAssign s t o i j _ hs ih =>
    obtain ⟨l, hl, rfl⟩ := Option.map_eq_some_iff.1 hs
    have hc := Careful.moveAssign i j ih.careful hl
    simp only [step] at hl
    cases hi : s.lib.objs i with
    | none => simp [hi] at hl
    | some x =>
      cases hj : s.lib.objs j with
      | none => simp [hi, hj] at hl
      | some y =>
        simp only [hi, hj] at hl
        cases hl
        refine ih.other hc (fun k => ?_) (fun k n hk => ?_)
        · by_cases hkj : k = j
          · subst hkj; simp [St.set, ih.owns, hi]
          · by_cases hki : k = i
            · subst hki; simp [St.set, hkj, ih.owns, hj]
            · simp [St.set, hkj, hki, ih.owns]
        · by_cases hkj : k = j
          · subst hkj; exact ⟨i, by simpa using hk⟩
          · by_cases hki : k = i
            · subst hki; exact ⟨j, by simpa [hkj] using hk⟩
            · exact ⟨k, by simpa [hkj, hki] using hk⟩
  | @open_ s t o i name hn _ ho hs ih =>
    simp only [nstep, data_terminated hn, Option.bind_eq_bind, Option.bind_some] at hs
    obtain ⟨l, hl, hl'⟩ := Option.bind_eq_some_iff.1 hs
    simp only [pure, Option.some.injEq] at hl'
    subst hl'
    have hi : s.lib.objs i = some none := by
      have := ih.owns i
      rw [ho] at this
      rcases hx : s.lib.objs i with _ | _ | x
      · rw [hx] at this; simp at this
      · rfl
      · rw [hx] at this; simp at this
    have hc := Careful.open_ i _ ih.careful hi hl
    simp only [step, hi] at hl
    cases hl
    exact ih.open_ (Or.inl rfl) hc
  | @destroy s t o i _ hs ih =>
    obtain ⟨l, hl, rfl⟩ := Option.map_eq_some_iff.1 hs
    have hc := Careful.destroy i ih.careful hl
    simp only [step] at hl
    cases hi : s.lib.objs i with
    | none => simp [hi] at hl
    | some x =>
      simp only [hi] at hl
      cases hl
      refine ih.other hc (fun k => ?_) (fun k n hk => ?_)
      · have e : (if isOpen x then doClose x s.lib else s.lib).objs = s.lib.objs := by
          cases x <;> simp [isOpen, doClose, dlclose]
        by_cases hk : k = i
        · subst hk; simp [St.set]
        · simp [St.set, hk, ih.owns, e]
      · by_cases hk' : k = i
        · subst hk'; simp at hk
        · exact ⟨k, by simpa [hk'] using hk⟩

/-! ### C119 -/

/-- C119, what holds. The full claim is that `proc_address(f)` gives the address of the symbol `f` in the library the object
holds, through all openings, moves and swaps, and a null pointer if there is none or the object holds no library; and that
`is_open()` says whether it holds one. It holds for objects that hold a library, for results that are not pointers to
functions, and for names that are followed by a zero byte. -/
theorem proc_address_partial {S : Sys} {s : NSt} {o : Owns} (h : Hist S s o) {i : Nat} {l : Option Str}
    (hi : o i = some l) :
    ∃ x, s.lib.objs i = some x ∧ isOpen x = l.isSome ∧
      ∀ n, l = some n → ∃ syms, S.libs n = some syms ∧
        ∀ f : SV, f.Terminated → procAddress S s false x f = .addr (syms f.chars) := by
  have hv := hist_inv h
  have ho := hv.owns i
  rw [hi] at ho
  obtain ⟨x, hx, hl⟩ := Option.map_eq_some_iff.1 ho.symm
  refine ⟨x, hx, by rw [← hl]; cases x <;> rfl, ?_⟩
  rintro n rfl
  obtain ⟨y, rfl, hy⟩ := Option.map_eq_some_iff.1 hl
  obtain ⟨syms, hs⟩ := Option.isSome_iff_exists.1 (hv.loadable i n hi)
  refine ⟨syms, hs, fun f hf => ?_⟩
  have hc := ((careful_inv hv.careful).held i y hx).2
  simp [procAddress, data_terminated hf, dlsym, hc, hy, hs]

/-- C119 is false for an object that holds no library, say because opening it failed: the global symbols are searched,
so a symbol of the program itself may be found. -/
theorem proc_address_unopened_wrong {S : Sys} {s : NSt} {o : Owns} (h : Hist S s o) {i : Nat} (hi : o i = some none)
    {f : SV} (hf : f.Terminated) :
    s.lib.objs i = some none ∧ isOpen none = false ∧ procAddress S s false none f = .addr (S.global f.chars) := by
  have ho := (hist_inv h).owns i
  rw [hi] at ho
  obtain ⟨x, hx, hl⟩ := Option.map_eq_some_iff.1 ho.symm
  obtain rfl : x = none := by cases x with
    | none => rfl
    | some y => simp at hl
  exact ⟨hx, rfl, by simp [procAddress, data_terminated hf, dlsym]⟩

/-- C119 is false for pointers to functions, which is what it is for: the call does not compile. It is false for names not
followed by a zero byte: the symbol of a longer name is looked up, or the buffer left. And it is false after `close()`:
the closed handle is used, although `is_open()` is true. -/
theorem proc_address_wrong {S : Sys} {s : NSt} (x : Option Nat) (f : SV) :
    procAddress S s true x f = .illFormed ∧
    (∀ more rest : Str, 0 ∉ f.chars ++ more → f.buf.drop f.off = f.chars ++ more ++ 0 :: rest →
      procAddress S s false x f = dlsym S s x (f.chars ++ more)) ∧
    (0 ∉ f.buf.drop f.off → procAddress S s false x f = .ub) ∧
    (∀ i t, x ≠ none → s.lib.objs i = some x → nstep S (.close i) s = some t →
      t.lib.objs i = some x ∧ isOpen x = true ∧ procAddress S t false x f = .ub) := by
  refine ⟨rfl, fun more rest h0 hb => ?_, fun h0 => ?_, fun i t hx hi ht => ?_⟩
  · have : f.data = some (f.chars ++ more) := by
      unfold SV.data
      rw [hb]
      exact Verif.Env.cstr_append h0
    simp [procAddress, this]
  · have : ∀ b : Str, 0 ∉ b → Verif.Env.cstr b = none := by
      intro b
      induction b with
      | nil => intro _; rfl
      | cons c b ih =>
        intro h
        simp only [List.mem_cons, not_or] at h
        cases c with
        | zero => exact absurd rfl h.1
        | succ c => simp [Verif.Env.cstr, ih h.2]
    simp [procAddress, SV.data, this _ h0]
  · obtain ⟨y, rfl⟩ := Option.ne_none_iff_exists'.1 hx
    simp only [nstep, step, hi, Option.map_some, Option.some.injEq] at ht
    subst ht
    refine ⟨hi, rfl, ?_⟩
    unfold procAddress
    rw [if_neg (by simp)]
    cases f.data with
    | none => rfl
    | some n => simp [dlsym, doClose, dlclose]

/-! ### The hypotheses can be met -/

/-- A system with one library "a" (97), which has the symbol "f" (102) at 1000; the program has an "f" at 5. -/
def demoSys : Sys where
  libs n := if n = [97] then some fun f => if f = [102] then some 1000 else none else none
  global f := if f = [102] then some 5 else none

def nameA : SV := ⟨[97, 0], 0, 1⟩
def nameB : SV := ⟨[98, 0], 0, 1⟩
def nameF : SV := ⟨[102, 0], 0, 1⟩

example : nameA.Terminated ∧ nameB.Terminated ∧ nameF.Terminated := by
  refine ⟨⟨rfl, by decide, ?_⟩, ⟨rfl, by decide, ?_⟩, ⟨rfl, by decide, ?_⟩⟩ <;> (unfold SV.WF; decide)

/-- Object 0 opens "a", object 1 fails to open "b", then they are swapped. -/
def demoRun : Option NSt :=
  (nstep demoSys (.newOpen 0 nameA) .init).bind fun s => (nstep demoSys (.newOpen 1 nameB) s).bind fun s =>
    nstep demoSys (.moveAssign 1 0) s

example : (demoRun.map fun s => ((s.lib.objs 1).map fun x => procAddress demoSys s false x nameF,
    (s.lib.objs 0).map fun x => procAddress demoSys s false x nameF)) =
    some (some (.addr (some 1000)), some (.addr (some 5))) := by decide +kernel

end Verif.Lib
