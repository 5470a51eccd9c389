import Verif.Hal.SharedLibrary
import Mathlib.Tactic.Linarith

/-! # Properties of `SharedLibrary` -/

set_option autoImplicit false

namespace Verif.Lib

/-- Histories that use the class so that it works: `open` only on objects that hold nothing, `close` only if the next
thing that happens is an `open` on the same object. -/
inductive Careful : St → St → Prop
  | refl (s : St) : Careful s s
  | new {s t u : St} (i : Nat) : Careful s t → step (.new i) t = some u → Careful s u
  | newOpen {s t u : St} (i : Nat) (ok : Bool) : Careful s t → step (.newOpen i ok) t = some u → Careful s u
  | newMove {s t u : St} (i j : Nat) : Careful s t → step (.newMove i j) t = some u → Careful s u
  | moveAssign {s t u : St} (i j : Nat) : Careful s t → step (.moveAssign i j) t = some u → Careful s u
  | open_ {s t u : St} (i : Nat) (ok : Bool) : Careful s t → t.objs i = some none → step (.open_ i ok) t = some u →
      Careful s u
  | reopen {s t u : St} (i h : Nat) (ok : Bool) : Careful s t → t.objs i = some (some h) →
      run [.close i, .open_ i ok] t = some u → Careful s u
  | destroy {s t u : St} (i : Nat) : Careful s t → step (.destroy i) t = some u → Careful s u

/-- Every handle is either held by exactly one object and not closed, or held by none and closed once. -/
structure Inv (s : St) : Prop where
  held : ∀ i h, s.objs i = some (some h) → h < s.next ∧ s.closes h = 0
  inj : ∀ i j h, s.objs i = some (some h) → s.objs j = some (some h) → i = j
  free : ∀ h, h < s.next → (∃ i, s.objs i = some (some h)) ∨ s.closes h = 1
  fresh : ∀ h, s.next ≤ h → s.closes h = 0
  null : s.nullCloses = 0

theorem Inv.init : Inv .init := by
  constructor <;> simp [St.init]

/-- An object that holds nothing may appear, disappear or receive a new handle. -/
theorem Inv.setEmpty {s : St} (h : Inv s) {i : Nat} (hi : s.objs i = none ∨ s.objs i = some none)
    (l : Option (Option Nat)) (hl : l = none ∨ l = some none) : Inv (s.set i l) := by
  have ho : ∀ k x, (s.set i l).objs k = some (some x) ↔ s.objs k = some (some x) := by
    intro k x
    unfold St.set
    by_cases hk : k = i
    · subst hk
      rcases hi with hi | hi <;> rcases hl with hl | hl <;> simp [hi, hl]
    · simp [hk]
  refine ⟨fun k x hx => h.held k x ((ho k x).1 hx), fun k k' x h1 h2 => h.inj k k' x ((ho _ _).1 h1) ((ho _ _).1 h2),
    fun x hx => ?_, h.fresh, h.null⟩
  rcases h.free x hx with ⟨k, hk⟩ | hk
  · exact .inl ⟨k, (ho _ _).2 hk⟩
  · exact .inr hk

theorem Inv.openEmpty {s : St} (h : Inv s) {i : Nat} (hi : s.objs i = some none) (ok : Bool) : Inv (doOpen i ok s) := by
  unfold doOpen dlopen
  cases ok
  · exact h.setEmpty (.inr hi) _ (.inr rfl)
  · have ho : ∀ k x, Function.update s.objs i (some (some s.next)) k = some (some x) ↔
        (k = i ∧ x = s.next) ∨ (k ≠ i ∧ s.objs k = some (some x)) := by
      intro k x
      by_cases hk : k = i
      · subst hk; simp [eq_comm]
      · simp [hk]
    show Inv { s with next := s.next + 1, objs := Function.update s.objs i (some (some s.next)) }
    refine ⟨fun k x hx => ?_, fun k k' x h1 h2 => ?_, fun x hx => ?_, fun x hx => h.fresh x (by simp only at hx; omega),
      h.null⟩
    · rcases (ho k x).1 hx with ⟨-, rfl⟩ | ⟨-, hx⟩
      · exact ⟨Nat.lt_succ_self _, h.fresh _ (le_refl _)⟩
      · exact ⟨Nat.lt_succ_of_lt (h.held k x hx).1, (h.held k x hx).2⟩
    · rcases (ho k x).1 h1 with ⟨e0, e⟩ | ⟨-, h3⟩ <;> rcases (ho k' x).1 h2 with ⟨e1, e'⟩ | ⟨-, h2⟩
      · rw [e0, e1]
      · have := (h.held k' x h2).1; omega
      · have := (h.held k x h3).1; omega
      · exact h.inj k k' x h3 h2
    · rcases Nat.lt_succ_iff_lt_or_eq.1 hx with hx | rfl
      · rcases h.free x hx with ⟨k, hk⟩ | hk
        · exact .inl ⟨k, (ho _ _).2 (.inr ⟨fun e => by rw [e, hi] at hk; simp at hk, hk⟩)⟩
        · exact .inr hk
      · exact .inl ⟨i, (ho _ _).2 (.inl ⟨rfl, rfl⟩)⟩

/-- Two objects exchange what they hold; a place without object counts as holding nothing. -/
theorem Inv.exchange {s : St} (h : Inv s) (i j : Nat) (a b : Option (Option Nat)) (hij : i ≠ j)
    (ha : ∀ x, a = some (some x) ↔ s.objs j = some (some x)) (hb : ∀ x, b = some (some x) ↔ s.objs i = some (some x)) :
    Inv ((s.set i a).set j b) := by
  have ho : ∀ k x, ((s.set i a).set j b).objs k = some (some x) ↔
      s.objs (if k = i then j else if k = j then i else k) = some (some x) := by
    intro k x
    unfold St.set
    by_cases hk : k = i
    · subst hk; simp [hij, ha]
    · by_cases hk' : k = j
      · subst hk'; simp [hk, hb]
      · simp [hk, hk']
  refine ⟨fun k x hx => h.held _ x ((ho k x).1 hx), fun k k' x h1 h2 => ?_, fun x hx => ?_, h.fresh, h.null⟩
  · have := h.inj _ _ x ((ho k x).1 h1) ((ho k' x).1 h2)
    split at this <;> split at this <;> (try split at this) <;> (try split at this) <;> omega
  · rcases h.free x hx with ⟨k, hk⟩ | hk
    · refine .inl ⟨if k = i then j else if k = j then i else k, (ho _ _).2 ?_⟩
      rw [← hk]
      congr 1
      split <;> (try split) <;> (try split) <;> omega
    · exact .inr hk

/-- Closing what an object holds when it stops holding it. -/
theorem Inv.closeDrop {s : St} (h : Inv s) {i x : Nat} (hi : s.objs i = some (some x)) (l : Option (Option Nat))
    (hl : l = none ∨ l = some none) : Inv ((doClose (some x) s).set i l) := by
  have ho : ∀ k y, Function.update s.objs i l k = some (some y) ↔ k ≠ i ∧ s.objs k = some (some y) := by
    intro k y
    by_cases hk : k = i
    · subst hk; rcases hl with hl | hl <;> simp [hl]
    · simp [hk]
  have hx := h.held i x hi
  show Inv { s with objs := Function.update s.objs i l, closes := Function.update s.closes x (s.closes x + 1) }
  refine ⟨fun k y hy => ?_, fun k k' y h1 h2 => h.inj k k' y ((ho _ _).1 h1).2 ((ho _ _).1 h2).2, fun y hy => ?_,
    fun y hy => ?_, h.null⟩
  · obtain ⟨h1, h2⟩ := (ho k y).1 hy
    have hne : y ≠ x := by rintro rfl; exact h1 (h.inj _ _ _ h2 hi)
    refine ⟨(h.held k y h2).1, ?_⟩
    simp only [Function.update_of_ne hne]
    exact (h.held k y h2).2
  · by_cases hyx : y = x
    · subst hyx; right; simp [hx.2]
    · simp only [Function.update_of_ne hyx]
      rcases h.free y hy with ⟨k, hk⟩ | hk
      · exact .inl ⟨k, (ho _ _).2 ⟨by rintro rfl; rw [hi] at hk; exact hyx (Option.some.inj (Option.some.inj hk)).symm,
          hk⟩⟩
      · exact .inr hk
  · have hne : y ≠ x := by rintro rfl; have := hx.1; simp only at hy; omega
    simp only [Function.update_of_ne hne]
    exact h.fresh y hy

theorem set_set (s : St) (i : Nat) (a b : Option (Option Nat)) : (s.set i a).set i b = s.set i b := by
  simp [St.set]

theorem careful_inv {s : St} (h : Careful .init s) : Inv s := by
  generalize hs0 : St.init = s0 at h
  induction h with
  | refl => subst hs0; exact .init
  | new i _ hst ih =>
    rename_i t u _
    unfold step at hst
    cases hi : t.objs i with
    | some _ => simp [hi] at hst
    | none =>
      simp only [hi] at hst
      cases hst
      exact (ih).setEmpty (.inl hi) _ (.inr rfl)
  | newOpen i ok _ hst ih =>
    rename_i t u _
    unfold step at hst
    cases hi : t.objs i with
    | some _ => simp [hi] at hst
    | none =>
      simp only [hi] at hst
      cases hst
      exact ((ih).setEmpty (.inl hi) _ (.inr rfl)).openEmpty (by simp [St.set]) ok
  | newMove i j _ hst ih =>
    rename_i t u _
    unfold step at hst
    cases hi : t.objs i with
    | some _ => simp [hi] at hst
    | none =>
      cases hj : t.objs j with
      | none => simp [hi, hj] at hst
      | some l =>
        simp only [hi, hj] at hst
        cases hst
        have hij : i ≠ j := by rintro rfl; rw [hi] at hj; cases hj
        exact (ih).exchange i j _ _ hij (fun x => by rw [hj]) (fun x => by rw [hi]; simp)
  | moveAssign i j _ hst ih =>
    rename_i t u _
    unfold step at hst
    cases hi : t.objs i with
    | none => simp [hi] at hst
    | some l =>
      cases hj : t.objs j with
      | none => simp [hi, hj] at hst
      | some l' =>
        simp only [hi, hj] at hst
        cases hst
        by_cases hij : i = j
        · subst hij
          rw [set_set]
          have : t.set i (some l) = t := by
            unfold St.set
            rw [← hi, Function.update_eq_self]
          rw [this]
          exact ih
        · exact (ih).exchange i j _ _ hij (fun x => by rw [hj]) (fun x => by rw [hi])
  | open_ i ok _ hi hst ih =>
    rename_i t u _
    simp only [step, hi] at hst
    cases hst
    exact (ih).openEmpty hi ok
  | reopen i x ok _ hi hst ih =>
    rename_i t u _
    have h1 := (ih).closeDrop hi (some none) (.inr rfl)
    have h2 := h1.openEmpty (i := i) (by simp [St.set]) ok
    have e : u = doOpen i ok ((doClose (some x) t).set i (some none)) := by
      have hc : (doClose (some x) t).objs i = some (some x) := hi
      simp only [run, step, hi, hc, Option.bind_some] at hst
      cases hst
      unfold doOpen dlopen
      cases ok <;> simp [St.set, doClose, dlclose]
    rw [e]
    exact h2
  | destroy i _ hst ih =>
    rename_i t u _
    unfold step at hst
    cases hi : t.objs i with
    | none => simp [hi] at hst
    | some l =>
      simp only [hi] at hst
      cases hst
      cases l with
      | none => exact (ih).setEmpty (.inr hi) _ (.inl rfl)
      | some x => exact (ih).closeDrop hi _ (.inl rfl)

/-- C78, what holds. The full claim is "over any history of open, close, move, swap and destruction, every handle
obtained is closed exactly once, and `is_open()` reports whether a library is open". It holds for histories that open
only objects holding nothing and close only directly before opening again: no handle is closed twice, `dlclose` is
never given a null pointer, the handle of an object for which `is_open()` is true is not closed, and when no object is
left all are closed. -/
theorem shared_library_partial {s : St} (h : Careful .init s) :
    (∀ x, s.closes x ≤ 1) ∧ s.nullCloses = 0 ∧
    (∀ i l, s.objs i = some l → isOpen l = true → ∃ x, l = some x ∧ s.closes x = 0) ∧
    (∀ x, x < s.next → s.closes x = 0 → ∃ i, s.objs i = some (some x)) ∧
    ((∀ i, s.objs i = none) → ∀ x, x < s.next → s.closes x = 1) := by
  have hi := careful_inv h
  refine ⟨fun x => ?_, hi.null, fun i l h1 h2 => ?_, fun x hx h0 => ?_, fun hn x hx => ?_⟩
  · by_cases hx : x < s.next
    · rcases hi.free x hx with ⟨k, hk⟩ | hk
      · rw [(hi.held k x hk).2]; omega
      · omega
    · rw [hi.fresh x (by omega)]; omega
  · cases l with
    | none => simp [isOpen] at h2
    | some x => exact ⟨x, rfl, (hi.held i x h1).2⟩
  · rcases hi.free x hx with ⟨k, hk⟩ | hk
    · exact ⟨k, hk⟩
    · omega
  · rcases hi.free x hx with ⟨k, hk⟩ | hk
    · rw [hn k] at hk; cases hk
    · exact hk

/-- C78 is false: after `close()`, `is_open()` is still true, and the destructor closes the handle again. -/
theorem shared_library_close_wrong {s : St} {i x : Nat} (hi : s.objs i = some (some x)) :
    (∃ t, step (.close i) s = some t ∧ t.objs i = some (some x) ∧ isOpen (some x) = true ∧
      t.closes x = s.closes x + 1) ∧
    ∃ t, run [.close i, .destroy i] s = some t ∧ t.closes x = s.closes x + 2 := by
  refine ⟨⟨doClose (some x) s, by simp [step, hi], hi, rfl, by simp [doClose, dlclose]⟩, ?_⟩
  have hc : (doClose (some x) s).objs i = some (some x) := hi
  refine ⟨(doClose (some x) (doClose (some x) s)).set i none, ?_, ?_⟩
  · simp [run, step, hi, hc, isOpen]
  · simp [St.set, doClose, dlclose]

/-- A handle no object holds is never closed any more. -/
theorem lost_stays {ops : List Op} {s t : St} {x : Nat} (hx : x < s.next) (hno : ∀ i, s.objs i ≠ some (some x))
    (h : run ops s = some t) : t.closes x = s.closes x := by
  induction ops generalizing s with
  | nil => cases h; rfl
  | cons op ops ih =>
    simp only [run] at h
    cases hs : step op s with
    | none => simp [hs] at h
    | some u =>
      simp only [hs, Option.bind_some] at h
      have hset : ∀ (v : St) (i : Nat) (l : Option (Option Nat)), (∀ k, v.objs k ≠ some (some x)) →
          l ≠ some (some x) → ∀ k, (v.set i l).objs k ≠ some (some x) := by
        intro v i l hv hl k
        unfold St.set
        by_cases hk : k = i
        · subst hk; simpa using hl
        · simpa [hk] using hv k
      have hopen : ∀ (v : St) (i : Nat) (ok : Bool), x < v.next → (∀ k, v.objs k ≠ some (some x)) →
          x < (doOpen i ok v).next ∧ (∀ k, (doOpen i ok v).objs k ≠ some (some x)) ∧
          (doOpen i ok v).closes x = v.closes x := by
        intro v i ok hv hn
        unfold doOpen dlopen
        cases ok
        · exact ⟨hv, hset v i _ hn (by simp), rfl⟩
        · refine ⟨Nat.lt_succ_of_lt hv, hset { v with next := v.next + 1 } i _ hn ?_, rfl⟩
          intro e
          have := Option.some.inj (Option.some.inj e)
          omega
      have hclose : ∀ (v : St) (l : Option Nat), l ≠ some x → (doClose l v).closes x = v.closes x := by
        intro v l hl
        unfold doClose dlclose
        cases l with
        | none => rfl
        | some y => simp only; rw [Function.update_of_ne]; rintro rfl; exact hl rfl
      have key : x < u.next ∧ (∀ k, u.objs k ≠ some (some x)) ∧ u.closes x = s.closes x := by
        unfold step at hs
        cases op with
        | new i =>
          simp only at hs
          split at hs
          · cases hs; exact ⟨hx, hset s i _ hno (by simp), rfl⟩
          · cases hs
        | newOpen i ok =>
          simp only at hs
          split at hs
          · cases hs
            exact hopen _ i ok hx (hset s i _ hno (by simp))
          · cases hs
        | newMove i j =>
          simp only at hs
          split at hs
          · rename_i l _ hl
            cases hs
            exact ⟨hx, hset _ j _ (hset s i _ hno (by rw [← hl]; exact hno j)) (by simp), rfl⟩
          · cases hs
        | moveAssign i j =>
          simp only at hs
          split at hs
          · rename_i l l' hl hl'
            cases hs
            exact ⟨hx, hset _ j _ (hset s i _ hno (by rw [← hl']; exact hno j)) (by rw [← hl]; exact hno i), rfl⟩
          · cases hs
        | open_ i ok =>
          simp only at hs
          split at hs
          · cases hs; exact hopen _ i ok hx hno
          · cases hs
        | close i =>
          simp only at hs
          split at hs
          · rename_i l hl
            cases hs
            refine ⟨?_, ?_, hclose s l ?_⟩
            · unfold doClose dlclose; cases l <;> exact hx
            · unfold doClose dlclose; cases l <;> exact hno
            · rintro rfl; exact hno i hl
          · cases hs
        | destroy i =>
          simp only at hs
          split at hs
          · rename_i l hl
            cases hs
            have hl' : l ≠ some x := by rintro rfl; exact hno i hl
            split
            · refine ⟨?_, ?_, ?_⟩
              · unfold doClose dlclose; cases l <;> exact hx
              · apply hset _ i _ _ (by simp)
                unfold doClose dlclose; cases l <;> exact hno
              · exact hclose s l hl'
            · exact ⟨hx, hset s i _ hno (by simp), rfl⟩
          · cases hs
      rw [ih key.1 key.2.1 h, key.2.2]

/-- C78 is false: opening a library with an object that holds one loses the old handle: whatever happens later, it is
never closed. -/
theorem shared_library_open_wrong {s : St} (hs : Careful .init s) {i x : Nat} (hi : s.objs i = some (some x)) (ok : Bool) :
    ∃ t, step (.open_ i ok) s = some t ∧ ∀ ops u, run ops t = some u → u.closes x = 0 := by
  have hv := careful_inv hs
  have hx := hv.held i x hi
  refine ⟨doOpen i ok s, by simp [step, hi], fun ops u hu => ?_⟩
  have h1 : x < (doOpen i ok s).next ∧ (∀ k, (doOpen i ok s).objs k ≠ some (some x)) ∧
      (doOpen i ok s).closes x = s.closes x := by
    have hk : ∀ (l : Option Nat), l ≠ some x → ∀ k, Function.update s.objs i (some l) k ≠ some (some x) := by
      intro l hl k
      by_cases hk : k = i
      · subst hk; simpa using hl
      · rw [Function.update_of_ne hk]
        intro e
        exact hk (hv.inj _ _ _ e hi)
    unfold doOpen dlopen
    cases ok
    · exact ⟨hx.1, hk none (by simp), rfl⟩
    · refine ⟨Nat.lt_succ_of_lt hx.1, hk (some s.next) ?_, rfl⟩
      intro e; have := Option.some.inj e; have := hx.1; omega
  rw [lost_stays h1.1 h1.2.1 hu, h1.2.2, hx.2]

/-! ### Cases -/

section Examples

/-- Open in one object, move it to another, destroy both. -/
example : (run [.newOpen 0 true, .newMove 1 0, .destroy 0, .destroy 1] .init).map (fun s => (s.closes 0, s.next)) =
    some (1, 1) := by decide
example : ∃ s, Careful .init s ∧ s.objs 0 = some (some 0) := ⟨_, .newOpen 0 true (.refl _) rfl, rfl⟩
example : (run [.newOpen 0 true, .close 0, .destroy 0] .init).map (fun s => s.closes 0) = some 2 := by decide
example : (run [.newOpen 0 true, .open_ 0 true, .destroy 0] .init).map (fun s => (s.closes 0, s.closes 1)) =
    some (0, 1) := by decide

end Examples

end Verif.Lib
