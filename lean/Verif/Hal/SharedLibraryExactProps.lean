import Verif.Hal.SharedLibraryProps
import Mathlib.Logic.Equiv.Basic

/-! # How often `SharedLibrary` closes each library, in every history -/

set_option autoImplicit false

namespace Verif.Lib

/-- What became of the object that held a handle. -/
inductive Fate
  /-- there still is one -/
  | held
  /-- it was destroyed -/
  | destroyed
  /-- `open` was called on it -/
  | overwritten
  deriving DecidableEq

/-- Operation `op` is called on an object that holds `x`. -/
def On (s : St) (x : Nat) (f : Nat → Op) (op : Op) : Prop := ∃ i, op = f i ∧ s.objs i = some (some x)

open Classical in
/-- A history of operations, any whatever. Kept beside the state: how often `close()` was called on an object that held
the handle, and what became of the object. -/
inductive History : St → (Nat → Nat) → (Nat → Fate) → Prop
  | init : History .init (fun _ => 0) (fun _ => .held)
  | step {s t : St} {n : Nat → Nat} {fate : Nat → Fate} (op : Op) : History s n fate → step op s = some t →
      History t (fun x => if On s x .close op then n x + 1 else n x)
        (fun x => if On s x .destroy op then .destroyed
          else if ∃ ok, On s x (.open_ · ok) op then .overwritten else fate x)

/-- Every program has a history. -/
theorem run_history {ops : List Op} : ∀ {s t : St} {n : Nat → Nat} {fate : Nat → Fate}, History s n fate →
    run ops s = some t → ∃ n' fate', History t n' fate' := by
  induction ops with
  | nil => intro s t n fate h e; cases e; exact ⟨n, fate, h⟩
  | cons op ops ih =>
    intro s t n fate h e
    obtain ⟨u, h1, h2⟩ := Option.bind_eq_some_iff.1 e
    exact ih (h.step op h1) h2

structure Exact (s : St) (n : Nat → Nat) (fate : Nat → Fate) : Prop where
  old : ∀ i x, s.objs i = some (some x) → x < s.next
  inj : ∀ i j x, s.objs i = some (some x) → s.objs j = some (some x) → i = j
  held : ∀ x, x < s.next → (fate x = .held ↔ ∃ i, s.objs i = some (some x))
  count : ∀ x, s.closes x = n x + if fate x = .destroyed then 1 else 0
  fresh : ∀ x, s.next ≤ x → fate x = .held ∧ n x = 0

/-- Objects move handles among themselves. -/
theorem Exact.moved {s t : St} {n : Nat → Nat} {fate : Nat → Fate} (h : Exact s n fate) (hn : t.next = s.next)
    (hc : t.closes = s.closes) (f : Nat → Nat)
    (hf : ∀ k x, t.objs k = some (some x) → s.objs (f k) = some (some x))
    (hi : ∀ j k x, t.objs j = some (some x) → t.objs k = some (some x) → f j = f k → j = k)
    (hs : ∀ k x, s.objs k = some (some x) → ∃ j, t.objs j = some (some x)) : Exact t n fate where
  old k x e := by rw [hn]; exact h.old _ x (hf k x e)
  inj j k x e1 e2 := hi j k x e1 e2 (h.inj _ _ x (hf j x e1) (hf k x e2))
  held x hx := by
    rw [hn] at hx
    rw [h.held x hx]
    exact ⟨fun ⟨k, e⟩ => hs k x e, fun ⟨k, e⟩ => ⟨_, hf k x e⟩⟩
  count x := by rw [hc]; exact h.count x
  fresh x hx := h.fresh x (hn ▸ hx)

/-- One object gives up its handle and may get a new one. -/
theorem Exact.put {s t : St} {n : Nat → Nat} {fate fate' : Nat → Fate} {i : Nat} (h : Exact s n fate) (l : Option (Option Nat))
    (ho : t.objs = Function.update s.objs i l)
    (hl : (t.next = s.next ∧ ∀ x, l ≠ some (some x)) ∨ t.next = s.next + 1 ∧ l = some (some s.next))
    (hfate : ∀ x, s.objs i ≠ some (some x) → fate' x = fate x)
    (hgone : ∀ x, s.objs i = some (some x) → fate' x ≠ .held)
    (hc : ∀ x, t.closes x = n x + if fate' x = .destroyed then 1 else 0) : Exact t n fate' := by
  have hle : s.next ≤ t.next := by omega
  have hlx : ∀ x, l = some (some x) → x = s.next ∧ t.next = s.next + 1 := by
    rintro x rfl
    rcases hl with ⟨_, hl⟩ | ⟨e, hl⟩
    · exact absurd rfl (hl x)
    · exact ⟨by simpa using hl, e⟩
  have hnew : ∀ x, s.next ≤ x → s.objs i ≠ some (some x) := fun x hx e => absurd (h.old i x e) (by omega)
  constructor
  · intro k x e
    rw [ho] at e
    by_cases hk : k = i
    · subst hk; rw [Function.update_self] at e; have := hlx x e; omega
    · rw [Function.update_of_ne hk] at e; have := h.old k x e; omega
  · intro j k x e1 e2
    rw [ho] at e1 e2
    by_cases hj : j = i <;> by_cases hk : k = i
    · rw [hj, hk]
    · subst hj; rw [Function.update_self] at e1; rw [Function.update_of_ne hk] at e2
      have := hlx x e1; have := h.old k x e2; omega
    · subst hk; rw [Function.update_self] at e2; rw [Function.update_of_ne hj] at e1
      have := hlx x e2; have := h.old j x e1; omega
    · rw [Function.update_of_ne hj] at e1; rw [Function.update_of_ne hk] at e2
      exact h.inj j k x e1 e2
  · intro x hx
    by_cases hi : s.objs i = some (some x)
    · refine ⟨fun e => absurd e (hgone x hi), ?_⟩
      rintro ⟨k, e⟩
      rw [ho] at e
      have hx' := h.old i x hi
      by_cases hk : k = i
      · subst hk; rw [Function.update_self] at e; have := hlx x e; omega
      · rw [Function.update_of_ne hk] at e; exact absurd (h.inj _ _ x e hi) hk
    · rw [hfate x hi, ho]
      by_cases hx' : x < s.next
      · rw [h.held x hx']
        constructor
        · rintro ⟨k, e⟩
          have hk : k ≠ i := by rintro rfl; exact hi e
          exact ⟨k, by rw [Function.update_of_ne hk]; exact e⟩
        · rintro ⟨k, e⟩
          by_cases hk : k = i
          · subst hk; rw [Function.update_self] at e; have := hlx x e; omega
          · rw [Function.update_of_ne hk] at e; exact ⟨k, e⟩
      · have h1 : l = some (some s.next) ∧ t.next = s.next + 1 := by
          rcases hl with ⟨e, _⟩ | ⟨e, e'⟩
          · omega
          · exact ⟨e', e⟩
        have h2 : x = s.next := by omega
        refine ⟨fun _ => ⟨i, by rw [Function.update_self, h1.1, h2]⟩, fun _ => (h.fresh x (by omega)).1⟩
  · exact hc
  · intro x hx
    rw [hfate x (hnew x (by omega))]
    exact h.fresh x (by omega)

theorem exact {s : St} {n : Nat → Nat} {fate : Nat → Fate} (h : History s n fate) : Exact s n fate := by
  induction h with
  | init => constructor <;> simp [St.init]
  | @step s t n fate op h e ih =>
    cases op with
    | new i =>
      simp only [On, reduceCtorEq, false_and, exists_false, if_false]
      simp only [step] at e
      split at e
      · rename_i hi
        cases e
        exact ih.put (i := i) (some none) rfl (.inl ⟨rfl, by simp⟩) (fun _ _ => rfl) (fun x hx => by simp [hi] at hx) ih.count
      · cases e
    | newOpen i ok =>
      simp only [On, reduceCtorEq, false_and, exists_false, if_false]
      simp only [step] at e
      split at e
      · rename_i hi
        cases e
        refine ih.put (i := i) (some (if ok then some s.next else none)) ?_ ?_ (fun _ _ => rfl) (fun x hx => by simp [hi] at hx) ?_
        · cases ok <;> simp [doOpen, dlopen, St.set]
        · cases ok
          · exact .inl ⟨rfl, by simp⟩
          · exact .inr ⟨rfl, rfl⟩
        · cases ok <;> exact ih.count
      · cases e
    | newMove i j =>
      simp only [On, reduceCtorEq, false_and, exists_false, if_false]
      simp only [step] at e
      split at e
      · rename_i l hi hj
        cases e
        have hij : i ≠ j := by rintro rfl; rw [hi] at hj; cases hj
        have key : ∀ k x, ((s.set i (some l)).set j (some none)).objs k = some (some x) ↔
            (k = i ∧ l = some x) ∨ (k ≠ i ∧ k ≠ j ∧ s.objs k = some (some x)) := by
          intro k x
          simp only [St.set]
          by_cases hkj : k = j
          · subst hkj; simp [Ne.symm hij]
          · rw [Function.update_of_ne hkj]
            by_cases hki : k = i
            · subst hki; simp
            · simp [hki, hkj]
        refine ih.moved rfl rfl (fun k => if k = i then j else k) ?_ ?_ ?_
        · intro k x e
          rcases (key k x).1 e with ⟨rfl, rfl⟩ | ⟨h1, _, h3⟩
          · simpa using hj
          · simpa [h1] using h3
        · intro a b x e1 e2 e3
          rcases (key a x).1 e1 with ⟨rfl, rfl⟩ | ⟨h1, h2, h3⟩ <;> rcases (key b x).1 e2 with ⟨h4, h5⟩ | ⟨h4, h5, h6⟩
          · exact h4.symm
          · simp [h4] at e3; exact absurd e3.symm h5
          · simp [h1, h4] at e3; exact absurd e3 h2
          · simpa [h1, h4] using e3
        · intro k x e
          by_cases hk : k = j
          · subst hk; exact ⟨i, (key i x).2 (.inl ⟨rfl, by rw [hj] at e; simpa using e⟩)⟩
          · refine ⟨k, (key k x).2 (.inr ⟨?_, hk, e⟩)⟩
            rintro rfl; rw [hi] at e; cases e
      · cases e
    | moveAssign i j =>
      simp only [On, reduceCtorEq, false_and, exists_false, if_false]
      simp only [step] at e
      split at e
      · rename_i l l' hi hj
        cases e
        have key : ∀ k, ((s.set i (some l')).set j (some l)).objs k = s.objs (Equiv.swap i j k) := by
          intro k
          simp only [St.set]
          by_cases hkj : k = j
          · subst hkj; simp [hi]
          · rw [Function.update_of_ne hkj]
            by_cases hki : k = i
            · subst hki; simp [hj]
            · rw [Function.update_of_ne hki, Equiv.swap_apply_of_ne_of_ne hki hkj]
        refine ih.moved rfl rfl (Equiv.swap i j) ?_ ?_ ?_
        · intro k x e; rw [← key]; exact e
        · intro a b x _ _ e3; exact (Equiv.swap i j).injective e3
        · intro k x e; exact ⟨Equiv.swap i j k, by rw [key]; simpa using e⟩
      · cases e
    | open_ i ok =>
      simp only [step] at e
      split at e
      · rename_i hi
        cases e
        have hon : ∀ x, (∃ ok', On s x (.open_ · ok') (.open_ i ok)) ↔ s.objs i = some (some x) := by
          intro x; simp [On]
        simp only [hon]
        simp only [On, reduceCtorEq, false_and, exists_false, if_false]
        refine ih.put (i := i) (some (if ok then some s.next else none)) ?_ ?_ ?_ ?_ ?_
        · cases ok <;> simp [doOpen, dlopen, St.set]
        · cases ok
          · exact .inl ⟨rfl, by simp⟩
          · exact .inr ⟨rfl, rfl⟩
        · intro x hx; simp [hx]
        · intro x hx; simp [hx]
        · intro x
          have hc : (doOpen i ok s).closes x = s.closes x := by cases ok <;> rfl
          rw [hc, ih.count]
          by_cases hx : s.objs i = some (some x)
          · have := (ih.held x (ih.old i x hx)).2 ⟨i, hx⟩
            simp [hx, this]
          · simp [hx]
      · cases e
    | close i =>
      simp only [step] at e
      split at e
      · rename_i l hi
        cases e
        have hon : ∀ x, On s x .close (.close i) ↔ s.objs i = some (some x) := by
          intro x; simp [On]
        simp only [hon]
        simp only [On, reduceCtorEq, false_and, exists_false, if_false]
        have ho : (doClose l s).objs = s.objs := by cases l <;> rfl
        have hn : (doClose l s).next = s.next := by cases l <;> rfl
        constructor
        · rw [ho, hn]; exact ih.old
        · rw [ho]; exact ih.inj
        · rw [ho, hn]; exact ih.held
        · intro x
          rw [hi]
          cases l with
          | none => simpa [doClose, dlclose] using ih.count x
          | some h =>
            simp only [doClose, dlclose, Option.some.injEq]
            have hc := ih.count x
            by_cases hx : x = h
            · subst hx; simp only [Function.update_self, if_true]; omega
            · rw [Function.update_of_ne hx, if_neg (Ne.symm hx)]; exact hc
        · intro x hx
          rw [hn] at hx
          have : s.objs i ≠ some (some x) := fun e => absurd (ih.old i x e) (by omega)
          simpa [this] using ih.fresh x hx
      · cases e
    | destroy i =>
      simp only [step] at e
      split at e
      · rename_i l hi
        cases e
        have hon : ∀ x, On s x .destroy (.destroy i) ↔ s.objs i = some (some x) := by
          intro x; simp [On]
        simp only [hon]
        simp only [On, reduceCtorEq, false_and, exists_false, if_false]
        refine ih.put (i := i) none ?_ ?_ ?_ ?_ ?_
        · cases l <;> rfl
        · cases l <;> exact .inl ⟨rfl, by simp⟩
        · intro x hx; simp [hx]
        · intro x hx; simp [hx]
        · intro x
          rw [hi]
          have hc := ih.count x
          cases l with
          | none => simpa [isOpen, St.set] using hc
          | some h =>
            simp only [isOpen, Option.isSome_some, if_true, doClose, dlclose, St.set, Option.some.injEq]
            by_cases hx : x = h
            · subst hx
              have := (ih.held x (ih.old i x hi)).2 ⟨i, hi⟩
              simp [this] at hc
              simp [hc]
            · rw [Function.update_of_ne hx, if_neg (Ne.symm hx)]; exact hc
      · cases e

/-- C78, exactly, for every history: a library is held by at most one object; it was closed as often as `close()` was
called on its holder, and once more if its holder was destroyed, but not if `open` was called on its holder. So, when
no object holds it any more, it was closed exactly once just if `close()` was never called and its holder was
destroyed, or `close()` was called once and its holder opened another. -/
theorem shared_library_exact {s : St} {n : Nat → Nat} {fate : Nat → Fate} (h : History s n fate) {x : Nat} (hx : x < s.next) :
    (∀ i j, s.objs i = some (some x) → s.objs j = some (some x) → i = j) ∧
    (fate x = .held ↔ ∃ i, s.objs i = some (some x)) ∧
    s.closes x = (if fate x = .destroyed then n x + 1 else n x) ∧
    ((∀ i, s.objs i ≠ some (some x)) →
      (s.closes x = 1 ↔ (n x = 0 ∧ fate x = .destroyed) ∨ (n x = 1 ∧ fate x = .overwritten))) := by
  have E := exact h
  have hc := E.count x
  have hh := E.held x hx
  refine ⟨fun i j => E.inj i j x, hh, by split <;> simp_all, fun hno => ?_⟩
  have hf : fate x ≠ .held := fun e => by obtain ⟨i, hi⟩ := hh.1 e; exact hno i hi
  cases e : fate x with
  | held => exact absurd e hf
  | destroyed => simp [e] at hc; simp [hc]
  | overwritten => simp [e] at hc; simp [hc]

/-- C78, exactly: `is_open()` tells that a library is open, that is, opened and not closed yet, just if `close()` was not
called on the object that holds it. -/
theorem shared_library_is_open_exact {s : St} {n : Nat → Nat} {fate : Nat → Fate} (h : History s n fate) {i : Nat}
    {l : Option Nat} (hi : s.objs i = some l) :
    (isOpen l = true ↔ ∃ x, l = some x ∧ x < s.next ∧ s.closes x = n x) ∧
    ((isOpen l = true ↔ ∃ x, l = some x ∧ s.closes x = 0) ↔ ∀ x, l = some x → n x = 0) := by
  have E := exact h
  cases l with
  | none => simp [isOpen]
  | some x =>
    have hx := E.old i x hi
    have hf := (E.held x hx).2 ⟨i, hi⟩
    have hc : s.closes x = n x := by simpa [hf] using E.count x
    simp [isOpen, hx, hc]

open Classical in
/-- C78 is false: `close()` on an object that holds nothing, say because opening failed, gives a null pointer to the system.
No other operation does. -/
theorem shared_library_null_wrong {s t : St} {op : Op} (h : step op s = some t) :
    t.nullCloses = if ∃ i, op = .close i ∧ s.objs i = some none then s.nullCloses + 1 else s.nullCloses := by
  cases op with
  | new i => simp only [step] at h; split at h <;> cases h; simp [St.set]
  | newOpen i ok => simp only [step] at h; split at h <;> cases h; cases ok <;> simp [doOpen, dlopen, St.set]
  | newMove i j => simp only [step] at h; split at h <;> cases h; simp [St.set]
  | moveAssign i j => simp only [step] at h; split at h <;> cases h; simp [St.set]
  | open_ i ok => simp only [step] at h; split at h <;> cases h; cases ok <;> simp [doOpen, dlopen, St.set]
  | close i =>
    simp only [step] at h; split at h <;> cases h
    rename_i l hl
    cases l <;> simp [doClose, dlclose, hl]
  | destroy i =>
    simp only [step] at h; split at h <;> cases h
    rename_i l hl
    cases l <;> simp [doClose, dlclose, isOpen, St.set]

/-! ### Cases -/

section Examples

/-- An object opens a library, closes it and opens another: the first is closed once, as it should. -/
example : ∃ s n fate, History s n fate ∧ 0 < s.next ∧ s.closes 0 = 1 ∧ s.objs 0 = some (some 1) := by
  have h1 := History.init.step (.newOpen 0 true) rfl
  have h2 := h1.step (.close 0) rfl
  have h3 := h2.step (.open_ 0 true) rfl
  exact ⟨_, _, _, h3, by decide, by decide, rfl⟩

/-- Opening fails, and the object is closed nevertheless. -/
example : ((run [.newOpen 0 false, .close 0] .init).map fun s => s.nullCloses) = some 1 := by decide

end Examples

end Verif.Lib
