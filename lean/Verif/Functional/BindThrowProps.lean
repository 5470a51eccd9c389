import Verif.Functional.BindThrow

/-! # Exceptions while arguments are bound -/

set_option autoImplicit false

namespace Verif.Bind

/-! ### What a user expects

A binder is made of parts: the callable, then the bound arguments. -/

/-- All parts are made, in order. -/
def AllMade (n : Nat) (r : BRes) : Prop := r = .ok ((List.range n).map .made)

/-- The part with number `k` throws: the parts before it have been made, and destroyed again in reverse order, and the
exception reaches the caller. -/
def ThrewAt (k : Nat) (r : BRes) : Prop :=
  r = .threw ((List.range k).map .made ++ ((List.range k).map .destroyed).reverse)

/-- The exception of the first part that throws reaches the caller, and nothing is left behind; if no part throws, the
binder is made. -/
def AsExpected (parts : List Init) (r : BRes) : Prop :=
  ((∀ m ∈ parts, m.throws = false) ∧ AllMade parts.length r) ∨
  (∃ k, ∃ h : k < parts.length, parts[k].throws = true ∧ (∀ j (hj : j < k), parts[j].throws = false) ∧ ThrewAt k r)

/-! ### Lemmas -/

theorem initAll_ok {ms : List Init} (h : ∀ m ∈ ms, m.throws = false) (k : Nat) :
    initAll ms k = .ok ((List.range (k + ms.length)).map .made) := by
  induction ms generalizing k with
  | nil => rfl
  | cons m ms ih =>
    have h1 := h m (by simp)
    rw [initAll, h1, if_neg (by simp), ih (fun x hx => h x (by simp [hx]))]
    congr 3
    simp only [List.length_cons]; omega

theorem initAll_threw {ms : List Init} (k i : Nat) (hk : k < ms.length) (h1 : ms[k].throws = true)
    (h2 : ∀ j (hj : j < k), ms[j].throws = false) :
    initAll ms i = .threw ((List.range (i + k)).map .made ++ ((List.range (i + k)).map .destroyed).reverse) := by
  induction ms generalizing k i with
  | nil => simp at hk
  | cons m ms ih =>
    cases k with
    | zero =>
      have : m.throws = true := h1
      rw [initAll, this, if_pos rfl]; rfl
    | succ k =>
      have h3 : m.throws = false := h2 0 (by omega)
      rw [initAll, h3, if_neg (by simp)]
      have := ih k (i + 1) (by simpa using hk) (by simpa using h1) (fun j hj => by
        have := h2 (j + 1) (by omega); simpa using this)
      rw [this]
      have e : i + 1 + k = i + (k + 1) := by omega
      rw [e]

/-- Either no part throws or there is a first one that does. -/
theorem first_throw (ms : List Init) : (∀ m ∈ ms, m.throws = false) ∨
    ∃ k, ∃ h : k < ms.length, ms[k].throws = true ∧ ∀ j (hj : j < k), ms[j].throws = false := by
  induction ms with
  | nil => left; simp
  | cons m ms ih =>
    cases hm : m.throws with
    | true => exact .inr ⟨0, by simp, hm, fun j hj => absurd hj (by omega)⟩
    | false =>
      rcases ih with h | ⟨k, hk, h1, h2⟩
      · left; simpa [hm] using h
      · refine .inr ⟨k + 1, by simpa using hk, by simpa using h1, fun j hj => ?_⟩
        cases j with
        | zero => exact hm
        | succ j => simpa using h2 j (by omega)

theorem nothrowStored_of {m : Init}
    (h : (if m.q.rvalue = true ∧ m.q.const = false then m.t.nothrowMove else m.t.nothrowCopy) = false) :
    nothrowStored m = false := by
  unfold nothrowStored Init.moves
  cases hr : m.q.rvalue <;> cases hc : m.q.const <;> simpa [hr, hc] using h

theorem underNoexcept_expected (ms : List Init) (ne : Bool) (h : (∃ m ∈ ms, m.throws = true) → ne = false) :
    AsExpected ms (underNoexcept ne (initAll ms 0)) := by
  rcases first_throw ms with h1 | ⟨k, hk, h1, h2⟩
  · left
    refine ⟨h1, ?_⟩
    rw [initAll_ok h1]
    simp [AllMade, underNoexcept]
  · right
    refine ⟨k, hk, h1, h2, ?_⟩
    rw [initAll_threw k 0 hk h1 h2, h ⟨_, List.getElem_mem hk, h1⟩]
    simp [ThrewAt, underNoexcept]

theorem underNoexcept_terminated (ms : List Init) (h : ∃ m ∈ ms, m.throws = true) :
    underNoexcept true (initAll ms 0) = .terminated := by
  rcases first_throw ms with h1 | ⟨k, hk, h1, h2⟩
  · obtain ⟨m, hm, h3⟩ := h
    rw [h1 m hm] at h3; cases h3
  · rw [initAll_threw k 0 hk h1 h2]; rfl

/-! ### C111 -/

/-- C111 for `bind_back`. If copying or moving the callable or an argument throws while it is bound, the exception reaches
the caller and the parts made so far are destroyed, each once; otherwise all parts are made. -/
theorem bind_back_throw (f : Init) (args : List Init) (h : ∀ m ∈ f :: args, m.Legal) :
    AsExpected (f :: args) (bindBackT f args) := by
  apply underNoexcept_expected
  rintro ⟨m, hm, h1⟩
  have h2 := h m hm h1
  have h3 : nothrowStored m = false := nothrowStored_of h2
  rcases List.mem_cons.1 hm with rfl | hm
  · simp [h3]
  · rw [Bool.and_eq_false_iff]
    right
    rw [List.all_eq_false]
    exact ⟨m, hm, by simp [h3]⟩

/-- C111 for `bind_front`, what holds. The full claim is that of `bind_back`; it holds if no argument whose copy throws
was given as const. -/
theorem bind_front_throw_partial (f : Init) (args : List Init) (h : ∀ m ∈ f :: args, m.Legal)
    (hc : ∀ m ∈ args, m.throws = true → m.q.const = false) : AsExpected (f :: args) (bindFrontT f args) := by
  apply underNoexcept_expected
  rintro ⟨m, hm, h1⟩
  have h2 := h m hm h1
  rcases List.mem_cons.1 hm with rfl | hm
  · have h3 : nothrowStored m = false := nothrowStored_of h2
    simp [h3]
  · rw [Bool.and_eq_false_iff]
    right
    rw [List.all_eq_false]
    refine ⟨m, hm, ?_⟩
    have h4 := hc m hm h1
    cases hr : m.q.rvalue with
    | false => simp [nothrowDeduced, hr, h4]
    | true =>
      simp [hr, h4] at h2
      simp [nothrowDeduced, hr, h2]

/-- C111 is false for `bind_front`: if the callable's constructor cannot throw and all arguments are const lvalues, the
program ends whenever copying one of them throws. -/
theorem bind_front_throw_wrong (f : Init) (args : List Init) (hf : nothrowStored f = true)
    (hq : ∀ m ∈ args, m.q = ⟨false, true⟩) (ht : ∃ m ∈ args, m.throws = true) : bindFrontT f args = .terminated := by
  have h1 : args.all nothrowDeduced = true := by
    rw [List.all_eq_true]
    intro m hm
    simp [nothrowDeduced, hq m hm]
  unfold bindFrontT
  rw [hf, h1]
  obtain ⟨m, hm, h2⟩ := ht
  exact underNoexcept_terminated _ ⟨m, by simp [hm], h2⟩

/-- C111 for `bind_front`, exactly: the program ends if a part throws, the constructor of the callable is declared not to
throw, and every argument is a const lvalue or an rvalue of a type whose move constructor is declared not to throw; in
all other cases all is as expected. -/
theorem bind_front_throw_exact (f : Init) (args : List Init) :
    (bindFrontT f args = .terminated ↔ (∃ m ∈ f :: args, m.throws = true) ∧
      (if f.q.rvalue = true ∧ f.q.const = false then f.t.nothrowMove else f.t.nothrowCopy) = true ∧
      ∀ m ∈ args, (m.q.rvalue = false ∧ m.q.const = true) ∨ (m.q.rvalue = true ∧ m.t.nothrowMove = true)) ∧
    (bindFrontT f args ≠ .terminated → AsExpected (f :: args) (bindFrontT f args)) := by
  have hs : nothrowStored f = (if f.q.rvalue = true ∧ f.q.const = false then f.t.nothrowMove else f.t.nothrowCopy) := by
    unfold nothrowStored Init.moves
    cases f.q.rvalue <;> cases f.q.const <;> simp
  have hd : args.all nothrowDeduced = true ↔
      ∀ m ∈ args, (m.q.rvalue = false ∧ m.q.const = true) ∨ (m.q.rvalue = true ∧ m.t.nothrowMove = true) := by
    rw [List.all_eq_true]
    refine forall_congr' fun m => imp_congr_right fun _ => ?_
    unfold nothrowDeduced
    cases m.q.rvalue <;> cases m.q.const <;> cases m.t.nothrowMove <;> simp
  rw [← hs, ← hd, ← Bool.and_eq_true]
  unfold bindFrontT
  rcases first_throw (f :: args) with h1 | ⟨k, hk, h1, h2⟩
  · have hn : ¬ ∃ m ∈ f :: args, m.throws = true := by
      rintro ⟨m, hm, h⟩; rw [h1 m hm] at h; cases h
    refine ⟨⟨fun h => ?_, fun h => absurd h.1 hn⟩, fun _ => underNoexcept_expected _ _ fun h => absurd h hn⟩
    rw [initAll_ok h1] at h; cases h
  · have hy : ∃ m ∈ f :: args, m.throws = true := ⟨_, List.getElem_mem hk, h1⟩
    cases hne : (nothrowStored f && args.all nothrowDeduced) with
    | true =>
      rw [underNoexcept_terminated _ hy]
      exact ⟨⟨fun _ => ⟨hy, rfl⟩, fun _ => rfl⟩, fun h => absurd rfl h⟩
    | false =>
      refine ⟨⟨fun h => ?_, fun h => absurd h.2 (by simp)⟩, fun _ => underNoexcept_expected _ _ fun _ => rfl⟩
      rw [initAll_threw k 0 hk h1 h2] at h; cases h

/-- C111 is false for copies and moves of what `bind_front` and `bind_back` return: the program ends whenever one of the
parts throws. Nothing else goes wrong: if no part throws, all parts are made. -/
theorem binder_copy_throw_wrong (f : Init) (args : List Init) :
    binderCopyT f args = if (f :: args).any (·.throws) then .terminated
      else .ok ((List.range (args.length + 1)).map .made) := by
  by_cases h : (f :: args).any (·.throws) = true
  · rw [if_pos h]
    rw [List.any_eq_true] at h
    exact underNoexcept_terminated _ h
  · rw [if_neg h]
    have h1 : ∀ m ∈ f :: args, m.throws = false := by
      simpa using h
    unfold binderCopyT
    rw [initAll_ok h1]
    simp [underNoexcept]

/-- A type such as `std::string`: copies may throw, moves do not. -/
def stringLike : Traits := ⟨false, true⟩

/-- Two strings are bound and the copy of the second throws: given as lvalues the exception arrives, and the first is
destroyed; given as const lvalues to `bind_front` the program ends. -/
example :
    (let f : Init := ⟨⟨true, true⟩, ⟨true, false⟩, false⟩
     let a : Init := ⟨stringLike, ⟨false, false⟩, false⟩
     let b : Init := ⟨stringLike, ⟨false, false⟩, true⟩
     (∀ m ∈ [f, a, b], m.Legal) ∧
      bindFrontT f [a, b] = .threw [.made 0, .made 1, .destroyed 1, .destroyed 0]) ∧
    (let f : Init := ⟨⟨true, true⟩, ⟨true, false⟩, false⟩
     let a : Init := ⟨stringLike, ⟨false, true⟩, false⟩
     let b : Init := ⟨stringLike, ⟨false, true⟩, true⟩
     (∀ m ∈ [f, a, b], m.Legal) ∧ bindFrontT f [a, b] = .terminated ∧
      bindBackT f [a, b] = .threw [.made 0, .made 1, .destroyed 1, .destroyed 0]) := by
  refine ⟨⟨?_, by decide⟩, ⟨?_, by decide, by decide⟩⟩ <;>
  · intro m hm
    simp only [List.mem_cons, List.not_mem_nil, or_false] at hm
    rcases hm with rfl | rfl | rfl <;> simp [Init.Legal, stringLike]

end Verif.Bind
