import Verif.Tuple.Noexcept
import Mathlib.Tactic.Common

/-! # Properties: what `noexcept` reports -/

set_option autoImplicit false

namespace Verif.Noexcept

variable {K F : Type}

/-! ### Specification -/

/-- However the user's functions behave, the program is not terminated by an exception that meets `noexcept`. -/
def Honest (W : World K F) (c : Call K F) : Prop := ∀ oracle, c.run W oracle ≠ .terminated

/-- `noexcept(call)` is true exactly if the call ends normally however the user's functions behave. -/
def Exact (W : World K F) (c : Call K F) : Prop := c.reported = true ↔ ∀ oracle, c.run W oracle = .normal

/-! ### When a call can throw -/

theorem throwsFrom_iff (W : World K F) (oracle : Nat → Bool) : ∀ (l : List (Op K F)) (i : Nat),
    throwsFrom W oracle i l = true ↔ ∃ j, ∃ h : j < l.length, l[j].safe W = false ∧ oracle (i + j) = true
  | [], i => by simp [throwsFrom]
  | o :: l, i => by
    rw [throwsFrom]
    split
    · rename_i h
      simp only [Bool.and_eq_true, Bool.not_eq_true'] at h
      simp only [true_iff]
      exact ⟨0, by simp, h⟩
    · rename_i h
      simp only [Bool.and_eq_true, Bool.not_eq_true', not_and] at h
      rw [throwsFrom_iff W oracle l (i + 1)]
      constructor
      · rintro ⟨j, hj, h1, h2⟩
        exact ⟨j + 1, by simp; omega, by simpa using h1, by rw [← h2]; congr 1; omega⟩
      · rintro ⟨j, hj, h1, h2⟩
        match j with
        | 0 => exact absurd h2 (h h1)
        | j + 1 => exact ⟨j, by simp at hj; omega, by simpa using h1, by rw [← h2]; congr 1; omega⟩

theorem safe_iff (W : World K F) (l : List (Op K F)) :
    (∀ oracle, throwsFrom W oracle 0 l = false) ↔ ∀ o ∈ l, o.safe W = true := by
  constructor
  · intro h o ho
    obtain ⟨j, hj, rfl⟩ := List.mem_iff_getElem.1 ho
    by_contra hs
    have := (throwsFrom_iff W (fun _ => true) l 0).2 ⟨j, hj, by simpa using hs, rfl⟩
    rw [h] at this
    cases this
  · intro h oracle
    by_contra ht
    obtain ⟨j, hj, h1, _⟩ := (throwsFrom_iff W oracle l 0).1 (by simpa using ht)
    rw [h _ (List.getElem_mem hj)] at h1
    cases h1

theorem normal_iff (W : World K F) (c : Call K F) : (∀ oracle, c.run W oracle = .normal) ↔ ∀ o ∈ c.ops, o.safe W = true := by
  rw [← safe_iff]
  refine forall_congr' fun oracle => ?_
  unfold Call.run
  cases throwsFrom W oracle 0 c.ops <;> cases c.reported || c.inner <;> simp

/-- A call is honest exactly if nothing can throw behind a `noexcept`. -/
theorem honest_iff (W : World K F) (c : Call K F) :
    Honest W c ↔ ((c.reported || c.inner) = true → ∀ o ∈ c.ops, o.safe W = true) := by
  rw [← safe_iff]
  unfold Honest Call.run
  cases hr : c.reported || c.inner
  · simp only [Bool.false_eq_true, if_false, false_implies, iff_true]
    intro oracle
    split <;> simp
  · simp

theorem exact_iff (W : World K F) (c : Call K F) : Exact W c ↔ (c.reported = true ↔ ∀ o ∈ c.ops, o.safe W = true) := by
  unfold Exact
  rw [normal_iff]

/-! ### Where it is right -/

/-- `swap` of pairs and tuples, `apply`, and the call of a binder that is not a const rvalue report `noexcept` exactly if nothing can
throw, and do not terminate. -/
theorem noexcept_exact (W : World K F) :
    (∀ t u, Exact W (pairSwap W t u) ∧ Honest W (pairSwap W t u)) ∧
    (∀ ts, Exact W (tupleSwap W ts) ∧ Honest W (tupleSwap W ts)) ∧
    (∀ f es, Exact W (apply W f es) ∧ Honest W (apply W f es)) ∧
    (∀ const rval f bound args, ¬(const = true ∧ rval = true) →
      Exact W (callFront W const rval f bound args) ∧ Honest W (callFront W const rval f bound args) ∧
      Exact W (callBack W const rval f bound args) ∧ Honest W (callBack W const rval f bound args)) := by
  have named_given : ∀ (const rval : Bool) (bound : List K), ¬(const = true ∧ rval = true) →
      given const rval bound = named const rval bound := by
    intro const rval bound h
    unfold given named
    cases const <;> cases rval <;> simp at h ⊢
  refine ⟨fun t u => ?_, fun ts => ?_, fun f es => ?_, fun const rval f bound args h => ?_⟩
  · simp [exact_iff, honest_iff, pairSwap, Op.safe]
  · simp [exact_iff, honest_iff, tupleSwap, Op.safe]
  · simp [exact_iff, honest_iff, apply, Op.safe]
  · simp [exact_iff, honest_iff, callFront, callBack, Op.safe, named_given const rval bound h]

/-- The other functions, except the assignment of pairs, comparisons, `bind_front`, copies of binders and the call of a const rvalue binder, do not terminate; `make_pair` is
exact where the compiler initialises aggregates from lists in parentheses. What is missing: what they report, see
`noexcept_reported_wrong`; the exceptions, see `pair_assign_wrong`, `bind_front_wrong`,
`call_const_rvalue_wrong`, `binder_copy_wrong`, `compare_wrong`. -/
theorem noexcept_honest_partial (W : World K F) :
    (∀ a b, Honest W (makePair W a b) ∧ (W.paren = true → Exact W (makePair W a b))) ∧
    (∀ ts, Honest W (tupleAssign ts)) ∧ (∀ es, Honest W (makeTuple es)) ∧ (∀ f es, Honest W (bindBack W f es)) := by
  refine ⟨fun a b => ⟨?_, fun h => ?_⟩, fun ts => ?_, fun es => ?_, fun f es => ?_⟩
  · simp [honest_iff, makePair, Op.safe]
    exact fun _ h1 h2 => ⟨h1, h2⟩
  · simp [exact_iff, makePair, Op.safe, h]
  · simp [honest_iff, tupleAssign]
  · cases es <;> simp [honest_iff, makeTuple]
  · simp [honest_iff, bindBack, store, Op.safe]

/-! ### Where it is wrong -/

/-- `make_tuple` of at least one value, the assignment from another tuple, `bind_front` and `bind_back` report that they may throw,
even if nothing can throw; so does `make_pair` with a compiler that does not initialise aggregates from lists in parentheses. -/
theorem noexcept_reported_wrong (W : World K F) :
    (∀ es, es ≠ [] → (∀ e ∈ es, W.ctor e.base e = true) → ¬Exact W (makeTuple es)) ∧
    (∀ ts, (∀ p ∈ ts, W.assign p.1 p.2 = true) → ¬Exact W (tupleAssign ts)) ∧
    (∀ f es, W.fctor f.base f = true → (∀ e ∈ es, W.ctor e.base e = true) →
      ¬Exact W (bindFront W f es) ∧ ¬Exact W (bindBack W f es)) ∧
    (W.paren = false → ∀ a b, W.ctor a.base a = true → W.ctor b.base b = true → ¬Exact W (makePair W a b)) := by
  refine ⟨fun es h hs => ?_, fun ts hs => ?_, fun f es hf hs => ⟨?_, ?_⟩, fun hp a b ha hb => ?_⟩
  · cases es with
    | nil => exact (h rfl).elim
    | cons e l =>
      rw [exact_iff]
      simp only [makeTuple, List.isEmpty_cons, Bool.false_eq_true, false_iff, not_not]
      intro o ho
      obtain ⟨x, hx, rfl⟩ := List.mem_map.1 ho
      exact hs x hx
  · rw [exact_iff]
    simp only [tupleAssign, Bool.false_eq_true, false_iff, not_not]
    intro o ho
    obtain ⟨x, hx, rfl⟩ := List.mem_map.1 ho
    exact hs x hx
  · rw [exact_iff]
    simp only [bindFront, store, Bool.false_eq_true, false_iff, not_not]
    intro o ho
    rcases List.mem_cons.1 ho with rfl | ho
    · exact hf
    · obtain ⟨x, hx, rfl⟩ := List.mem_map.1 ho
      exact hs x hx
  · rw [exact_iff]
    simp only [bindBack, store, Bool.false_eq_true, false_iff, not_not]
    intro o ho
    rcases List.mem_cons.1 ho with rfl | ho
    · exact hf
    · obtain ⟨x, hx, rfl⟩ := List.mem_map.1 ho
      exact hs x hx
  · simp [exact_iff, makePair, hp, Op.safe, ha, hb]

/-- The assignment of a pair asks whether its elements can be swapped. It terminates exactly if they can be swapped without an exception
and an assignment may throw, and it reports that it may throw whenever a swap may, even if no assignment does. -/
theorem pair_assign_wrong (W : World K F) (t u : K) (e0 e1 : Ex K) :
    (Honest W (pairAssign W t u e0 e1) ↔
      (W.swap t = true → W.swap u = true → W.assign t e0 = true ∧ W.assign u e1 = true)) ∧
    (W.assign t e0 = true → W.assign u e1 = true → ¬(W.swap t = true ∧ W.swap u = true) →
      ¬Exact W (pairAssign W t u e0 e1)) := by
  refine ⟨?_, fun h0 h1 h => ?_⟩
  · simp [honest_iff, pairAssign, Op.safe]
  · simp [exact_iff, pairAssign, Op.safe, h0, h1]
    simpa using h

/-- `bind_front` terminates exactly if the construction of the callable is declared not to throw, every argument is a const lvalue, or
an rvalue of a type whose move does not throw, and the construction of one of the arguments may throw. So a const lvalue whose copy
throws terminates the program; `bind_back` passes the exception on. -/
theorem bind_front_wrong (W : World K F) (f : Ex F) (es : List (Ex K)) :
    Honest W (bindFront W f es) ↔ (W.fctor f.base f = true →
      (∀ e ∈ es, if e.rval then W.ctor e.base ⟨e.base, false, true⟩ = true else e.const = true) →
      ∀ e ∈ es, W.ctor e.base e = true) := by
  rw [honest_iff]
  simp only [bindFront, store, Bool.false_or, Bool.and_eq_true, List.all_eq_true, and_imp, List.mem_cons, forall_eq_or_imp,
    Op.safe, List.mem_map, forall_exists_index, and_imp, forall_apply_eq_imp_iff₂]
  have : ∀ e : Ex K, swapped W e = true ↔ (if e.rval then W.ctor e.base ⟨e.base, false, true⟩ = true else e.const = true) := by
    intro e; unfold swapped; cases e.rval <;> simp
  simp only [this]
  exact ⟨fun h h1 h2 => (h h1 h2).2, fun h h1 h2 => ⟨h1, h h1 h2⟩⟩

/-- A const rvalue binder reports what the call with const rvalues would do, but makes the call with const lvalues. -/
theorem call_const_rvalue_wrong (W : World K F) (f : F) (bound : List K) (args : List (Ex K)) :
    (Honest W (callFront W true true f bound args) ↔
      (W.call ⟨f, true, true⟩ (bound.map (⟨·, true, true⟩) ++ args) = true →
        W.call ⟨f, true, true⟩ (bound.map (⟨·, true, false⟩) ++ args) = true)) ∧
    (Exact W (callFront W true true f bound args) ↔
      W.call ⟨f, true, true⟩ (bound.map (⟨·, true, true⟩) ++ args) =
        W.call ⟨f, true, true⟩ (bound.map (⟨·, true, false⟩) ++ args)) ∧
    (Honest W (callBack W true true f bound args) ↔
      (W.call ⟨f, true, true⟩ (args ++ bound.map (⟨·, true, true⟩)) = true →
        W.call ⟨f, true, true⟩ (args ++ bound.map (⟨·, true, false⟩)) = true)) ∧
    (Exact W (callBack W true true f bound args) ↔
      W.call ⟨f, true, true⟩ (args ++ bound.map (⟨·, true, true⟩)) =
        W.call ⟨f, true, true⟩ (args ++ bound.map (⟨·, true, false⟩))) := by
  simp only [honest_iff, exact_iff, callFront, callBack, named, given, Op.safe]
  refine ⟨?_, ?_, ?_, ?_⟩ <;> simp <;> try exact Bool.eq_iff_iff.symm
  all_goals tauto

/-- Copying, moving and assigning a binder is always reported not to throw; it does not terminate exactly if neither the callable nor an
argument can throw. -/
theorem binder_copy_wrong (W : World K F) (rval : Bool) (f : F) (bound : List K) :
    ((binderCtor rval f bound).reported = true ∧ (binderAssign rval f bound).reported = true) ∧
    (Honest W (binderCtor rval f bound) ↔
      W.fctor f ⟨f, !rval, rval⟩ = true ∧ ∀ k ∈ bound, W.ctor k ⟨k, !rval, rval⟩ = true) ∧
    (Honest W (binderAssign rval f bound) ↔
      W.fassign f ⟨f, !rval, rval⟩ = true ∧ ∀ k ∈ bound, W.assign k ⟨k, !rval, rval⟩ = true) := by
  refine ⟨⟨rfl, rfl⟩, ?_, ?_⟩ <;> simp [honest_iff, binderCtor, binderAssign, Op.safe]

/-- Comparing tuples or pairs is always reported not to throw; it does not terminate exactly if no comparison of an element that is
reached can throw. -/
theorem compare_wrong (W : World K F) (ts : List K) (n : Nat) :
    (compare ts n : Call K F).reported = true ∧
    (Honest W (compare ts n) ↔ ∀ (i : Nat) (h : i < ts.length), i < n → W.cmp ts[i] = true) := by
  refine ⟨rfl, ?_⟩
  rw [honest_iff]
  simp only [compare, Bool.or_self, forall_const, List.mem_map, forall_exists_index, and_imp, forall_apply_eq_imp_iff₂, Op.safe]
  constructor
  · intro h i hi hn
    exact h _ (List.mem_take_iff_getElem.2 ⟨i, by omega, rfl⟩)
  · intro h k hk
    obtain ⟨i, hi, rfl⟩ := List.mem_take_iff_getElem.1 hk
    exact h i (by omega) (by omega)

/-! ### Examples -/

/-- Type 0 is like `int`; copies and comparisons of type 1 may throw, its moves and swaps do not; type 2 has a throwing swap and
assignments that do not throw. No call throws. -/
def world : World Nat Unit where
  ctor k e := k != 1 || (e.rval && !e.const)
  assign k e := k != 1 || (e.rval && !e.const)
  swap k := k != 2
  cmp k := k != 1
  call _ _ := true
  fctor _ _ := true
  fassign _ _ := true
  paren := true

/-- Assigning to a `Pair<std::string, int>` from another pair terminates if the copy throws. -/
example : (pairAssign world 1 0 ⟨1, true, false⟩ ⟨0, true, false⟩).run world (fun _ => true) = .terminated := by decide

/-- A pair with elements of the third type reports that the assignment may throw. -/
example : (pairAssign world 2 0 ⟨2, true, false⟩ ⟨0, true, false⟩).reported = false ∧
    (pairAssign world 2 0 ⟨2, true, false⟩ ⟨0, true, false⟩).run world (fun _ => true) = .normal := by decide

/-- `bind_front(f, s)` for a const string terminates if the copy throws; `bind_back(f, s)` throws; for a string that is not const both
throw. -/
example : (bindFront world ⟨(), false, false⟩ [⟨1, true, false⟩]).run world (fun _ => true) = .terminated ∧
    (bindBack world ⟨(), false, false⟩ [⟨1, true, false⟩]).run world (fun _ => true) = .exception ∧
    (bindFront world ⟨(), false, false⟩ [⟨1, false, false⟩]).run world (fun _ => true) = .exception := by decide

/-- A binder that holds a string terminates when its copy throws; it can be moved. -/
example : (binderCtor false () [1]).run world (fun _ => true) = .terminated ∧ (binderCtor true () [1]).run world (fun _ => true) = .normal ∧
    (binderAssign false () [1]).run world (fun _ => true) = .terminated := by decide

/-- Comparing pairs of a number and a type with throwing comparison terminates once the numbers are equal. -/
example : (compare [0, 1] 1).run world (fun _ => true) = .normal ∧ (compare [0, 1] 2).run world (fun _ => true) = .terminated := by decide

/-- `make_tuple(1)` reports that it may throw, `make_pair(1, 2)` that it does not, `make_pair(s, 2)` that it may. -/
example : (makeTuple [⟨0, false, true⟩] : Call Nat Unit).reported = false ∧
    (makePair world ⟨0, false, true⟩ ⟨0, false, true⟩).reported = true ∧
    (makePair world ⟨1, false, false⟩ ⟨0, false, true⟩).reported = false := by decide

/-- Swapping tuples of strings is `noexcept`, with the third type it is not. -/
example : (tupleSwap world [0, 1]).reported = true ∧ (tupleSwap world [0, 2]).reported = false ∧
    (tupleSwap world [0, 2]).run world (fun _ => true) = .exception := by decide

end Verif.Noexcept
