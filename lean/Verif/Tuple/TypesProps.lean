import Verif.Tuple.Types
import Mathlib.Tactic.Push

/-!
# The types of tuples and of their elements

C136: the `i`-th element type of a tuple is the `i`-th type it was declared with, and `get`, structured bindings, the concepts
and `tuple_cat` agree with that. Of the code this is false for `const` and `volatile` elements that are no classes.
-/

set_option autoImplicit false

namespace Verif.TupTypes

open Verif.Types

/-- Neither a class nor a reference, array or function. -/
def Scalar (t : Ty) : Prop :=
  (∃ c v f, t = .fund c v f) ∨ (∃ c v i s u, t = .enum c v i s u) ∨ (∃ c v p, t = .ptr c v p) ∨ (∃ c v i p, t = .memPtr c v i p)

/-- The same type up to qualifiers, which are those given. -/
def SameBut (t u : Ty) (c v : Bool) : Prop := removeCv t = removeCv u ∧ cvOf t = (c, v)

/-- What `std::tuple_element` should say of a `Tuple` or `Pair`. -/
def declared : Tup → List Ty
  | .tuple ts => ts
  | .pair a b => [a, b]

theorem member_declared (T : Tup) (i : Nat) : T.member i = (declared T)[i]? := by
  cases T with
  | tuple ts => rfl
  | pair a b =>
    rcases i with _ | _ | i
    · rfl
    · rfl
    · simp [Tup.member, declared]

theorem size_declared (T : Tup) : T.size = (declared T).length := by cases T <;> rfl

/-- C136: a tuple can be instantiated exactly if no element is `void`, a function or an array; a pair can have arrays. Its
size is the number of its elements. -/
theorem tuple_well_formed_exact (ts : List Ty) (a b : Ty) :
    ((Tup.tuple ts).wellFormed = true ↔
      ∀ t ∈ ts, (∀ c v, t ≠ .fund c v .void) ∧ (∀ i, t ≠ .fn i) ∧ ∀ u n, t ≠ .array u n) ∧
    ((Tup.pair a b).wellFormed = true ↔
      ∀ t ∈ [a, b], (∀ c v, t ≠ .fund c v .void) ∧ ∀ i, t ≠ .fn i) ∧
    (Tup.tuple ts).size = ts.length ∧ (Tup.pair a b).size = 2 := by
  have hm : ∀ t, memberOk t = true ↔ (∀ c v, t ≠ .fund c v .void) ∧ ∀ i, t ≠ .fn i := by
    intro t
    cases t with
    | fund c v f => cases f <;> simp [memberOk]
    | _ => simp [memberOk]
  refine ⟨?_, ?_, rfl, rfl⟩
  · simp only [Tup.wellFormed, List.all_eq_true, Bool.and_eq_true]
    refine forall_congr' fun t => imp_congr_right fun _ => ?_
    rw [hm t, and_assoc]
    refine and_congr_right fun _ => ?_
    cases t <;> simp [callType]
  · simp [Tup.wellFormed, hm]

/-- C136, the part that holds: the element types of a pair are those declared, and so are those of a tuple that are classes or
references, or have no qualifiers. -/
theorem tuple_element_partial (T : Tup) (hw : T.wellFormed = true) (i : Nat) (t : Ty) (hi : (declared T)[i]? = some t)
    (h : (∃ a b, T = .pair a b) ∨ ¬ Scalar t ∨ cvOf t = (false, false)) : T.element i = some t := by
  cases T with
  | pair a b =>
    rw [← member_declared] at hi
    rcases i with _ | _ | i
    · exact hi
    · exact hi
    · simp [Tup.member] at hi
  | tuple ts =>
    have hi' : ts[i]? = some t := hi
    have hwt := (tuple_well_formed_exact ts t t).1.1 hw t (List.mem_of_getElem? hi')
    simp only [Tup.element, hi', Option.bind_eq_bind, Option.bind_some]
    rcases h with ⟨a, b, h⟩ | h | h
    · cases h
    · cases t with
      | fund c v f => exact absurd (.inl ⟨_, _, _, rfl⟩) h
      | enum c v i s u => exact absurd (.inr (.inl ⟨_, _, _, _, _, rfl⟩)) h
      | ptr c v p => exact absurd (.inr (.inr (.inl ⟨_, _, _, rfl⟩))) h
      | memPtr c v i p => exact absurd (.inr (.inr (.inr ⟨_, _, _, _, rfl⟩))) h
      | array u n => exact absurd rfl (hwt.2.2 u n)
      | fn k => exact absurd rfl (hwt.2.1 k)
      | _ => rfl
    · cases t with
      | array u n => exact absurd rfl (hwt.2.2 u n)
      | fn k => exact absurd rfl (hwt.2.1 k)
      | fund c v f => simp only [cvOf, Prod.mk.injEq] at h; rw [h.1, h.2]; rfl
      | enum c v i s u => simp only [cvOf, Prod.mk.injEq] at h; rw [h.1, h.2]; rfl
      | ptr c v p => simp only [cvOf, Prod.mk.injEq] at h; rw [h.1, h.2]; rfl
      | memPtr c v i p => simp only [cvOf, Prod.mk.injEq] at h; rw [h.1, h.2]; rfl
      | _ => rfl

/-- C136 is false of the code for the other elements of a tuple: an element type that is neither a class nor a reference is
reported without its qualifiers. -/
theorem tuple_element_wrong (ts : List Ty) (i : Nat) (t : Ty) (hi : ts[i]? = some t) (hs : Scalar t)
    (hq : cvOf t ≠ (false, false)) :
    ∃ u, (Tup.tuple ts).element i = some u ∧ u ≠ t ∧ SameBut u t false false := by
  simp only [Tup.element, hi, Option.bind_eq_bind, Option.bind_some]
  rcases hs with ⟨c, v, f, rfl⟩ | ⟨c, v, k, s, w, rfl⟩ | ⟨c, v, p, rfl⟩ | ⟨c, v, k, p, rfl⟩
  all_goals
    refine ⟨_, rfl, ?_, rfl, rfl⟩
    intro h
    apply hq
    simp only [Ty.fund.injEq, Ty.enum.injEq, Ty.ptr.injEq, Ty.memPtr.injEq] at h
    simp only [cvOf]
    rw [← h.1, ← h.2.1]

/-- The object types: not a reference or function, and no array of those. -/
def Obj : Ty → Prop
  | .lref _ => False
  | .rref _ => False
  | .fn _ => False
  | .array t _ => Obj t
  | _ => True

theorem addConst_same (t : Ty) (h : Obj t) : SameBut (addConst t) t true (cvOf t).2 := by
  induction t with
  | array u n ih =>
    have := ih h
    exact ⟨by simp only [addConst, removeCv]; rw [this.1], by simp only [addConst, cvOf]; exact this.2⟩
  | lref u => exact h.elim
  | rref u => exact h.elim
  | fn k => exact h.elim
  | _ => exact ⟨rfl, rfl⟩

/-- C136: what `get` returns. For an element that is no reference: a reference of the kind of the argument, `const` for a
`const` argument, except that a `const` rvalue gives an lvalue. For an lvalue reference: that, always. For an rvalue
reference: an lvalue; from an rvalue that is not `const`, `get` does not compile. An index out of range never compiles. -/
theorem tuple_get_exact (T : Tup) (i : Nat) (t : Ty) (hi : (declared T)[i]? = some t) :
    (Obj t →
      T.get i .lvalue = some (.lref t) ∧ T.get i .rvalue = some (.rref t) ∧
      ∃ u, SameBut u t true (cvOf t).2 ∧ T.get i .constLvalue = some (.lref u) ∧ T.get i .constRvalue = some (.lref u)) ∧
    (∀ u, t = .lref u → ∀ a, T.get i a = some (.lref u)) ∧
    (∀ u, t = .rref u → ∀ a, T.get i a = if a = .rvalue then none else some (.lref u)) ∧
    (∀ a j, (declared T).length ≤ j → T.get j a = none) := by
  have hget : ∀ a, T.get i a = getType a t := by
    intro a
    simp [Tup.get, member_declared, hi]
  refine ⟨fun ho => ?_, ?_, ?_, ?_⟩
  · have h1 : addLref t = .lref t := by cases t <;> first | rfl | exact ho.elim
    have h2 : getType .rvalue t = some (.rref t) := by cases t <;> first | rfl | exact ho.elim
    have h3 : addLref (addConst t) = .lref (addConst t) := by cases t <;> first | rfl | exact ho.elim
    refine ⟨by rw [hget, ← h1]; rfl, by rw [hget, h2], addConst t, addConst_same t ho, ?_, ?_⟩
    · rw [hget, ← h3]; rfl
    · rw [hget, ← h3]; rfl
  · rintro u rfl a
    rw [hget]
    cases a <;> rfl
  · rintro u rfl a
    rw [hget]
    cases a <;> rfl
  · intro a j hj
    simp [Tup.get, member_declared, List.getElem?_eq_none hj]

/-- The element types as `std::tuple_element` reports them, and the members, of a tuple or pair that can be instantiated. -/
theorem element_cases (T : Tup) (hw : T.wellFormed = true) (i : Nat) (t : Ty) (hi : (declared T)[i]? = some t) :
    ∃ e, T.element i = some e ∧ ((e = t ∧ ((∃ a b, T = .pair a b) ∨ ¬ Scalar t ∨ cvOf t = (false, false))) ∨
      ((∃ ts, T = .tuple ts) ∧ Scalar t ∧ Scalar e ∧ SameBut e t false false)) := by
  by_cases h : (∃ a b, T = .pair a b) ∨ ¬ Scalar t ∨ cvOf t = (false, false)
  · exact ⟨t, tuple_element_partial T hw i t hi h, .inl ⟨rfl, h⟩⟩
  · push Not at h
    obtain ⟨h1, hs, hq⟩ := h
    cases T with
    | pair a b => exact absurd rfl (h1 a b)
    | tuple ts =>
      obtain ⟨u, hu, -, hsame⟩ := tuple_element_wrong ts i t hi hs hq
      refine ⟨u, hu, .inr ⟨⟨ts, rfl⟩, hs, ?_, hsame⟩⟩
      have hi' : ts[i]? = some t := hi
      simp only [Tup.element, hi', Option.bind_eq_bind, Option.bind_some] at hu
      rcases hs with ⟨c, v, f, rfl⟩ | ⟨c, v, k, s, w, rfl⟩ | ⟨c, v, p, rfl⟩ | ⟨c, v, k, p, rfl⟩
      · cases hu; exact .inl ⟨_, _, _, rfl⟩
      · cases hu; exact .inr (.inl ⟨_, _, _, _, _, rfl⟩)
      · cases hu; exact .inr (.inr (.inl ⟨_, _, _, rfl⟩))
      · cases hu; exact .inr (.inr (.inr ⟨_, _, _, _, rfl⟩))

theorem scalar_forms (t : Ty) (h : Scalar t) : addLref t = .lref t ∧ addRref t = .rref t ∧ getType .rvalue t = some (.rref t) ∧
    addLref (addConst t) = .lref (addConst t) ∧ SameBut (addConst t) t true (cvOf t).2 := by
  rcases h with ⟨c, v, f, rfl⟩ | ⟨c, v, k, s, w, rfl⟩ | ⟨c, v, p, rfl⟩ | ⟨c, v, k, p, rfl⟩ <;>
    exact ⟨rfl, rfl, rfl, rfl, rfl, rfl⟩

theorem binds_self (t : Ty) : binds.covers t t = true := by simp [binds.covers]

theorem covers_iff (t u : Ty) (c v : Bool) (h : SameBut t u c v) :
    binds.covers t u = true ↔ ((cvOf u).1 = true → c = true) ∧ ((cvOf u).2 = true → v = true) := by
  obtain ⟨h1, h2⟩ := h
  unfold binds.covers
  rw [decide_eq_true h1, h2]
  cases (cvOf u).1 <;> cases (cvOf u).2 <;> simp

theorem covers_addConst (t : Ty) : binds.covers (addConst t) t = true := by
  induction t with
  | array u n ih =>
    simp only [binds.covers, Bool.and_eq_true, decide_eq_true_eq, addConst, removeCv, cvOf] at ih ⊢
    exact ⟨⟨by rw [ih.1.1], ih.1.2⟩, ih.2⟩
  | _ => simp [binds.covers, addConst, removeCv, cvOf]

theorem addLref_lref (t : Ty) : ∃ u, addLref t = .lref u := by cases t <;> exact ⟨_, rfl⟩

theorem binds_addLref_self (t : Ty) : binds (addLref t) (addLref t) = true := by
  obtain ⟨u, hu⟩ := addLref_lref t
  rw [hu]
  exact binds_self u

theorem binds_addLref_const (t : Ty) : binds (addLref (addConst t)) (addLref t) = true := by
  cases t with
  | lref u => exact binds_self u
  | rref u => exact binds_self u
  | _ => exact covers_addConst _

theorem binds_value (t : Ty) : (match getType .rvalue t with | some g => binds (addRref t) g | none => false) = true ↔
    ∀ u, t ≠ .rref u := by
  cases t with
  | rref u => simp [getType]
  | lref u => simpa [getType, addRref, binds] using binds_self u
  | _ =>
    simp only [getType, addRref, binds, ne_eq, reduceCtorEq, not_false_eq_true, implies_true, iff_true]
    exact binds_self _

/-- C136: which elements can be bound by structured bindings. Every element of a pair can, except rvalue references by
value. Of a tuple neither can the elements that are neither classes nor references and `const` or `volatile`; with
`const auto&` only those that are `volatile` cannot. -/
theorem tuple_bindings_exact (T : Tup) (hw : T.wellFormed = true) (i : Nat) (t : Ty) (hi : (declared T)[i]? = some t) :
    (T.bind .ref i = true ↔ ((∃ ts, T = .tuple ts) → Scalar t → cvOf t = (false, false))) ∧
    (T.bind .constRef i = true ↔ ((∃ ts, T = .tuple ts) → Scalar t → (cvOf t).2 = false)) ∧
    (T.bind .value i = true ↔ ((∃ ts, T = .tuple ts) → Scalar t → cvOf t = (false, false)) ∧ ∀ u, t ≠ .rref u) := by
  have hget : ∀ a, T.get i a = getType a t := by
    intro a
    simp [Tup.get, member_declared, hi]
  obtain ⟨e, he, h⟩ := element_cases T hw i t hi
  have hv := binds_value t
  rcases h with ⟨rfl, h⟩ | ⟨ht, hs, hse, hsame⟩
  · have hc : (∃ ts, T = .tuple ts) → Scalar e → cvOf e = (false, false) := by
      rintro ⟨ts, rfl⟩ hs
      rcases h with ⟨a, b, h⟩ | h | h
      · cases h
      · exact absurd hs h
      · exact h
    refine ⟨⟨fun _ => hc, fun _ => ?_⟩, ⟨fun _ h1 h2 => ?_, fun _ => ?_⟩, ?_⟩
    · simp only [Tup.bind, he, hget, getType]
      exact binds_addLref_self e
    · rw [hc h1 h2]
    · simp only [Tup.bind, he, hget, getType]
      exact binds_addLref_self _
    · rw [and_iff_right hc, ← hv]
      simp only [Tup.bind, he, hget]
      cases getType .rvalue e <;> rfl
  · obtain ⟨f1, f2, f3, f4, f5⟩ := scalar_forms t hs
    obtain ⟨g1, g2, g3, g4, g5⟩ := scalar_forms e hse
    have hc1 := covers_iff e t false false hsame
    have hsame2 : SameBut (addConst e) (addConst t) true false := by
      refine ⟨g5.1.trans (hsame.1.trans f5.1.symm), ?_⟩
      rw [g5.2, hsame.2]
    have hc2 := covers_iff (addConst e) (addConst t) true false hsame2
    have hnr : ∀ u, t ≠ .rref u := by
      rintro u rfl
      cases f3
    have hq : (((cvOf t).1 = true → false = true) ∧ ((cvOf t).2 = true → false = true)) ↔ cvOf t = (false, false) := by
      rcases hcv : cvOf t with ⟨a, b⟩
      cases a <;> cases b <;> simp
    refine ⟨?_, ?_, ?_⟩
    · simp only [Tup.bind, he, hget, getType, f1, g1, binds]
      rw [hc1, hq]
      exact ⟨fun h _ _ => h, fun h => h ht hs⟩
    · simp only [Tup.bind, he, hget, getType, f4, g4, binds]
      rw [hc2, f5.2]
      constructor
      · intro h _ _
        by_contra hf
        exact absurd (h.2 (by simpa using hf)) (by simp)
      · intro h
        have := h ht hs
        exact ⟨fun _ => rfl, fun h' => absurd (this.symm.trans h') (by simp)⟩
    · simp only [Tup.bind, he, hget, f3, g2, binds]
      rw [hc1, hq]
      exact ⟨fun h => ⟨fun _ _ => h, hnr⟩, fun h => h.1 ht hs⟩

/-- C136: every `Pair` is `CTupleLike` and `CPairLike`; a `Tuple`, the empty one too, is `CTupleLike` exactly if no element is
`volatile` and neither a class nor a reference, and `CPairLike` if moreover it has two elements. -/
theorem tuple_like_exact (T : Tup) (hw : T.wellFormed = true) :
    (cTupleLike T = true ↔ ∀ ts, T = .tuple ts → ∀ t ∈ ts, Scalar t → (cvOf t).2 = false) ∧
    (cPairLike T = true ↔ (∀ ts, T = .tuple ts → ts.length = 2 ∧ ∀ t ∈ ts, Scalar t → (cvOf t).2 = false)) := by
  have elem : ∀ i t, (declared T)[i]? = some t →
      (cTupleElement T i = true ↔ ((∃ ts, T = .tuple ts) → Scalar t → (cvOf t).2 = false)) := by
    intro i t hi
    have hget : T.get i .lvalue = some (addLref t) := by simp [Tup.get, member_declared, hi, getType]
    obtain ⟨e, he, h⟩ := element_cases T hw i t hi
    rcases h with ⟨rfl, h⟩ | ⟨ht, hs, hse, hsame⟩
    · refine ⟨?_, fun _ => ?_⟩
      · rintro - ⟨ts, rfl⟩ hs
        rcases h with ⟨a, b, h⟩ | h | h
        · cases h
        · exact absurd hs h
        · rw [h]
      · simp only [cTupleElement, he, hget]
        exact binds_addLref_const e
    · obtain ⟨f1, f2, f3, f4, f5⟩ := scalar_forms t hs
      obtain ⟨g1, g2, g3, g4, g5⟩ := scalar_forms e hse
      have hsame2 : SameBut (addConst e) t true false := ⟨g5.1.trans hsame.1, by rw [g5.2, hsame.2]⟩
      simp only [cTupleElement, he, hget, f1, g4, binds]
      rw [covers_iff _ t true false hsame2]
      constructor
      · intro h _ _
        by_contra hf
        exact absurd (h.2 (by simpa using hf)) (by simp)
      · intro h
        have := h ht hs
        exact ⟨fun _ => rfl, fun h' => absurd (this.symm.trans h') (by simp)⟩
  have like : cTupleLike T = true ↔ ∀ ts, T = .tuple ts → ∀ t ∈ ts, Scalar t → (cvOf t).2 = false := by
    simp only [cTupleLike, List.all_eq_true, List.mem_range, size_declared]
    constructor
    · rintro h ts rfl t ht hs
      obtain ⟨i, hi, hit⟩ := List.mem_iff_getElem.1 ht
      have hi' : (declared (.tuple ts))[i]? = some t := by
        rw [List.getElem?_eq_getElem (by exact hi)]; exact congrArg some hit
      exact (elem i t hi').1 (h i hi) ⟨ts, rfl⟩ hs
    · intro h i hi
      have hi' : (declared T)[i]? = some ((declared T)[i]) := List.getElem?_eq_getElem hi
      refine (elem i _ hi').2 ?_
      rintro ⟨ts, rfl⟩ hs
      exact h ts rfl _ (List.getElem_mem hi) hs
  refine ⟨like, ?_⟩
  simp only [cPairLike, Bool.and_eq_true, decide_eq_true_eq, like]
  constructor
  · rintro ⟨h1, h2⟩ ts rfl
    exact ⟨h2, h1 ts rfl⟩
  · intro h
    refine ⟨fun ts ht => (h ts ht).2, ?_⟩
    cases T with
    | tuple ts => exact (h ts rfl).1
    | pair a b => rfl

theorem catIndices_zip (f : Nat → Nat → Option Ty) (ns : List Nat) :
    ∀ outer inner next, outer.length = inner.length →
      ((catIndices outer inner next ns).1.zip (catIndices outer inner next ns).2).map (fun p => f p.1 p.2) =
        (outer.zip inner).map (fun p => f p.1 p.2) ++
          ((ns.zipIdx next).map fun p => (List.range p.1).map fun o => f o p.2).flatten := by
  induction ns with
  | nil => intro outer inner next _; simp [catIndices]
  | cons n rest ih =>
    intro outer inner next hl
    rw [catIndices, ih _ _ _ (by simp [hl]), List.zip_append hl]
    simp only [List.map_append, List.append_assoc, List.zipIdx_cons, List.map_cons, List.flatten_cons]
    congr 2
    rw [List.zip_map_right, List.map_map]
    have : (List.range n).zip (List.range n) = (List.range n).map fun o => (o, o) := by
      rw [List.zip_eq_zipWith, List.zipWith_self]
    rw [this, List.map_map]
    simp [Function.comp_def]

/-- C136: the element types of the result of `tuple_cat` are those of the tuples, as `std::tuple_element` reports them, one
tuple after the other. -/
theorem tuple_cat_type_exact (Ts : List Tup) :
    catType Ts = (Ts.map fun T => (List.range (declared T).length).map T.element).flatten := by
  have h := catIndices_zip (fun o i => Ts[i]? >>= fun T => T.element o) (Ts.map Tup.size) [] [] 0 rfl
  unfold catType
  simp only [List.zip_nil_left, List.map_nil, List.nil_append] at h
  refine Eq.trans ?_ (h.trans ?_)
  · rfl
  · congr 1
    apply List.ext_getElem
    · simp
    · intro i h1 h2
      simp only [List.length_map, List.length_zipIdx] at h1
      simp only [List.getElem_map, List.getElem_zipIdx, Nat.zero_add, size_declared]
      rw [List.getElem?_eq_getElem h1]
      rfl

/-- Non-vacuity: a tuple of an `int`, a `const int`, a `volatile int`, a `const` class, a reference and an rvalue reference. -/
def sample : Tup := .tuple [.fund false false .int, .fund true false .int, .fund false true .int, .cls true false 0,
  .lref (.fund true false .int), .rref (.cls false false 0)]

example : sample.wellFormed = true ∧ sample.element 1 = some (.fund false false .int) ∧
    sample.element 3 = some (.cls true false 0) ∧ sample.get 1 .lvalue = some (.lref (.fund true false .int)) ∧
    sample.get 3 .constRvalue = some (.lref (.cls true false 0)) ∧ sample.get 5 .rvalue = none ∧
    cTupleLike sample = false ∧ sample.bind .ref 0 = true ∧ sample.bind .ref 1 = false ∧ sample.bind .constRef 1 = true ∧
    cPairLike (.tuple [.lref (.cls false false 0), .fund true false .int]) = true ∧
    cPairLike (.pair (.array (.fund false true .int) (some 3)) (.fund false true .int)) = true ∧
    (Tup.tuple [.array (.fund false false .int) (some 3)]).wellFormed = false ∧
    catType [.tuple [.fund true false .int], .tuple [], .pair (.fund true false .int) (.cls true false 0)] =
      [some (.fund false false .int), some (.fund true false .int), some (.cls true false 0)] := by decide

end Verif.TupTypes
