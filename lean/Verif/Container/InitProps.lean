import Verif.Container.Init
import Verif.Functional.InitProps

/-!
# Which constructor of a container an initialisation selects

C137: a container initialised from one of its own type, or from an object of a class derived from it, is a copy, or is moved
from if that is an rvalue, whether written `C b(e)` or `C b = e`; from a range it gets the elements; and `push_back` and `insert`
take elements and ranges. Exactly what holds for `Array`, `LinkedList` and `Heap`.
-/

set_option autoImplicit false

namespace Verif.ContInit

open Verif.Types Verif.FnInit

/-- What an initialisation from an object of the type itself should do: a temporary is the new object, another rvalue is moved
from unless `const`, and the rest is copied. -/
def copyOrMove (c : Bool) : Cat → Out
  | .prvalue => .same
  | .xvalue => if c = true then .by .copy else .by .move
  | .lvalue => .by .copy

/-- What an initialisation from an object of a derived class should do. -/
def copyOrMoveBase (c : Bool) (cat : Cat) : Ctor := if c = true ∨ cat = .lvalue then .copy else .move

/-- C137 for `Array` and `Heap`: initialised from an object of their own type, in either form, they copy it, or move from it if
it is an rvalue and not `const`, whatever the elements are. -/
theorem own_type_copied (W : World) (self : Nat) (elem : Ty) (C : Cls) (hC : C = array ∨ C = heap) (c : Bool) (cat : Cat) :
    direct W C self elem ⟨.cls c false self, cat⟩ = copyOrMove c cat ∧
    copyInit W C self elem ⟨.cls c false self, cat⟩ = copyOrMove c cat := by
  rcases hC with rfl | rfl <;> cases c <;> cases cat <;>
    simp [direct, copyInit, init, elided, array, heap, choose, List.find?, key, toSelf, unlessSelf, toList, Rank.num, isConst,
      cDifferentFromSelf, deduce, removeCvref, removeRef, removeCv, copyOrMove]

/-- C137, exactly, for `LinkedList` and `LinkedList b(e)`: a temporary is the list itself, another rvalue is moved from and a
`const` lvalue copied; for the others the constructor from a range takes over if the elements can be copied. -/
theorem list_direct_exact (W : World) (self : Nat) (elem : Ty) (c : Bool) (cat : Cat) :
    direct W linkedList self elem ⟨.cls c false self, cat⟩ =
      match cat with
      | .prvalue => .same
      | .xvalue => if c = false then .by .move else if W.isRange (.cls true false self) = true then .by .range else .by .copy
      | .lvalue => if c = false ∧ W.isRange (.lref (.cls false false self)) = true then .by .range else .by .copy := by
  cases h1 : W.isRange (.lref (.cls false false self)) <;> cases h2 : W.isRange (.cls true false self) <;>
    cases h3 : W.isRange (.lref (.cls true false self)) <;> cases h4 : W.isRange (.cls false false self) <;>
    cases c <;> cases cat <;>
    simp [direct, init, elided, linkedList, choose, List.find?, key, toSelf, unlessSelf, toList, Rank.num, isConst, deduce,
      h1, h2, h3, h4]

/-- C137, exactly, for `LinkedList` and `LinkedList b = e`: only a temporary list makes a list. -/
theorem list_copy_exact (W : World) (self : Nat) (elem : Ty) (e : Expr) :
    (IsSelf self e.ty ∧ e.cat = .prvalue → copyInit W linkedList self elem e = .same) ∧
    (¬ (IsSelf self e.ty ∧ e.cat = .prvalue) → copyInit W linkedList self elem e = .illFormed) := by
  have h := elided_iff self e
  unfold copyInit init
  constructor
  · intro h'
    rw [if_pos (h.2 h')]
  · intro h'
    rw [if_neg (fun he => h' (h.1 he))]
    simp [linkedList, choose]

/-- C137 is false of `LinkedList`: no named or moved list can initialise another written `LinkedList b = e`, so that it cannot be
passed or returned by value, whatever the elements are. -/
theorem list_copy_wrong (W : World) (self : Nat) (elem : Ty) (c : Bool) (cat : Cat) (h : cat ≠ .prvalue) :
    copyInit W linkedList self elem ⟨.cls c false self, cat⟩ = .illFormed :=
  (list_copy_exact W self elem _).2 fun h' => h h'.2

/-- The part of C137 that holds for all three containers. Missing: `LinkedList b = e`, and `LinkedList b(e)` for a named list that
is not `const`, which uses the constructor from a range. -/
theorem own_type_partial (W : World) (self : Nat) (elem : Ty) (C : Cls) (hC : C = array ∨ C = heap ∨ C = linkedList) :
    direct W C self elem ⟨.cls true false self, .lvalue⟩ = .by .copy ∧
    direct W C self elem ⟨.cls false false self, .xvalue⟩ = .by .move ∧
    (∀ c, direct W C self elem ⟨.cls c false self, .prvalue⟩ = .same) := by
  rcases hC with rfl | rfl | rfl
  · exact ⟨(own_type_copied W self elem _ (.inl rfl) _ _).1, (own_type_copied W self elem _ (.inl rfl) _ _).1,
      fun _ => (own_type_copied W self elem _ (.inl rfl) _ _).1⟩
  · exact ⟨(own_type_copied W self elem _ (.inr rfl) _ _).1, (own_type_copied W self elem _ (.inr rfl) _ _).1,
      fun _ => (own_type_copied W self elem _ (.inr rfl) _ _).1⟩
  · exact ⟨by rw [list_direct_exact]; rfl, by rw [list_direct_exact]; rfl, fun c => by rw [list_direct_exact]⟩

/-- C137, exactly, for an object of a derived class that does not convert to a size or an allocator: `Array b(e)`,
`LinkedList b(e)` and both forms of `Heap` take it for a range, if the elements can be copied: nothing is moved and neither
allocator nor comparator is copied. `Array b = e` copies or moves it. -/
theorem derived_exact (W : World) (self d : Nat) (elem : Ty) (c : Bool) (cat : Cat) (hd : W.derives d self = true)
    (hne : d ≠ self) (hs : W.toSize ⟨.cls c false d, cat⟩ = none) (ha : W.toAlloc ⟨.cls c false d, cat⟩ = none) :
    let e : Expr := ⟨.cls c false d, cat⟩
    let r := if W.isRange (if cat = .lvalue then .lref e.ty else e.ty) = true then Ctor.range else copyOrMoveBase c cat
    direct W array self elem e = .by r ∧ copyInit W array self elem e = .by (copyOrMoveBase c cat) ∧
    direct W heap self elem e = .by r ∧ copyInit W heap self elem e = .by r ∧
    direct W linkedList self elem e = .by r := by
  have hne' : (self = d) = False := eq_false fun h => hne h.symm
  have hne2 : (d = self) = False := eq_false hne
  intro e r
  have hel : elided self e = false := by simp [elided, e, hne2]
  have hk1 : ∀ C, key W C self elem e .copy =
      some (8 + (if cat = .lvalue then 0 else 4) + (if c = true then 0 else 2)) := by
    intro C
    simp only [key, toSelf, e, hd, hne2]
    cases c <;> cases cat <;> rfl
  have hk2 : ∀ C, key W C self elem e .move = if c = true ∨ cat = .lvalue then none else some 8 := by
    intro C
    simp only [key, toSelf, e, hd, hne2]
    cases c <;> cases cat <;> rfl
  have hk3 : ∀ C, key W C self elem e .alloc = none ∧ key W C self elem e .size = none ∧ key W C self elem e .list = none := by
    intro C
    simp [key, unlessSelf, e, hne2, hs, ha, toList]
  have hk4 : ∀ C, key W C self elem e .range =
      if W.isRange (if cat = .lvalue then .lref e.ty else e.ty) = true then some 1 else none := by
    intro C
    have h2 : cDifferentFromSelf (deduce e) (.cls false false self) = true := by
      cases cat <;> simp [cDifferentFromSelf, deduce, e, removeCvref, removeRef, removeCv, hne']
    simp only [key, h2, Bool.or_true, Bool.and_true]
    rfl
  have l1 : direct W array self elem e = init W array self elem e [.copy, .move, .alloc, .size, .list, .range] := rfl
  have l2 : copyInit W array self elem e = init W array self elem e [.copy, .move, .list] := rfl
  have l3 : direct W heap self elem e = init W heap self elem e [.copy, .move, .range] := rfl
  have l4 : copyInit W heap self elem e = init W heap self elem e [.copy, .move, .range] := rfl
  have l5 : direct W linkedList self elem e = init W linkedList self elem e [.copy, .move, .size, .list, .range] := rfl
  have hr : r = if W.isRange (if cat = .lvalue then .lref e.ty else e.ty) = true then Ctor.range else copyOrMoveBase c cat := rfl
  clear_value r e
  rw [l1, l2, l3, l4, l5]
  simp only [init, hel, choose, List.find?, List.all, hk1, hk2, hk3, hk4, hr, copyOrMoveBase]
  generalize W.isRange (if cat = .lvalue then .lref e.ty else e.ty) = b
  cases b <;> cases c <;> cases cat <;> simp

/-- C137: a range of another type that is not one of the other arguments exactly initialises every container by its elements
with `C b(e)`; with `C b = e` only a `Heap`. -/
theorem range_exact (W : World) (self : Nat) (elem t : Ty) (cat : Cat)
    (hr : W.isRange (if cat = .lvalue then .lref t else t) = true) (ht : ∀ c v k, t = .cls c v k → k ≠ self ∧ W.derives k self = false)
    (hi : ∀ c v, t ≠ .initList c v elem) (href : NoRef t) (hc : W.converts ⟨t, cat⟩ self = false)
    (hs : W.toSize ⟨t, cat⟩ ≠ some .identity) (ha : W.toAlloc ⟨t, cat⟩ ≠ some .identity) :
    direct W array self elem ⟨t, cat⟩ = .by .range ∧ direct W linkedList self elem ⟨t, cat⟩ = .by .range ∧
    direct W heap self elem ⟨t, cat⟩ = .by .range ∧ copyInit W heap self elem ⟨t, cat⟩ = .by .range ∧
    copyInit W array self elem ⟨t, cat⟩ = .illFormed := by
  have hself : ¬ IsSelf self t := by
    rintro ⟨c, v, h⟩
    exact (ht c v self h).1 rfl
  have hel := elided_other self ⟨t, cat⟩ hself
  have hdf : cDifferentFromSelf (deduce ⟨t, cat⟩) (.cls false false self) = true := by
    by_contra hf
    exact hself ((different_iff ⟨t, cat⟩ self href).1 (by simpa using hf))
  have hk : ∀ C, key W C self elem ⟨t, cat⟩ .range = some 1 := by
    intro C
    have hr' : W.isRange (deduce ⟨t, cat⟩) = true := hr
    simp [key, hdf, hr']
  have hcp : ∀ C, key W C self elem ⟨t, cat⟩ .copy = none ∧ key W C self elem ⟨t, cat⟩ .move = none := by
    intro C
    cases t with
    | cls c v k => simp [key, toSelf, hc, (ht c v k rfl).1, (ht c v k rfl).2]
    | _ => simp [key, toSelf, hc]
  have hl : ∀ C, key W C self elem ⟨t, cat⟩ .list = none := by
    intro C
    cases t with
    | initList c v u =>
      have : u ≠ elem := fun h => hi c v (by rw [h])
      simp [key, toList, this]
    | _ => simp [key, toList]
  have hu : ∀ r, unlessSelf self ⟨t, cat⟩ r = r := by
    intro r
    cases t with
    | cls c v k => simp [unlessSelf, (ht c v k rfl).1]
    | _ => rfl
  have hsz : ∀ C, key W C self elem ⟨t, cat⟩ .size = none ∨
      ∃ k, key W C self elem ⟨t, cat⟩ .size = some k ∧ decide (1 < k) = true ∧ decide (k < 1) = false := by
    intro C
    simp only [key, hu]
    cases h : W.toSize ⟨t, cat⟩ with
    | none => exact .inl rfl
    | some r =>
      cases r
      · exact absurd h hs
      · exact .inr ⟨_, rfl, by simp [Rank.num], by simp [Rank.num]⟩
      · exact .inr ⟨_, rfl, by simp [Rank.num], by simp [Rank.num]⟩
  have hal : ∀ C, key W C self elem ⟨t, cat⟩ .alloc = none ∨
      ∃ k, key W C self elem ⟨t, cat⟩ .alloc = some k ∧ decide (1 < k) = true ∧ decide (k < 1) = false := by
    intro C
    simp only [key, hu]
    cases h : W.toAlloc ⟨t, cat⟩ with
    | none => exact .inl rfl
    | some r =>
      cases r
      · exact absurd h ha
      · exact .inr ⟨_, rfl, by simp [Rank.num], by simp [Rank.num]⟩
      · exact .inr ⟨_, rfl, by simp [Rank.num], by simp [Rank.num]⟩
  have l1 : direct W array self elem ⟨t, cat⟩ = init W array self elem ⟨t, cat⟩ [.copy, .move, .alloc, .size, .list, .range] := rfl
  have l2 : copyInit W array self elem ⟨t, cat⟩ = init W array self elem ⟨t, cat⟩ [.copy, .move, .list] := rfl
  have l3 : direct W heap self elem ⟨t, cat⟩ = init W heap self elem ⟨t, cat⟩ [.copy, .move, .range] := rfl
  have l4 : copyInit W heap self elem ⟨t, cat⟩ = init W heap self elem ⟨t, cat⟩ [.copy, .move, .range] := rfl
  have l5 : direct W linkedList self elem ⟨t, cat⟩ = init W linkedList self elem ⟨t, cat⟩ [.copy, .move, .size, .list, .range] := rfl
  rw [l1, l2, l3, l4, l5]
  refine ⟨?_, ?_, ?_, ?_, ?_⟩
  · rcases hsz array with h4 | ⟨k, h4, h4a, h4b⟩ <;> rcases hal array with h5 | ⟨l, h5, h5a, h5b⟩ <;>
      simp only [init, choose, List.find?, List.all, *] <;> simp [*]
  · rcases hsz linkedList with h4 | ⟨k, h4, h4a, h4b⟩ <;>
      simp only [init, choose, List.find?, List.all, *] <;> simp [*]
  · simp only [init, hel, choose, List.find?, hcp, hk, List.all]; simp
  · simp only [init, hel, choose, List.find?, hcp, hk, List.all]; simp
  · simp only [init, hel, choose, List.find?, hcp, hl]; simp

/-- C137, exactly, for `push_back`, `insert` and `insert_after` with one value: it is added as an element or by its elements if it
can be only one of the two. If it can be both, as a vector for an `Array` of `std::any`, the call does not compile. -/
theorem adding_exact (W : World) (e : Expr) :
    let t := if e.cat = .lvalue then Ty.lref e.ty else e.ty
    (adding W e = some .element ↔ W.toElem t = true ∧ W.isRange t = false) ∧
    (adding W e = some .range ↔ W.toElem t = false ∧ W.isRange t = true) ∧
    (adding W e = none ↔ W.toElem t = W.isRange t) := by
  intro t
  have ht : deduce e = t := rfl
  cases h1 : W.toElem t <;> cases h2 : W.isRange t <;> simp [adding, choose, List.find?, ht, h1, h2]

/-- A program in which class 1 is the container, class 2 is derived from it and class 3 is a vector; all elements can be copied.
The elements are of class 4, which converts from vectors too; numbers are sizes. -/
def demo : World where
  derives d b := d == 2 && b == 1
  converts _ _ := false
  toNull _ := false
  constructible _ _ := true
  invocable _ := false
  isRange t := match removeCvref t with
    | .cls _ _ k => k != 4
    | .array _ _ => true
    | _ => false
  toSize e := match e.ty with
    | .fund _ _ _ => some .identity
    | _ => none
  toAlloc _ := none
  toElem t := match removeCvref t with
    | .cls _ _ k => k == 3 || k == 4
    | _ => false

/-- Non-vacuity: arrays, lists and heaps from named ones, moved ones, temporaries, derived ones, vectors and numbers. -/
example : let T : Ty := .cls false false 4
    direct demo array 1 T ⟨.cls false false 1, .lvalue⟩ = .by .copy ∧
    copyInit demo array 1 T ⟨.cls false false 1, .xvalue⟩ = .by .move ∧
    direct demo array 1 T ⟨.cls false false 2, .xvalue⟩ = .by .range ∧
    copyInit demo array 1 T ⟨.cls false false 2, .xvalue⟩ = .by .move ∧
    direct demo array 1 T ⟨.cls true false 3, .lvalue⟩ = .by .range ∧
    direct demo array 1 T ⟨.fund false false .int, .prvalue⟩ = .by .size ∧
    direct demo array 1 T ⟨.initList false false T, .lvalue⟩ = .by .list ∧
    direct demo linkedList 1 T ⟨.cls false false 1, .lvalue⟩ = .by .range ∧
    direct demo linkedList 1 T ⟨.cls false false 1, .xvalue⟩ = .by .move ∧
    copyInit demo linkedList 1 T ⟨.cls false false 1, .xvalue⟩ = .illFormed ∧
    copyInit demo linkedList 1 T ⟨.cls false false 1, .prvalue⟩ = .same ∧
    copyInit demo heap 1 T ⟨.cls false false 3, .lvalue⟩ = .by .range ∧
    direct demo heap 1 T ⟨.cls true false 1, .xvalue⟩ = .by .copy := by
  decide

/-- Non-vacuity: an element, a C array of elements, a vector, which is both, and a number, which is neither. -/
example : adding demo ⟨.cls true false 4, .lvalue⟩ = some .element ∧
    adding demo ⟨.array (.cls false false 4) (some 3), .lvalue⟩ = some .range ∧
    adding demo ⟨.cls false false 3, .xvalue⟩ = none ∧ adding demo ⟨.fund false false .int, .prvalue⟩ = none := by
  decide

/-- Non-vacuity: the hypotheses of `derived_exact` and `range_exact` hold of class 2 and of class 3. -/
example : demo.derives 2 1 = true ∧ demo.toSize ⟨.cls true false 2, .lvalue⟩ = none ∧
    demo.isRange (.lref (.cls true false 3)) = true ∧ demo.derives 3 1 = false ∧
    demo.toSize ⟨.cls true false 3, .lvalue⟩ ≠ some .identity := by
  decide

end Verif.ContInit
