import Verif.Container.Constness
import Mathlib.Tactic.ByContra
import Mathlib.Tactic.Cases

/-! # Properties: what can be reached through a constant object -/

set_option autoImplicit false

namespace Verif.Constness

/-! ### Specification -/

/-- Objects that are not constant and that have members which change the elements they hold or which elements there are. -/
def Ty.Open : Ty → Prop
  | .array c | .list c | .heap c | .vec c | .mat c | .quat c | .tuple c | .data c => c = false
  | _ => False

/-- Constant objects, and iterators and views of constant elements. A constant view counts as constant, as its accessors
take it to be. -/
def Ty.Constant : Ty → Prop
  | .elem c | .ptr c | .array c | .arrayIt c | .list c | .listIt c | .node c | .heap c | .vec c | .mat c | .quat c
  | .tuple c | .data c => c = true
  | .view c e => c = true ∨ e = true
  | .constIt _ => True
  | .revIt t => t.Constant

/-- The iterators the library has: pointers, iterators of arrays and lists, and adaptors of them. -/
inductive Iterator : Ty → Prop
  | ptr (c : Bool) : Iterator (.ptr c)
  | array (c : Bool) : Iterator (.arrayIt c)
  | list (c : Bool) : Iterator (.listIt c)
  | const {t : Ty} : Iterator t → Iterator (.constIt t)
  | rev {t : Ty} : Iterator t → Iterator (.revIt t)

/-- The expressions that exist: adaptors adapt iterators. -/
def Ty.Formed : Ty → Prop
  | .constIt t | .revIt t => Iterator t
  | _ => True

/-! ### Preparations -/

/-- The types from which no element that can be modified is reached. -/
def safe (u : Uses) : Ty → Bool
  | .elem c | .ptr c | .array c | .arrayIt c | .vec c | .mat c | .quat c | .tuple c | .data c => c
  | .list c | .listIt c => c && !u.nodes
  | .node c => c && !u.nodes
  | .heap _ => true
  | .view c e => e || (c && !u.copies)
  | .constIt _ => true
  | .revIt t => refc t

theorem safe_step (u : Uses) {t s : Ty} (h : s ∈ step u t) (ht : safe u t = true) : safe u s = true := by
  obtain ⟨n, k⟩ := u
  cases t with
  | constIt t =>
    simp only [step, adapted, List.mem_append, List.mem_cons, List.not_mem_nil, or_false, apply_ite (s ∈ ·)] at h
    rcases h with (rfl | rfl | rfl) | (rfl | h) | h
    · rfl
    · rfl
    · rfl
    · rfl
    · split at h
      · subst h; rfl
      · exact h.elim
    · split at h
      · subst h; rfl
      · exact h.elim
  | revIt t =>
    have hr : refc t = true := ht
    simp only [step, adapted, List.mem_append, List.mem_cons, List.not_mem_nil, or_false, isContig,
      Bool.false_eq_true, if_false] at h
    rcases h with (((rfl | rfl | rfl) | (rfl | h)) | h) | h
    · exact hr
    · exact hr
    · exact hr
    · rfl
    · split at h
      · simp only [List.mem_cons, List.not_mem_nil, or_false] at h; subst h; exact hr
      · cases h
    · split at h
      · simp only [List.mem_cons, List.not_mem_nil, or_false] at h; subst h; rfl
      · simp only [List.mem_cons, List.not_mem_nil, or_false] at h; subst h; rfl
      · cases h
    · split at h
      · simp only [List.mem_cons, List.not_mem_nil, or_false] at h; subst h; rfl
      · cases h
  | view c e =>
    cases n <;> cases k <;> cases c <;> cases e <;> simp [step, safe] at h ht ⊢ <;>
      (rcases h with rfl | rfl | rfl | rfl <;> rfl)
  | elem c | ptr c | array c | arrayIt c | list c | listIt c | node c | heap c | vec c | mat c | quat c | tuple c | data c =>
    cases n <;> cases k <;> cases c <;> simp [step, safe, adapted, isBidi, isContig, refc] at h ht ⊢ <;>
      (rcases h with rfl | rfl | rfl | rfl | rfl | rfl | rfl <;> rfl)

theorem safe_reach {u : Uses} {t s : Ty} (h : Reach u t s) (ht : safe u t = true) : safe u s = true := by
  induction h with
  | refl => exact ht
  | call h1 _ ih => exact ih (safe_step u h1 ht)

theorem reach_one {u : Uses} {t s : Ty} (h : s ∈ step u t) : Reach u t s := .call h (.refl s)

theorem reach_trans {u : Uses} {t s r : Ty} (h1 : Reach u t s) (h2 : Reach u s r) : Reach u t r := by
  induction h1 with
  | refl => exact h2
  | call h _ ih => exact .call h (ih h2)

/-- A type that is not safe leads to an element that can be modified. -/
theorem reach_of_not_safe {u : Uses} (t : Ty) (ht : safe u t = false) : Reach u t (.elem false) := by
  obtain ⟨n, k⟩ := u
  have hl : n = true → Reach ⟨n, k⟩ (.node true) (.elem false) := by
    rintro rfl
    exact .call (s := .node false) (by simp [step]) (.call (s := .listIt false) (by simp [step])
      (reach_one (by simp [step])))
  have hi : ∀ c, safe ⟨n, k⟩ (.listIt c) = false → Reach ⟨n, k⟩ (.listIt c) (.elem false) := by
    intro c h
    cases c
    · exact reach_one (by simp [step])
    · have hn : n = true := by simpa [safe] using h
      exact .call (s := .node true) (by simp [step, hn]) (hl hn)
  cases t with
  | constIt t => simp [safe] at ht
  | revIt t =>
    have hr : refc t = false := ht
    exact reach_one (by simp [step, hr])
  | heap c => simp [safe] at ht
  | view c e =>
    have he : e = false := by cases e <;> simp [safe] at ht ⊢
    subst he
    have h0 : Reach ⟨n, k⟩ (.view false false) (.elem false) := reach_one (by simp [step])
    cases c
    · exact h0
    · have hk : k = true := by cases k <;> simp [safe] at ht ⊢
      exact .call (s := .view false false) (by simp [step, hk]) h0
  | listIt c => exact hi c ht
  | list c =>
    refine .call (s := .listIt c) (by simp [step]) (hi c ?_)
    cases c <;> simp [safe] at ht ⊢ <;> exact ht
  | node c =>
    cases c
    · exact .call (s := .listIt false) (by simp [step]) (reach_one (by simp [step]))
    · exact hl (by simpa [safe] using ht)
  | mat c =>
    have hc : c = false := by simpa [safe] using ht
    subst hc
    exact .call (s := .vec false) (by simp [step]) (reach_one (by simp [step]))
  | data c =>
    have hc : c = false := by simpa [safe] using ht
    subst hc
    exact .call (s := .ptr false) (by simp [step]) (reach_one (by simp [step]))
  | elem c =>
    have hc : c = false := by simpa [safe] using ht
    subst hc
    exact .refl _
  | ptr c | array c | arrayIt c | vec c | quat c | tuple c =>
    have hc : c = false := by simpa [safe] using ht
    subst hc
    exact reach_one (by simp [step])

theorem reach_elem_iff (u : Uses) (t : Ty) : Reach u t (.elem false) ↔ safe u t = false := by
  refine ⟨fun h => ?_, reach_of_not_safe t⟩
  cases hs : safe u t
  · rfl
  · cases safe_reach h hs

theorem refc_iff {t : Ty} (hi : Iterator t) : refc t = true ↔ t.Constant := by
  induction hi with
  | ptr c | array c | list c => simp [refc, Ty.Constant]
  | const _ _ => simp [refc, Ty.Constant]
  | rev _ ih => simpa [refc, Ty.Constant] using ih

theorem open_step (u : Uses) {t s : Ty} (h : s ∈ step u t) (hs : s.Open) : t.Open := by
  obtain ⟨n, k⟩ := u
  cases t with
  | constIt t =>
    simp only [step, adapted, List.mem_append, List.mem_cons, List.not_mem_nil, or_false, apply_ite (s ∈ ·)] at h
    rcases h with (rfl | rfl | rfl) | (rfl | h) | h
    · exact hs
    · exact hs
    · exact hs
    · exact hs
    · split at h
      · subst h; exact hs
      · exact h.elim
    · split at h
      · subst h; exact hs
      · exact h.elim
  | revIt t =>
    simp only [step, adapted, List.mem_append, List.mem_cons, List.not_mem_nil, or_false, isContig,
      Bool.false_eq_true, if_false] at h
    rcases h with (((rfl | rfl | rfl) | (rfl | h)) | h) | h
    · exact hs
    · exact hs
    · exact hs
    · exact hs
    · split at h
      · simp only [List.mem_cons, List.not_mem_nil, or_false] at h; subst h; exact hs
      · cases h
    · split at h
      · simp only [List.mem_cons, List.not_mem_nil, or_false] at h; subst h; exact hs
      · simp only [List.mem_cons, List.not_mem_nil, or_false] at h; subst h; exact hs
      · cases h
    · split at h
      · simp only [List.mem_cons, List.not_mem_nil, or_false] at h; subst h; exact hs
      · cases h
  | view c e =>
    cases n <;> cases k <;> cases c <;> cases e <;> simp [step] at h <;>
      (rcases h with rfl | rfl | rfl | rfl | rfl <;> exact hs)
  | elem c | ptr c | array c | arrayIt c | list c | listIt c | node c | heap c | vec c | mat c | quat c | tuple c | data c =>
    cases n <;> cases k <;> cases c <;> simp [step, adapted, isBidi, isContig, refc] at h <;>
      first
      | rfl
      | (rcases h with rfl | rfl | rfl | rfl | rfl | rfl | rfl <;> cases hs)

/-! ### C155 -/

/-- C155, what holds. The full claim is that no calls lead from a constant object, an iterator to constant elements or a view
of them to an element that can be modified. It holds for constant lists and their iterators if the client does not follow
the node pointers of the iterators, for constant views of elements that are not constant if they neither copy the view nor
take a part of it, and for everything else in any case. -/
theorem constant_partial (u : Uses) {t : Ty} (hf : t.Formed) (hc : t.Constant)
    (hl : (∃ c, t = .list c ∨ t = .listIt c ∨ t = .node c) → u.nodes = false)
    (hv : (∃ c, t = .view c false) → u.copies = false) : ¬ Reach u t (.elem false) := by
  rw [reach_elem_iff]
  cases t with
  | revIt t => simp [safe, (refc_iff hf).2 hc]
  | view c e => cases e <;> simp_all [safe, Ty.Constant]
  | _ => simp_all [safe, Ty.Constant]

/-- Exactly when an element that can be modified is reached: never through a heap, always through other things that are not
constant, and through constant ones in the two cases of `constant_wrong`. -/
theorem constant_exact (u : Uses) {t : Ty} (hf : t.Formed) :
    Reach u t (.elem false) ↔ (∀ c, t ≠ .heap c) ∧ (¬ t.Constant ∨
      ((∃ c, t = .list c ∨ t = .listIt c ∨ t = .node c) ∧ u.nodes = true) ∨
      ((∃ c, t = .view c false) ∧ u.copies = true)) := by
  rw [reach_elem_iff]
  cases t with
  | revIt t =>
    have := refc_iff hf
    cases h : refc t <;> simp_all [safe, Ty.Constant]
  | view c e => cases c <;> cases e <;> simp [safe, Ty.Constant]
  | list c | listIt c | node c => cases c <;> simp [safe, Ty.Constant]
  | _ => simp [safe, Ty.Constant]

/-- No calls lead to a container, vector, matrix, tuple or storage that is not constant except from one that is not: the
constant object itself cannot be changed either. -/
theorem constant_object (u : Uses) {t s : Ty} (h : Reach u t s) (ht : ¬ t.Open) : ¬ s.Open := by
  induction h with
  | refl => exact ht
  | call h1 _ ih => exact ih fun hs => ht (open_step u h1 hs)

/-- C155 is false for lists and views. From an iterator of a constant list, `LinkedList<T>::iterator(it.current_node->next)`
is an iterator that modifies the next element; the client needs no cast. From a constant view, a copy, `subview`, `first`
and `last` are views that modify the elements the constant one does not let them modify. -/
theorem constant_wrong (b : Bool) :
    (Ty.list true).Constant ∧ Reach ⟨true, b⟩ (.list true) (.elem false) ∧
    (Ty.listIt true).Constant ∧ Reach ⟨true, b⟩ (.listIt true) (.elem false) ∧
    (Ty.view true false).Constant ∧ Reach ⟨b, true⟩ (.view true false) (.elem false) ∧
    ¬ Reach ⟨b, false⟩ (.view true false) (.elem false) := by
  refine ⟨rfl, ?_, rfl, ?_, Or.inl rfl, ?_, ?_⟩ <;> rw [reach_elem_iff] <;> simp [safe]

/-! ### The hypotheses can be met -/

section Examples

/-- A constant reverse iterator over a constant array is a constant iterator that leads to elements. -/
example : (Ty.revIt (.constIt (.arrayIt false))).Formed ∧ (Ty.revIt (.constIt (.arrayIt false))).Constant ∧
    Reach ⟨true, true⟩ (.revIt (.constIt (.arrayIt false))) (.elem true) :=
  ⟨.const (.array false), trivial, reach_one (by decide)⟩

/-- An array that is not constant leads to elements that can be modified, also through a reverse iterator. -/
example : Reach ⟨false, false⟩ (.array false) (.revIt (.arrayIt false)) ∧
    Reach ⟨false, false⟩ (.revIt (.arrayIt false)) (.elem false) :=
  ⟨.call (s := .arrayIt false) (by decide) (reach_one (by decide)), reach_one (by decide)⟩

example (u : Uses) : ¬ Reach u (.heap false) (.elem false) := fun h =>
  ((constant_exact u (t := .heap false) trivial).1 h).1 false rfl

end Examples

end Verif.Constness
