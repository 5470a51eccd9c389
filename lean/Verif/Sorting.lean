import Mathlib.Data.List.Perm.Basic
import Mathlib.Tactic.ByContra

/-!
# What it means to sort

Specification only; nothing here is about the code.
-/

set_option autoImplicit false

namespace Verif.Sorting

variable {α : Type}

/-- `lt` orders the values, some of which may be equivalent. -/
structure Weak (lt : α → α → Bool) : Prop where
  asymm : ∀ a b, lt a b = true → lt b a = false
  trans : ∀ a b c, lt b a = false → lt c b = false → lt c a = false

/-- No element is less than one before it. -/
def InOrder (lt : α → α → Bool) (xs : List α) : Prop := xs.Pairwise fun a b => lt b a = false

/-- `ys` is `xs` stably sorted. -/
def StablySorted (lt : α → α → Bool) (xs ys : List α) : Prop :=
  InOrder lt ys ∧ ys.Perm xs ∧
  ∀ w, ys.filter (fun x => !lt x w && !lt w x) = xs.filter (fun x => !lt x w && !lt w x)

theorem InOrder.stable {lt : α → α → Bool} {xs : List α} (h : InOrder lt xs) : StablySorted lt xs xs :=
  ⟨h, .refl _, fun _ => rfl⟩

theorem StablySorted.trans {lt : α → α → Bool} {xs ys zs vs : List α} (h : StablySorted lt xs ys)
    (h2 : StablySorted lt (ys ++ vs) zs) : StablySorted lt (xs ++ vs) zs := by
  refine ⟨h2.1, h2.2.1.trans (h.2.1.append_right _), fun w => ?_⟩
  rw [h2.2.2, List.filter_append, List.filter_append, h.2.2]

/-- A value put between the elements it is not less than and those it is less than. -/
theorem split_stable {lt : α → α → Bool} (hw : Weak lt) {P Q : List α} {v : α} (h : InOrder lt (P ++ Q))
    (hP : ∀ p ∈ P, lt v p = false) (hQ : ∀ q ∈ Q, lt v q = true) :
    StablySorted lt (P ++ Q ++ [v]) (P ++ v :: Q) := by
  obtain ⟨h1, h2, h3⟩ := List.pairwise_append.1 h
  refine ⟨List.pairwise_append.2 ⟨h1, List.pairwise_cons.2 ⟨fun q hq => hw.asymm _ _ (hQ q hq), h2⟩, ?_⟩, ?_, ?_⟩
  · intro p hp q hq
    rcases List.mem_cons.1 hq with rfl | hq
    · exact hP p hp
    · exact h3 p hp q hq
  · rw [List.append_assoc]
    exact (List.perm_append_singleton v Q).symm.append_left P
  · intro w
    rw [List.filter_append, List.append_assoc, List.filter_append, List.filter_append, List.filter_cons]
    by_cases hq : (!lt v w && !lt w v) = true
    · have : Q.filter (fun x => !lt x w && !lt w x) = [] := by
        rw [List.filter_eq_nil_iff]
        intro y hy hc
        have h3 := hQ y hy
        simp only [Bool.and_eq_true, Bool.not_eq_true'] at hc hq
        rw [hw.trans y w v hc.2 hq.1] at h3
        cases h3
      rw [this]; simp [hq]
    · simp [hq]

/-- In a list in order, what follows an element greater than `v` is greater than `v`. -/
theorem InOrder.greater {lt : α → α → Bool} (hw : Weak lt) {xs : List α} (h : InOrder lt xs) {v : α} {i j : Nat}
    (hij : i ≤ j) (hj : j < xs.length) (hi : lt v (xs[i]'(by omega)) = true) : lt v xs[j] = true := by
  rcases Nat.eq_or_lt_of_le hij with rfl | hlt
  · exact hi
  · by_contra hc
    have h1 := (List.pairwise_iff_getElem.1 h) i j (by omega) hj hlt
    have := hw.trans _ _ _ h1 (by simpa using hc)
    rw [hi] at this; cases this

end Verif.Sorting
