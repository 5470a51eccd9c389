import Verif.Tuple.CompareThrow

/-! # C128: exceptions of comparisons of elements -/

set_option autoImplicit false

namespace Verif.TupT

variable {α : Type}

/-- The comparison of position `k` is the one that decides: all before it are `go`, and it is not. -/
def Decides {ρ : Type} (f : Nat → α → α → Out ρ) (go : ρ) (xs ys : List α) (k : Nat) (o : Out ρ) : Prop :=
  (∀ j < k, ∃ x y, xs[j]? = some x ∧ ys[j]? = some y ∧ f j x y = .ret go) ∧
  (∃ x y, xs[k]? = some x ∧ ys[k]? = some y ∧ f k x y = o) ∧ o ≠ .ret go

theorem Decides.tail {ρ : Type} {f : Nat → α → α → Out ρ} {go : ρ} {x y : α} {xs ys : List α} {k : Nat} {o : Out ρ}
    (h : Decides f go (x :: xs) (y :: ys) (k + 1) o) :
    f 0 x y = .ret go ∧ Decides (fun i => f (i + 1)) go xs ys k o := by
  obtain ⟨h1, h2, h3⟩ := h
  refine ⟨?_, fun j hj => ?_, ?_, h3⟩
  · obtain ⟨a, b, e1, e2, e3⟩ := h1 0 (by omega)
    simp only [List.getElem?_cons_zero, Option.some.injEq] at e1 e2
    subst e1 e2; exact e3
  · simpa using h1 (j + 1) (by omega)
  · simpa using h2

theorem compareElems_shift (cmp : Nat → α → α → Out (Option Ordering)) (i : Nat) (xs ys : List α) :
    compareElems cmp (i + 1) xs ys = compareElems (fun j => cmp (j + 1)) i xs ys := by
  induction xs generalizing i ys with
  | nil => cases ys <;> rfl
  | cons x xs ih =>
    cases ys with
    | nil => rfl
    | cons y ys =>
      simp only [compareElems]
      rw [ih]

theorem equalElems_shift (eq : Nat → α → α → Out Bool) (i : Nat) (xs ys : List α) :
    equalElems eq (i + 1) xs ys = equalElems (fun j => eq (j + 1)) i xs ys := by
  induction xs generalizing i ys with
  | nil => cases ys <;> rfl
  | cons x xs ih =>
    cases ys with
    | nil => rfl
    | cons y ys =>
      simp only [equalElems]
      rw [ih]

theorem compareElems_decides {cmp : Nat → α → α → Out (Option Ordering)} {xs ys : List α} {k : Nat}
    {o : Out (Option Ordering)} (h : Decides cmp (some .eq) xs ys k o) : compareElems cmp 0 xs ys = o := by
  induction k generalizing xs ys cmp with
  | zero =>
    obtain ⟨-, ⟨x, y, e1, e2, e3⟩, h3⟩ := h
    cases xs with
    | nil => simp at e1
    | cons a xs =>
      cases ys with
      | nil => simp at e2
      | cons b ys =>
        simp only [List.getElem?_cons_zero, Option.some.injEq] at e1 e2
        subst e1 e2
        simp only [compareElems]
        split
        · rename_i he; exact absurd (e3.symm.trans he) h3
        · exact e3
  | succ k ih =>
    cases xs with
    | nil => obtain ⟨-, ⟨x, y, e1, -⟩, -⟩ := h; simp at e1
    | cons a xs =>
      cases ys with
      | nil => obtain ⟨-, ⟨x, y, -, e1, -⟩, -⟩ := h; simp at e1
      | cons b ys =>
        obtain ⟨h0, h1⟩ := h.tail
        simp only [compareElems, h0]
        rw [compareElems_shift]
        exact ih h1

theorem equalElems_decides {eq : Nat → α → α → Out Bool} {xs ys : List α} {k : Nat}
    {o : Out Bool} (h : Decides eq true xs ys k o) : equalElems eq 0 xs ys = o := by
  induction k generalizing xs ys eq with
  | zero =>
    obtain ⟨-, ⟨x, y, e1, e2, e3⟩, h3⟩ := h
    cases xs with
    | nil => simp at e1
    | cons a xs =>
      cases ys with
      | nil => simp at e2
      | cons b ys =>
        simp only [List.getElem?_cons_zero, Option.some.injEq] at e1 e2
        subst e1 e2
        simp only [equalElems]
        split
        · rename_i he; exact absurd (e3.symm.trans he) h3
        · exact e3
  | succ k ih =>
    cases xs with
    | nil => obtain ⟨-, ⟨x, y, e1, -⟩, -⟩ := h; simp at e1
    | cons a xs =>
      cases ys with
      | nil => obtain ⟨-, ⟨x, y, -, e1, -⟩, -⟩ := h; simp at e1
      | cons b ys =>
        obtain ⟨h0, h1⟩ := h.tail
        simp only [equalElems, h0]
        rw [equalElems_shift]
        exact ih h1

theorem compareElems_all {cmp : Nat → α → α → Out (Option Ordering)} {xs ys : List α}
    (h : ∀ (j : Nat) (x y : α), xs[j]? = some x → ys[j]? = some y → cmp j x y = .ret (some .eq)) :
    compareElems cmp 0 xs ys = .ret (some .eq) := by
  induction xs generalizing ys cmp with
  | nil => cases ys <;> rfl
  | cons x xs ih =>
    cases ys with
    | nil => rfl
    | cons y ys =>
      simp only [compareElems, h 0 x y rfl rfl]
      rw [compareElems_shift]
      exact ih fun j a b e1 e2 => h (j + 1) a b (by simpa using e1) (by simpa using e2)

theorem equalElems_all {eq : Nat → α → α → Out Bool} {xs ys : List α}
    (h : ∀ (j : Nat) (x y : α), xs[j]? = some x → ys[j]? = some y → eq j x y = .ret true) :
    equalElems eq 0 xs ys = .ret true := by
  induction xs generalizing ys eq with
  | nil => cases ys <;> rfl
  | cons x xs ih =>
    cases ys with
    | nil => rfl
    | cons y ys =>
      simp only [equalElems, h 0 x y rfl rfl]
      rw [equalElems_shift]
      exact ih fun j a b e1 e2 => h (j + 1) a b (by simpa using e1) (by simpa using e2)

theorem pairCompare_eq (cmp : Nat → α → α → Out (Option Ordering)) (x y : α × α) :
    pairCompare cmp x y = tupleCompare cmp [x.1, x.2] [y.1, y.2] := by
  unfold pairCompare tupleCompare
  congr 1
  simp only [compareElems]
  split
  · split <;> simp_all
  · rfl

theorem pairEqual_eq (eq : Nat → α → α → Out Bool) (x y : α × α) :
    pairEqual eq x y = tupleEqual eq [x.1, x.2] [y.1, y.2] := by
  unfold pairEqual tupleEqual
  congr 1
  simp only [equalElems]
  split
  · split <;> simp_all
  · rfl

/-- C128, what holds. The full claim is "the elements are compared in order up to the first that decides; if its comparison
throws, the exception reaches the caller". If it returns, its result is that of the tuples and pairs, and comparisons of later
elements are not made, so that they cannot throw. -/
theorem tuple_compare_throws_partial (cmp : Nat → α → α → Out (Option Ordering)) (eq : Nat → α → α → Out Bool)
    (xs ys : List α) :
    (∀ k r, Decides cmp (some .eq) xs ys k (.ret r) → tupleCompare cmp xs ys = .ret r) ∧
    (∀ k r, Decides eq true xs ys k (.ret r) → tupleEqual eq xs ys = .ret r) ∧
    ((∀ (j : Nat) (x y : α), xs[j]? = some x → ys[j]? = some y → cmp j x y = .ret (some .eq)) →
      tupleCompare cmp xs ys = .ret (some .eq)) ∧
    ((∀ (j : Nat) (x y : α), xs[j]? = some x → ys[j]? = some y → eq j x y = .ret true) → tupleEqual eq xs ys = .ret true) ∧
    ∀ a b c d, xs = [a, b] → ys = [c, d] →
      (∀ k r, Decides cmp (some .eq) xs ys k (.ret r) → pairCompare cmp (a, b) (c, d) = .ret r) ∧
      (∀ k r, Decides eq true xs ys k (.ret r) → pairEqual eq (a, b) (c, d) = .ret r) := by
  have h1 : ∀ k r, Decides cmp (some .eq) xs ys k (.ret r) → tupleCompare cmp xs ys = .ret r := fun k r h => by
    unfold tupleCompare; rw [compareElems_decides h]; rfl
  have h2 : ∀ k r, Decides eq true xs ys k (.ret r) → tupleEqual eq xs ys = .ret r := fun k r h => by
    unfold tupleEqual; rw [equalElems_decides h]; rfl
  refine ⟨h1, h2, fun h => by unfold tupleCompare; rw [compareElems_all h]; rfl,
    fun h => by unfold tupleEqual; rw [equalElems_all h]; rfl, ?_⟩
  rintro a b c d rfl rfl
  exact ⟨fun k r h => by rw [pairCompare_eq]; exact h1 k r h, fun k r h => by rw [pairEqual_eq]; exact h2 k r h⟩

/-- C128 is false: if the comparison that decides throws, the program ends, whatever the tuple or pair. -/
theorem tuple_compare_throws_wrong (cmp : Nat → α → α → Out (Option Ordering)) (eq : Nat → α → α → Out Bool)
    (xs ys : List α) :
    (∀ k, Decides cmp (some .eq) xs ys k .threw → tupleCompare cmp xs ys = .terminated) ∧
    (∀ k, Decides eq true xs ys k .threw → tupleEqual eq xs ys = .terminated) ∧
    ∀ a b c d, xs = [a, b] → ys = [c, d] →
      (∀ k, Decides cmp (some .eq) xs ys k .threw → pairCompare cmp (a, b) (c, d) = .terminated) ∧
      (∀ k, Decides eq true xs ys k .threw → pairEqual eq (a, b) (c, d) = .terminated) := by
  have h1 : ∀ k, Decides cmp (some .eq) xs ys k .threw → tupleCompare cmp xs ys = .terminated := fun k h => by
    unfold tupleCompare; rw [compareElems_decides h]; rfl
  have h2 : ∀ k, Decides eq true xs ys k .threw → tupleEqual eq xs ys = .terminated := fun k h => by
    unfold tupleEqual; rw [equalElems_decides h]; rfl
  refine ⟨h1, h2, ?_⟩
  rintro a b c d rfl rfl
  exact ⟨fun k h => by rw [pairCompare_eq]; exact h1 k h, fun k h => by rw [pairEqual_eq]; exact h2 k h⟩

/-! ### The hypotheses can be met -/

/-- Numbers in order; the comparison of 13 with 13 throws. -/
def ominous (_ : Nat) (x y : Nat) : Out (Option Ordering) :=
  if x = 13 ∧ y = 13 then .threw else .ret (some (Ord.compare x y))

example : Decides ominous (some .eq) [1, 2, 13] [1, 5, 13] 1 (.ret (some .lt)) := by
  refine ⟨fun j hj => ?_, ⟨2, 5, rfl, rfl, by decide⟩, by decide⟩
  obtain rfl : j = 0 := by omega
  exact ⟨1, 1, rfl, rfl, by decide⟩

example : tupleCompare ominous [1, 2, 13] [1, 5, 13] = .ret (some .lt) := by decide

example : Decides ominous (some .eq) [1, 13] [1, 13] 1 .threw := by
  refine ⟨fun j hj => ?_, ⟨13, 13, rfl, rfl, by decide⟩, by decide⟩
  obtain rfl : j = 0 := by omega
  exact ⟨1, 1, rfl, rfl, by decide⟩

example : pairCompare ominous (1, 13) (1, 13) = .terminated := by decide

end Verif.TupT
