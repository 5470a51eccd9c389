import Verif.Heap.Model

/-! # What a user of `Heap` expects -/

set_option autoImplicit false

namespace Verif.Heap

variable {α β : Type}

/-- A strict weak order, as the standard library requires of a comparator. -/
structure StrictWeakOrder (lt : α → α → Bool) : Prop where
  irrefl : ∀ a, lt a a = false
  trans : ∀ a b c, lt a b = true → lt b c = true → lt a c = true
  incomp : ∀ a b c, lt a b = false → lt b a = false → lt b c = false → lt c b = false →
    lt a c = false ∧ lt c a = false

/-- No element precedes one of its children. -/
def Ordered (lt : α → α → Bool) (a : Array α) : Prop :=
  ∀ i j (hi : i < a.size) (hj : j < a.size), (j = 2 * i + 1 ∨ j = 2 * i + 2) → lt a[i] a[j] = false

/-- The result of the program is `r`, given enough fuel. -/
def Runs (F : Nat → M α β) (s : St α) (r : Res (St α) β) : Prop := ∃ n, ∀ fuel, n ≤ fuel → F fuel s = r

/-- The heaps a client can bring about: default construction or construction from a range, then any pushes,
emplaces (the same) and pops. -/
inductive Reach (lt : α → α → Bool) : St α → Prop
  | empty : Reach lt empty
  | range {xs s} : Runs (fun f => pushAll lt f xs) empty (.ok () s) → Reach lt s
  | push {s v s'} : Reach lt s → Runs (fun f => push lt f v) s (.ok () s') → Reach lt s'
  | pop {s s'} : Reach lt s → Runs (pop lt) s (.ok () s') → Reach lt s'

end Verif.Heap
