import Verif.LinkedList.Model

/-!
# What a user of `LinkedList` expects

Client operations, the mathematical sequences they should produce, what may be left after an exception,
and, one level finer, what happens to the iterators.
-/

set_option autoImplicit false

namespace Verif.LL

variable {α : Type}

/-- A range given by a client: values from elsewhere or the elements `i, ..., j-1` of list `m`. -/
inductive Src (α : Type)
  | vals (xs : List α)
  | sub (m i j : Nat)

/-- Client operations.  `l`, `m` name list objects; a position `k` is the iterator `before_begin()` advanced
`k` times, i.e. the place after the first `k` elements. -/
inductive Op (α : Type)
  | newEmpty (l : Nat)
  | newFill (l n : Nat) (v : α)
  | newRange (l : Nat) (r : Src α)
  | newCopy (l m : Nat)
  | newMove (l m : Nat)
  | destruct (l : Nat)
  | copyAssign (l m : Nat)
  | moveAssign (l m : Nat)
  | assign (l : Nat) (r : Src α)
  | clear (l : Nat)
  | pushFront (l : Nat) (v : α)
  | popFront (l : Nat)
  | insertAfter (l k : Nat) (v : α)
  | insertRange (l k : Nat) (r : Src α)
  | eraseAfter (l k : Nat)
  | eraseRange (l k j : Nat)
  | reverse (l : Nat)

/-- Does the operation create a list object? -/
def Op.isNew : Op α → Bool
  | .newEmpty .. | .newFill .. | .newRange .. | .newCopy .. | .newMove .. => true
  | _ => false

/-! ### Running operations -/

/-- The iterators `[first, last)` of a client range. -/
def Src.range : Src α → M α (Range α)
  | .vals xs => pure (.ext xs)
  | .sub m i j => do
    let p ← advance (i + 1) (beforeBegin m)
    let q ← advance (j + 1) (beforeBegin m)
    pure (.nodes p q)

/-- The client code for an operation: obtain the iterators, call the member function. -/
def exec (E : Env α) (fuel : Nat) : Op α → M α Unit
  | .newEmpty l => newEmpty l
  | .newFill l n v => newFill E l n v
  | .newRange l r => do
    let r ← r.range
    newRange E fuel l r
  | .newCopy l m => newCopy E fuel l m
  | .newMove l m => newMove l m
  | .destruct l => destruct fuel l
  | .copyAssign l m => copyAssign E fuel l m
  | .moveAssign l m => moveAssign fuel l m
  | .assign l r => do
    let r ← r.range
    assign E fuel l r
  | .clear l => clear fuel l
  | .pushFront l v => do
    let _ ← pushFront E l v
    pure ()
  | .popFront l => popFront l
  | .insertAfter l k v => do
    let pos ← advance k (beforeBegin l)
    let _ ← insertAfter E pos v
    pure ()
  | .insertRange l k r => do
    let pos ← advance k (beforeBegin l)
    let r ← r.range
    let _ ← insertRange E fuel pos r
    pure ()
  | .eraseAfter l k => do
    let pos ← advance k (beforeBegin l)
    eraseAfter pos
  | .eraseRange l k j => do
    let pos ← advance k (beforeBegin l)
    let last ← advance (j + 1) (beforeBegin l)
    eraseAfterRange fuel pos last
  | .reverse l => reverse fuel l

/-- Iterating over list `l`: the iterators and the elements they designate. -/
def iterate (fuel : Nat) (l : Nat) : M α (List (Ptr × α)) := do
  let b ← begin l
  walk fuel b

/-- Iterating over list `l` shows `its`. -/
def Shows (s : St α) (l : Nat) (its : List (Ptr × α)) : Prop :=
  ∃ n, ∀ fuel, n ≤ fuel → iterate fuel l s = .ok its s

/-- The list objects that exist are those of `σ`, and iterating over each shows its elements. -/
def Sees (s : St α) (σ : Nat → Option (List α)) : Prop :=
  ∀ l, match σ l with
    | none => s.heads l = none
    | some xs => ∃ its, Shows s l its ∧ its.map Prod.snd = xs

/-- The same with the iterators. -/
def SeesIts (s : St α) (I : Nat → Option (List (Ptr × α))) : Prop :=
  ∀ l, match I l with
    | none => s.heads l = none
    | some its => Shows s l its

/-! ### The expected sequences -/

/-- Replace the contents of list `l`. -/
def put {β : Type} (σ : Nat → β) (l : Nat) (x : β) : Nat → β := fun m => if m = l then x else σ m

/-- The values in a client range. -/
def Src.read (σ : Nat → Option (List α)) : Src α → Option (List α)
  | .vals xs => some xs
  | .sub m i j => (σ m).bind fun xs => if i ≤ j ∧ j ≤ xs.length then some ((xs.take j).drop i) else none

/-- The position `k` of list `l` is not one of the elements of the range. -/
def Src.avoids (l k : Nat) : Src α → Prop
  | .vals _ => True
  | .sub m i j => ¬(m = l ∧ i < k ∧ k ≤ j)

instance (l k : Nat) (r : Src α) : Decidable (r.avoids l k) := by
  cases r <;> unfold Src.avoids <;> infer_instance

/-- The lists after a successful operation; `none` if a precondition is violated. -/
def after (σ : Nat → Option (List α)) : Op α → Option (Nat → Option (List α))
  | .newEmpty l => if σ l = none then some (put σ l (some [])) else none
  | .newFill l n v => if σ l = none then some (put σ l (some (List.replicate n v))) else none
  | .newRange l r => (r.read σ).bind fun vs => if σ l = none then some (put σ l (some vs)) else none
  | .newCopy l m => (σ m).bind fun ys => if σ l = none then some (put σ l (some ys)) else none
  | .newMove l m => (σ m).bind fun ys =>
      if σ l = none then some (put (put σ l (some ys)) m (some [])) else none
  | .destruct l => (σ l).bind fun _ => some (put σ l none)
  | .copyAssign l m => (σ l).bind fun _ => (σ m).bind fun ys => some (put σ l (some ys))
  | .moveAssign l m => (σ l).bind fun _ => (σ m).bind fun ys =>
      if l ≠ m then some (put (put σ l (some ys)) m (some [])) else none
  | .assign l r => (σ l).bind fun _ => (r.read σ).bind fun vs => some (put σ l (some vs))
  | .clear l => (σ l).bind fun _ => some (put σ l (some []))
  | .pushFront l v => (σ l).bind fun xs => some (put σ l (some (v :: xs)))
  | .popFront l => (σ l).bind fun xs => if 0 < xs.length then some (put σ l (some (xs.drop 1))) else none
  | .insertAfter l k v => (σ l).bind fun xs =>
      if k ≤ xs.length then some (put σ l (some (xs.take k ++ v :: xs.drop k))) else none
  | .insertRange l k r => (σ l).bind fun xs => (r.read σ).bind fun vs =>
      if k ≤ xs.length ∧ r.avoids l k then some (put σ l (some (xs.take k ++ vs ++ xs.drop k))) else none
  | .eraseAfter l k => (σ l).bind fun xs =>
      if k < xs.length then some (put σ l (some (xs.take k ++ xs.drop (k + 1)))) else none
  | .eraseRange l k j => (σ l).bind fun xs =>
      if k ≤ j ∧ j ≤ xs.length then some (put σ l (some (xs.take k ++ xs.drop j))) else none
  | .reverse l => (σ l).bind fun xs => some (put σ l (some xs.reverse))

/-- What the lists may be after an operation that threw: single insertions and constructors have no effect;
a range insertion or an assignment has been carried out up to some element.  Everything else never throws. -/
def afterThrow (σ : Nat → Option (List α)) (op : Op α) (σ' : Nat → Option (List α)) : Prop :=
  match op with
  | .newFill .. | .newRange .. | .newCopy .. | .pushFront .. | .insertAfter .. => σ' = σ
  | .copyAssign l m => ∃ xs ys n, σ l = some xs ∧ σ m = some ys ∧ n < ys.length ∧
      σ' = put σ l (some (ys.take n ++ xs.drop n))
  | .assign l r => ∃ xs vs n, σ l = some xs ∧ r.read σ = some vs ∧ n < vs.length ∧
      σ' = put σ l (some (vs.take n ++ xs.drop n))
  | .insertRange l k r => ∃ xs vs n, σ l = some xs ∧ r.read σ = some vs ∧ n < vs.length ∧
      σ' = put σ l (some (xs.take k ++ vs.take n ++ xs.drop k))
  | _ => False

/-! ### The expected iterators

`I` tells for each list its elements with the iterators (of any type `ι`) that designate them. -/

variable {ι : Type}

/-- Forget the iterators. -/
def values (I : Nat → Option (List (ι × α))) : Nat → Option (List α) := fun l => (I l).map (·.map Prod.snd)

/-- The iterators after a successful operation.  New elements have new iterators; every remaining element
keeps its iterator; `assign` reuses the elements of the common prefix. -/
def afterIts (I : Nat → Option (List (ι × α))) (op : Op α) (I' : Nat → Option (List (ι × α))) : Prop :=
  match op with
  | .newEmpty l => I' = put I l (some [])
  | .newFill l n v => ∃ ns, ns.map Prod.snd = List.replicate n v ∧ I' = put I l (some ns)
  | .newRange l r => ∃ ns, some (ns.map Prod.snd) = r.read (values I) ∧ I' = put I l (some ns)
  | .newCopy l m => ∃ ns ys, I m = some ys ∧ ns.map Prod.snd = ys.map Prod.snd ∧ I' = put I l (some ns)
  | .newMove l m => ∃ ys, I m = some ys ∧ I' = put (put I l (some ys)) m (some [])
  | .destruct l => I' = put I l none
  | .copyAssign l m => ∃ xs ys zs, I l = some xs ∧ I m = some ys ∧ zs.map Prod.snd = ys.map Prod.snd ∧
      (zs.map Prod.fst).take xs.length = (xs.map Prod.fst).take ys.length ∧ I' = put I l (some zs)
  | .moveAssign l m => ∃ ys, I m = some ys ∧ I' = put (put I l (some ys)) m (some [])
  | .assign l r => ∃ xs vs zs, I l = some xs ∧ r.read (values I) = some vs ∧ zs.map Prod.snd = vs ∧
      (zs.map Prod.fst).take xs.length = (xs.map Prod.fst).take vs.length ∧ I' = put I l (some zs)
  | .clear l => I' = put I l (some [])
  | .pushFront l v => ∃ xs p, I l = some xs ∧ I' = put I l (some ((p, v) :: xs))
  | .popFront l => ∃ xs, I l = some xs ∧ I' = put I l (some (xs.drop 1))
  | .insertAfter l k v => ∃ xs p, I l = some xs ∧ I' = put I l (some (xs.take k ++ (p, v) :: xs.drop k))
  | .insertRange l k r => ∃ xs ns, I l = some xs ∧ some (ns.map Prod.snd) = r.read (values I) ∧
      I' = put I l (some (xs.take k ++ ns ++ xs.drop k))
  | .eraseAfter l k => ∃ xs, I l = some xs ∧ I' = put I l (some (xs.take k ++ xs.drop (k + 1)))
  | .eraseRange l k j => ∃ xs, I l = some xs ∧ I' = put I l (some (xs.take k ++ xs.drop j))
  | .reverse l => ∃ xs, I l = some xs ∧ I' = put I l (some xs.reverse)

/-- The iterators after an insertion that threw: every element that was there keeps its iterator.  Nothing is
said about assignments (they overwrite elements). -/
def afterThrowIts (I : Nat → Option (List (ι × α))) (op : Op α) (I' : Nat → Option (List (ι × α))) : Prop :=
  match op with
  | .newFill .. | .newRange .. | .newCopy .. | .pushFront .. | .insertAfter .. => I' = I
  | .insertRange l k _ => ∃ xs ns, I l = some xs ∧ I' = put I l (some (xs.take k ++ ns ++ xs.drop k))
  | _ => True

/-- No two elements have the same iterator. -/
def Distinct (I : Nat → Option (List (ι × α))) : Prop :=
  (∀ l xs, I l = some xs → (xs.map Prod.fst).Nodup) ∧
  ∀ l m xs ys, l ≠ m → I l = some xs → I m = some ys → ∀ p ∈ xs.map Prod.fst, p ∉ ys.map Prod.fst

/-- The node at address `a` is an element of one of the lists. -/
def Owned (I : Nat → Option (List (Ptr × α))) (a : Nat) : Prop :=
  ∃ l xs, I l = some xs ∧ some (Loc.node a) ∈ xs.map Prod.fst

/-! ### Histories -/

/-- The result of the operation `op` in state `s` is `r`, given enough fuel.  `Runs E op s .hang` would mean
that it does not terminate. -/
def Runs (E : Env α) (op : Op α) (s : St α) (r : Res (St α) Unit) : Prop :=
  ∃ n, ∀ fuel, n ≤ fuel → exec E fuel op s = r

inductive Outcome
  | done
  | threw
  deriving DecidableEq, Repr

/-- No lists, nothing allocated. -/
def init : St α := ⟨fun _ => none, fun _ => none, 0, 0, []⟩

/-- The states a client can bring about, with the operations performed so far.  The client may choose each
operation knowing everything, as long as its preconditions hold, and may catch exceptions and go on. -/
inductive Reach (E : Env α) : List (Op α × Outcome) → St α → Prop
  | init : Reach E [] init
  | done {h s σ op σ' s'} : Reach E h s → Sees s σ → after σ op = some σ' →
      Runs E op s (.ok () s') → Reach E ((op, .done) :: h) s'
  | threw {h s σ op σ' s'} : Reach E h s → Sees s σ → after σ op = some σ' →
      Runs E op s (.thrown s') → Reach E ((op, .threw) :: h) s'

/-- No list constructor ended by an exception. -/
def NewsDone (h : List (Op α × Outcome)) : Prop := ∀ e ∈ h, e.2 = .threw → e.1.isNew = false

end Verif.LL
