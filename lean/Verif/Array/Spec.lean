import Verif.Array.Model

/-!
What a client expects of arrays: every array is a finite sequence together with a capacity.  Nothing
here mentions memory.  `specStep` is `none` where the call is outside what is claimed: a documented
precondition fails (no such array, position out of range, `pop_back` on an empty array), or an
argument refers into the very array that is modified in one of the situations in which the code gets
it wrong (these are the subject of the theorems about C10 and C11).
-/

set_option autoImplicit false

namespace Verif.Arr

variable {α : Type}

/-- The arrays a program has: contents and capacity. -/
abbrev AWorld (α : Type) := Nat → Option (List α × Nat)

/-- `f` with the value at `i` replaced. -/
def put {β : Type} (f : Nat → β) (i : Nat) (x : β) : Nat → β := fun j => if j = i then x else f j

/-- The value of an argument. -/
def argVal (A : AWorld α) : Arg α → Option α
  | .val v => some v
  | .elem x i => (A x).bind fun o => o.1[i]?

def argVals (A : AWorld α) : List (Arg α) → Option (List α)
  | [] => some []
  | a :: as =>
    match argVal A a, argVals A as with
    | some v, some vs => some (v :: vs)
    | _, _ => none

/-- The argument is an element of array `a`. -/
def ownArg (a : Nat) : Arg α → Bool
  | .val _ => false
  | .elem x _ => x == a

/-- The argument is an element of array `a` behind position `pos`. -/
def ownBehind (a pos : Nat) : Arg α → Bool
  | .val _ => false
  | .elem x i => x == a && pos < i

/-- Result of a call on an existing array: new contents, new capacity, returned position. -/
structure Eff1 (α : Type) where
  xs : List α
  cap : Nat
  ret : Nat

/-- Capacity after appending one element. -/
def grown (size cap : Nat) : Nat := if size = cap then size + max size 1 else cap

/-- Effect of a member function on its own array, with contents `xs` and capacity `c`. -/
def member (A : AWorld α) (xs : List α) (c : Nat) : Op α → Option (Eff1 α)
  | .assignCopy _ b =>
    match A b with
    | some (ys, _) => some ⟨ys, ys.length, 0⟩
    | none => none
  | .assignList _ args =>
    match argVals A args with
    | some vs => some ⟨vs, vs.length, 0⟩
    | none => none
  | .clear _ => some ⟨[], c, 0⟩
  | .reserve _ n => some ⟨xs, max c n, 0⟩
  | .resize _ n => some ⟨xs.take n, n, 0⟩
  | .pushBack a arg =>
    match argVal A arg with
    | some v => if xs.length = c ∧ ownArg a arg then none else some ⟨xs ++ [v], grown xs.length c, 0⟩
    | none => none
  | .pushRange a args =>
    match argVals A args with
    | some vs =>
      if c < xs.length + vs.length ∧ args.any (ownArg a) then none
      else some ⟨xs ++ vs, max c (xs.length + vs.length), 0⟩
    | none => none
  | .insert a pos arg =>
    match argVal A arg with
    | some v =>
      if xs.length < pos then none
      else if pos = xs.length ∧ xs.length = c ∧ ownArg a arg then none
      else if pos < xs.length ∧ xs.length < c ∧ ownBehind a pos arg then none
      else some ⟨xs.take pos ++ v :: xs.drop pos, grown xs.length c, pos⟩
    | none => none
  | .insertRange a pos args =>
    match argVals A args with
    | some vs =>
      if xs.length < pos then none
      else if xs.length + vs.length ≤ c ∧ args.any (ownArg a) then none
      else some ⟨xs.take pos ++ vs ++ xs.drop pos,
        if xs.length + vs.length ≤ c then c else c + vs.length, pos⟩
    | none => none
  | .popBack _ => if xs = [] then none else some ⟨xs.dropLast, c, 0⟩
  | .erase _ pos => if pos < xs.length then some ⟨xs.eraseIdx pos, c, pos⟩ else none
  | .eraseRange _ i j =>
    if i ≤ j ∧ j ≤ xs.length then some ⟨xs.take i ++ xs.drop j, c, i⟩ else none
  | .writeAt _ i v => if i < xs.length then some ⟨xs.set i v, c, 0⟩ else none
  | _ => none

/-- The array a call is about. -/
def Op.target : Op α → Nat
  | .ctor a | .ctorCap a _ | .ctorFill a _ _ | .ctorRange a _ | .ctorCopy a _ | .ctorMove a _
  | .dtor a | .assignCopy a _ | .assignMove a _ | .assignList a _ | .swap a _ | .clear a
  | .reserve a _ | .resize a _ | .pushBack a _ | .pushRange a _ | .insert a _ _
  | .insertRange a _ _ | .popBack a | .erase a _ | .eraseRange a _ _ | .writeAt a _ _ => a

/-- A new array `a`. -/
def create (A : AWorld α) (a : Nat) (o : List α × Nat) : Option (AWorld α × Nat) :=
  match A a with
  | none => some (put A a (some o), 0)
  | some _ => none

/-- One client call on sequences. -/
def specStep (A : AWorld α) : Op α → Option (AWorld α × Nat)
  | .ctor a => create A a ([], 0)
  | .ctorCap a n => create A a ([], n)
  | .ctorFill a n v => create A a (List.replicate n v, n)
  | .ctorRange a args =>
    match argVals A args with
    | some vs => create A a (vs, vs.length)
    | none => none
  | .ctorCopy a b =>
    match A b with
    | some (xs, _) => create A a (xs, xs.length)
    | none => none
  | .ctorMove a b =>
    match A a, A b with
    | none, some o => some (put (put A a (some o)) b (some ([], 0)), 0)
    | _, _ => none
  | .dtor a =>
    match A a with
    | some _ => some (put A a none, 0)
    | none => none
  | .assignMove a b =>
    match A a, A b with
    | some _, some o => some (if a = b then A else put (put A a (some o)) b (some ([], 0)), 0)
    | _, _ => none
  | .swap a b =>
    match A a, A b with
    | some o, some o' => some (put (put A a (some o')) b (some o), 0)
    | _, _ => none
  | op =>
    match A op.target with
    | some (xs, c) =>
      match member A xs c op with
      | some e => some (put A op.target (some (e.xs, e.cap)), e.ret)
      | none => none
    | none => none

/-- A whole program on sequences; the result lists the returned positions. -/
def specRun (A : AWorld α) : List (Op α) → Option (AWorld α × List Nat)
  | [] => some (A, [])
  | op :: ops =>
    match specStep A op with
    | some (A', r) =>
      match specRun A' ops with
      | some (A'', rs) => some (A'', r :: rs)
      | none => none
    | none => none

/-- No array. -/
def AWorld.init : AWorld α := fun _ => none

/-- Calls that treat class-type elements correctly: no element has to be relocated into raw storage
and none is assigned after its destruction. -/
def classSafe (A : AWorld α) (op : Op α) : Prop :=
  match A op.target with
  | none => True
  | some (xs, c) =>
    match op with
    | .reserve _ n => xs = [] ∨ n ≤ c
    | .resize _ n => xs = [] ∨ n = 0 ∨ n = c
    | .pushBack _ _ => xs = [] ∨ xs.length < c
    | .pushRange _ args => xs = [] ∨ xs.length + args.length ≤ c
    | .insert a pos arg => (xs = [] ∨ xs.length < c) ∧ (pos < xs.length → arg ≠ .elem a pos)
    | .insertRange _ pos args => (xs = [] ∧ c < args.length) ∨
        (xs.length + args.length ≤ c ∧ (pos = xs.length ∨ args = []))
    | .erase _ pos => pos + 1 = xs.length
    | .eraseRange _ i j => i = j ∨ j = xs.length
    | _ => True

/-- Calls out of which an exception may come without harm.  `triv`: elements are trivially copyable. -/
def throwSafe (triv : Bool) (A : AWorld α) (op : Op α) : Prop :=
  match op with
  | .ctorRange _ args | .assignList _ args => triv = true ∧ ∀ x ∈ args, ∃ y i, x = .elem y i
  | .ctorCopy _ _ | .assignCopy _ _ => triv = true
  | .insertRange a _ args => triv = true ∧ ∀ o, A a = some o → o.2 < o.1.length + args.length
  | _ => True

/-- Contents of the target array after an exception: unchanged, except that `push_back` of a range
keeps what it has appended, and that the in-place insertion only promises some valid contents. -/
def throwContents (A : AWorld α) (xs : List α) (c : Nat) (xs' : List α) : Op α → Prop
  | .pushRange _ args => ∃ vs k, argVals A args = some vs ∧ xs' = xs ++ vs.take k
  | .insert _ pos _ => pos = xs.length ∨ xs.length = c → xs' = xs
  | _ => xs' = xs

/-- The arrays after a call was left by an exception. -/
def afterThrow (A : AWorld α) (op : Op α) (A' : AWorld α) : Prop :=
  match A op.target with
  | none => A' = A
  | some (xs, c) => ∃ xs' c', throwContents A xs c xs' op ∧ c ≤ c' ∧
      A' = put A op.target (some (xs', c'))

end Verif.Arr
