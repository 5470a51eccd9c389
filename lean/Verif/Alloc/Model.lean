/-!
# Which allocator allocates and which one deallocates

`include/xme/container/array.hpp` (AR) and `include/xme/container/linked_list.hpp` (LL). An allocator with state must get back
what it has allocated: only an allocator that compares equal may deallocate a block. The model follows the storage of
containers and their allocators only. Allocators are numbers, equal ones the same number. Elements, sizes and exceptions are
left out; whether a call needs new storage is a parameter of the call (`grows`), so that both cases are covered.
-/

set_option autoImplicit false

namespace Verif.Alloc

/-- How a call ends. Part of the model, not of the code: `wrong` when an allocator gets a block of an unequal one or no block
at all, `misuse` when the call does not compile or names an object that does not exist. -/
inductive Res (σ : Type)
  | ok (s : σ)
  | wrong
  | misuse

/-- Part of the model, not of the code. -/
def Res.bind {σ τ : Type} (r : Res σ) (f : σ → Res τ) : Res τ :=
  match r with
  | .ok s => f s
  | .wrong => .wrong
  | .misuse => .misuse

instance : Monad Res where
  pure := .ok
  bind := Res.bind

/-- `m_data.begin` and `m_allocator`, AR 353-356: the block, if there is one. -/
structure Obj where
  alloc : Nat
  blk : Option Nat
deriving DecidableEq

/-- The blocks alive with the allocator that made them, and the arrays. Part of the model, not of the code. -/
structure W where
  owner : Nat → Option Nat
  next : Nat
  objs : Nat → Option Obj

/-- What `std::allocator_traits` says about the allocator type (AR 125-130) and what its default constructor makes. Part of the
model, not of the code. -/
structure Traits where
  pocs : Bool
  alwaysEqual : Bool
  dflt : Nat

/-- Function update. Part of the model, not of the code. -/
def upd {β : Type} (f : Nat → β) (i : Nat) (x : β) : Nat → β := fun j => if j = i then x else f j

/-- `a.allocate(n)`: AR 51, 287, 299, 314. -/
def allocate (a : Nat) (w : W) : Nat × W :=
  (w.next, { w with owner := upd w.owner w.next (some a), next := w.next + 1 })

/-- `a.deallocate(p, n)`: AR 81, 291, 303, 326. -/
def deallocate (a b : Nat) (w : W) : Res W :=
  if w.owner b = some a then .ok { w with owner := upd w.owner b none } else .wrong

/-- `if(p) a.deallocate(p, n)`: AR 80-81, 290-291. -/
def release (a : Nat) (b : Option Nat) (w : W) : Res W :=
  match b with
  | none => .ok w
  | some b => deallocate a b w

/-- Part of the model, not of the code. -/
def put (x : Nat) (o : Option Obj) (w : W) : W := { w with objs := upd w.objs x o }

/-- `Array(n, alloc)`, AR 49-53, as an object not yet in the world. -/
def make (a : Nat) (w : W) : Obj × W :=
  let (b, w) := allocate a w
  (⟨a, some b⟩, w)

/-- `~Array()`, AR 78-82. -/
def destroy (o : Obj) (w : W) : Res W := release o.alloc o.blk w

/-- `swap(other)`, AR 124-130: without `propagate_on_container_swap` it compiles only if all allocators are equal. -/
def swap (t : Traits) (o p : Obj) : Res (Obj × Obj) :=
  if t.pocs then .ok (⟨p.alloc, p.blk⟩, ⟨o.alloc, o.blk⟩)
  else if t.alwaysEqual then .ok (⟨o.alloc, p.blk⟩, ⟨p.alloc, o.blk⟩)
  else .misuse

/-- `grow_storage` (AR 285-295), `shrink_storage` (AR 297-307) and `realloc_insert` (AR 310-331): new storage is allocated, the
old storage is deallocated. Only `grow_storage` asks first whether there is any; the other two are called with storage only
(`capacity() > n`, AR 151-152, and an element at `pos`, AR 162-167; that this is so is part of the model `Verif.Array`). -/
def regrow (o : Obj) (w : W) : Res (Obj × W) := do
  let (b, w) := allocate o.alloc w
  let w ← release o.alloc o.blk w
  pure (⟨o.alloc, some b⟩, w)

/-- The branch of `insert(pos, first, last)` that makes new storage, AR 185-199: `tmp` has a default-constructed allocator,
only the data are swapped, `tmp` is destroyed. -/
def regrowRange (t : Traits) (o : Obj) (w : W) : Res (Obj × W) := do
  let (tmp, w) := make t.dflt w
  let o' : Obj := ⟨o.alloc, tmp.blk⟩
  let tmp' : Obj := ⟨tmp.alloc, o.blk⟩
  let w ← destroy tmp' w
  pure (o', w)

/-- Part of the model, not of the code. -/
def get (x : Nat) (w : W) : Res Obj :=
  match w.objs x with
  | some o => .ok o
  | none => .misuse

/-- Part of the model, not of the code. -/
def absent (x : Nat) (w : W) : Res Unit :=
  match w.objs x with
  | some _ => .misuse
  | none => .ok ()

/-- Calls. Part of the model, not of the code; the functions are AR 39-282. -/
inductive Op
  /-- `Array()` AR 39 -/
  | ctor (x : Nat)
  /-- `Array(alloc)` AR 46 -/
  | ctorAlloc (x a : Nat)
  /-- the constructors with a size or a range, AR 49-76 -/
  | ctorFill (x a : Nat)
  /-- AR 41 -/
  | ctorCopy (x y : Nat)
  /-- AR 43-44 -/
  | ctorMove (x y : Nat)
  /-- AR 78-82 -/
  | dtor (x : Nat)
  /-- AR 84-87 -/
  | assignCopy (x y : Nat)
  /-- AR 89-92 -/
  | assignMove (x y : Nat)
  /-- AR 94-97 -/
  | assignList (x : Nat)
  /-- AR 124-130 -/
  | swap (x y : Nat)
  /-- `reserve`, `resize`, `insert` and `push_back` of one element or at the end: AR 141-174, 221-261 -/
  | one (x : Nat) (grows : Bool)
  /-- `insert(pos, first, last)`, AR 181-207 -/
  | insertRange (x : Nat) (grows : Bool)
deriving DecidableEq

/-- One call: the lines are those of the calls. -/
def exec (t : Traits) (w : W) : Op → Res W
  | .ctor x => do absent x w; pure (put x (some ⟨t.dflt, none⟩) w)
  | .ctorAlloc x a => do absent x w; pure (put x (some ⟨a, none⟩) w)
  | .ctorFill x a => do
    absent x w
    let (o, w) := make a w
    pure (put x (some o) w)
  | .ctorCopy x y => do
    absent x w
    let p ← get y w
    let (o, w) := make p.alloc w
    pure (put x (some o) w)
  | .ctorMove x y => do
    absent x w
    let p ← get y w
    pure (put x (some ⟨p.alloc, p.blk⟩) (put y (some ⟨p.alloc, none⟩) w))
  | .dtor x => do
    let o ← get x w
    let w ← destroy o w
    pure (put x none w)
  | .assignCopy x y => do
    let o ← get x w
    let p ← get y w
    let (tmp, w) := make p.alloc w
    let (tmp, o) ← swap t tmp o
    let w ← destroy tmp w
    pure (put x (some o) w)
  | .assignMove x y => do
    let p ← get y w
    let tmp : Obj := ⟨p.alloc, p.blk⟩
    let w := put y (some ⟨p.alloc, none⟩) w
    let o ← get x w
    let (tmp, o) ← swap t tmp o
    let w ← destroy tmp w
    pure (put x (some o) w)
  | .assignList x => do
    let o ← get x w
    let (tmp, w) := make t.dflt w
    let (tmp, o) ← swap t tmp o
    let w ← destroy tmp w
    pure (put x (some o) w)
  | .swap x y => do
    let o ← get x w
    let p ← get y w
    let (o, p) ← swap t o p
    pure (if x = y then w else put y (some p) (put x (some o) w))
  | .one x grows => do
    let o ← get x w
    if grows then do
      let (o, w) ← regrow o w
      pure (put x (some o) w)
    else pure w
  | .insertRange x grows => do
    let o ← get x w
    if grows then do
      let (o, w) ← regrowRange t o w
      pure (put x (some o) w)
    else pure w

/-- A program. Part of the model, not of the code. -/
def run (t : Traits) : W → List Op → Res W
  | w, [] => .ok w
  | w, op :: ops => do
    let w ← exec t w op
    run t w ops

/-- Nothing allocated, no object. Part of the model, not of the code. -/
def W.empty : W := ⟨fun _ => none, 0, fun _ => none⟩

/-! ### `LinkedList` -/

/-- A list: its allocator and the names of its nodes in order. LL 269-270. -/
structure LObj where
  alloc : Nat
  nodes : List Nat
deriving DecidableEq

/-- The nodes alive with the allocator that made them, the first unused name, and the lists. Part of the model, not of the
code. -/
structure LW where
  owner : Nat → Option Nat
  next : Nat
  objs : Nat → Option LObj

/-- Nothing allocated, no list. Part of the model, not of the code. -/
def LW.empty : LW := ⟨fun _ => none, 0, fun _ => none⟩

/-- Part of the model, not of the code. -/
def lput (x : Nat) (o : Option LObj) (w : LW) : LW := { w with objs := upd w.objs x o }

/-- Part of the model, not of the code. -/
def lget (x : Nat) (w : LW) : Res LObj :=
  match w.objs x with
  | some o => .ok o
  | none => .misuse

/-- Part of the model, not of the code. -/
def labsent (x : Nat) (w : LW) : Res Unit :=
  match w.objs x with
  | some _ => .misuse
  | none => .ok ()

/-- `m_allocator.allocate(1)` for each of `k` new nodes: LL 248. -/
def lalloc (a : Nat) : Nat → LW → List Nat × LW
  | 0, w => ([], w)
  | k + 1, w =>
    let (ns, w') := lalloc a k { w with owner := upd w.owner w.next (some a), next := w.next + 1 }
    (w.next :: ns, w')

/-- `m_allocator.deallocate(node, 1)` for each of the nodes: LL 214, 224. -/
def lfree (a : Nat) : List Nat → LW → Res LW
  | [], w => .ok w
  | n :: ns, w => if w.owner n = some a then lfree a ns { w with owner := upd w.owner n none } else .wrong

/-- Deallocation of `k` nodes from node `i` on: LL 210-215, 218-228. -/
def ldrop (i k : Nat) (o : LObj) (w : LW) : Res (LObj × LW) := do
  let w ← lfree o.alloc ((o.nodes.drop i).take k) w
  pure ({ o with nodes := o.nodes.take i ++ o.nodes.drop (i + k) }, w)

/-- `k` new nodes in front of node `i`: LL 201-207, 246-257. -/
def lnew (i k : Nat) (o : LObj) (w : LW) : LObj × LW :=
  let (ns, w) := lalloc o.alloc k w
  ({ o with nodes := o.nodes.take i ++ ns ++ o.nodes.drop i }, w)

/-- Calls; `a` is the allocator that the default constructor of the new list makes (LL 270). Part of the model, not of the
code. -/
inductive LOp
  /-- the constructors that make `k` nodes, LL 38-79 -/
  | ctor (x a k : Nat)
  /-- LL 82-85 -/
  | ctorMove (x y a : Nat)
  /-- LL 87 -/
  | dtor (x : Nat)
  /-- LL 96-100 -/
  | assignMove (x y : Nat)
  /-- insertion of `k` elements: LL 159-207 -/
  | insert (x i k : Nat)
  /-- `pop_front`, `erase_after`, `clear`: LL 127, 165, 210-228 -/
  | erase (x i k : Nat)
  /-- `assign` and the other assignments, for `k` elements: LL 90-93, 103-106, 131-157 -/
  | assign (x k : Nat)
  /-- `reverse`: LL 231-243 -/
  | reverse (x : Nat)
deriving DecidableEq

/-- One call: the lines are those of the calls. -/
def lexec (w : LW) : LOp → Res LW
  | .ctor x a k => do
    labsent x w
    let (o, w) := lnew 0 k ⟨a, []⟩ w
    pure (lput x (some o) w)
  | .ctorMove x y a => do
    labsent x w
    let p ← lget y w
    pure (lput x (some ⟨a, p.nodes⟩) (lput y (some { p with nodes := [] }) w))
  | .dtor x => do
    let o ← lget x w
    let (_, w) ← ldrop 0 o.nodes.length o w
    pure (lput x none w)
  | .assignMove x y => do
    let o ← lget x w
    let (o, w) ← ldrop 0 o.nodes.length o w
    let w := lput x (some o) w
    let p ← lget y w
    let w := lput x (some { o with nodes := p.nodes }) w
    let p ← lget y w
    pure (lput y (some { p with nodes := o.nodes }) w)
  | .insert x i k => do
    let o ← lget x w
    let (o, w) := lnew i k o w
    pure (lput x (some o) w)
  | .erase x i k => do
    let o ← lget x w
    let (o, w) ← ldrop i k o w
    pure (lput x (some o) w)
  | .assign x k => do
    let o ← lget x w
    if o.nodes.length < k then
      let (o, w) := lnew o.nodes.length (k - o.nodes.length) o w
      pure (lput x (some o) w)
    else do
      let (o, w) ← ldrop k (o.nodes.length - k) o w
      pure (lput x (some o) w)
  | .reverse x => do
    let o ← lget x w
    pure (lput x (some { o with nodes := o.nodes.reverse }) w)

/-- A program. Part of the model, not of the code. -/
def lrun : LW → List LOp → Res LW
  | w, [] => .ok w
  | w, op :: ops => do
    let w ← lexec w op
    lrun w ops

end Verif.Alloc
