/-!
# Model of `xme::LinkedList`

Files: `/repo/include/xme/container/linked_list.hpp` (cited as LL) and
`/repo/private/container/linked_list_base.hpp` (cited as LB).

A program state has list objects (their `m_head` fields) and heap nodes.  A node is raw memory after
`allocate`, then a `LinkedListNode` whose storage may or may not hold an object.  Dereferencing a null
pointer, a list object that does not exist or an unallocated node, reading storage without an object and
freeing what is not allocated are undefined behaviour (`ub`).  Loops over nodes take fuel; running out of it
is the outcome `hang`, so a loop that hangs for all fuel does not terminate.

Allocation, construction and copy assignment of elements may throw: the environment `Env` decides.  The
allocator may return any address that is not allocated (also one used before); whenever `pick` proposes an
allocated address the call throws `bad_alloc` instead.
-/

set_option autoImplicit false

namespace Verif.LL

/-- A place a `node_base*` can point to: the `m_head` member of list object `l` (LL 268) or the node at heap
address `a`. -/
inductive Loc
  | head (l : Nat)
  | node (a : Nat)
  deriving DecidableEq, Repr

/-- `node_base*` (LB 6), `none` is `nullptr`; also an iterator's `current_node` (LB 56, 104). -/
abbrev Ptr := Option Loc

/-- Heap memory of one node: LB 5-12.  `raw` is allocated memory in which no node was constructed; in
`node next val`, `val` is the object living in `storage`, if any. -/
inductive Cell (α : Type)
  | raw
  | node (next : Ptr) (val : Option α)
  deriving DecidableEq, Repr

/-- Ghost events. Part of the model, not of the code. Recorded by LL 213-214, 223-224, 247, 250, 253. -/
inductive Ev
  | alloc (a : Nat)
  | free (a : Nat)
  | ctor (a : Nat)
  | dtor (a : Nat)
  deriving DecidableEq, Repr

/-- The memory of a program that uses lists: LL 268-270, LB 5-12; simplified: `std::allocator` has no state. -/
structure St (α : Type) where
  /-- the `m_head.next` of each existing list object -/
  heads : Nat → Option Ptr
  /-- the allocated heap nodes -/
  nodes : Nat → Option (Cell α)
  /-- number of operations so far that could throw; feeds the environment's oracle -/
  tick : Nat
  /-- ghost: number of exceptions thrown by the environment -/
  fails : Nat
  /-- ghost: everything allocated, freed, constructed, destroyed, latest first -/
  log : List Ev

/-- The surroundings of the code: which address the allocator proposes and which element
constructions/assignments throw. Part of the model, not of the code. -/
structure Env (α : Type) where
  pick : St α → Nat
  throws : Nat → Bool

/-- How a computation ends: it returns, an exception leaves it, it is undefined, or its loops ran out of fuel.
Part of the model, not of the code. -/
inductive Res (σ β : Type)
  | ok (b : β) (s : σ)
  | thrown (s : σ)
  | ub
  | hang

/-- Programs over the state. Part of the model, not of the code. -/
def M (α β : Type) : Type := St α → Res (St α) β

namespace M

variable {α β γ : Type}

/-- Sequencing; anything but `ok` ends the computation. Part of the model, not of the code. -/
def bind (f : M α β) (g : β → M α γ) : M α γ := fun s =>
  match f s with
  | .ok b s' => g b s'
  | .thrown s' => .thrown s'
  | .ub => .ub
  | .hang => .hang

/-- `do` notation for computations. Part of the model, not of the code. -/
instance : Monad (M α) where
  pure b := fun s => .ok b s
  bind := M.bind

/-- Undefined behaviour. Part of the model, not of the code. -/
def ub : M α β := fun _ => .ub
/-- A loop that ran out of fuel. Part of the model, not of the code. -/
def hang : M α β := fun _ => .hang
/-- The current state. Part of the model, not of the code. -/
def get : M α (St α) := fun s => .ok s s
/-- Change of the state. Part of the model, not of the code. -/
def modify (f : St α → St α) : M α Unit := fun s => .ok () (f s)

/-- `try { f } catch(...) { h; throw; }` LL 248-255. -/
def tryRethrow (f : M α β) (h : M α Unit) : M α β := fun s =>
  match f s with
  | .ok b s' => .ok b s'
  | .thrown s' =>
    match h s' with
    | .ok _ s'' => .thrown s''
    | .thrown s'' => .thrown s''
    | .ub => .ub
    | .hang => .hang
  | .ub => .ub
  | .hang => .hang

end M

variable {α : Type}

/-- Function update. Part of the model, not of the code. -/
def upd {β : Type} (f : Nat → β) (i : Nat) (b : β) : Nat → β := fun j => if j = i then b else f j

/-! ### Memory primitives -/

/-- `p->next` (read). LB 6; LL 83, 98, 114, 204, 211-212, 219, 222, 232-239. -/
def next (p : Ptr) : M α Ptr := fun s =>
  match p with
  | none => .ub
  | some (.head l) => match s.heads l with
    | some q => .ok q s
    | none => .ub
  | some (.node a) => match s.nodes a with
    | some (.node q _) => .ok q s
    | _ => .ub

/-- `p->next = q`. LB 6; LL 44, 53, 83-84, 98, 204-205, 212, 227, 238-240, 263. -/
def setNext (p q : Ptr) : M α Unit := fun s =>
  match p with
  | none => .ub
  | some (.head l) => match s.heads l with
    | some _ => .ok () { s with heads := upd s.heads l (some q) }
    | none => .ub
  | some (.node a) => match s.nodes a with
    | some (.node _ v) => .ok () { s with nodes := upd s.nodes a (some (.node q v)) }
    | _ => .ub

/-- `*it` (read), LB 37-39: the object in the storage of a node. -/
def deref (p : Ptr) : M α α := fun s =>
  match p with
  | some (.node a) => match s.nodes a with
    | some (.node _ (some v)) => .ok v s
    | _ => .ub
  | _ => .ub

/-- An element operation that may throw: consults the environment. Part of the model, not of the code. Happens
at LL 136 and 250. -/
def mayThrow (E : Env α) : M α Unit := fun s =>
  if E.throws s.tick then .thrown { s with tick := s.tick + 1, fails := s.fails + 1 }
  else .ok () { s with tick := s.tick + 1 }

/-- The object in the storage of an existing element becomes `v`. LL 136. -/
def putVal (p : Ptr) (v : α) : M α Unit := fun s =>
  match p with
  | some (.node a) => match s.nodes a with
    | some (.node q (some _)) => .ok () { s with nodes := upd s.nodes a (some (.node q (some v))) }
    | _ => .ub
  | _ => .ub

/-- An object `v` starts to live in the empty storage of node `a`. LL 250. -/
def putNew (a : Nat) (v : α) : M α Unit := fun s =>
  match s.nodes a with
  | some (.node q none) =>
    .ok () { s with nodes := upd s.nodes a (some (.node q (some v))), log := .ctor a :: s.log }
  | _ => .ub

/-- `*it = v`, a copy assignment that may throw.  Simplification: if it throws the old value stays. LL 136. -/
def assignTo (E : Env α) (p : Ptr) (v : α) : M α Unit := do
  let _ ← deref p
  mayThrow E
  putVal p v

/-- `m_allocator.allocate(1)`. LL 247. -/
def allocate (E : Env α) : M α Nat := fun s =>
  let a := E.pick s
  match s.nodes a with
  | some _ => .thrown { s with fails := s.fails + 1 }
  | none => .ok a { s with nodes := upd s.nodes a (some .raw), log := .alloc a :: s.log }

/-- `m_allocator.deallocate(p, 1)`: `p` must be an allocated node. LL 214, 224, 253. -/
def deallocate (p : Ptr) : M α Unit := fun s =>
  match p with
  | some (.node a) => match s.nodes a with
    | some _ => .ok () { s with nodes := upd s.nodes a none, log := .free a :: s.log }
    | none => .ub
  | _ => .ub

/-- `construct_at(new_node)`: the node's default member initialiser sets `next` to null (LB 6), the storage
holds no object yet (aligned_data.hpp 25-27). LL 249. -/
def constructNode (a : Nat) : M α Unit := fun s =>
  match s.nodes a with
  | some .raw => .ok () { s with nodes := upd s.nodes a (some (.node none none)) }
  | _ => .ub

/-- `construct_at(new_node->storage.data(), args...)`; the element becomes `v`. LL 250. -/
def constructVal (E : Env α) (a : Nat) (v : α) : M α Unit := do
  mayThrow E
  putNew a v

/-- `destroy_at(p->storage.data())`. LL 213, 223. -/
def destroy (p : Ptr) : M α Unit := fun s =>
  match p with
  | some (.node a) => match s.nodes a with
    | some (.node q (some _)) =>
      .ok () { s with nodes := upd s.nodes a (some (.node q none)), log := .dtor a :: s.log }
    | _ => .ub
  | _ => .ub

/-! ### Ranges given to the list -/

/-- An input range `[first, last)`: values from elsewhere, or iterators into a list. The arguments of LL 60, 65,
70, 77, 131, 149, 155, 184, 194. -/
inductive Range (α : Type)
  | ext (xs : List α)
  | nodes (first last : Ptr)

/-- `first != last`. LL 135, 142, 185, 262. -/
def Range.more : Range α → Bool
  | .ext xs => !xs.isEmpty
  | .nodes p q => p != q

/-- `*first`. LL 136, 186, 263. -/
def Range.front : Range α → M α α
  | .ext [] => M.ub
  | .ext (x :: _) => pure x
  | .nodes p _ => deref p

/-- `++first` (LB 41-44, 89-92). LL 139, 185, 262. -/
def Range.advance : Range α → M α (Range α)
  | .ext [] => M.ub
  | .ext (_ :: xs) => pure (.ext xs)
  | .nodes p q => do
    let p' ← next p
    pure (.nodes p' q)

/-! ### The class -/

variable (E : Env α)

/-- LL 246-257. -/
def createNode (v : α) : M α Ptr := do
  let a ← allocate E
  M.tryRethrow
    (do constructNode a
        constructVal E a v)
    (deallocate (some (.node a)))
  pure (some (.node a))

/-- LL 109-111. -/
def beforeBegin (l : Nat) : Ptr := some (.head l)

/-- LL 114-116. -/
def begin (l : Nat) : M α Ptr := next (beforeBegin l)

/-- LL 119-121. -/
def «end» : Ptr := none

/-- IContainer::empty, icontainer.hpp 28-45 (a list is no sized range). -/
def empty (l : Nat) : M α Bool := do
  let b ← begin l
  pure (b == «end»)

/-- IContainer::front, icontainer.hpp 79-90. -/
def front (l : Nat) : M α α := do
  let b ← begin l
  deref b

/-- LL 201-207. -/
def emplaceAfter (pos : Ptr) (v : α) : M α Ptr := do
  let new ← createNode E v
  let n ← next pos
  setNext new n
  setNext pos new
  pure new

/-- LL 160-162 and 170-172. -/
def pushFront (l : Nat) (v : α) : M α Ptr := emplaceAfter E (some (.head l)) v

/-- LL 177-179. -/
def insertAfter (pos : Ptr) (v : α) : M α Ptr := emplaceAfter E pos v

/-- The loop of LL 185-187. -/
def insertRange : Nat → Ptr → Range α → M α Ptr
  | 0, _, _ => M.hang
  | fuel + 1, pos, r =>
    if r.more then do
      let v ← r.front
      let pos' ← emplaceAfter E pos v
      let r' ← r.advance
      insertRange fuel pos' r'
    else pure pos

/-- LL 210-215. -/
def eraseAfter (pos : Ptr) : M α Unit := do
  let tmp ← next pos
  let n ← next tmp
  setNext pos n
  destroy tmp
  deallocate tmp

/-- The loop of LL 221-226. -/
def eraseLoop : Nat → Ptr → Ptr → M α Unit
  | 0, _, _ => M.hang
  | fuel + 1, curr, last =>
    if curr = last then pure ()
    else do
      let tmp ← next curr
      destroy curr
      deallocate curr
      eraseLoop fuel tmp last

/-- LL 218-228. -/
def eraseAfterRange (fuel : Nat) (pos last : Ptr) : M α Unit := do
  let curr ← next pos
  eraseLoop fuel curr last
  setNext pos last

/-- LL 127. -/
def clear (fuel : Nat) (l : Nat) : M α Unit := eraseAfterRange fuel (beforeBegin l) none

/-- LL 165. -/
def popFront (l : Nat) : M α Unit := eraseAfter (some (.head l))

/-- The loop of LL 135-140; gives `prev`, `curr` and what is left of the range. -/
def assignLoop : Nat → Ptr → Ptr → Range α → M α (Ptr × Ptr × Range α)
  | 0, _, _, _ => M.hang
  | fuel + 1, prev, curr, r =>
    if curr ≠ «end» ∧ r.more = true then do
      let v ← r.front
      assignTo E curr v
      let prev' ← next prev
      let curr' ← next curr
      let r' ← r.advance
      assignLoop fuel prev' curr' r'
    else pure (prev, curr, r)

/-- LL 131-146 (149, 155-157 forward to it). -/
def assign (fuel : Nat) (l : Nat) (r : Range α) : M α Unit := do
  let b ← begin l
  let (prev, curr, r') ← assignLoop E fuel (beforeBegin l) b r
  if r'.more then do
    let _ ← insertRange E fuel prev r'
    pure ()
  else if curr ≠ «end» then eraseAfterRange fuel prev «end»
  else pure ()

/-- The loop of LL 236-241; `l` is the list, `tail` the node `tail`. -/
def reverseLoop : Nat → Nat → Ptr → M α Unit
  | 0, _, _ => M.hang
  | fuel + 1, l, tail => do
    let tmp ← next tail
    if tmp = none then pure ()
    else do
      let keep ← next (some (.head l))
      setNext (some (.head l)) tmp
      let n ← next tmp
      setNext tail n
      let h ← next (some (.head l))
      setNext h keep
      reverseLoop fuel l tail

/-- LL 231-242. -/
def reverse (fuel : Nat) (l : Nat) : M α Unit := do
  let h ← next (some (.head l))
  if h = none then pure ()
  else reverseLoop fuel l h

/-- The loop of LL 260-266. -/
def initLoop : Nat → Ptr → Range α → M α Unit
  | 0, _, _ => M.hang
  | fuel + 1, curr, r =>
    if r.more then do
      let v ← r.front
      let new ← createNode E v
      setNext curr new
      let curr' ← next curr
      let r' ← r.advance
      initLoop fuel curr' r'
    else pure ()

/-- The loop of LL 43-46 and 52-55 (`create_node()` makes the element `v`, the default value). -/
def fillLoop : Nat → Ptr → α → M α Unit
  | 0, _, _ => pure ()
  | n + 1, curr, v => do
    let new ← createNode E v
    setNext curr new
    let curr' ← next curr
    fillLoop n curr' v

/-- A new list object `l`: `m_head` is default-initialised, then the constructor body runs; if the body throws
the object's members cease to exist, its destructor is not run.  Defined only if there is no such object yet. LL
38-85. -/
def construct (l : Nat) (body : M α Unit) : M α Unit := do
  let s ← M.get
  if s.heads l = none then do
    M.modify fun s => { s with heads := upd s.heads l (some none) }
    M.tryRethrow body (M.modify fun s => { s with heads := upd s.heads l none })
  else M.ub

/-- LL 38. -/
def newEmpty (l : Nat) : M α Unit := construct l (pure ())

/-- LL 41-47 (with the default value) and 50-56. -/
def newFill (l : Nat) (n : Nat) (v : α) : M α Unit := construct l (fillLoop E n (beforeBegin l) v)

/-- LL 59-67, 77-79. -/
def newRange (fuel : Nat) (l : Nat) (r : Range α) : M α Unit :=
  construct l (initLoop E fuel (beforeBegin l) r)

/-- LL 70-72. -/
def newCopy (fuel : Nat) (l m : Nat) : M α Unit :=
  construct l (do
    let b ← begin m
    initLoop E fuel (beforeBegin l) (.nodes b «end»))

/-- LL 82-85. -/
def newMove (l m : Nat) : M α Unit :=
  construct l (do
    let n ← next (some (.head m))
    setNext (some (.head l)) n
    setNext (some (.head m)) none)

/-- LL 87, followed by the end of the object's lifetime. -/
def destruct (fuel : Nat) (l : Nat) : M α Unit := do
  clear fuel l
  M.modify fun s => { s with heads := upd s.heads l none }

/-- LL 90-93. -/
def copyAssign (fuel : Nat) (l m : Nat) : M α Unit := do
  let b ← begin m
  assign E fuel l (.nodes b «end»)

/-- LL 96-100. -/
def moveAssign (fuel : Nat) (l m : Nat) : M α Unit := do
  clear fuel l
  let x ← next (some (.head l))
  let y ← next (some (.head m))
  setNext (some (.head l)) y
  setNext (some (.head m)) x

/-! ### What a user of the iterators sees -/

/-- `it` advanced `k` times. LB 41-44, 89-92. -/
def advance : Nat → Ptr → M α Ptr
  | 0, p => pure p
  | k + 1, p => do
    let q ← next p
    advance k q

/-- `for(auto it = ...; it != end(); ++it)`, collecting the iterators and the elements they designate. A
client's loop over LL 114-121 with LB 37-44. -/
def walk : Nat → Ptr → M α (List (Ptr × α))
  | 0, _ => M.hang
  | fuel + 1, p =>
    if p = «end» then pure []
    else do
      let v ← deref p
      let q ← next p
      let rest ← walk fuel q
      pure ((p, v) :: rest)

end Verif.LL
