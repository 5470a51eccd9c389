/-!
Model of `xme::Array` (`/repo/include/xme/container/array.hpp`) over a memory of blocks of cells.

* A block is what one `allocate` call returns.  Blocks are never reused, so a use of released
  storage is detected.  Every access checks that the block is alive, that the offset is inside it
  and that the cell is in the right lifetime state.
* `ub` is the outcome for undefined behaviour.  For class types the model also answers `ub` when an
  object is abandoned without being destroyed (a slot is reconstructed over a live object, a block
  with live objects is released).
* `throw` is the outcome for a call left by an exception.
* `Data.begin` always is the start of a block, `end` and `storage_end` are kept as offsets from it;
  a null pointer is block 0, which is never allocated.  Iterators are offsets from `begin`.
* Sizes are unbounded naturals: overflow of `std::size_t` is not modelled.
-/

set_option autoImplicit false

namespace Verif.Arr

/-- Outcome of a computation on states `σ`. Part of the model, not of the code. -/
inductive Res (σ β : Type)
  | ok (b : β) (s : σ)
  | throw (s : σ)
  | ub

/-- Computations with exceptions and undefined behaviour. Part of the model, not of the code. -/
def M (σ β : Type) : Type := σ → Res σ β

namespace M
variable {σ β γ : Type}

/-- Sequencing: an exception or undefined behaviour ends the computation. Part of the model, not of the code. -/
def bind (f : M σ β) (g : β → M σ γ) : M σ γ := fun s =>
  match f s with
  | .ok b s' => g b s'
  | .throw s' => .throw s'
  | .ub => .ub

/-- `do` notation for computations. Part of the model, not of the code. -/
instance : Monad (M σ) where
  pure b := fun s => .ok b s
  bind := bind

/-- Undefined behaviour. Part of the model, not of the code. -/
def ub : M σ β := fun _ => .ub

/-- `throw;` array.hpp:324, uninitialized.hpp:21, 46. -/
def throw : M σ β := fun s => .throw s

/-- The current state. Part of the model, not of the code. -/
def get : M σ σ := fun s => .ok s s

/-- Change of the state. Part of the model, not of the code. -/
def modify (f : σ → σ) : M σ Unit := fun s => .ok () (f s)

/-- `try { f } catch(...) { h; throw; }` array.hpp:315-325, uninitialized.hpp:13-22, 39-47; also used where a
destructor runs because an exception leaves a constructor or a block. -/
def tryRethrow (f : M σ β) (h : M σ Unit) : M σ β := fun s =>
  match f s with
  | .throw s' =>
    match h s' with
    | .ok _ s'' => .throw s''
    | .throw s'' => .throw s''
    | .ub => .ub
  | r => r

end M

/-- Lifetime state of one element-sized cell of a block. Part of the model, not of the code. -/
inductive Cell (α : Type)
  | raw
  | live (v : α)

/-- No object is alive in the cell. Part of the model, not of the code. -/
def Cell.isRaw {α : Type} : Cell α → Bool
  | .raw => true
  | .live _ => false

/-- The element type: `triv` - trivially copyable and destructible; otherwise a class type whose objects hold
`husk v` after having been moved from. The code does not distinguish them by name; destructors of the former do
nothing and their assignment needs no object. Part of the model, not of the code. -/
structure Elem (α : Type) where
  triv : Bool
  husk : α → α

/-- Memory obtained from the allocator. What `std::allocator` (the default of array.hpp:14) hands out. Part of
the model, not of the code. -/
structure Mem (α : Type) where
  /-- size of each block alive, in elements -/
  size : Nat → Option Nat
  cell : Nat → Nat → Cell α
  /-- next block to be handed out -/
  next : Nat
  /-- `some n`: the operation after `n` more potentially throwing ones throws -/
  ticks : Option Nat
  /-- ghost: number of `allocate` calls -/
  allocs : Nat
  /-- ghost: number of elements moved or copied by assignment -/
  moves : Nat
  /-- ghost: those of them that were copied -/
  copies : Nat

/-- `ArrayData`, array.hpp:334-351: `begin` = (blk, 0), `end` = (blk, size),
`storage_end` = (blk, cap). -/
structure Data where
  blk : Nat
  size : Nat
  cap : Nat

/-- `ArrayData()`, array.hpp:335, 348-350. -/
def Data.null : Data := ⟨0, 0, 0⟩

/-- State of a member function: memory and the `m_data` of `*this`. array.hpp:353-355 (`m_data`, `m_allocator`).
-/
structure St (α : Type) where
  mem : Mem α
  d : Data

variable {α : Type} (cfg : Elem α)

/-- State of the model's primitives. Part of the model, not of the code. -/
abbrev A (α β : Type) : Type := M (St α) β

/-- Change of the memory. Part of the model, not of the code. -/
def setMem (f : Mem α → Mem α) : A α Unit := M.modify fun s => { s with mem := f s.mem }

/-- `m_data = d` As in array.hpp:51-52, 58, 69, 136, 292-294, 304-306, 327-329; simplified: the pointers are set
together. -/
def setD (d : Data) : A α Unit := M.modify fun s => { s with d := d }

/-- The `m_data` of `*this` (array.hpp:353).  -/
def getD : A α Data := fun s => .ok s.d s

/-- A point at which an exception may be thrown. Part of the model, not of the code. -/
def tick : A α Unit := fun s =>
  match s.mem.ticks with
  | none => .ok () s
  | some 0 => .throw { s with mem := { s.mem with ticks := none } }
  | some (n + 1) => .ok () { s with mem := { s.mem with ticks := some n } }

/-- Function update. Part of the model, not of the code. -/
def upd {β : Type} (f : Nat → β) (i : Nat) (x : β) : Nat → β := fun j => if j = i then x else f j

/-- Function update at two arguments. Part of the model, not of the code. -/
def upd2 {β : Type} (f : Nat → Nat → β) (b i : Nat) (x : β) : Nat → Nat → β :=
  fun b' j => if b' = b ∧ j = i then x else f b' j

/-- `m_allocator.allocate(n)`: a fresh block of raw cells, or an exception. Called at array.hpp:51, 287, 299,
314 (and through `Array(n)`). -/
def allocate (n : Nat) : A α Nat := do
  tick
  let s ← M.get
  setMem fun m => { m with
    size := upd m.size m.next (some n)
    cell := upd m.cell m.next (fun _ => .raw)
    next := m.next + 1
    allocs := m.allocs + 1 }
  pure s.mem.next

/-- `m_allocator.deallocate(b, n)`: the block must be alive and of that size; for class types it must not
contain objects. Called at array.hpp:81, 291, 303, 323, 326. -/
def deallocate (b n : Nat) : A α Unit := do
  let s ← M.get
  if s.mem.size b = some n ∧ (cfg.triv = true ∨ ∀ i, i < n → (s.mem.cell b i).isRaw = true) then
    setMem fun m => { m with size := upd m.size b none }
  else M.ub

/-- Offset `i` lies inside the living block `b`. Part of the model, not of the code. -/
def inBounds (m : Mem α) (b i : Nat) : Bool :=
  match m.size b with
  | some n => i < n
  | none => false

/-- Lvalue-to-rvalue conversion / binding a copy's source: the cell must hold an object. Happens wherever
array.hpp dereferences a pointer or iterator to an element (array.hpp:169-172, 205, 267-281, 287-303,
icontainer.hpp:14-25). -/
def read (b i : Nat) : A α α := fun s =>
  if inBounds s.mem b i then
    match s.mem.cell b i with
    | .live v => .ok v s
    | .raw => .ub
  else .ub

/-- Sets the state of a cell. Part of the model, not of the code. -/
def setCell (b i : Nat) (c : Cell α) : A α Unit :=
  setMem fun m => { m with cell := upd2 m.cell b i c }

/-- Copies of class types may throw. Part of the model, not of the code. -/
def copyTick : A α Unit := if cfg.triv then pure () else tick

/-- Source of a copy: read, the copy may throw. A step of array.hpp:191, 205, 233, 258, 268, 279 from const
iterators or references. -/
def copyFrom (b i : Nat) : A α α := do
  let v ← read b i
  copyTick cfg
  pure v

/-- Source of a move: the object stays alive and holds `husk v`; moves are assumed not to throw
(documented at array.hpp:157). -/
def moveFrom (b i : Nat) : A α α := do
  let v ← read b i
  setCell b i (.live (if cfg.triv then v else cfg.husk v))
  pure v

/-- `construct(p, ...)` of an already computed value. `alloc_traits::construct`, array.hpp:169, 191, 205, 233,
258, 316. -/
def construct (b i : Nat) (v : α) : A α Unit := fun s =>
  if inBounds s.mem b i && (cfg.triv || (s.mem.cell b i).isRaw) then setCell b i (.live v) s
  else .ub

/-- `*p = v`: for class types an object must be alive there. A step of `move`, `move_backward` and `copy`,
array.hpp:171-172, 202, 268, 279, 289, 301, 318-319. -/
def assign (b i : Nat) (v : α) : A α Unit := fun s =>
  if inBounds s.mem b i && (cfg.triv || !(s.mem.cell b i).isRaw) then setCell b i (.live v) s
  else .ub

/-- `destroy(p)`; for class types an object must be alive there. `destroy_at_a`, destroy.hpp:20-28, called at
array.hpp:249, 267, 322. -/
def destroy (b i : Nat) : A α Unit := fun s =>
  if inBounds s.mem b i && (cfg.triv || !(s.mem.cell b i).isRaw) then setCell b i .raw s
  else .ub

/-- An argument `U&&`: a value from outside (its conversion to `T` may throw), or a reference to the cell at
offset `i` of block `b`. The arguments of array.hpp:160, 221, 254, 310. -/
inductive Src (α : Type)
  | val (v : α)
  | ref (b i : Nat)

/-- The value a construction from the argument produces, computed when the construction happens. array.hpp:172,
191, 205, 233, 258, 316. -/
def evalSrc : Src α → A α α
  | .val v => do tick; pure v
  | .ref b i => copyFrom cfg b i

/-- Source of one step of a moving (`mv`) or copying algorithm. Part of the model, not of the code. -/
def fetch (mv : Bool) (b i : Nat) : A α α := if mv then moveFrom cfg b i else copyFrom cfg b i

/-- `if(c) f;` array.hpp:80, 142, 151, 229, 255, 290. -/
def onlyIf (c : Prop) [Decidable c] (f : A α Unit) : A α Unit := if c then f else pure ()

/-- `std::ranges::move` / copy of `n` elements, first to last, by assignment. `mv`: from non-const iterators
(moves), otherwise from `const_iterator`s (copies). Called at array.hpp:194-195, 268, 279, 289, 301, 318-319. -/
def fwdLoop (mv : Bool) : (src so dst o n : Nat) → A α Unit
  | _, _, _, _, 0 => pure ()
  | src, so, dst, o, n + 1 => do
    let v ← fetch cfg mv src so
    assign cfg dst o v
    setMem fun m => { m with moves := m.moves + 1, copies := m.copies + if mv then 0 else 1 }
    fwdLoop mv src (so + 1) dst (o + 1) n

/-- `std::move_backward` of `n` elements inside block `b` from offset `so` to `o`, last to first. Called at
array.hpp:171, 202. -/
def backLoop (mv : Bool) : (b so o n : Nat) → A α Unit
  | _, _, _, 0 => pure ()
  | b, so, o, n + 1 => do
    let v ← fetch cfg mv b (so + n)
    assign cfg b (o + n) v
    setMem fun m => { m with moves := m.moves + 1, copies := m.copies + if mv then 0 else 1 }
    backLoop mv b so o n

/-- `ranges::destroy_a` / `destroy_n_a`, destroy.hpp:9-12, 32-37. -/
def destroyLoop : (b i n : Nat) → A α Unit
  | _, _, 0 => pure ()
  | b, i, n + 1 => do
    destroy cfg b i
    destroyLoop b (i + 1) n

/-- `grow_storage(n)`, array.hpp:285-295. -/
def growStorage (n : Nat) : A α Unit := do
  let d ← getD
  let nb ← allocate n
  fwdLoop cfg true d.blk 0 nb 0 d.size
  onlyIf (d.blk ≠ 0) (deallocate cfg d.blk d.cap)
  setD ⟨nb, d.size, n⟩

/-- `shrink_storage(n)`, array.hpp:297-307. -/
def shrinkStorage (n : Nat) : A α Unit := do
  let d ← getD
  let k := min d.size n
  let nb ← allocate n
  fwdLoop cfg true d.blk 0 nb 0 k
  destroyLoop cfg d.blk k (d.size - k)
  deallocate cfg d.blk d.cap
  setD ⟨nb, k, n⟩

/-- `emplace_back(args...)` and `push_back(value)`, array.hpp:221-223, 254-261. -/
def emplaceBack (src : Src α) : A α Unit := do
  let d ← getD
  onlyIf (d.size = d.cap) (growStorage cfg (d.size + max d.size 1))
  let d ← getD
  let v ← evalSrc cfg src
  construct cfg d.blk d.size v
  setD { d with size := d.size + 1 }

/-- `realloc_insert(pos, args...)`, array.hpp:310-331. -/
def reallocInsert (pos : Nat) (src : Src α) : A α Nat := do
  let d ← getD
  let newSize := d.size + max d.size 1
  let nb ← allocate newSize
  M.tryRethrow (do
      let v ← evalSrc cfg src
      construct cfg nb pos v
      fwdLoop cfg true d.blk 0 nb 0 pos
      fwdLoop cfg true d.blk pos nb (pos + 1) (d.size - pos))
    (do
      destroy cfg nb pos
      deallocate cfg nb newSize)
  deallocate cfg d.blk d.cap
  setD ⟨nb, d.size + 1, newSize⟩
  pure pos

/-- `insert(pos, value)`, array.hpp:160-174. -/
def insert (pos : Nat) (src : Src α) : A α Nat := do
  let d ← getD
  if pos = d.size then
    emplaceBack cfg src
    let d ← getD
    pure (d.size - 1)
  else if d.size = d.cap then reallocInsert cfg pos src
  else
    let v ← moveFrom cfg d.blk (d.size - 1)
    construct cfg d.blk d.size v
    setD { d with size := d.size + 1 }
    backLoop cfg true d.blk pos (pos + 1) (d.size - 1 - pos)
    let v ← evalSrc cfg src
    assign cfg d.blk pos v
    pure pos

/-- The loops constructing a range from offset `o` of block `b`: array.hpp:190-192, 204-205. -/
def constructLoop (b : Nat) : (o : Nat) → List (Src α) → A α Unit
  | _, [] => pure ()
  | o, s :: rest => do
    let v ← evalSrc cfg s
    construct cfg b o v
    constructLoop b (o + 1) rest

/-- `~Array()` of an object whose data is `d`, array.hpp:78-82. -/
def destructor (d : Data) : A α Unit := do
  destroyLoop cfg d.blk 0 d.size
  onlyIf (d.blk ≠ 0) (deallocate cfg d.blk d.cap)

/-- `insert(pos, first, last)`, array.hpp:181-207.  The range is a list of arguments evaluated one by
one; it is assumed to be multi-pass (`distance` does not consume it); for other ranges see `SinglePass`. -/
def insertRange (pos : Nat) (srcs : List (Src α)) : A α Nat := do
  let d ← getD
  let elements := srcs.length
  if d.size + elements > d.cap then
    let tmpCap := if d.cap = 0 then elements else d.cap + elements
    let nb ← allocate tmpCap
    -- the destructor of `tmp` (still of size 0) runs if an exception leaves the block
    M.tryRethrow (do
        constructLoop cfg nb pos srcs
        fwdLoop cfg false d.blk 0 nb 0 pos
        fwdLoop cfg false d.blk pos nb (pos + elements) (d.size - pos))
      (destructor cfg ⟨nb, 0, tmpCap⟩)
    setD ⟨nb, d.size + elements, tmpCap⟩
    -- the destructor of `tmp`, which now owns the old storage
    destructor cfg d
    pure pos
  else
    backLoop cfg false d.blk pos (pos + elements) (d.size - pos)
    setD { d with size := d.size + elements }
    constructLoop cfg d.blk pos srcs
    pure pos

/-- The loop of `push_back(first, last)`, array.hpp:232-235: the size grows with each element. -/
def pushLoop : List (Src α) → A α Unit
  | [] => pure ()
  | s :: rest => do
    let d ← getD
    let v ← evalSrc cfg s
    construct cfg d.blk d.size v
    setD { d with size := d.size + 1 }
    pushLoop rest

/-- `push_back(first, last)`, array.hpp:227-236. -/
def pushRange (srcs : List (Src α)) : A α Unit := do
  let d ← getD
  let newCap := d.size + srcs.length
  onlyIf (newCap > d.cap) (growStorage cfg newCap)
  pushLoop cfg srcs

/-- `pop_back()`, array.hpp:246-250 (an empty array violates its precondition). -/
def popBack : A α Unit := do
  let d ← getD
  if d.size = 0 then M.ub
  else
    setD { d with size := d.size - 1 }
    destroy cfg d.blk (d.size - 1)

/-- `erase(pos)`, array.hpp:265-271. -/
def erase (pos : Nat) : A α Nat := do
  let d ← getD
  destroy cfg d.blk pos
  fwdLoop cfg false d.blk (pos + 1) d.blk pos (d.size - (pos + 1))
  setD { d with size := d.size - 1 }
  pure pos

/-- `erase(first, last)`, array.hpp:275-282. -/
def eraseRange (i j : Nat) : A α Nat := do
  let d ← getD
  let elements := j - i
  destroyLoop cfg d.blk i elements
  fwdLoop cfg false d.blk (i + elements) d.blk i (d.size - (i + elements))
  setD { d with size := d.size - elements }
  pure i

/-- `clear()`, array.hpp:134-137. -/
def clear : A α Unit := do
  let d ← getD
  destroyLoop cfg d.blk 0 d.size
  setD { d with size := 0 }

/-- `reserve(n)`, array.hpp:141-144. -/
def reserve (n : Nat) : A α Unit := do
  let d ← getD
  onlyIf (d.cap < n) (growStorage cfg n)

/-- `resize(n)`, array.hpp:148-153. -/
def resize (n : Nat) : A α Unit := do
  let d ← getD
  if d.cap < n then growStorage cfg n
  else onlyIf (d.cap > n) (shrinkStorage cfg n)

/-- `Array(n)`, array.hpp:49-53, run on the null data of the object under construction. -/
def ctorCap (n : Nat) : A α Unit := do
  let nb ← allocate n
  setD ⟨nb, 0, n⟩

/-- `uninitialized_fill_n_a`, uninitialized.hpp:37-48: on an exception the elements constructed
so far (`[first, curr)`) are destroyed. -/
def fillLoop (b first : Nat) (v : α) : (curr n : Nat) → A α Unit
  | _, 0 => pure ()
  | curr, n + 1 => do
    M.tryRethrow (do tick; construct cfg b curr v) (destroyLoop cfg b first (curr - first))
    fillLoop b first v (curr + 1) n

/-- `Array(n, value)`, array.hpp:56-59.  It delegates to `Array(n)`, hence the destructor runs if the
body throws. -/
def ctorFill (n : Nat) (v : α) : A α Unit := do
  ctorCap n
  let d ← getD
  M.tryRethrow (fillLoop cfg d.blk 0 v 0 n) (destructor cfg d)
  setD { d with size := n }

/-- `uninitialized_copy_a`, uninitialized.hpp:10-24.  The handler destroys `[in_first, out_curr)`:
it starts at the *input* element whose copy failed and runs towards an address in another
allocation, which it can never meet; it leaves the input range: undefined behaviour. -/
def copyLoop (b : Nat) : (o : Nat) → List (Src α) → A α Unit
  | _, [] => pure ()
  | o, s :: rest => do
    M.tryRethrow (do let v ← evalSrc cfg s; construct cfg b o v) M.ub
    copyLoop b (o + 1) rest

/-- `Array(first, last)`, array.hpp:64-70 (also the copy constructor :41, the initializer-list :61-62
and the range :75-76 constructors, which delegate to it). -/
def ctorRange (srcs : List (Src α)) : A α Unit := do
  ctorCap srcs.length
  let d ← getD
  M.tryRethrow (copyLoop cfg d.blk 0 srcs) (destructor cfg d)
  setD { d with size := srcs.length }

/-- `operator[](i)` read by the client, icontainer.hpp:14-25. -/
def index (i : Nat) : A α α := do
  let d ← getD
  read d.blk i

/-- `a[i] = v` by the client. `operator[]` is icontainer.hpp:14-25; the assignment is the client's. -/
def writeAt (i : Nat) (v : α) : A α Unit := do
  let d ← getD
  assign cfg d.blk i v

/-! ### Programs over several arrays -/

/-- All array objects of a program and the memory. Part of the model, not of the code. -/
structure World (α : Type) where
  mem : Mem α
  vars : Nat → Option Data

/-- An argument written by the client: a value, or `x[i]`. Part of the model, not of the code. -/
inductive Arg (α : Type)
  | val (v : α)
  | elem (x i : Nat)

/-- Client calls; the first number names the array object the call is about. The member functions of
array.hpp:39-282; the lines are cited where `exec` runs them. -/
inductive Op (α : Type)
  /-- `Array()`, array.hpp:39 -/
  | ctor (a : Nat)
  | ctorCap (a n : Nat)
  | ctorFill (a n : Nat) (v : α)
  | ctorRange (a : Nat) (args : List (Arg α))
  | ctorCopy (a b : Nat)
  | ctorMove (a b : Nat)
  | dtor (a : Nat)
  | assignCopy (a b : Nat)
  | assignMove (a b : Nat)
  | assignList (a : Nat) (args : List (Arg α))
  | swap (a b : Nat)
  | clear (a : Nat)
  | reserve (a n : Nat)
  | resize (a n : Nat)
  | pushBack (a : Nat) (arg : Arg α)
  | pushRange (a : Nat) (args : List (Arg α))
  | insert (a pos : Nat) (arg : Arg α)
  | insertRange (a pos : Nat) (args : List (Arg α))
  | popBack (a : Nat)
  | erase (a pos : Nat)
  | eraseRange (a i j : Nat)
  | writeAt (a i : Nat) (v : α)

/-- The reference a client's argument is bound to. Part of the model, not of the code. -/
def resolve (w : World α) : Arg α → Option (Src α)
  | .val v => some (.val v)
  | .elem x i => (w.vars x).map fun d => .ref d.blk i

/-- The references a list of arguments is bound to. Part of the model, not of the code. -/
def resolveAll (w : World α) : List (Arg α) → Option (List (Src α))
  | [] => some []
  | a :: as =>
    match resolve w a, resolveAll w as with
    | some s, some ss => some (s :: ss)
    | _, _ => none

/-- Runs a member function on the existing array `a`. Part of the model, not of the code. -/
def onVar (w : World α) (a : Nat) (f : A α Nat) : Res (World α) Nat :=
  match w.vars a with
  | none => .ub
  | some d =>
    match f ⟨w.mem, d⟩ with
    | .ok r s => .ok r ⟨s.mem, upd w.vars a (some s.d)⟩
    | .throw s => .throw ⟨s.mem, upd w.vars a (some s.d)⟩
    | .ub => .ub

/-- Runs a constructor for the not yet existing array `a`; if it throws no object exists. Part of the model, not
of the code. -/
def onNew (w : World α) (a : Nat) (f : A α Unit) : Res (World α) Nat :=
  match w.vars a with
  | some _ => .ub
  | none =>
    match f ⟨w.mem, .null⟩ with
    | .ok _ s => .ok 0 ⟨s.mem, upd w.vars a (some s.d)⟩
    | .throw s => .throw ⟨s.mem, w.vars⟩
    | .ub => .ub

/-- A call that returns no iterator. Part of the model, not of the code. -/
def unit0 (f : A α Unit) : A α Nat := do f; pure 0

/-- The references `Array(const Array& other)` copies from, array.hpp:41. -/
def refsOf (d : Data) : List (Src α) := (List.range d.size).map (.ref d.blk)

/-- `Array(x).swap(*this); return *this;` where the constructor of the temporary is `f`:
array.hpp:84-87, 94-97, 125-131. -/
def assignVia (f : A α Unit) : A α Unit := do
  let d ← getD
  -- the temporary is built in its own object; the exception of its constructor leaves `*this` alone
  M.tryRethrow (do setD .null; f) (setD d)
  -- swap, then the destructor of the temporary which now holds the old data
  destructor cfg d

/-- One client call; the result is the offset of the returned iterator (0 if none). -/
def exec (w : World α) : Op α → Res (World α) Nat
  | .ctor a => onNew w a (pure ())
  | .ctorCap a n => onNew w a (ctorCap n)
  | .ctorFill a n v => onNew w a (ctorFill cfg n v)
  | .ctorRange a args =>
    match resolveAll w args with
    | some srcs => onNew w a (ctorRange cfg srcs)
    | none => .ub
  | .ctorCopy a b =>
    match w.vars b with
    | some d => onNew w a (ctorRange cfg (refsOf d))
    | none => .ub
  | .ctorMove a b =>
    -- `Array(Array&&)`, array.hpp:43-44, 336-339
    match w.vars b, w.vars a with
    | some d, none => .ok 0 ⟨w.mem, upd (upd w.vars a (some d)) b (some .null)⟩
    | _, _ => .ub
  | .dtor a =>
    match onVar w a (do let d ← getD; unit0 (destructor cfg d)) with
    | .ok r w' => .ok r { w' with vars := upd w'.vars a none }
    | r => r
  | .assignCopy a b =>
    match w.vars b with
    | some d => onVar w a (unit0 (assignVia cfg (ctorRange cfg (refsOf d))))
    | none => .ub
  | .assignMove a b =>
    -- `Array(std::move(other)).swap(*this)`, array.hpp:89-92: the temporary takes b's data, b
    -- becomes null (that may be `*this`), then the temporary and `*this` are exchanged and the
    -- temporary is destroyed.
    match w.vars b with
    | none => .ub
    | some d =>
      let w1 : World α := ⟨w.mem, upd w.vars b (some .null)⟩
      match w1.vars a with
      | none => .ub
      | some old => onVar ⟨w.mem, upd w1.vars a (some d)⟩ a (unit0 (destructor cfg old))
  | .assignList a args =>
    match resolveAll w args with
    | some srcs => onVar w a (unit0 (assignVia cfg (ctorRange cfg srcs)))
    | none => .ub
  | .swap a b =>
    -- array.hpp:125-131 through `ArrayData`'s move operations, array.hpp:336-346
    match w.vars a, w.vars b with
    | some da, some db => .ok 0 ⟨w.mem, upd (upd w.vars a (some db)) b (some da)⟩
    | _, _ => .ub
  | .clear a => onVar w a (unit0 (clear cfg))
  | .reserve a n => onVar w a (unit0 (reserve cfg n))
  | .resize a n => onVar w a (unit0 (resize cfg n))
  | .pushBack a arg =>
    match resolve w arg with
    | some src => onVar w a (unit0 (emplaceBack cfg src))
    | none => .ub
  | .pushRange a args =>
    match resolveAll w args with
    | some srcs => onVar w a (unit0 (pushRange cfg srcs))
    | none => .ub
  | .insert a pos arg =>
    match resolve w arg with
    | some src => onVar w a (insert cfg pos src)
    | none => .ub
  | .insertRange a pos args =>
    match resolveAll w args with
    | some srcs => onVar w a (insertRange cfg pos srcs)
    | none => .ub
  | .popBack a => onVar w a (unit0 (popBack cfg))
  | .erase a pos => onVar w a (erase cfg pos)
  | .eraseRange a i j => onVar w a (eraseRange cfg i j)
  | .writeAt a i v => onVar w a (unit0 (writeAt cfg i v))

/-- The client reads `n` elements from index `i` on, one `operator[]` call each. icontainer.hpp:14-25. -/
def readAll : (n i : Nat) → A α (List α)
  | 0, _ => pure []
  | n + 1, i => do
    let v ← index i
    let vs ← readAll n (i + 1)
    pure (v :: vs)

/-- What a client observes of array `a`: `a[0], ..., a[size() - 1]` and `capacity()`
(array.hpp:121); `none` if there is no such array or a read is undefined. -/
def observe (w : World α) (a : Nat) : Option (List α × Nat) :=
  match w.vars a with
  | none => none
  | some d =>
    match readAll d.size 0 ⟨w.mem, d⟩ with
    | .ok xs _ => some (xs, d.cap)
    | _ => none

/-- A whole client program; stops at the first exception.  The result lists the returned iterators. Part of the
model, not of the code. -/
def run (w : World α) : List (Op α) → Res (World α) (List Nat)
  | [] => .ok [] w
  | op :: ops =>
    match exec cfg w op with
    | .ub => .ub
    | .throw w' => .throw w'
    | .ok r w' =>
      match run w' ops with
      | .ok rs w'' => .ok (r :: rs) w''
      | .throw w'' => .throw w''
      | .ub => .ub

/-- No array, no memory. Part of the model, not of the code. -/
def World.init : World α := ⟨⟨fun _ => none, fun _ _ => .raw, 1, none, 0, 0, 0⟩, fun _ => none⟩

end Verif.Arr
