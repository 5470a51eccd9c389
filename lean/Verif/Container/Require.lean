/-!
# What operations of the containers ask of their elements and of iterators

AY stands for `include/xme/container/array.hpp`, LL for `include/xme/container/linked_list.hpp`, LB for
`private/container/linked_list_base.hpp`, HP for `include/xme/container/heap.hpp`, SQ for `private/container/spsc_queue_base.hpp`,
AD for `include/xme/container/aligned_data.hpp`, UN for `include/xme/ranges/uninitialized.hpp`, DE for
`include/xme/ranges/destroy.hpp`, RI for `include/xme/core/iterators/reverse_iterator.hpp`.

A member function of a class template compiles if all the expressions in it, and in the functions it calls, are valid for the
element type. Here every member function is the list of what its body asks for; what it calls is appended. What an element type
and an iterator of another library offer is up to the program. Left out: allocators (`Alloc/Model.lean`), and which overload is
selected (`Container/Init.lean`).
-/

set_option autoImplicit false

namespace Verif.Require

/-- An expression that an element is made of: an element (`x`, `as_const(x)`, `move(x)`, `move(as_const(x))`) or an expression of
another type. Part of the model, not of the code. -/
inductive Src
  | lvalue | constLvalue | rvalue | constRvalue
  | other (n : Nat)
  deriving DecidableEq

/-- What an element type `T` offers. Part of the model, not of the code. -/
structure Elem where
  /-- `std::default_initializable`, AD 26 -/
  init : Bool
  /-- `std::destructible`, DE 21; a destructor that may throw is left out -/
  destroy : Bool
  /-- it can be constructed from these arguments -/
  construct : List Src → Bool
  /-- `std::convertible_to`, AY 159, 220, LL 176, HP 72, SQ 123, 179 -/
  convert : Src → Bool
  /-- `x = s` is valid -/
  assign : Src → Bool
  /-- `std::ranges::swap` accepts two elements, HP 64, 108, 124 -/
  swap : Bool
  /-- the order of a heap accepts two elements, HP 105, 119, 121 -/
  compare : Bool

/-- What an iterator type of another library offers. It is a `std::input_iterator`. Part of the model, not of the code. -/
structure Facts where
  ref : Src
  forward : Bool
  bidirectional : Bool
  /-- it can be compared with a `T*` by `==`, in both orders -/
  equalsPtr : Bool
  /-- the range has a size, HP 42 -/
  sized : Bool

/-- Iterators over elements of type `T`, `c` for those over constant ones; and any others. AY 358-432, LB 14-105, RI 5-140. -/
inductive Iter
  | pointer (c : Bool)
  | array (c : Bool)
  | list (c : Bool)
  | reverse (it : Iter)
  | other (f : Facts)

/-- The type of `*it`. AY 364, 382, LB 26, 37, 70, 85, RI 14, 41. -/
def Iter.ref : Iter → Src
  | .pointer c => if c then .constLvalue else .lvalue
  | .array c => if c then .constLvalue else .lvalue
  | .list c => if c then .constLvalue else .lvalue
  | .reverse it => it.ref
  | .other f => f.ref

/-- `std::bidirectional_iterator`. AY 366-367, LB 27, 72, RI 16-21. -/
def Iter.bidirectional : Iter → Bool
  | .pointer _ => true
  | .array _ => true
  | .list _ => false
  | .reverse it => it.bidirectional
  | .other f => f.bidirectional

/-- `std::forward_iterator`; a `ReverseIterator` exists only for a bidirectional iterator, RI 5. AY 366-367, LB 27, 72. -/
def Iter.forward : Iter → Bool
  | .reverse it => it.bidirectional
  | .other f => f.forward
  | _ => true

/-- A `T*` is an iterator of this type up to `const`. Part of the model, not of the code. -/
def Iter.isPointer : Iter → Bool
  | .pointer _ => true
  | _ => false

/-- `it == p` and `p == it` for a `T* p`, which `std::sentinel_for<T*, It>` asks for. An iterator of an `Array` is made from a
pointer implicitly, AY 374, 426; a `ReverseIterator` from the iterator below it, RI 28, 122, and only one such conversion is done; an iterator
of a `LinkedList` from a pointer to a node, LB 31, 54, 76, 102. -/
def Iter.equalsPtr : Iter → Bool
  | .pointer _ => true
  | .array _ => true
  | .list _ => false
  | .reverse it => it.isPointer
  | .other f => f.equalsPtr

/-- `::ranges::size(range)` for a range with these iterators, HP 42: the difference of two iterators, AY 410, RI 96. -/
def Iter.sized : Iter → Bool
  | .pointer _ => true
  | .array _ => true
  | .list _ => false
  | .reverse it => it.sized
  | .other f => f.sized

/-- What an expression or a constraint asks for. Part of the model, not of the code. -/
inductive Req
  | init | destroy | swap | compare
  | construct (args : List Src)
  | convert (s : Src)
  | assign (s : Src)
  | forward (it : Iter)
  | equalsPtr (it : Iter)
  | sized (it : Iter)

/-- Whether it is granted. Part of the model, not of the code. -/
def Req.holds (E : Elem) : Req → Bool
  | .init => E.init
  | .destroy => E.destroy
  | .swap => E.swap
  | .compare => E.compare
  | .construct args => E.construct args
  | .convert s => E.convert s
  | .assign s => E.assign s
  | .forward it => it.forward
  | .equalsPtr it => it.equalsPtr
  | .sized it => it.sized

/-- Whether all is granted. Part of the model, not of the code. -/
def granted (E : Elem) (rs : List Req) : Bool := rs.all (Req.holds E)

/-! ### Algorithms -/

/-- `destroy_a(first, last, alloc)`, DE 8-12. -/
def destroyA : List Req := [.destroy]

/-- `uninitialized_copy_a`, UN 8-24: the handler passes the iterator of the source and that of the destination to `destroy_a`,
which takes the second for the end of the first. -/
def uninitializedCopy (it : Iter) : List Req := [.forward it, .construct [it.ref], .equalsPtr it] ++ destroyA

/-- `uninitialized_fill_n_a`, UN 35-49. -/
def uninitializedFill : List Req := [.construct [.constLvalue]] ++ destroyA

/-- `std::ranges::move` and `std::move_backward` into elements, from iterators with this `*it`: what is assigned is
`std::move(*it)`. Called at AY 171, 194-195, 202, 268, 279, 289, 301, 318-319. -/
def moveAlgorithm (constant : Bool) : List Req := [.assign (if constant then .constRvalue else .rvalue)]

/-! ### `Array` -/

/-- `grow_storage`, AY 285-295. -/
def growStorage : List Req := moveAlgorithm false

/-- `shrink_storage`, AY 297-308. -/
def shrinkStorage : List Req := moveAlgorithm false ++ destroyA

/-- `emplace_back`, AY 253-260. -/
def emplaceBackBody (args : List Src) : List Req := growStorage ++ [.construct args]

/-- `realloc_insert`, AY 310-331. -/
def reallocInsert (args : List Src) : List Req :=
  [.construct args] ++ moveAlgorithm false ++ moveAlgorithm false ++ destroyA

/-- The operations of `Array`. AY 39-282. -/
inductive ArrayOp
  | size | fill | list | copy | move
  | iter (it : Iter) | range (it : Iter)
  | copyAssign | moveAssign | listAssign
  | reserve | resize | clear | swap
  | insert (s : Src) | insertIter (it : Iter) | insertRange (it : Iter)
  | pushBack (s : Src) | pushBackIter (it : Iter) | pushBackRange (it : Iter)
  | popBack | emplaceBack (args : List Src)
  | erase | eraseRange

/-- The constructor from two iterators, AY 64-70. -/
def arrayIter (it : Iter) : List Req := uninitializedCopy it

/-- `insert(pos, first, last)`, AY 180-207: the iterators of the array itself are constant ones there. -/
def insertIterBody (it : Iter) : List Req :=
  [.construct [it.ref]] ++ moveAlgorithm true ++ moveAlgorithm true ++ moveAlgorithm true

/-- `push_back(first, last)`, AY 226-236. -/
def pushBackIterBody (it : Iter) : List Req := growStorage ++ [.construct [it.ref]]

/-- What the member functions ask for; a program that has an array destroys it, AY 78-82. -/
def ArrayOp.reqs (op : ArrayOp) : List Req :=
  destroyA ++ match op with
  | .size => []                                                             -- AY 49-53
  | .fill => uninitializedFill                                              -- AY 56-59
  | .list => arrayIter (.pointer true)                                      -- AY 61-62
  | .copy => arrayIter (.array true)                                        -- AY 41
  | .move => []                                                             -- AY 43-44
  | .iter it => arrayIter it                                                -- AY 64-70
  | .range it => [.convert it.ref] ++ arrayIter it                          -- AY 72-76
  | .copyAssign => arrayIter (.array true)                                  -- AY 84-87
  | .moveAssign => []                                                       -- AY 89-92
  | .listAssign => arrayIter (.pointer true)                                -- AY 94-97
  | .reserve => growStorage                                                 -- AY 141-144
  | .resize => growStorage ++ shrinkStorage                                 -- AY 148-153
  | .clear => destroyA                                                      -- AY 134-137
  | .swap => []                                                             -- AY 125-131
  | .insert s =>                                                            -- AY 159-174
    [.convert s] ++ emplaceBackBody [s] ++ reallocInsert [s] ++ [.construct [.rvalue]] ++ moveAlgorithm false ++ [.assign s]
  | .insertIter it => insertIterBody it                                         -- AY 180-207
  | .insertRange it => [.convert it.ref] ++ insertIterBody it                   -- AY 213-217
  | .pushBack s => [.convert s] ++ emplaceBackBody [s]                          -- AY 220-223
  | .pushBackIter it => pushBackIterBody it                                     -- AY 226-236
  | .pushBackRange it => [.convert it.ref] ++ pushBackIterBody it               -- AY 239-243
  | .popBack => [.destroy]                                                  -- AY 246-250
  | .emplaceBack args => emplaceBackBody args                                   -- AY 253-260
  | .erase => [.destroy] ++ moveAlgorithm true                              -- AY 264-270
  | .eraseRange => [.destroy] ++ moveAlgorithm true                         -- AY 274-281

/-! ### `LinkedList` -/

/-- `create_node`, LL 245-257: the node is made first, with its storage, AD 25-27. -/
def createNode (args : List Src) : List Req := [.init, .construct args]

/-- `erase_after`, LL 210-228. -/
def eraseAfterBody : List Req := [.destroy]

/-- `range_initialize`, LL 259-266. -/
def rangeInitialize (it : Iter) : List Req := createNode [it.ref]

/-- `emplace_after`, LL 200-207. -/
def emplaceAfterBody (args : List Src) : List Req := createNode args

/-- `insert_after(pos, first, last)`, LL 183-188. -/
def insertAfterIterBody (it : Iter) : List Req := emplaceAfterBody [it.ref]

/-- `assign(first, last)`, LL 130-146. -/
def assignIterBody (it : Iter) : List Req := [.assign it.ref] ++ insertAfterIterBody it ++ eraseAfterBody

/-- The operations of `LinkedList`. LL 38-242. -/
inductive ListOp
  | default | size | fill | list | copy | move
  | iter (it : Iter) | range (it : Iter)
  | copyAssign | moveAssign | listAssign
  | assignIter (it : Iter) | assignRange (it : Iter)
  | clear | reverse
  | pushFrontCopy | pushFrontMove | popFront | emplaceFront (args : List Src)
  | insertAfter (s : Src) | insertAfterIter (it : Iter) | insertAfterRange (it : Iter)
  | emplaceAfter (args : List Src) | eraseAfter | eraseAfterRange

/-- What the member functions ask for; a program that has a list destroys it, LL 87, 127. -/
def ListOp.reqs (op : ListOp) : List Req :=
  eraseAfterBody ++ match op with
  | .default => []                                                          -- LL 38
  | .size => createNode []                                                  -- LL 41-47
  | .fill => createNode [.constLvalue]                                      -- LL 50-56
  | .list => rangeInitialize (.pointer true)                                -- LL 65-67
  | .copy => rangeInitialize (.list true)                                   -- LL 70-72
  | .move => []                                                             -- LL 82-85
  | .iter it => rangeInitialize it                                          -- LL 59-62
  | .range it => [.convert it.ref] ++ rangeInitialize it                    -- LL 75-79
  | .copyAssign => [.convert (Iter.list true).ref] ++ assignIterBody (.list true)  -- LL 90-93, 153-157
  | .moveAssign => eraseAfterBody                                               -- LL 96-100
  | .listAssign => assignIterBody (.pointer true)                       -- LL 103-106, 149
  | .assignIter it => assignIterBody it                                 -- LL 130-146
  | .assignRange it => [.convert it.ref] ++ assignIterBody it           -- LL 153-157
  | .clear => eraseAfterBody                                                    -- LL 127
  | .reverse => []                                                          -- LL 231-242
  | .pushFrontCopy => emplaceAfterBody [.constLvalue]                   -- LL 160
  | .pushFrontMove => emplaceAfterBody [.rvalue]                        -- LL 162
  | .popFront => eraseAfterBody                                                 -- LL 165
  | .emplaceFront args => emplaceAfterBody args                     -- LL 169-172
  | .insertAfter s => [.convert s] ++ emplaceAfterBody [s]              -- LL 176-179
  | .insertAfterIter it => insertAfterIterBody it                       -- LL 183-188
  | .insertAfterRange it => [.convert it.ref] ++ insertAfterIterBody it -- LL 192-196
  | .emplaceAfter args => emplaceAfterBody args                     -- LL 200-207
  | .eraseAfter => eraseAfterBody                                       -- LL 210-215
  | .eraseAfterRange => eraseAfterBody                                  -- LL 218-228

/-! ### `Heap` on an `Array` -/

/-- `heapfy_up` and `heapfy_down`, HP 103-127. -/
def heapify : List Req := [.compare, .swap]

/-- `push`, HP 72-76. -/
def heapPush (s : Src) : List Req := [.convert s] ++ (ArrayOp.pushBack s).reqs ++ heapify

/-- The operations of `Heap`. HP 25-85. -/
inductive HeapOp
  | default
  | iter (it : Iter) | range (it : Iter)
  | push (s : Src) | emplace (args : List Src) | pop

/-- What the member functions ask for. HP 25-85; reserving is HP 31, 42. -/
def HeapOp.reqs (op : HeapOp) : List Req :=
  destroyA ++ match op with
  | .default => []                                                          -- HP 25
  | .iter it => ArrayOp.reserve.reqs ++ heapPush it.ref                     -- HP 28-35
  | .range it => [.convert it.ref, .sized it] ++ ArrayOp.reserve.reqs ++ heapPush it.ref   -- HP 38-48
  | .push s => heapPush s                                                   -- HP 72-76
  | .emplace args => (ArrayOp.emplaceBack args).reqs ++ heapify             -- HP 81-85
  | .pop => [.swap] ++ ArrayOp.popBack.reqs ++ heapify                      -- HP 62-67

/-! ### `SPSCQueue` -/

/-- The operations of `SPSCQueue`; `fixed` for a capacity known at compile time. SQ 56-73, 123-133, 179-189. -/
inductive QueueOp
  | create (fixed : Bool)
  | push (fixed : Bool) (s : Src) | emplace (fixed : Bool) (args : List Src) | pop (fixed : Bool)

/-- What having such a queue asks for: its destructor, SQ 106-111, 161-167, and its slots, SQ 144, AD 25-27. -/
def queueClass (fixed : Bool) : List Req := [.destroy] ++ if fixed then [.init] else []

/-- What the member functions ask for. SQ 56-73, 123-133, 179-189. -/
def QueueOp.reqs : QueueOp → List Req
  | .create f => queueClass f                                               -- SQ 144, 157-159
  | .push f s => queueClass f ++ [.convert s, .construct [s]]               -- SQ 56-65, 123-126, 179-182
  | .emplace f args => queueClass f ++ [.construct args]                    -- SQ 56-65, 128-131, 184-187
  | .pop f => queueClass f ++ [.destroy]                                    -- SQ 67-73

end Verif.Require
