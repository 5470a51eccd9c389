/-!
# What can be reached through a constant object

The types of the expressions a client can form with the accessors of the containers, views, iterators, vectors and tuples,
without casts. AR stands for `include/xme/container/array.hpp`, LL for `include/xme/container/linked_list.hpp`, LB for
`private/container/linked_list_base.hpp`, HP for `include/xme/container/heap.hpp`, AV for
`include/xme/container/array_view.hpp`, IC for `include/xme/container/icontainer.hpp`, CI for
`include/xme/core/iterators/const_iterator.hpp`, IT for `include/xme/core/iterators/iterator_traits.hpp`, RI for
`include/xme/core/iterators/reverse_iterator.hpp`, AD for `include/xme/container/aligned_data.hpp`, TU for
`include/xme/container/tuple.hpp`, TB for `private/container/tuple_base.hpp`, PA for `include/xme/container/pair.hpp`, V
for `include/xme/math/vector.hpp`, V2, V3, V4 for `vectors/vector2.hpp`, ... below `include/xme/math`, M for
`include/xme/math/matrix.hpp`, M4 for `matrices/matrix4x4.hpp`, Q for `include/xme/math/quaternion.hpp`.

A flag `true` means `const`. Only types are modelled: which element an accessor designates is the subject of the other
models. Copies of containers are other objects and are left out; copies of views and iterators designate the same elements
and are kept. The elements of tuples and pairs are of value types. Iterators handed to a container they do not belong to are
left out: that is undefined anyway.
-/

set_option autoImplicit false

namespace Verif.Constness

/-- Types of expressions. -/
inductive Ty
  /-- An element, `T&` or `const T&`. -/
  | elem (c : Bool)
  /-- `T*` or `const T*`, also the iterator of a view, AV 68-69. -/
  | ptr (c : Bool)
  /-- `Array<T>&` or `const Array<T>&`, AR 15. -/
  | array (c : Bool)
  /-- `Array::Iterator<Const>`, AR 358-360. -/
  | arrayIt (c : Bool)
  /-- `LinkedList<T>&` or `const LinkedList<T>&`, LL 15. -/
  | list (c : Bool)
  /-- `LinkedListIterator`, LB 15, and `LinkedListConstIterator`, LB 60. -/
  | listIt (c : Bool)
  /-- `LinkedListNodeBase*` or `const LinkedListNodeBase*`, LB 5-7. -/
  | node (c : Bool)
  /-- `Heap<T>&` or `const Heap<T>&` on an `Array`, HP 13. -/
  | heap (c : Bool)
  /-- An `ArrayView<T>` or `ArrayView<const T>` (`e`) that is itself constant or not (`c`), AV 56. -/
  | view (c e : Bool)
  /-- `Vector<T, n>`, V 40. -/
  | vec (c : Bool)
  /-- `Matrix<T, c, r>`, M 46. -/
  | mat (c : Bool)
  /-- `Quaternion<T>`, Q 7. -/
  | quat (c : Bool)
  /-- `Tuple<T...>` and `Pair<T, U>`, TU 9, PA 9. -/
  | tuple (c : Bool)
  /-- `AlignedData<T>`, AD 13. -/
  | data (c : Bool)
  /-- `ConstIterator<It>`, CI 11. -/
  | constIt (t : Ty)
  /-- `ReverseIterator<It>`, RI 6. -/
  | revIt (t : Ty)
  deriving DecidableEq

/-- Which means a client uses besides the ordinary accessors: `nodes`, the public members `current_node` of the iterators
and `next` of the nodes of a list, LB 6, 56, 104; `copies`, copies of views and `subview`, `first` and `last`, AV
157-205. -/
structure Uses where
  nodes : Bool
  copies : Bool

/-- Types that are iterators. -/
def isIter : Ty → Bool
  | .ptr _ | .arrayIt _ | .listIt _ => true
  | .constIt t | .revIt t => isIter t
  | _ => false

/-- Types that are bidirectional iterators: LB 27 and 72 declare forward iterators only, the adaptors are what they adapt, CI
16-27, RI 19-21. -/
def isBidi : Ty → Bool
  | .ptr _ | .arrayIt _ => true
  | .constIt t | .revIt t => isBidi t
  | _ => false

/-- Types that are contiguous iterators: AR 367, CI 17-18; a reverse iterator is at most a random access iterator, RI
19-21. -/
def isContig : Ty → Bool
  | .ptr _ | .arrayIt _ => true
  | .constIt t => isContig t
  | _ => false

/-- Whether the `reference` of an iterator is constant: pointers; AR 364; LB 26 and 70; `iter_const_reference_t`, CI 13 and
IT 5-7; RI 14. -/
def refc : Ty → Bool
  | .ptr c | .arrayIt c | .listIt c => c
  | .constIt _ => true
  | .revIt t => refc t
  | _ => true

/-- What the adaptors make of an iterator: `ConstIterator<It>`, CI 38 and 203-209, for an iterator that is not constant
already, `ReverseIterator<It>`, RI 28, and views, AV 79-90. -/
def adapted (t : Ty) : List Ty :=
  [.constIt t] ++ (if isBidi t then [.revIt t] else []) ++ (if isContig t then [.view false (refc t)] else [])

/-- The expressions one call or conversion makes from an lvalue of a type. Adding `const` is always possible. -/
def step (u : Uses) : Ty → List Ty
  -- a constant reference to the same element
  | .elem _ => [.elem true]
  -- `*p`, `p[i]`, `p + n`, conversion to `const T*`, `Array::Iterator(pointer)`, AR 374
  | .ptr c => [.elem c, .ptr c, .ptr true, .arrayIt c] ++ adapted (.ptr c)
  -- `begin()`, `end()`, AR 99-117; `operator[]`, `front()`, `back()`, IC 14-25, 79-104; `data()`, IC 47-59; a view of the
  -- array, AV 93-98
  | .array c => [.array true, .arrayIt c, .elem c, .ptr c, .view false c]
  -- `*it`, `it[n]`, AR 382 and 424; `it.operator->()`, AR 380; arithmetic, AR 384-422; conversion to a constant iterator, AR
  -- 376-378
  | .arrayIt c => [.elem c, .ptr c, .arrayIt c, .arrayIt true] ++ adapted (.arrayIt c)
  -- `before_begin()`, `begin()`, `end()`, `cbefore_begin()`, LL 108-124; `front()`, IC 79-90
  | .list c => [.list true, .listIt c, .elem c, .listIt true]
  -- `*it`, LB 37 and 85; `it.operator->()`, LB 33 and 81; `++it`, LB 41-50 and 89-98; conversion, LB 78; the member
  -- `current_node`, LB 56 and 104
  | .listIt c => [.elem c, .ptr c, .listIt c, .listIt true] ++ adapted (.listIt c) ++ (if u.nodes then [.node c] else [])
  -- the member `next`, LB 6; the constructors of iterators from nodes, LB 31 and 76
  | .node c => [.node true, .listIt c, .listIt true] ++ (if u.nodes then [.node false] else [])
  -- `begin()`, `end()`, HP 50-58; `operator[]`, `front()`, `back()`, `data()`, IC 14-104; a view, AV 93-98
  | .heap _ => [.heap true, .arrayIt true, .elem true, .ptr true, .view false true]
  -- `begin()`, `end()`, AV 121-142; `operator[]`, `front()`, `back()`, `data()`, IC 14-104; `as_bytes`, AV 229-236; a copy,
  -- `subview`, `first`, `last`, AV 157-205, and `as_writable_bytes`, AV 238-247, which takes a copy
  | .view c e => [.view true e, .ptr (c || e), .elem (c || e), .view false true] ++
      (if u.copies then [.view false e] else []) ++ (if u.copies && !e then [.view false false] else [])
  -- `operator[]`, V 87-97, V2 76-86, V3 89-99, V4 106-116; the members `m_data`, `x`, ..., V 120, V2 106-107
  | .vec c => [.vec true, .elem c]
  -- `operator[]`, M 121-129, M4 126-134
  | .mat c => [.mat true, .vec c]
  -- `operator[]`, Q 37-45
  | .quat c => [.quat true, .elem c]
  -- `get<I>`, `apply`, TU 57-94, TB 19-41; PA 19-63, 86-102
  | .tuple c => [.tuple true, .elem c]
  -- `data()`, AD 46-56
  | .data c => [.data true, .ptr c]
  -- `*it`, `it[n]`, CI 54 and 129; `it.operator->()`, CI 47-52; arithmetic, CI 56-127
  | .constIt t => [.elem true, .ptr true, .constIt t] ++ adapted (.constIt t)
  -- `*it`, `it[n]`, RI 41-48 and 116; `it.operator->()`, RI 33-40; arithmetic, RI 50-114; the conversion of RI 30-31 to a
  -- reverse iterator over a constant iterator
  | .revIt t => [.elem (refc t), .ptr (refc t), .revIt t] ++ adapted (.revIt t) ++
      (match t with
      | .ptr _ => [.revIt (.ptr true)]
      | .arrayIt _ => [.revIt (.arrayIt true)]
      | _ => []) ++ (if isIter t then [.revIt (.constIt t)] else [])

/-- What a client reaches from an expression by any number of calls. -/
inductive Reach (u : Uses) : Ty → Ty → Prop
  | refl (t : Ty) : Reach u t t
  | call {t s r : Ty} : s ∈ step u t → Reach u s r → Reach u t r

end Verif.Constness
