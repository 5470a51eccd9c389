import Verif.Container.Require
import Mathlib.Tactic.Common

/-!
# What operations of the containers ask of their elements and of iterators

C138: an operation of a container can be used with every element type that offers what the operation has to do with elements,
and with every iterator, as for the containers of the standard library: adding elements needs that they can be made and moved,
removing them from the middle of an array that they can be assigned from rvalues, and only copies need that they can be copied.
Exactly what the code asks for beyond that.
-/

set_option autoImplicit false

namespace Verif.Require

/-- What an operation on an array has to do with elements: what `std::vector` asks for. Specification. -/
def ArrayOp.Needs (E : Elem) (op : ArrayOp) : Prop :=
  E.destroy = true ∧ match op with
  | .size | .move | .moveAssign | .clear | .swap | .popBack => True
  | .fill | .list | .copy | .copyAssign | .listAssign => E.construct [.constLvalue] = true
  | .iter it => E.construct [it.ref] = true ∧ (it.forward = false → E.construct [.rvalue] = true)
  | .range it =>
    E.construct [it.ref] = true ∧ E.convert it.ref = true ∧ (it.forward = false → E.construct [.rvalue] = true)
  | .reserve | .resize => E.construct [.rvalue] = true
  | .pushBack s => E.construct [s] = true ∧ E.convert s = true ∧ E.construct [.rvalue] = true
  | .emplaceBack args => E.construct args = true ∧ E.construct [.rvalue] = true
  | .pushBackIter it => E.construct [it.ref] = true ∧ E.construct [.rvalue] = true
  | .pushBackRange it => E.construct [it.ref] = true ∧ E.convert it.ref = true ∧ E.construct [.rvalue] = true
  | .insert s =>
    E.construct [s] = true ∧ E.convert s = true ∧ E.assign s = true ∧ E.construct [.rvalue] = true ∧ E.assign .rvalue = true
  | .insertIter it => E.construct [it.ref] = true ∧ E.construct [.rvalue] = true ∧ E.assign .rvalue = true
  | .insertRange it =>
    E.construct [it.ref] = true ∧ E.convert it.ref = true ∧ E.construct [.rvalue] = true ∧ E.assign .rvalue = true
  | .erase | .eraseRange => E.assign .rvalue = true

/-- What an operation on a list has to do with elements: what `std::forward_list` asks for. Specification. -/
def ListOp.Needs (E : Elem) (op : ListOp) : Prop :=
  E.destroy = true ∧ match op with
  | .default | .move | .moveAssign | .clear | .reverse | .popFront | .eraseAfter | .eraseAfterRange => True
  | .size => E.construct [] = true
  | .fill | .list | .copy | .pushFrontCopy => E.construct [.constLvalue] = true
  | .iter it | .insertAfterIter it => E.construct [it.ref] = true
  | .range it | .insertAfterRange it => E.construct [it.ref] = true ∧ E.convert it.ref = true
  | .copyAssign =>
    E.construct [.constLvalue] = true ∧ E.assign .constLvalue = true ∧ E.convert .constLvalue = true
  | .listAssign => E.construct [.constLvalue] = true ∧ E.assign .constLvalue = true
  | .assignIter it => E.construct [it.ref] = true ∧ E.assign it.ref = true
  | .assignRange it => E.construct [it.ref] = true ∧ E.assign it.ref = true ∧ E.convert it.ref = true
  | .pushFrontMove => E.construct [.rvalue] = true
  | .emplaceFront args | .emplaceAfter args => E.construct args = true
  | .insertAfter s => E.construct [s] = true ∧ E.convert s = true

/-- What an operation on a heap has to do with elements. Specification. -/
def HeapOp.Needs (E : Elem) (op : HeapOp) : Prop :=
  E.destroy = true ∧ match op with
  | .default => True
  | .iter it | .range it =>
    E.construct [it.ref] = true ∧ E.convert it.ref = true ∧ E.construct [.rvalue] = true ∧ E.swap = true ∧ E.compare = true
  | .push s => E.construct [s] = true ∧ E.convert s = true ∧ E.construct [.rvalue] = true ∧ E.swap = true ∧ E.compare = true
  | .emplace args => E.construct args = true ∧ E.construct [.rvalue] = true ∧ E.swap = true ∧ E.compare = true
  | .pop => E.swap = true ∧ E.compare = true

/-- What an operation on a queue has to do with elements. Specification. -/
def QueueOp.Needs (E : Elem) (op : QueueOp) : Prop :=
  E.destroy = true ∧ match op with
  | .create _ | .pop _ => True
  | .push _ s => E.construct [s] = true ∧ E.convert s = true
  | .emplace _ args => E.construct args = true

/-- Operations on an array that may have to move its elements to other storage. Specification. -/
def Grows : ArrayOp → Prop
  | .reserve | .resize | .pushBack _ | .emplaceBack _ | .pushBackIter _ | .pushBackRange _ => True
  | _ => False

/-- Operations on an array that move a part of its elements and are given constant positions. Specification. -/
def Shifts : ArrayOp → Prop
  | .erase | .eraseRange | .insertIter _ | .insertRange _ => True
  | _ => False

/-- The iterators that an array is constructed from. Specification. -/
def From : ArrayOp → Iter → Prop
  | .iter it, j => it = j
  | .range it, j => it = j
  | _, _ => False

/-- C138 for arrays, beyond what is needed. An operation given what it has to have compiles unless the elements cannot be
assigned from rvalues and it may have to grow; or they cannot be assigned from constant rvalues (which takes a copy, as a rule)
and it erases or inserts a range; or it constructs an array from iterators that cannot be compared with a pointer to an element,
or that are not forward iterators. -/
theorem array_exact (E : Elem) (op : ArrayOp) (h : op.Needs E) :
    granted E op.reqs = true ↔
      (Grows op → E.assign .rvalue = true) ∧ (Shifts op → E.assign .constRvalue = true) ∧
      ∀ it, From op it → it.forward = true ∧ it.equalsPtr = true := by
  cases op <;>
    simp_all [ArrayOp.Needs, granted, ArrayOp.reqs, arrayIter, uninitializedCopy, uninitializedFill, destroyA, growStorage,
      shrinkStorage, moveAlgorithm, emplaceBackBody, reallocInsert, insertIterBody, pushBackIterBody, Req.holds, Grows, Shifts,
      From, Iter.ref, Iter.forward, Iter.equalsPtr]

/-- Operations on an array that move elements to other storage; they do so by assignment. Specification. -/
def Moves : ArrayOp → Prop
  | .reserve | .resize | .pushBack _ | .emplaceBack _ | .pushBackIter _ | .pushBackRange _ | .insertIter _ | .insertRange _ => True
  | _ => False

/-- No operation on an array asks for less, except that elements moved to other storage need not be constructible from rvalues:
if it compiles for elements that are, all that the operation has to do can be done. -/
theorem array_sound (E : Elem) (op : ArrayOp) (h : granted E op.reqs = true)
    (hm : Moves op ∨ (∃ it, From op it) → E.construct [.rvalue] = true)
    (hs : Shifts op → E.assign .constRvalue = true → E.assign .rvalue = true) : op.Needs E := by
  cases op <;>
    simp_all [ArrayOp.Needs, granted, ArrayOp.reqs, arrayIter, uninitializedCopy, uninitializedFill, destroyA, growStorage,
      shrinkStorage, moveAlgorithm, emplaceBackBody, reallocInsert, insertIterBody, pushBackIterBody, Req.holds, Moves, Shifts,
      From, Iter.ref, Iter.forward, Iter.equalsPtr]

/-- Operations on a list that make elements. Specification. -/
def Makes : ListOp → Prop
  | .default | .move | .moveAssign | .clear | .reverse | .popFront | .eraseAfter | .eraseAfterRange => False
  | _ => True

/-- C138 for lists, exactly: an operation compiles if and only if it is given what it has to have and, if it makes elements,
they can also be made from nothing. -/
theorem list_exact (E : Elem) (op : ListOp) :
    granted E op.reqs = true ↔ op.Needs E ∧ (Makes op → E.init = true) := by
  cases op <;>
    simp [ListOp.Needs, granted, ListOp.reqs, createNode, eraseAfterBody, rangeInitialize, emplaceAfterBody,
      insertAfterIterBody, assignIterBody, Req.holds, Makes, Iter.ref] <;> tauto

/-- C138 for heaps, exactly: an operation given what it has to have compiles if and only if, when it adds elements, they can be
assigned from rvalues, and a range it is given has a size. -/
theorem heap_exact (E : Elem) (op : HeapOp) (h : op.Needs E) :
    granted E op.reqs = true ↔
      ((op ≠ .default ∧ op ≠ .pop) → E.assign .rvalue = true) ∧ ∀ it, op = .range it → it.sized = true := by
  cases op <;>
    simp_all [HeapOp.Needs, granted, HeapOp.reqs, ArrayOp.reqs, heapPush, heapify, destroyA, growStorage, moveAlgorithm,
      emplaceBackBody, Req.holds]
  tauto

/-- No operation on a heap asks for less. -/
theorem heap_sound (E : Elem) (op : HeapOp) (h : granted E op.reqs = true) (hm : E.construct [.rvalue] = true) :
    op.Needs E := by
  cases op <;>
    simp_all [HeapOp.Needs, granted, HeapOp.reqs, ArrayOp.reqs, heapPush, heapify, destroyA, growStorage, moveAlgorithm,
      emplaceBackBody, Req.holds]

/-- The capacity is known at compile time. Specification. -/
def Fixed : QueueOp → Prop
  | .create f | .push f _ | .emplace f _ | .pop f => f = true

/-- C138 for queues, exactly: an operation compiles if and only if it is given what it has to have and, if the capacity is known
at compile time, elements can also be made from nothing. -/
theorem queue_exact (E : Elem) (op : QueueOp) :
    granted E op.reqs = true ↔ op.Needs E ∧ (Fixed op → E.init = true) := by
  cases op with
  | create f | pop f => cases f <;> simp +contextual [QueueOp.Needs, granted, QueueOp.reqs, queueClass, Req.holds, Fixed]
  | push f _ | emplace f _ => cases f <;> simp [QueueOp.Needs, granted, QueueOp.reqs, queueClass, Req.holds, Fixed] <;> tauto

/-- An element type as most are: it can be made from nothing, copied and moved by construction and assignment, implicitly,
swapped, compared and destroyed. Specification. -/
structure Regular (E : Elem) : Prop where
  init : E.init = true ∧ E.construct [] = true
  destroy : E.destroy = true
  own : ∀ s, (∀ n, s ≠ .other n) → E.construct [s] = true ∧ E.convert s = true ∧ E.assign s = true
  order : E.swap = true ∧ E.compare = true

/-- An element type as `std::unique_ptr`: it is made and assigned from its own type only by moving. Specification. -/
structure MoveOnly (E : Elem) : Prop where
  init : E.init = true ∧ E.construct [] = true
  destroy : E.destroy = true
  rvalue : E.construct [.rvalue] = true ∧ E.convert .rvalue = true ∧ E.assign .rvalue = true
  not : ∀ s, s = .lvalue ∨ s = .constLvalue ∨ s = .constRvalue →
    E.construct [s] = false ∧ E.convert s = false ∧ E.assign s = false
  order : E.swap = true ∧ E.compare = true

/-- C138 is false: elements that can only be moved cannot be erased from an array, although that need not copy them, and no
range of others can be inserted into it, wherever the elements come from. -/
theorem move_only_wrong (E : Elem) (h : MoveOnly E) :
    ArrayOp.Needs E .erase ∧ granted E ArrayOp.erase.reqs = false ∧
    ArrayOp.Needs E .eraseRange ∧ granted E ArrayOp.eraseRange.reqs = false ∧
    ∀ it, granted E (ArrayOp.insertIter it).reqs = false ∧ granted E (ArrayOp.insertRange it).reqs = false := by
  obtain ⟨-, hd, ⟨-, -, hr⟩, hn, -⟩ := h
  have h1 := (hn .constRvalue (.inr (.inr rfl))).2.2
  simp [ArrayOp.Needs, granted, ArrayOp.reqs, moveAlgorithm, destroyA, insertIterBody, Req.holds, hd, hr, h1]

/-- C138 is false: an array of elements that can be moved but not assigned cannot grow. -/
theorem no_assignment_wrong (E : Elem) (h : E.assign .rvalue = false) (args : List Src) :
    granted E ArrayOp.reserve.reqs = false ∧ granted E (ArrayOp.emplaceBack args).reqs = false ∧
    ∀ s, granted E (ArrayOp.pushBack s).reqs = false := by
  simp [granted, ArrayOp.reqs, moveAlgorithm, destroyA, growStorage, emplaceBackBody, Req.holds, h]

/-- C138 is false: no array can be made from the iterators of a list, from reverse iterators of an array or of a list, or from
iterators of another library that do not compare with pointers, whatever the elements are. -/
theorem iterators_wrong (E : Elem) (c : Bool) (f : Facts) (hf : f.equalsPtr = false ∨ f.forward = false) :
    granted E (ArrayOp.iter (.list c)).reqs = false ∧
    granted E (ArrayOp.iter (.reverse (.array c))).reqs = false ∧
    granted E (ArrayOp.iter (.other f)).reqs = false ∧ granted E (ArrayOp.range (.other f)).reqs = false := by
  rcases hf with hf | hf <;>
  simp [granted, ArrayOp.reqs, arrayIter, uninitializedCopy, destroyA, Req.holds, Iter.equalsPtr, Iter.forward,
    Iter.isPointer, hf]

/-- C138 is false: elements that cannot be made from nothing cannot be put into a list or into a queue of fixed capacity. -/
theorem no_default_wrong (E : Elem) (h : E.init = false) (args : List Src) :
    granted E (ListOp.emplaceFront args).reqs = false ∧ granted E (QueueOp.emplace true args).reqs = false := by
  simp [granted, ListOp.reqs, emplaceAfterBody, createNode, eraseAfterBody, QueueOp.reqs, queueClass, Req.holds, h]

/-- The operation is given iterators over the elements' own type. Specification. -/
def Own (it : Iter) : Prop := ∀ n, it.ref ≠ .other n

/-- The part of C138 that holds for arrays: with elements as most are, everything compiles for the sources of the element type
itself, provided that an array is constructed only from forward iterators that can be compared with pointers. -/
theorem regular_partial (E : Elem) (h : Regular E) (op : ArrayOp)
    (hop : match op with
      | .insert s | .pushBack s => ∀ n, s ≠ .other n
      | .emplaceBack args => E.construct args = true
      | .insertIter it | .insertRange it | .pushBackIter it | .pushBackRange it => Own it
      | .iter it | .range it => Own it ∧ it.forward = true ∧ it.equalsPtr = true
      | _ => True) : granted E op.reqs = true := by
  obtain ⟨⟨hi, hc⟩, hd, ho, -⟩ := h
  have h1 := ho .rvalue (by simp)
  have h2 := ho .constRvalue (by simp)
  have h3 := ho .constLvalue (by simp)
  refine (array_exact E op ?_).2 ⟨fun _ => h1.2.2, fun _ => h2.2.2, ?_⟩
  · cases op <;> simp_all [ArrayOp.Needs, Own]
  · cases op <;> simp_all [From]

/-- The part of C138 that holds for elements that can only be moved: they can be added to all containers and taken from their
ends, and the containers can be moved. -/
theorem move_only_partial (E : Elem) (h : MoveOnly E) :
    (∀ op ∈ [ArrayOp.pushBack .rvalue, .insert .rvalue, .reserve, .resize, .popBack, .clear, .move, .moveAssign, .swap],
      granted E op.reqs = true) ∧
    (∀ op ∈ [ListOp.pushFrontMove, .insertAfter .rvalue, .size, .popFront, .eraseAfter, .eraseAfterRange, .reverse, .move,
      .moveAssign], granted E op.reqs = true) ∧
    (∀ op ∈ [HeapOp.push .rvalue, .pop], granted E op.reqs = true) ∧
    (∀ f, ∀ op ∈ [QueueOp.push f .rvalue, .pop f], granted E op.reqs = true) := by
  obtain ⟨⟨hi, hc⟩, hd, ⟨h1, h2, h3⟩, -, hs, hcmp⟩ := h
  refine ⟨?_, ?_, ?_, ?_⟩
  · simp [granted, ArrayOp.reqs, destroyA, growStorage, shrinkStorage, moveAlgorithm, emplaceBackBody, reallocInsert, Req.holds,
      hd, h1, h2, h3]
  · simp [granted, ListOp.reqs, emplaceAfterBody, createNode, eraseAfterBody, Req.holds, hi, hc, hd, h1, h2]
  · simp [granted, HeapOp.reqs, ArrayOp.reqs, heapPush, heapify, destroyA, growStorage, moveAlgorithm, emplaceBackBody,
      Req.holds, hd, h1, h2, h3, hs, hcmp]
  · intro f
    cases f <;> simp [granted, QueueOp.reqs, queueClass, Req.holds, hi, hd, h1, h2]

/-- `int`: made from nothing, from itself and from everything else that converts to it. -/
def int : Elem := ⟨true, true, fun a => a.length ≤ 1, fun _ => true, fun _ => true, true, true⟩

/-- `std::unique_ptr<int>`. -/
def uniquePtr : Elem := ⟨true, true, fun a => a = [] || a = [.rvalue], fun s => s = .rvalue, fun s => s = .rvalue, true, true⟩

/-- A class with a `const` member: it can be copied and moved, but not assigned. -/
def constMember : Elem :=
  ⟨false, true, fun a => a.length = 1, fun _ => true, fun _ => false, false, true⟩

/-- The iterators of `std::vector<T>`: they do not compare with pointers. -/
def vectorIterator : Iter := .other ⟨.lvalue, true, true, false, true⟩

theorem int_regular : Regular int := ⟨⟨rfl, rfl⟩, rfl, fun _ _ => ⟨rfl, rfl, rfl⟩, rfl, rfl⟩

theorem uniquePtr_moveOnly : MoveOnly uniquePtr :=
  ⟨⟨rfl, rfl⟩, rfl, ⟨rfl, rfl, rfl⟩, by rintro s (rfl | rfl | rfl) <;> exact ⟨rfl, rfl, rfl⟩, rfl, rfl⟩

example : ArrayOp.Needs int (.iter vectorIterator) ∧ granted int (ArrayOp.iter vectorIterator).reqs = false ∧
    granted int (ArrayOp.insertIter vectorIterator).reqs = true ∧ granted int (ListOp.iter vectorIterator).reqs = true :=
  ⟨⟨rfl, rfl, fun _ => rfl⟩, by decide, by decide, by decide⟩

example : granted int (ArrayOp.iter (.reverse (.pointer true))).reqs = true := by decide

example : ArrayOp.Needs constMember (.pushBack .lvalue) ∧ granted constMember (ArrayOp.pushBack .lvalue).reqs = false ∧
    granted constMember ArrayOp.copy.reqs = true :=
  ⟨⟨rfl, rfl, rfl, rfl⟩, by decide, by decide⟩

example : ListOp.Needs constMember .pushFrontCopy ∧ granted constMember ListOp.pushFrontCopy.reqs = false :=
  ⟨⟨rfl, rfl⟩, by decide⟩

example : granted uniquePtr ArrayOp.erase.reqs = false ∧ granted uniquePtr (ArrayOp.pushBack .rvalue).reqs = true :=
  ⟨(move_only_wrong _ uniquePtr_moveOnly).2.1, (move_only_partial _ uniquePtr_moveOnly).1 _ (by simp)⟩

example : HeapOp.Needs int (.range (.list true)) ∧ granted int (HeapOp.range (.list true)).reqs = false ∧
    granted int (HeapOp.iter (.list true)).reqs = true :=
  ⟨⟨rfl, rfl, rfl, rfl, rfl, rfl⟩, by decide, by decide⟩

end Verif.Require
