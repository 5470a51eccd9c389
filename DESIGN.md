# Formal model of xme in Lean 4

Source: `/repo` (XDeme1/xme at the pinned commit), read as text.  `properties.jsonl` states the
properties, `MANIFEST.json` links each to its theorems, `lean/` holds the model and the proofs,
`seeded/LOG.jsonl` the wrong programs the theorems were tested against.

## 1. Trusted base

* Lean 4.33.0's kernel.
* The axioms `propext`, `Classical.choice`, `Quot.sound`, and no others; section 6 lists which theorem
  uses which.  No axiom is added; there is no `sorry`, `admit`, `native_decide`, `bv_decide`,
  `implemented_by` or `unsafe`.
* The definitions a statement mentions: those of this project's models and specifications, and Mathlib's
  (`List`, `Matrix.det`, `Real.pi`, `Quaternion`, `tsum`, `NNReal.agm`, ...).
* The correspondence between the C++ text and the model.  It is made by reading; each definition cites
  the file and lines it models and says where it simplifies.  The models of things outside the
  repository (range-v3's `find`, `reverse`, `iter_swap`; Intel intrinsics; POSIX `setenv`, `getenv`,
  `dlopen`; the C++ memory model; IEEE 754 rounding) follow their documentation.
* No C++ was compiled or run.  "Does not compile" below is a reading of the text against the standard,
  not a compiler's verdict.

## 2. Ground rules of the model

* Undefined behaviour is an outcome of its own (`ub` or `none`), never totalised away.  Failed
  assertions, exceptions and loops that do not end are outcomes too.
* Memory is explicit where ownership or lifetime matters (Array, LinkedList, SPSC queue, Delegate,
  ranges): blocks, nodes and slots with lifetime states.
* `size_t` wraps at 64 bits where the code relies on it (SPSC queue, ArrayView assertions,
  has_single_bit).  Elsewhere sizes are unbounded naturals; an array cannot exceed the address space.
* A property is stated with a vocabulary of its own (mathematical lists, `Matrix.det`, a bounded FIFO,
  ledgers of objects, cells of memory), not with the helpers of the model it is about.
* If the code violates a property, the violation is proved on a concrete reachable state (`_wrong`,
  `_diverges`, ...), the strongest true part found is proved as `..._partial`, and the property is
  `partial` in the manifest.
* Beside each property theorem an `example` shows a concrete case that meets its hypotheses.

## 3. What is modelled

Paths are relative to `/repo/include/xme` unless they start with `private/`.

| Source | Lean | Properties | Left out or simplified |
|---|---|---|---|
| `container/array.hpp` | `Array/Model` (memory, operations), `Array/Spec` (programs over many arrays, lists as specification), `Array/Pointers*` | C01-C13, C82 | `size_t` overflow (but see C124); element types are "trivial" or "class" as the code distinguishes them; the constant-evaluation branches; blocks are never reused, which makes stale pointers detectable; `operator-(n, it)` of the iterator (ill-formed) |
| `container/linked_list.hpp`, `private/container/linked_list_base.hpp` | `LinkedList/Model`, `Spec` | C14-C22 | moving of elements by the allocator-aware constructors with unequal allocators; `AlignedData` is storage of the right size |
| `container/spsc_queue.hpp`, `private/container/spsc_queue_base.hpp` | `SPSC/Index` (index arithmetic), `SPSC/Seq` (one thread, lifetimes, exceptions), `SPSC/Conc` (two threads, release/acquire with stale reads and vector clocks) | C23-C31 | more than one producer or consumer (C27 has a third thread that only reads sizes); the memory model allows at least the executions C++20 allows |
| `container/heap.hpp` | `Heap/Model`, `Heap/Oracle` | C32-C36, C105, C106 | the container is the sequence proved for Array; in C32-C36 the comparator is pure and does not throw; arguments are values; see C122 for memory and machine integers |
| `core/algorithm/find.hpp` | `Algo/Find` | C37-C40 | contiguous ranges of 1, 2, 4, 8-byte elements in every SIMD configuration; pointers formed past the end are numbers |
| `core/algorithm/reverse.hpp` | `Algo/Reverse` | C41, C42 | as for find |
| `core/functional/delegate.hpp` | `Functional/Delegate`, `Functional/DelegateAddress` | C43-C45, C104 | copying (does not compile); constructors of the stored callable that throw; C43-C45 take a callable to move along with the bytes of the storage, C104 says when it does not have to |
| `core/functional/bind.hpp` | `Functional/Bind` | C46 | argument types, `noexcept`; the C++23 forms (do not compile) |
| `core/functional/scoped_delegate.hpp` | `Functional/Scoped` | C47 | a program is the path an execution takes through nested scopes |
| `container/tuple.hpp`, `private/container/tuple_base.hpp`, `container/pair.hpp` | `Tuple/Model`, `Tuple/Category` | C48-C50, C107, C108 | element types; value categories only in C107 and C108; overlapping assignment of tuples of references |
| `container/array_view.hpp`, `container/icontainer.hpp` | `View/Model` | C51-C53 | constant evaluation |
| `core/iterators/reverse_iterator.hpp` | `Core/ReverseIterator` | C54, C55 | |
| `core/bit/has_single_bit.hpp`, `core/utility/to_unsigned.hpp`, `core/utility/forward_like.hpp` | `Core/Bits` | C56-C58 | |
| `math/vector.hpp`, `math/vectors/*.hpp`, `math/scalars/functions.hpp` | `Math/Vector` | C59-C64, C83, C84 | operands of equal component type; `(&x)[i]` is taken to be the i-th component although pointer arithmetic across members is formally undefined |
| `math/matrix.hpp`, `math/matrices/*.hpp`, `math/quaternion.hpp` | `Math/Matrix` | C65-C75, C81, C85 | as for vectors |
| the same headers with integer components | `Math/IntVector` | C90-C94 | both operands of one component type; the result is converted to it; integer types as in a 32-bit-int ABI |
| constructors and comparisons in the same headers | `Math/Compare` | C95, C96 | the comparison of components is a parameter; overload resolution |
| floating-point arithmetic | `Math/Rounding` | C83-C86 | unbounded exponent (no overflow, underflow, infinities, subnormals), no NaN, one zero, no fused multiply-add, no wider intermediate type |
| `math/scalars/trigonometry.hpp` | `Math/Trigonometry` | C76, C86, C130 | the C library's functions are the real ones |
| `math/constants.hpp` | `Math/Constants` | C77, C86 | |
| `hal/shared_library.hpp` (Linux) | `Hal/SharedLibrary` | C78 | `dlsym`, names |
| `hal/linux/platform.hpp` (environment) | `Hal/Env` | C79 | locale, other processes |
| `hal/simd_detection.hpp` | `Hal/Simd` | C80 | macros redefined with another value |
| `ranges/destroy.hpp`, `ranges/uninitialized.hpp` | `Ranges/Model` | C87-C89 | iterators are pointers; destructors do not throw; elements that are arrays |
| `core/iterators/const_iterator.hpp`, `iterator_traits.hpp`, `concepts/constant_iterator.hpp` | `Core/ConstIterator` | C97 | random-access iterators; references only, no proxies; the converting constructor (does not compile) |
| `container/aligned_data.hpp` | `AlignedData/Model` | C98 | copies; constructors that throw |
| float and double | `Math/Ieee` | C99-C103 | the values and operations of a binary IEEE 754 format with limited exponent: subnormal numbers, infinities, signed zeros, round to nearest even; one NaN (no payload, no sign), no fused multiply-add, no flush-to-zero, no wider intermediate type, no inexact flag. `Flagged` pairs a value with a sticky flag for the overflow, underflow, division-by-zero and invalid-operation exceptions; the vector code is the same model run on these components |
| `VEC_OP`, `VEC_SELF_OP`, converting constructors between component types | `Math/MixedVector`, `Math/FloatMixed` | C109 | floating-point components of the right operand are real numbers; floating-point left operands without exponent range, NaN and infinities |
| `Delegate` with callables that throw | `Functional/DelegateThrow` | C110 | destructors do not throw |
| `bind_front`, `bind_back`, copies of binders with parts that throw | `Functional/BindThrow` | C111 | assignments of binders and arguments that decay are not modelled |
| `find`, `reverse` element by element, with comparisons and swaps that throw | `Algo/Throwing` | C112 | `::ranges` algorithms are the loops they are documented to be |
| iterators and accessors of `Array` | `Array/Iterator` | C113 | const and non-const iterators are one type |
| iterators of `LinkedList` | `LinkedList/Iterator` | C114 | addresses are compared as numbers |
| constructors, iterators, accessors of `ArrayView` | `View/Construct` | C115, C116 | constraints on the kind of range are not modelled |
| `operator[]` of vectors and matrices, `row`, `column`, the loop of `sign` | `Math/Subscript` | C117, C118 | other loops over subscripts are modelled in `Math/Vector` and `Math/Matrix` by components |
| names in `SharedLibrary`, `proc_address` | `Hal/Symbols` | C119 | what can be loaded does not change |
| storage of `StaticSPSCQueue` | `SPSC/Storage` | C120 | the queue itself is modelled in `SPSC/Seq` and `SPSC/Conc` over abstract slots |
| constructors of `AlignedData`, overload resolution between them | `AlignedData/Copy` | C121 | element types are described by three traits |
| `Heap` on the memory of `Array`, indices in 64 bits | `Heap/Stored` | C122 | the comparator is pure; the elements of a range given to a constructor are values; allocations of 2^63 elements or more do not succeed |
| iterators given to `Array` and `Heap` | `Array/SinglePass` | C123 | the kinds of iterators are: multi-pass; single-pass that read on `*`; single-pass that hold the current element. A single-pass range is values, not elements of the array itself |
| sizes of `Array` in 64 bits | `Array/Sizes` | C124 | the size computations of the four functions; the rest is as in `Array/Model` |
| allocators of `Array` and `LinkedList` | `Alloc/Model` | C125 | only storage and allocators: no elements, no exceptions; whether a call needs new storage is a parameter |
| `#include` and the name `ranges` | `Headers/Model` | C126 | only the name `ranges` is looked up; headers that neither declare nor use it, nor include one that does, are one header `other` |
| `make_tuple`, `make_pair`, `tie`, `forward_as_tuple`, deduction guides of `Tuple` and `Pair` | `Tuple/Make` | C127 | `const` belongs to the element type; no arrays, functions or rvalues of const objects as arguments; which `operator=` is chosen follows overload resolution for elements of the same type up to references |
| `==` and `<=>` of `Tuple` and `Pair` with elements that throw | `Tuple/CompareThrow` | C128 | none |
| Vectors of `bool` | `Math/BoolVector` | C131 | both operands of type `bool`; scalars converted first |
| projection matrices in floating point | `Math/IeeeProjectionProps` | C132 | the templates of `Math/Matrix` on the IEEE 754 values of `Math/Ieee`; `std::tan` arbitrary and its own exceptions not recorded |
| order of lengths, bounds of unit vectors in floating point | `Math/IeeeBoundProps` | C133 | the templates of `Math/Vector` on the IEEE 754 values of `Math/Ieee` |
| `core/concepts/arithmetic.hpp`, `different_from.hpp`, `core/type_traits/*` | `Core/Types` | C134 | a grammar of types; the standard traits from the rules of the language; no extended arithmetic types |
| overload resolution of `Delegate`, `BindFront`, `BindBack` constructors and of the assignment of `Delegate`; the deduction guides | `Functional/Init` | C135 | only the rules of overload resolution that matter here; no braced lists; constructibility and callability are up to the program |
| `tuple_size`, `tuple_element`, types of `get`, `CTupleLike`, `CPairLike`, type of `tuple_cat`, structured bindings | `Tuple/Types` | C136 | tuples and pairs of the library only, without deducing `this` |
| overload resolution of the constructors of `Array`, `LinkedList`, `Heap` with one argument, and of `push_back`, `insert`, `insert_after` | `Container/Init` | C137 | the rules of `Functional/Init`; no braced lists; being a range and conversions to elements, sizes and allocators are up to the program |
| what each operation of `Array`, `LinkedList`, `Heap`, `SPSCQueue` asks of the element type and of iterators in order to compile | `Container/Require` | C138 | destructors that may throw, allocators and overload resolution left out; foreign types are arbitrary |
| number of allocations and of element assignments of every call of `Array` | `Array/Model` (ghost fields `allocs`, `moves`, `copies` of `Mem`), `Array/CostProps` | C139 | constructions are not counted |
| determinants of singular matrices, special values in matrices and quaternions (IEEE 754) | `Math/IeeeDetProps`, `Math/IeeeMatrixProps` | C140, C141 | no contraction into fused multiply-add; one NaN |
| cost of every LinkedList call | `LinkedList/CostProps` | C142 | constructions and assignments of elements are counted together by `tick` and constructions apart by the log |
| operations between two floating-point types (`quaternion.hpp` 11-35, `matrix.hpp` 8-42, `matrix4x4.hpp` 6-37, `transformation.hpp`) | `Math/Precision` | C143 | unbounded exponents, no extended precision, no contraction; the common type is one of the two and has the values of both |
| repeated `rotate` (`transformation.hpp` 36-65), a client program | `Math/RotateDriftProps` over `Math/Rounding` | C144 | unbounded exponents, no contraction |
| `find.hpp` 71-103, `reverse.hpp` 47-75: the pointers formed, constant evaluation | `Algo/Pointers` | C145 | the effect of a vector step is the one proved for `Algo/Find` and `Algo/Reverse`; `reverse` for bytes |
| `find.hpp`, `reverse.hpp`: which calls compile in which build, the intrinsics used | `Algo/Builds` over `Hal/Simd` | C146 | a sentinel is the iterator type or has `==` only; instruction sets of intrinsics from Intel's description |
| `spsc_queue_base.hpp` 31-83 with other synchronisation between the threads; 102-111, 161-165: destructors run by any thread | `SPSC/Sync` over `SPSC/Conc` | C148, C149 | a synchronisation object is the release/acquire pairs it creates between producer and consumer; sequentially consistent accesses of the destructor are used as acquire and release |
| `spsc_queue_base.hpp` 31-83 called again from the function passed to `consume` and from the constructor of an element | `SPSC/Reenter` over `SPSC/Seq` | C150 | one thread; `clear` and the destructor are not called from within other calls; the function leaves its final value in the element before it uses the queue |
| `delegate.hpp` 61-71, 152-188 while a callable runs through the delegate | `Functional/DelegateNested` over `Functional/Delegate` | C151 | as for `Functional/Delegate`; reading captured values is the only thing a callable needs its object for |
| `vectors/functions.hpp` 12-39 with IEEE arithmetic | `Math/Vector` over `Math/Ieee` | C152 | `percent` of the vectors' own floating-point type |
| `const_iterator.hpp` and `reverse_iterator.hpp` over any iterator, stacked | `Core/Adaptors` | C154 | copying an iterator does not throw; `operator->` and comparisons of adaptors of different types are in `Core/ConstIterator` and `Core/ReverseIterator` only |
| types of the accessors of containers, views, iterators, vectors, tuples | `Container/Constness` | C155 | types only; elements of tuples are of value types; copies of containers are other objects; iterators passed to a container they do not belong to are left out |
| assignment operators of vectors and matrices in memory | `Math/Alias` | C156 | components of a vector and columns of a matrix lie next to each other; the operation is any function |
| constant members called from several threads | `Container/Shared` | C157 | interleavings of single reads and writes of cells of one word; race-free programs have no other executions; elements are words; the callable of a delegate is any program; allocation is left out |
| constructors of vectors, matrices and quaternions | `Math/Init` | C158 | overload resolution with an explicit rank in place of partial ordering; numbers, vectors, matrices and quaternions as arguments; no braced lists; user-defined conversions of arguments are not candidates |
| deduction guides of vectors, matrices and quaternions | `Math/Deduce` | C159 | numbers and columns as arguments; `std::common_type` and the usual arithmetic conversions of C++20; integers as values; no exponent range |
| exception specifications of tuples, pairs and binders | `Tuple/Noexcept` | C160 | promises of the user's types are arbitrary; no reference wrappers, arrays or functions as elements; destructors do not throw |
| whole and fixed-point numbers in floating-point formats | `Math/WholeProps` on the model of `Math/Ieee`, `Math/Vector`, `Math/Matrix` | C162 | the values and operations of IEEE 754, round to nearest, no wider intermediate type |
| programs that use a heap: simulation, best k, merge | `Heap/Clients` on `Heap/Model` | C163 | the programs are clients, not part of the library |
| the results of both threads against one sequential queue | `SPSC/Explain`, `SPSC/ExplainRun` on `SPSC/Conc` | C164 | as `SPSC/Conc` |
| combinations of vector, matrix and quaternion functions | `Math/FitProps` on `Math/Vector`, `Math/Matrix` | C165 | exact arithmetic |
| pipelines of threads connected by queues (a program using the queues) | `SPSC/Pipeline` on `SPSC/Conc` | C166 | as `SPSC/Conc`; ordering gained through another queue is not used, which only adds executions |
| loops and a queue written with a `LinkedList` (programs using it) | `LinkedList/Clients` | C167 | the client's predicates and comparisons do not throw |
| loops, sorting and a stack written with an `Array` (programs using it) | `Array/Clients`; specification of sorting in `Sorting` | C168 | trivially copyable elements; nothing throws |
| long sums, steps, averages, chains of transformations and rotations, clocks (loops using the operators) | `Math/LongRun` | C169 | rounding to nearest even, unbounded exponent unless stated; sums and steps also with the real exponent range |
| bisection, quicksort, reversal and blocks with sub-views (programs using `ArrayView`) | `View/Clients` | C170 | elements are their bytes; comparisons do not throw |
| powers by repeated squaring, recurrences, walks, polynomials (programs using `Matrix` and `Quaternion`) | `Math/Powers` | C171 | components are elements of a ring, bit vectors, rounded reals or IEEE values |
| signals and a queue of tasks (programs using `Delegate`) | `Functional/Clients` | C172 | callables do not throw and do not change the array while they run |
| curves by repeated `lerp` (programs using `lerp`) | `Math/Curves` | C173 | components are elements of a ring, rounded reals or IEEE values |
| a map kept as a sorted array (program using `Array`) | `Array/MapClient` | C174 | pairs of key and value are trivially copyable |
| areas of polygons and volumes of meshes (programs using `determinant`) | `Math/Areas` | C175 | |
| shortest ways (program using `Heap`) | `Heap/Paths` | C176 | lengths are natural numbers |
| orthonormalisation and cameras (programs using `dot`, `cross`, `normalize`) | `Math/Frames` | C177 | real numbers |
| rays, triangles, spheres, segments (programs using `dot`, `cross`, `lerp`) | `Math/Rays` | C178 | exact arithmetic |
| splitting and rotating (programs using `find`, `reverse`) | `Algo/Clients` | C179, C180 | integers; elements of one and two bytes |
| transactions (a program using `ScopedDelegate`) | `Functional/Undo` | C181 | undo operations do not throw |
| a pool of objects (a program using `AlignedData`) | `AlignedData/Pool` | C182 | constructors do not throw |
| a cache (a program using `LinkedList`) | `LinkedList/Lru` | C183 | comparison of keys does not throw |
| disjoint sets (a program using `Array`) | `Array/SetsClient` | C184 | loops carry fuel; the theorem shows they end |
| large numbers (a program using `Array`) | `Array/Numbers` | C185 | loops carry fuel; the theorems show they end |
| environment variables set for a while (a program) | `Hal/EnvClient` | C186 | strings of the program end with a zero byte |
| plugins (a program using `SharedLibrary`) | `Hal/Plugins` | C187 | the list is modelled as numbered objects |
| a sieve (a program using `Array`) | `Array/Sieve` | C188 | indices do not overflow |
| `make_const_iterator`, `make_const_sentinel` | `Core/ConstRange` | C189 | copying iterators has no effects; references, not proxies |
| merging two `LinkedList`s (client) | `LinkedList/Merge` | C190 | comparisons do not throw |
| postfix expressions on an `Array` (client) | `Array/Postfix` | C191 | functions do not throw |

Not modelled at all: `hal/windows/*`, compiler and architecture detection, `hal/linux/platform_macros.hpp`,
`CAllocator` (`container/concepts.hpp` 7-14), hashing and formatting, compile-time properties other than those named above, and
everything under `/repo` outside `include` and `private`.

## 4. Disagreements between the code and the properties

Each is a theorem; the names are in the manifest.

* C10 `push_back`/`emplace_back` of an element of the array itself: the argument is read after its
  storage was released when the array is full.
* C11 `insert`/`emplace` of an own element in place: an element behind the position has moved when it is
  read, so its predecessor is inserted.
* C12 element types with constructors: growth, `resize`, `erase` and insertion of ranges assign to storage without an
  object. `insert(pos, a[pos])` with room inserts the moved-from element.
* C13, C88 `uninitialized_copy_a`: the handler destroys from the *input* iterator (uninitialized.hpp 20).
* C13 `insert(end(), first, last)` with room increases the size before it constructs: if an element's construction throws,
  the array counts elements that do not exist.
* C15, C22 list constructors that end by an exception leak the nodes made before: exactly one for each element made.
* C19 self move assignment destroys the elements of the list.
* C21 inserting a range of a list into itself before its end never returns.
* C27 `read_available` called by a third thread may report N-1 elements although there was at most one.
* C31 a capacity N that is not a power of two: the index arithmetic is defined but the queue holds only
  2^a - 1 elements, 2^a the largest power of two dividing N, while `write_available` promises more.
  While its elements wrap around, `read_available` reports N - 2^a elements too many.
* C39 `find` loads whole vectors with aligned instructions at addresses only aligned for the element.
* C40 `find` of a float compares bits: +0 and -0 differ, a NaN is found.
* C42 `reverse` of 2-byte elements from 16 elements on leaves the outer blocks in place.
* C45 `handle<F>()` for a heap-stored callable returns the address of the pointer.
* C52 `subview(1, -1)` passes the assertion because `offset + count` wraps.
* C55 the order of reverse iterators is the order of the underlying iterators.
* C63 `faceforward` returns `-v` where the dot product is 0.
* C72 off-centre frusta, C73 the depth of every orthographic box, C74 left-handed `perspective(fov, ...)`:
  not the projections their names say.
* C78 `SharedLibrary::close` keeps the handle: `is_open()` stays true and the destructor closes again;
  `open` on an open object loses the old handle.
* C79 environment functions read beyond the view up to the next zero byte.
* C81 `rotate` with integer axes truncates `1 - cos`.
* C90 products of `uint16_t` components overflow `int`.
* C91 `faceforward` of unsigned vectors always negates; with `int8_t` or `int16_t` components it takes the wrong side when
  the dot product leaves the range of the type.
* C92 `length()` of integer vectors: `uvec2(65536, 0)` has length 0; 64-bit sums are rounded up; 8-bit
  vectors have undefined or wrong lengths; vectors of four return a `double`.
* C93 an integer vector times 0.5 is 0, divided by 0.5 undefined.
* C98 `AlignedData<T, Align>` accepts `Align < alignof(T)`.
* C94 `lerp` with an unsigned percentage above 1 is off by 2^32 times the first vector.
* C100 `length` squares the components without scaling them. For `float`, a vector whose components are all
  at most 2^-75 has length 0 (`ieee_length_underflow`), so `normalize` divides by zero and returns infinities;
  a vector with a component from 2^64 up has length +infinity and `normalize` returns the zero vector
  (`ieee_length_overflow`). `ieee_length_range_wrong` has witnesses in every format and dimension.
* C103 `normalize` multiplies with `1 / length` instead of dividing by `length`, so that the `float` vector
  (41, 0) is normalised to (1 - 2^-24, 0) (`ieee_axis_normalize_wrong`), although its length is computed exactly.
* C104 `d = fn`, moves and swaps copy the bytes of a callable that fits the storage; no move constructor runs
  (delegate.hpp 130, 173, 185). A callable with a pointer into itself is called at an address where it was not
  constructed.
* C106 an exception of the comparator in `push` ends the program: `heapfy_up` is `noexcept` (heap.hpp 103).
* C108 `Pair::operator=` is `noexcept` if the elements are nothrow swappable (pair.hpp 13), although it assigns them.
* C109 `v op w` converts each component of `w` to the component type of `v` before the operation: `ivec2(10, 10) * vec2(0.5, 0.5)` is `(0, 0)`, `vec2(0.5, 0.5) * ivec2(10, 10)` is not; `vec2(-16777216, 0) + ivec2(16777217, 0)` is `(0, 0)`.
* C110 `Delegate::operator=(Fn&&)` is `noexcept` but allocates and constructs: the program ends if either throws.
* C111 `BindFront`'s constructor tests `is_nothrow_constructible_v<BoundArgs, Args>` (operands swapped; `BindBack` has them right): binding a const string lvalue ends the program when its copy throws. Copies of binders are `noexcept`.
* C112 `find(range, value)` and `reverse` are `noexcept`, `find(i, s, value)` is not: a throwing comparison or swap ends the program.
* C113 `n - it` of array iterators (`array.hpp:406-408`) subtracts a pointer from a number and does not compile when used.
* C114 iterators of `LinkedList` have `<=>`, which compares the addresses of nodes: `it1 < it2` says nothing about positions.
* C115 in release builds a fixed-size view of a shorter range reaches beyond it; `ArrayView(last, first)` has almost 2^64 elements; a range of a derived class converts to a view of the base class with the wrong distance between elements; a `std::array` of a base class is cast down.
* C117, C118 `(&x)[i]` in `Vector<T, 2>` to `Vector<T, 4>` uses a pointer to one member to reach others, which is undefined for `i > 0` and not a constant expression; so are `sign`, the lerp by components, `row`, and the matrix products for these sizes. `m[c]` has no assertion.
* C119 `proc_address` on an object that holds no library searches the symbols of the whole program (a null handle is `RTLD_DEFAULT`); for pointers to functions it does not compile (a `T` is returned as `void*`); names must be followed by a zero byte; after `close()` the closed handle is used.
* C120 the pointer to the storage of the first `AlignedData` is used to reach the others, which the standard leaves undefined; a queue of fixed capacity of elements without a default constructor does not compile, although no element is made that way.
* C121 the constructor template of `AlignedData` is `noexcept`, so an exception ends the program; being unconstrained it is chosen for copies from a non-const lvalue, which then do not compile; the other copies copy bytes, also for types that are not trivially copyable.
* C122 `push` of an element of a full heap reads it after its storage was released, as `Array::push_back` does (C10).
* C123 `Array::push_back(first, last)` and `Array::insert(pos, first, last)` accept `std::input_iterator` but take
  `std::ranges::distance` first, which uses up a single-pass range: elements are lost, and `insert` leaves a gap of elements
  that were never constructed.
* C124 ranges of more than 2^63 elements make `size() + distance` wrap; elements are then written behind the storage.
* C125 `Array::insert(pos, first, last)` takes new storage from a default-constructed allocator; `operator=(initializer_list)`
  replaces the allocator by a default one; moving a `LinkedList` does not move its allocator. Blocks go to the wrong allocator.
* C126 inside `namespace xme`, `ranges::` means `xme::ranges` after `array.hpp`: `array_view.hpp` and `linked_list.hpp` then do
  not compile. `container.hpp` includes them in this order and so never compiles on its own, nor does `spsc_queue.hpp`, which
  includes it.
* C127 `tie(a, b) < tie(c, d)`, `tie(a, b) == tie(c, d)` and `tie(a, b) = tie(c, d)` do not compile: defaulted operators of
  classes with reference members are deleted. `apply(f, forward_as_tuple(args...))` does not compile if an argument is an rvalue.
* C128 `==` and `<=>` of tuples and pairs are `noexcept`: an exception of an element's comparison ends the program.
* C129 `a.push_back(a)` and `a.push_back(a.begin() + i, a.begin() + j)` read released storage if the array has to grow.
  `a.insert(pos, a.begin() + i, a.begin() + j)` without reallocation inserts wrong elements if the part lies across the
  position (its beginning is repeated) or begins behind it.
* C131 `bvec4::length()` is a number (up to 2), the other sizes answer true or false.
* C72 with the right edge at the near distance (`perspective_rh(-1, 1, -1, 1, 1, 100)`, a camera with a right angle of
  view) the code divides by `right - near`, which is zero, and the horizontal coordinate of every point is NaN or
  infinite.
* C133 when the squares of the components underflow (components around 2^-74 for `float`, 2^-537 for `double`),
  `normalize` can return components well above 1 — 17/16 — from finite, normal components, although `length` is
  neither zero nor infinite.
* C135 a `Delegate` can be made only from rvalues: a named lambda or function does not compile (a pointer to a reference),
  nor does copying a delegate, nor a callable that can only be moved.
* C136 `tuple_element` drops `const` and `volatile` of elements that are no classes: `auto& [x] = t` does not compile for a
  `Tuple<const int>`, `tuple_cat` makes it a `Tuple<int>`, and `Tuple<volatile int>` is not `CTupleLike`.
* C137 all constructors of `LinkedList` with one argument are explicit, copy and move too: `LinkedList b = a`, passing and
  returning a named list do not compile. An rvalue of a class derived from a container is copied as a range, not moved. An
  argument that is both an element and a range of elements is ambiguous for `push_back` and `insert`.
* C138 `Array::erase` and `Array::insert(pos, first, last)` move through constant iterators, that is, they copy: an
  `Array<std::unique_ptr<T>>` cannot erase. Growing assigns, so elements with `const` members cannot be added.
  `Array(first, last)` does not compile for iterators of `LinkedList`, `std::vector` or `std::list`, because the handler in
  `uninitialized_copy_a` (uninitialized.hpp:20) compares the source iterator with the destination pointer. `Heap(range)` needs a
  range with a size.
* C140 `determinant` of a 4x4 matrix sums its terms in an order in which the errors of two equal columns cancel, except for columns 0, 3 and columns 1, 3: a singular matrix with entries 0, 1 and 2^-25 has a determinant other than zero. Equal rows cancel only if they are the last two.
* C141 multiplying by the identity does not preserve matrices with infinite entries: 0·∞ = NaN spreads over the column (identity on the left) or the row (identity on the right). −0 becomes +0.
* C143 `rotate` of a `double` matrix about a `float` axis multiplies the axis by `1 - cos` in `float` (`transformation.hpp:44`): about (1,0,0) by 45 degrees the first entry is 1.000000012. `Matrix + Matrix` of another type rounds the right operand first, `Quaternion + Quaternion` does not.
* C145 `find` with vectors evaluates `compare + readable_bytes` (`find.hpp:82`) past the end of the array whenever it looks for a value that is not in it: undefined behaviour, and in a constant expression an error for every whole array. `find_simd` and `reverse_simd` are not `constexpr` (`find.hpp:13`, `reverse.hpp:17`).
* C146 enabling AVX2 makes `reverse` of contiguous elements of more than one byte ill-formed (`reverse.hpp:43`); enabling SSE2 makes `find` ill-formed for other element sizes and for sentinels; `_mm_cmpeq_epi64` (`find.hpp:61`) is SSE4.1, `_mm_shuffle_epi8` (`reverse.hpp:35`) SSSE3, `_mm_set_epi8` (`reverse.hpp:14`) SSE2 in every build.
* C150 A function passed to `consume` that calls `pop()` or `consume()` on the same queue gets the element it was
  given once more, and that element is destroyed twice: the read index is stored only after the function has returned
  (spsc_queue_base.hpp 79-82). A constructor that pushes into the queue its element is being pushed into is
  overwritten likewise (62-63).
* C151 Assigning to a delegate from within the callable it is running destroys that callable at once (delegate.hpp
  152-175 destroy the old target before returning, nothing keeps it until the call ends).
* C152 `lerp` computes `v2 * t + v1 * (1 - t)` in rounded arithmetic: between equal ends it is not constant, and it
  is not monotone in `t` (vectors/functions.hpp 19, 35).
* C153 `find` compares bytes in whole vectors and uses `!=` behind them, for every element type of 1, 2, 4 or 8
  bytes (find.hpp 73-92): nothing restricts the vector code to types whose `==` is equality of bytes.
* C154 Every function of the iterator adaptors is `noexcept`: an exception of the underlying iterator ends the program.
  The order of a `ReverseIterator` (C55) is reversed exactly in stacks with an odd number of them.
* C155 `LinkedList<T>::iterator(it.current_node->next)` makes a mutable iterator from an iterator of a constant list
  without a cast: `LinkedListNodeBase::next` is not constant and both are public. `begin()` and `[]` of a constant
  `ArrayView<T>` give constant elements, but its copies, `subview`, `first` and `last` are views that modify them.
* C157 `Delegate::operator()` is constant but `handle` removes the const of the stored callable (`const_cast`), so that a
  mutable lambda changes its captures: two threads calling one constant delegate race.
* C158 `Matrix<float, 4, 4>(Matrix<double, 4, 4>)` does not compile although there is a constructor for it (the conversion of the
  columns is explicit); quaternions have no conversion; columns of two to four components must have the component type of the
  matrix; `Matrix<float, 4, 4>` takes one to three columns and leaves the others zero, and a `Vector<float, 4>` converts to it
  implicitly; `Matrix<float, 4, 4>(column)` is ambiguous.
* C159 `Vector(-1, 2u)` has the components 4294967295 and 2, `Quaternion(16777217, 0, 0, 0)` is a quaternion of `float` and loses the
  last digit, and `Matrix(Vector<float, 3>, Vector<double, 3>)` deduces a type whose constructor does not compile.
* C160 `Pair::operator=` is `noexcept` if the elements can be *swapped* without an exception, so assigning from a pair of strings of
  another type terminates when memory runs out; `==` and `<=>` of tuples and pairs and the copies of binders are `noexcept` whatever
  the elements do; `bind_front` asks `is_nothrow_constructible_v<BoundArgs, Args>` with the arguments exchanged, so a const lvalue
  whose copy throws terminates.
* C161 `ortho_lh` and, with `XME_MATH_CLIP_LH`, `perspective(fov, ...)` reverse the depth order: with a depth test that keeps smaller
  depths the farther point is drawn over the nearer one.
* C164 The results of the two threads of an `SPSCQueue` are not always those of one sequential queue. With room for
  `N - 1 >= 3` elements the producer can be told that the queue is full while the consumer, which has removed all but one
  element, is told that it is empty, and both answers can be the last ones (`spsc_one_queue_wrong`): the store of one index
  and the load of the other are only release and acquire. Two threads that sleep on these answers, each to be woken by the
  other, both sleep. Each side alone is explained by one sequential queue.
* C179 Searching on behind a match is undefined in the vector builds: the rest of an aligned range is not aligned.
* C180 Rotating by three calls of `reverse` scrambles two-byte elements in the SSE3 build.
* C186 A variable that had an empty value cannot be set back with `set_environment_variable`: an empty value removes it. In secure mode `get_environment_variable` gives a null pointer for every variable, so a program that saves and restores removes what it meant to restore.
* C189 `ConstIterator` is `noexcept` throughout: an exception of the underlying iterator or of a comparison with its sentinel terminates the program, while the same loop over the range itself hands it on.

Seen while reading, outside the properties or not expressible in the models:

* `Delegate`: `Delegate(nullptr)` does not compile; locally stored callables are relocated bytewise.
* `bind.hpp` 145-154, 168-178: `bindFront<f>`/`bindBack<f>` call `forwardLike`, which does not exist, and
  `bindBack` has the order of `bindFront`; 21-22: swapped trait arguments in `noexcept`.
* `Tuple`: `tuple_cat` of rvalues does not compile (C107), nor does `get` with deducing `this` for two or more elements
  (`.value` is ambiguous, tuple_base.hpp 24).
* `aligned_data.hpp`: default constructor only for default-initializable `T`, so a LinkedList of another
  type does not compile; the variadic constructor is chosen for copies of non-const lvalues;
  `Align < alignof(T)` is accepted.
* `const_iterator.hpp` 41: the converting constructor initialises `It` from the wrapper.
* `Array::Iterator`: the friend `operator-(n, it)` is ill-formed.
* `SharedLibrary::open` and the environment functions pass `string_view::data()` to C functions.
* `matrix4x4.hpp` 66-68: the converting constructor needs the implicit conversion of a vector of four,
  which is explicit, so it does not compile.
* `simd_detection.hpp`: nothing links the enabled set to what the target supports.

## 5. Testing the theorems

`seeded/LOG.jsonl` has one line per wrong program: an edit of a definition of the model, made in a copy
outside this directory, with the theorems that no longer proved.  The copy was rebuilt with every
dependent module; a theorem counts as failed if its proof, or the proof of a lemma it uses, fails.
Edits listed with an empty claim are harmless by intention.

## 6. Axioms per theorem

All property theorems, by property.  P is `propext`, C is `Classical.choice`, Q is `Quot.sound`.

| Property | Theorems with their axioms |
|---|---|
| C01 | `Arr.array_refines_sequence` PCQ |
| C02 | `Arr.array_capacity` PCQ |
| C03 | `Arr.array_no_leak` PCQ, `Arr.array_refines_sequence` PCQ |
| C04 | `Arr.array_insert` PCQ |
| C05 | `Arr.array_insert_range` PCQ |
| C06 | `Arr.array_erase` PCQ |
| C07 | `Arr.array_copy` PCQ, `Arr.array_independent` PCQ |
| C08 | `Arr.array_move` PCQ |
| C09 | `Arr.array_amortised` PCQ |
| C10 | `Arr.array_push_own_partial` PCQ, `Arr.array_push_own_full_undefined` PCQ |
| C100 | `Math.ieee_dot_range` PCQ, `Math.ieee_length_range_partial` PCQ, `Math.ieee_length_underflow` PCQ, `Math.ieee_length_overflow` PCQ, `Math.ieee_length_range_wrong` PCQ |
| C101 | `Math.ieee_nan_spreads` PCQ, `Math.ieee_infinite_vector` PCQ, `Math.ieee_zero_vector` PCQ, `Math.ieee_faceforward_unordered` PCQ, `Math.ieee_sign` PCQ |
| C102 | `Math.ieee_exact_laws` PCQ, `Math.ieee_length_nonneg` PCQ, `Math.ieee_sub_zero` PCQ, `Math.ieee_identity_matrix` PCQ, `Math.ieee_lerp_ends` PCQ, `Math.ieee_neutral_transform` PCQ |
| C103 | `Math.ieee_axis_length` PCQ, `Math.ieee_axis_normalize_partial` PCQ, `Math.ieee_axis_normalize_wrong` PCQ |
| C104 | `Delegate.delegate_place_partial` PCQ, `Delegate.delegate_place_wrong` PCQ, `Delegate.delegate_place_exact` PCQ |
| C105 | `HeapX.heap_any_comparator` PCQ, `HeapX.heap_models_agree` P |
| C106 | `HeapX.heap_exceptions_partial` PCQ, `HeapX.heap_exceptions_wrong` PCQ |
| C107 | `TupC.tuple_assign_moves` PQ, `TupC.tuple_apply_categories` PQ, `TupC.tuple_cat_copies` PQ, `TupC.tuple_category_wrong` PQ |
| C108 | `TupC.tuple_assign_throws_partial` PQ, `TupC.tuple_assign_no_throw` PQ, `TupC.pair_assign_throws_wrong` PQ |
| C109 | `Math.mixed_exact_partial` PCQ, `Math.mixed_unsigned_partial` PCQ, `Math.mixed_convert` PCQ, `Math.mixed_wrong` PCQ, `Math.float_mixed_partial` PCQ, `Math.float_mixed_error` PCQ, `Math.float_mixed_wrong` PCQ |
| C11 | `Arr.array_insert_own_partial` PCQ, `Arr.array_insert_own_wrong` PCQ, `Arr.array_insert_own_not_faithful` PCQ, `Arr.array_insert_own_full_undefined` PCQ |
| C110 | `Delegate.delegate_throw_partial` PCQ, `Delegate.delegate_after_exceptions` PCQ, `Delegate.delegate_throw_wrong` PCQ |
| C111 | `Bind.bind_back_throw` PCQ, `Bind.bind_front_throw_partial` PCQ, `Bind.bind_front_throw_exact` PQ, `Bind.bind_front_throw_wrong` PQ, `Bind.binder_copy_throw_wrong` PQ |
| C112 | `Algo.Throwing.find_throw_partial` PCQ, `Algo.Throwing.find_range_throw_partial` PCQ, `Algo.Throwing.find_range_throw_wrong` PCQ, `Algo.Throwing.reverse_throw_partial` PCQ, `Algo.Throwing.reverse_throw_wrong` PCQ |
| C113 | `Arr.array_iterator_positions` PCQ, `Arr.array_iterator_arithmetic` PCQ, `Arr.array_iterator_traversal` PCQ, `Arr.array_accessors` PCQ, `Arr.array_iterators_distinct` PCQ |
| C114 | `LL.list_iterator_steps` PCQ, `LL.list_iterator_equality` PCQ, `LL.list_iterator_traversal` PCQ, `LL.list_iterator_order_is_not_position` PCQ |
| C115 | `AV.view_construct_partial` PCQ, `AV.view_deduced` PQ, `AV.view_construct_checked` PQ, `AV.view_construct_wrong` PCQ |
| C116 | `AV.view_iteration` PCQ, `AV.view_empty_undefined` PCQ |
| C117 | `Math.Sub.vector_subscript_partial` PCQ, `Math.Sub.vector_subscript_wrong` PQ, `Math.Sub.vector_loops` PCQ |
| C118 | `Math.Sub.matrix_subscript_partial` PCQ, `Math.Sub.matrix_subscript_checks` PQ, `Math.Sub.matrix_subscript_wrong` PQ |
| C119 | `Lib.proc_address_partial` PCQ, `Lib.proc_address_unopened_wrong` PCQ, `Lib.proc_address_wrong` PQ, `Lib.proc_address_exact` PCQ |
| C12 | `Arr.array_class_lifetimes_partial` PCQ, `Arr.array_class_undefined` PCQ, `Arr.array_class_exact` PCQ |
| C120 | `SPSC.Storage.static_slots_partial` PQ, `SPSC.Storage.static_slots_wrong` PCQ |
| C121 | `AD.aligned_data_copy_partial` PCQ, `AD.aligned_data_copy_wrong` PCQ |
| C122 | `HeapS.heap_stored_invariant_partial` PCQ, `HeapS.heap_stored_push_partial` PCQ, `HeapS.heap_stored_pop_partial` PCQ, `HeapS.heap_stored_range_partial` PCQ, `HeapS.heap_stored_destroy_partial` PCQ, `HeapS.heap_stored_push_own_wrong` PCQ, `HeapS.heap_stored_class_wrong` PCQ |
| C123 | `Arr.single_pass_push_partial` PCQ, `Arr.single_pass_insert_partial` PCQ, `Arr.single_pass_insert_wrong` PCQ, `Arr.single_pass_insert_in_place_wrong` PCQ, `Arr.single_pass_heap` PCQ |
| C124 | `Arr.array_sizes_partial` PQ, `Arr.array_sizes_wrong` PCQ |
| C125 | `Alloc.allocators_array_partial` PQ, `Alloc.allocators_array_kept_partial` PQ, `Alloc.allocators_array_wrong` PQ, `Alloc.allocators_list_partial` PCQ, `Alloc.allocators_list_wrong` PCQ |
| C126 | `Headers.include_order_partial` PQ, `Headers.include_order_wrong` PQ |
| C127 | `TupC.make_tuple_stores` PCQ, `TupC.tie_assigns_at_once` PCQ, `TupC.tuple_of_references_partial` PQ, `TupC.tuple_of_references_wrong` PQ |
| C128 | `TupT.tuple_compare_throws_partial` PQ, `TupT.tuple_compare_throws_wrong` PQ |
| C129 | `Arr.array_insert_own_range_exact` PCQ, `Arr.array_insert_own_range_partial` PCQ, `Arr.array_insert_own_range_wrong` PCQ, `Arr.array_push_own_range_partial` PCQ, `Arr.array_push_own_range_undefined` PCQ |
| C13 | `Arr.array_exception_safety_partial` PCQ, `Arr.array_push_throw_keeps_partial` PCQ, `Arr.array_copy_throw_undefined` PCQ, `Arr.array_range_throw_exact` PCQ, `Arr.array_copy_throw_exact` PCQ, `Arr.array_assign_throw_undefined` PCQ, `Arr.array_insert_range_throw_broken` PCQ |
| C130 | `Math.Trig.inverse_trig` PCQ, `Math.Trig.inverse_trig_laws` PCQ |
| C131 | `Math.bool_vector_ops` PCQ, `Math.bool_geometry` PCQ, `Math.bool_length` PCQ |
| C132 | `Math.ieee_projection_error` PCQ, `Math.ieee_frustum_near_wrong` PCQ |
| C133 | `Math.ieee_length_monotone` PCQ, `Math.ieee_component_le_length_partial` PCQ, `Math.ieee_normalize_bounded_partial` PCQ, `Math.ieee_normalize_bounded_wrong` PCQ |
| C134 | `Types.arithmetic_concepts_exact` PQ, `Types.signedness_exact` PCQ, `Types.scoped_enum_exact` PQ, `Types.initializer_list_exact` PQ, `Types.different_from_self_exact` PQ, `Types.different_from_laws` P |
| C135 | `FnInit.delegate_construct_exact` PCQ, `FnInit.delegate_assign_exact` PCQ, `FnInit.delegate_never_nested` PCQ, `FnInit.delegate_init_partial` PCQ, `FnInit.delegate_init_wrong` PCQ, `FnInit.bind_construct_exact` PCQ, `FnInit.delegate_deduction_exact` P |
| C136 | `TupTypes.tuple_well_formed_exact` PQ, `TupTypes.tuple_element_partial` PQ, `TupTypes.tuple_element_wrong` PQ, `TupTypes.tuple_get_exact` P, `TupTypes.tuple_bindings_exact` PCQ, `TupTypes.tuple_like_exact` PCQ, `TupTypes.tuple_cat_type_exact` PQ |
| C137 | `ContInit.own_type_copied` PQ, `ContInit.list_direct_exact` PQ, `ContInit.list_copy_exact` PQ, `ContInit.list_copy_wrong` PQ, `ContInit.own_type_partial` PQ, `ContInit.derived_exact` PQ, `ContInit.range_exact` PQ, `ContInit.adding_exact` PQ |
| C138 | `Require.array_exact` PQ, `Require.array_sound` P, `Require.list_exact` P, `Require.heap_exact` PQ, `Require.heap_sound` P, `Require.queue_exact` P, `Require.move_only_wrong` PQ, `Require.no_assignment_wrong` PQ, `Require.iterators_wrong` P, `Require.no_default_wrong` P, `Require.regular_partial` PQ, `Require.move_only_partial` PQ |
| C139 | `Arr.array_price` PQ |
| C14 | `LL.linkedList_history` PCQ, `LL.linkedList_observers` PCQ |
| C140 | `Math.ieee_det_equal_columns_partial` PCQ, `Math.ieee_det_equal_columns_wrong` PCQ, `Math.ieee_det_zero_column_row` PCQ, `Math.ieee_det_equal_rows_partial` PCQ, `Math.ieee_det_equal_rows_wrong` PCQ, `Math.ieee_det_finite` PCQ, `Math.ieee_det_overflow_wrong` PCQ |
| C141 | `Math.ieee_product_nan` PCQ, `Math.ieee_det_nan` PCQ, `Math.ieee_quaternion_nan` PCQ, `Math.ieee_entrywise_nan` PCQ, `Math.ieee_identity` PCQ, `Math.ieee_trivial_transforms` PCQ, `Math.ieee_identity_wrong` PCQ |
| C142 | `LL.linkedList_costs` PCQ |
| C143 | `Math.mixed_quaternion_error` PCQ, `Math.mixed_quaternion_narrow` PCQ, `Math.mixed_matrix_partial` PCQ, `Math.mixed_matrix_wrong` PCQ, `Math.mixed_transform_error` PCQ, `Math.mixed_rotate_error` PCQ, `Math.mixed_rotate_wrong` PCQ |
| C144 | `Math.rotations_drift` PCQ, `Math.rotations_of_identity` PCQ |
| C145 | `Algo.Ptr.find_pointers_partial` PCQ, `Algo.Ptr.find_pointers_exact` PCQ, `Algo.Ptr.find_constant_exact` PQ, `Algo.Ptr.find_pointers_wrong` PCQ, `Algo.Ptr.reverse_pointers_exact` PCQ |
| C146 | `Algo.Builds.builds_partial` PCQ, `Algo.Builds.builds_wrong` PCQ, `Algo.Builds.find_compiles_exact` PCQ, `Algo.Builds.find_instructions_exact` PCQ, `Algo.Builds.reverse_compiles_exact` PCQ, `Algo.Builds.reverse_instructions_exact` PCQ |
| C147 | `Math.ieee_transpose_laws` PCQ, `Math.fp_product_laws` PCQ, `Math.fp_product_regroup` PCQ, `Math.ieee_product_regroup` PCQ, `Math.fp_product_linear` PCQ, `Math.fp_cross_orthogonal` PCQ, `Math.fp_reflect_twice` PCQ, `Math.fp_quaternion_regroup` PCQ, `Math.fp_product_regroup_not_exact` PCQ |
| C148 | `SPSC.Conc.sync_fifo` PCQ, `SPSC.Conc.sync_race_free` PCQ, `SPSC.Conc.sync_capacity` PCQ, `SPSC.Conc.sync_read_available_fresh` PCQ, `SPSC.Conc.sync_signal_suffices` PCQ, `SPSC.Conc.sync_push_fresh` PCQ |
| C149 | `SPSC.Conc.destroy_after_join` PCQ, `SPSC.Conc.destroy_without_join_leaks` PQ |
| C15 | `LL.linkedList_ledger_partial` PCQ, `LL.linkedList_no_leak_partial` PCQ, `LL.linkedList_releases` PCQ, `LL.linkedList_no_double_free` PCQ, `LL.linkedList_leaks_only_constructors` PCQ |
| C150 | `SPSC.Reenter.reenter_partial` PCQ, `SPSC.Reenter.reenter_consume_wrong` PCQ, `SPSC.Reenter.reenter_consume_same_wrong` PCQ, `SPSC.Reenter.reenter_push_wrong` PCQ |
| C151 | `Delegate.running_usable_partial` PCQ, `Delegate.running_discard_wrong` PCQ, `Delegate.running_swap_wrong` PCQ |
| C152 | `Math.ieee_lerp_opposite_partial` PCQ, `Math.ieee_lerp_near_partial` PCQ, `Math.ieee_lerp_constant_wrong` PCQ, `Math.ieee_lerp_monotone_wrong` PCQ |
| C153 | `Algo.find_class_iff` PCQ, `Algo.find_class_partial` PCQ, `Algo.find_class_wrong` PQ |
| C154 | `Adapt.adaptors_bidirectional_partial` PCQ, `Adapt.adaptors_random_access_partial` PCQ, `Adapt.adaptors_visit_partial` PCQ, `Adapt.adaptors_order_exact` PQ, `Adapt.adaptors_less_wrong` PQ, `Adapt.adaptors_terminate_wrong` P |
| C155 | `Constness.constant_partial` PQ, `Constness.constant_exact` PQ, `Constness.constant_object` P, `Constness.constant_wrong` PQ |
| C156 | `Alias.alias_vector` PQ, `Alias.alias_matrix` PQ, `Alias.alias_self` PQ |
| C157 | `Shared.shared_constant_partial` PCQ, `Shared.shared_elements` PCQ, `Shared.shared_delegate_wrong` P |
| C158 | `MathInit.vector_init_exact` PCQ, `MathInit.vector_general_exact` PCQ, `MathInit.matrix_init_exact` PCQ, `MathInit.matrix4_init_exact` PCQ, `MathInit.quaternion_init_exact` PCQ, `MathInit.same_size_partial` PCQ, `MathInit.columns_partial` PCQ, `MathInit.columns_count` PCQ, `MathInit.matrix4_convert_wrong` PCQ, `MathInit.quaternion_convert_wrong` PCQ, `MathInit.columns_wrong` PCQ, `MathInit.columns_count_wrong` PCQ, `MathInit.vector_number_wrong` PCQ |
| C159 | `MathDeduce.common_exact` PCQ, `MathDeduce.common_set` PCQ, `MathDeduce.vector_deduced` PCQ, `MathDeduce.vector_deduced_order` PCQ, `MathDeduce.deduced_value_partial` PCQ, `MathDeduce.deduced_float_partial` P, `MathDeduce.deduced_float_float` PCQ, `MathDeduce.deduced_sign_wrong` PQ, `MathDeduce.deduced_digits_wrong` PCQ, `MathDeduce.quaternion_deduced` PCQ, `MathDeduce.quaternion_deduced_count` PCQ, `MathDeduce.matrix_deduced_exact` PCQ, `MathDeduce.matrix_deduced_partial` PCQ, `MathDeduce.matrix_deduced_wrong` PCQ |
| C16 | `LL.linkedList_reverse` PCQ |
| C160 | `Noexcept.honest_iff` PQ, `Noexcept.exact_iff` PQ, `Noexcept.noexcept_exact` PQ, `Noexcept.noexcept_honest_partial` PQ, `Noexcept.noexcept_reported_wrong` PCQ, `Noexcept.pair_assign_wrong` PQ, `Noexcept.compare_wrong` PQ, `Noexcept.bind_front_wrong` PQ, `Noexcept.call_const_rvalue_wrong` PQ, `Noexcept.binder_copy_wrong` PQ |
| C161 | `Math.perspective_keeps_view` PCQ, `Math.frustum_keeps_view` PCQ, `Math.projection_segments` PCQ, `Math.keepsSegment` PCQ, `Math.perspective_depth_wrong` PCQ, `Math.ortho_depth_wrong` PCQ |
| C162 | `Math.whole_vectors` PCQ, `Math.whole_dot` PCQ, `Math.whole_cross` PCQ, `Math.whole_length` PCQ, `Math.whole_distance` PCQ, `Math.whole_matrices` PCQ, `Math.whole_mulVec` PCQ, `Math.whole_mulMat` PCQ, `Math.whole_det` PCQ, `Math.whole_translate` PCQ, `Math.whole_quat` PCQ, `Math.whole_compose` PCQ, `Math.whole_perpendicular` PCQ, `Math.whole_sharp` PCQ, `Math.whole_value` PCQ |
| C163 | `Heap.heap_simulation` PCQ, `Heap.heap_keeps_best` PCQ, `Heap.heap_merge` PCQ |
| C164 | `SPSC.Conc.spsc_producer_explained_partial` PCQ, `SPSC.Conc.spsc_consumer_explained_partial` PCQ, `SPSC.Conc.spsc_one_queue_partial` PCQ, `SPSC.Conc.spsc_one_queue_wrong` PCQ |
| C165 | `Math.vector_products` PCQ, `Math.rotation_by_quaternion` PCQ, `Math.rotation_keeps_cross` PCQ, `Math.determinant_solves` PCQ, `Math.orthonormal_frame` PCQ, `Math.nearest_on_line` PCQ |
| C166 | `SPSC.Conc.pipeline_in_order` PCQ, `SPSC.Conc.pipeline_bound` PCQ, `SPSC.Conc.pipeline_completes` PCQ |
| C167 | `LL.removeIf_result` PCQ, `LL.removeRepeats_result` PCQ, `LL.insertSorted_result` PCQ, `LL.sortInto_result` PCQ, `LL.queueRun_result` PCQ, `LL.fifo_all` PQ |
| C168 | `Arr.eraseIf_result` PCQ, `Arr.removeFast_result` PCQ, `Arr.insertSorted_result` PCQ, `Arr.insertionSort_result` PCQ, `Arr.stackRun_result` PCQ |
| C169 | `Math.long_sum` PCQ, `Math.long_sum_order` PCQ, `Math.long_sum_mono` PCQ, `Math.long_steps` PCQ, `Math.long_mean` PCQ, `Math.long_transform` PCQ, `Math.long_turns` PCQ, `Math.ieee_long_sum` PCQ, `Math.clock_bounded` PCQ, `Math.clock_stops` PCQ |
| C17 | `LL.linkedList_iterators` PCQ, `LL.linkedList_insert_returns` PCQ, `LL.linkedList_insertRange_returns` PCQ |
| C170 | `AV.bisect_result` PCQ, `AV.quickSort_result` PCQ, `AV.flip_result` PCQ, `AV.blocks_result` PCQ |
| C171 | `Math.matPow_result` PCQ, `Math.quatPow_result` PCQ, `Math.recurrence_result` PCQ, `Math.fib_unsigned` PCQ, `Math.walks_result` PCQ, `Math.horner_result` PCQ, `Math.float_power` PCQ, `Math.whole_power` PCQ, `Math.fib_float` PCQ |
| C172 | `Delegate.signals_result` PCQ, `Delegate.tasks_result` PCQ |
| C173 | `Math.casteljau_bernstein` PCQ, `Math.casteljau_ends` PCQ, `Math.casteljau_affine` PCQ, `Math.casteljau_hull` PCQ, `Math.casteljau_split` PCQ, `Math.casteljau_deriv` PCQ, `Math.casteljau_float` PCQ, `Math.casteljau_ieee` PCQ |
| C174 | `Arr.map_result` PCQ |
| C175 | `Math.area_fan` PQ, `Math.area_laws` PCQ, `Math.volume_laws` PCQ, `Math.volume_translate` PCQ, `Math.area_whole` PCQ |
| C176 | `Heap.heap_shortest` PCQ |
| C177 | `Math.orthonormalize_result` PCQ, `Math.orthonormalize_unique` PCQ, `Math.lookAt_frame` PCQ, `Math.lookAt_view` PCQ |
| C178 | `Math.hitPlane_result` PCQ, `Math.hitTriangle_result` PCQ, `Math.hitSphere_result` PCQ, `Math.nearest_result` PCQ |
| C179 | `Algo.split_partial` PCQ, `Algo.split_wrong` PCQ |
| C18 | `LL.linkedList_assign` PCQ, `LL.linkedList_copyAssign` PCQ, `LL.linkedList_self_copyAssign` PCQ |
| C180 | `Algo.Rev.rotate_partial` PCQ, `Algo.Rev.rotate_wrong` P |
| C181 | `Scoped.transaction_atomic` PQ, `Scoped.session_result` PCQ |
| C182 | `AD.pool_history` PCQ |
| C183 | `LL.cache_history` PCQ, `LL.cache_larger` PCQ |
| C184 | `Arr.sets_result` PCQ |
| C185 | `Arr.convert_result` PCQ, `Arr.convert_back` PCQ, `Arr.add_result` PCQ |
| C186 | `Env.withVars_partial` PQ, `Env.withVars_empty_wrong` PQ, `Env.withVars_secure_wrong` PQ, `Env.withVars_exact` PQ |
| C187 | `Lib.plugins_closed_once` PCQ |
| C188 | `Arr.sieve_result` PCQ |
| C189 | `ConstRange.const_range_partial` P, `ConstRange.const_range_wrong` P, `ConstRange.const_range_exact` P |
| C19 | `LL.linkedList_moveAssign_partial` PCQ, `LL.linkedList_newMove` PCQ, `LL.linkedList_self_move_loses` PCQ |
| C190 | `LL.mergeLists_result` PCQ |
| C191 | `Arr.postfix_result` PCQ, `Arr.postfix_refused` PCQ, `Arr.postfix_injective` P |
| C20 | `LL.linkedList_eraseAfter` PCQ, `LL.linkedList_popFront` PCQ |
| C21 | `LL.linkedList_self_insert_partial` PCQ, `LL.linkedList_self_insert_diverges` PCQ, `LL.linkedList_self_insert_hangs` PCQ |
| C22 | `LL.linkedList_insert_throws_partial` PCQ, `LL.linkedList_constructor_leaks` PQ, `LL.linkedList_constructor_leaks_exact` PCQ |
| C23 | `SPSC.Conc.spsc_fifo` PCQ, `SPSC.Conc.spsc_no_loss` PCQ, `SPSC.Seq.spsc_seq_refines_fifo` PCQ |
| C24 | `SPSC.Conc.spsc_race_free` PCQ, `SPSC.Conc.spsc_undisciplined_ub` PQ |
| C25 | `SPSC.Conc.spsc_capacity` PCQ, `SPSC.Conc.spsc_push_full_iff` PCQ, `SPSC.Conc.spsc_push_false_unchanged` PQ, `SPSC.Seq.spsc_seq_refines_fifo` PCQ |
| C26 | `SPSC.Conc.spsc_write_available_sound` PCQ, `SPSC.Conc.spsc_read_available_sound` PCQ, `SPSC.Conc.spsc_foreign_available_upper` PCQ, `SPSC.Seq.spsc_seq_available_exact` PCQ |
| C27 | `SPSC.Conc.spsc_observer_wrong` PCQ, `SPSC.Conc.spsc_observer_any_wrong` PCQ, `SPSC.Conc.spsc_observer_partial` PCQ |
| C28 | `SPSC.Seq.spsc_lifetimes` PCQ, `SPSC.Seq.spsc_clear` PCQ |
| C29 | `SPSC.Conc.spsc_never_blocked` PCQ, `SPSC.Conc.spsc_wait_free` PCQ |
| C30 | `SPSC.Seq.spsc_push_throw_unchanged` PQ, `SPSC.Seq.spsc_consume_throw_keeps` PQ, `SPSC.Seq.spsc_seq_refines_fifo` PCQ, `SPSC.Conc.spsc_consume_throw_concurrent` PCQ, `SPSC.Conc.spsc_push_throw_concurrent` PQ |
| C31 | `SPSC.Seq.spsc_any_capacity_partial` PCQ, `SPSC.Seq.spsc_non_power_of_two_capacity_wrong` PCQ, `SPSC.Seq.spsc_any_capacity_available` PCQ, `SPSC.Seq.spsc_non_power_of_two_read_available_wrong` PCQ |
| C32 | `Heap.heap_invariant` PCQ, `Heap.heap_range_defined` PCQ, `Heap.heap_pop_empty_ub` P |
| C33 | `Heap.heap_push_elements` PCQ, `Heap.heap_pop_elements` PCQ, `Heap.heap_range_elements` PCQ |
| C34 | `Heap.heap_front_greatest` PCQ |
| C35 | `Heap.heap_drain_sorts` PCQ |
| C36 | `Heap.heap_push_cost` PCQ, `Heap.heap_pop_cost` PCQ |
| C37 | `Algo.find_first` PCQ, `Algo.find_eq_findIdx` PCQ |
| C38 | `Algo.find_inside` PCQ |
| C39 | `Algo.find_address_partial` PCQ, `Algo.find_address_wrong` PQ |
| C40 | `Algo.find_float_partial` PCQ, `Algo.find_float_wrong` PQ, `Algo.find_any_exact` PCQ |
| C41 | `Algo.Rev.reverse_bytes` PCQ |
| C42 | `Algo.Rev.reverse_two_bytes_partial` PCQ, `Algo.Rev.reverse_two_bytes_wrong` P, `Algo.Rev.reverse_two_bytes_exact` PCQ, `Algo.Rev.reverse_two_bytes_iff` PCQ, `Algo.Rev.reverse_two_bytes_other` PCQ |
| C43 | `Delegate.delegate_defined` PCQ, `Delegate.delegate_destroys_once` PCQ, `Delegate.delegate_frees_once` PCQ, `Delegate.delegate_no_leak` PCQ |
| C44 | `Delegate.delegate_calls` PCQ, `Delegate.delegate_invokes_only_on_call` PCQ, `Delegate.delegate_new_callable` PCQ |
| C45 | `Delegate.delegate_handle_partial` PCQ, `Delegate.delegate_handle_wrong` PCQ |
| C46 | `Bind.bind_front_order` PCQ, `Bind.bind_back_order` PCQ, `Bind.bind_nested` PQ |
| C47 | `Scoped.scoped_runs_once` PCQ, `Scoped.scoped_counts` PQ, `Scoped.scoped_nested` PQ, `Scoped.scoped_runs_at_scope_end` PQ, `Scoped.scoped_throwing_terminates` P, `Scoped.scoped_terminated_runs_nothing` P |
| C48 | `Tup.tuple_cat_concatenates` PCQ |
| C49 | `Tup.tuple_get` PCQ, `Tup.tuple_assign` PCQ, `Tup.tuple_self_assign` PCQ, `Tup.tuple_swap` PCQ, `Tup.tuple_self_swap` PCQ, `Tup.tuple_apply` PQ, `Tup.tuple_convert` PCQ, `Tup.pair_ops` PQ |
| C50 | `Tup.tuple_compare_lexicographic` PCQ, `Tup.tuple_equal` PCQ, `Tup.tuple_total_order` PCQ, `Tup.pair_compare` P |
| C51 | `AV.view_subview` PCQ, `AV.view_first` PCQ, `AV.view_last` PCQ, `AV.view_nested` PCQ, `AV.view_read` PCQ, `AV.view_write` PCQ, `AV.view_access_exact` PCQ |
| C52 | `AV.view_first_last_checked` P, `AV.view_checked_partial` PQ, `AV.view_checked_exact` PCQ, `AV.view_checked_wrong` PCQ |
| C53 | `AV.view_as_bytes` PCQ, `AV.view_write_byte` PCQ |
| C54 | `RevIt.reverse_iterator_laws` PCQ, `RevIt.reverse_iterator_traverses` PCQ |
| C55 | `RevIt.reverse_iterator_order_partial` PCQ, `RevIt.reverse_iterator_order_wrong` PCQ, `RevIt.reverse_iterator_mixed_wrong` PCQ |
| C56 | `Bits.has_single_bit_correct` PCQ |
| C57 | `Bits.to_unsigned_correct` PCQ |
| C58 | `Bits.forward_like_correct` P |
| C59 | `Math.vector_componentwise` PCQ, `Math.vector_space_laws` PCQ, `Math.dot_bilinear` PCQ, `Math.length_sq` PCQ |
| C60 | `Math.cross_laws` PCQ, `Math.cross_right_handed` PCQ |
| C61 | `Math.normalize_unit` PCQ, `Math.distance_metric` PCQ |
| C62 | `Math.reflect_laws` PCQ |
| C63 | `Math.faceforward_partial` PCQ, `Math.faceforward_wrong_at_zero` PCQ |
| C64 | `Math.lerp_laws` PCQ, `Math.lerp_bool` PCQ |
| C65 | `Math.sign_laws` PCQ, `Math.signV_componentwise` PCQ, `Math.sign_int` PCQ |
| C66 | `Math.matrix_ops` PCQ, `Math.matrix_compound` PCQ, `Math.matrix_laws` PCQ |
| C67 | `Math.determinant_correct` PCQ, `Math.determinant_laws` PCQ |
| C68 | `Math.transpose_outer_hadamard` PCQ |
| C69 | `Math.translate_scale` PCQ |
| C70 | `Math.rotate_turns` PCQ, `Math.rotate_is_rotation` PCQ, `Math.rotate_orientation` PCQ |
| C71 | `Math.perspective_maps_frustum` PCQ |
| C72 | `Math.frustum_partial` PCQ, `Math.frustum_exact` PCQ, `Math.frustum_wrong` PCQ, `Math.ieee_frustum_near_wrong` PCQ |
| C73 | `Math.ortho_partial` PCQ, `Math.ortho_wrong` PCQ, `Math.ortho_exact` PCQ |
| C74 | `Math.handedness_partial` PCQ, `Math.handedness_view_partial` PCQ, `Math.handedness_wrong` PCQ, `Math.handedness_exact` PCQ |
| C75 | `Math.quaternion_algebra` PQ |
| C76 | `Math.Trig.radians_degrees` PCQ, `Math.Trig.radians_linear` PCQ, `Math.Trig.radians_true` PCQ, `Math.Trig.radians_180` PCQ, `Math.Trig.reciprocals` PCQ, `Math.Trig.pythagorean` PCQ |
| C77 | `Math.Const.e_near` PCQ, `Math.Const.e_sqr_near` PCQ, `Math.Const.e_pow_pi_near` PCQ, `Math.Const.pi_near` PCQ, `Math.Const.two_pi_near` PCQ, `Math.Const.two_over_pi_near` PCQ, `Math.Const.pi_over_two_near` PCQ, `Math.Const.pi_sqr_near` PCQ, `Math.Const.inv_pi_near` PCQ, `Math.Const.tau_near` PCQ, `Math.Const.log2_e_near` PCQ, `Math.Const.log10_e_near` PCQ, `Math.Const.ln_two_near` PCQ, `Math.Const.ln_ten_near` PCQ, `Math.Const.sqrt_two_near` PCQ, `Math.Const.sqrt_three_near` PCQ, `Math.Const.sqrt_five_near` PCQ, `Math.Const.sqrt_e_near` PCQ, `Math.Const.sqrt_pi_near` PCQ, `Math.Const.sqrt_two_pi_near` PCQ, `Math.Const.sqrt_two_pi_e_near` PCQ, `Math.Const.inv_sqrt_pi_near` PCQ, `Math.Const.cbrt_two_near` PCQ, `Math.Const.inv_fibonacci_near` PCQ, `Math.Const.phi_near` PCQ, `Math.Const.catalan_near` PCQ, `Math.Const.euler_near` PCQ, `Math.Const.gauss_near` PCQ, `Math.Const.plastic_near` PCQ, `Math.Const.zeta_two_near` PCQ, `Math.Const.zeta_three_near` PCQ, `Math.Const.zeta_four_near` PCQ |
| C78 | `Lib.shared_library_partial` PCQ, `Lib.shared_library_close_wrong` PCQ, `Lib.shared_library_open_wrong` PCQ, `Lib.shared_library_exact` PCQ, `Lib.shared_library_is_open_exact` PCQ, `Lib.shared_library_null_wrong` PCQ |
| C79 | `Env.environment_partial` PCQ, `Env.environment_value_wrong` PQ, `Env.environment_name_wrong` PQ, `Env.environment_undefined` PQ |
| C80 | `Simd.simd_use_iff` PCQ, `Simd.simd_downward_closed` PCQ, `Simd.simd_flags` PQ, `Simd.simd_operators` PCQ |
| C81 | `Math.rotate_integer_axis_partial` PCQ, `Math.rotate_integer_axis_wrong` PCQ, `Math.rotate_integer_axis_iff` PCQ |
| C82 | `Arr.array_pointers_stable` PCQ, `Arr.array_pointers_invalidated` PCQ, `Arr.array_pointers_elsewhere` PCQ, `Arr.array_pointers_handed_over` PCQ, `Arr.array_reserve_then_push` PCQ |
| C83 | `Math.fp_vector_exact` PCQ, `Math.fp_dot_exact` PCQ, `Math.fp_length_exact` PCQ, `Math.fp_cross_exact` PCQ, `Math.fp_identity_exact` PCQ, `Math.fp_transform_exact` PCQ, `Math.fp_select_exact` PCQ, `Math.fp_add_not_assoc` PCQ |
| C84 | `Math.fp_dot_error` PCQ, `Math.fp_length_error` PCQ, `Math.fp_distance_error` PCQ, `Math.fp_normalize_error` PCQ, `Math.fp_matrix_error` PCQ, `Math.fp_cross_error` PCQ, `Math.fp_lerp_error` PCQ |
| C85 | `Math.fp_determinant_error` PCQ, `Math.fp_quaternion_error` PCQ, `Math.fp_reflect_error` PCQ, `Math.fp_translate_scale_error` PCQ, `Math.fp_rotate_error` PCQ |
| C86 | `Math.fp_constant_error` PCQ, `Math.fp_angle_error` PCQ |
| C87 | `Ranges.fill_n_all_or_nothing` PCQ |
| C88 | `Ranges.copy_partial` PCQ, `Ranges.copy_throw_wrong` PCQ, `Ranges.copy_throw_exact` PCQ |
| C89 | `Ranges.destroy_exact` PCQ, `Ranges.destroy_undefined_exact` PCQ |
| C90 | `Math.int_vector_signed` PCQ, `Math.int_vector_unsigned` PCQ, `Math.int_vector_narrow` PCQ, `Math.int_vector_uint16_wrong` P |
| C91 | `Math.int_dot_signed` PCQ, `Math.int_dot_modular` PCQ, `Math.int_geometry_exact` PCQ, `Math.int_geometry_modular` PCQ, `Math.int_dot_uint16` PCQ, `Math.int_cross_uint16` PCQ, `Math.int_geometry_uint16` PCQ, `Math.int_faceforward_unsigned_wrong` PCQ, `Math.int_faceforward_narrow_wrong` PCQ |
| C92 | `Math.int_length_signed_partial` PCQ, `Math.int_length_unsigned_partial` PCQ, `Math.int_length_unsigned_wrong` PCQ, `Math.int_length_narrow_partial` PCQ, `Math.int_length_narrow_wrong` PCQ, `Math.int_length_wide_wrong` PCQ, `Math.int_length4_partial` PCQ, `Math.int_length4_wrong` PCQ |
| C93 | `Math.int_scale_partial` PCQ, `Math.int_scale_exact` PCQ, `Math.int_scale_wrong` PCQ |
| C94 | `Math.lerp_int_partial` PCQ, `Math.lerp_int_exact` PCQ, `Math.lerp_unsigned_wrong` PCQ |
| C95 | `Math.vector_parts` P, `Math.vector_args` PQ, `Math.convert_components` PCQ, `Math.embed_acts` PCQ, `Math.quaternion_index` P |
| C96 | `Math.compare_first_difference` PCQ, `Math.compare_total_order` PCQ, `Math.compare_total_order_matrix` PCQ, `Math.compare_nan` PCQ |
| C97 | `ConstIt.const_iterator_laws` PCQ, `ConstIt.const_iterator_traverses` PCQ, `ConstIt.const_iterator_const` PQ |
| C98 | `AD.aligned_data_partial` PCQ, `AD.aligned_data_wrong` PCQ |
| C99 | `Math.ieee_dot_length_error` PCQ, `Math.ieee_normalize_error` PCQ, `Math.ieee_cross_lerp_reflect_error` PCQ, `Math.ieee_matrix_error` PCQ, `Math.ieee_determinant_error` PCQ, `Math.ieee_quaternion_error` PCQ, `Math.ieee_translate_scale_error` PCQ |
