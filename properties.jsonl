{"id": "C01", "title": "Array behaves as a sequence under every history", "statement": "For a trivially copyable element type, any sequence of Array operations (construct, copy, move, assign, swap, clear, reserve, resize, push_back, emplace_back, pop_back, insert, erase, range forms, destroy) whose documented preconditions hold never has undefined behaviour, and after it every array observes (size, operator[], front, back, iteration) exactly the sequence a mathematical list would hold.", "quantifier": "every finite history of operations over any number of arrays, every element value, every size and every memory layout the allocator may produce", "why_tests_cant": "Tests run a handful of fixed histories; the claim ranges over all histories, lengths and interleavings of operations across arrays.", "anchors": ["include/xme/container/array.hpp: Array", "include/xme/container/array.hpp: grow_storage", "include/xme/container/array.hpp: shrink_storage", "include/xme/container/array.hpp: realloc_insert"]}
{"id": "C02", "title": "Array capacity contract", "statement": "size() <= capacity() always; reserve(n) gives capacity max(old,n) and never changes elements; resize(n) gives capacity exactly n and keeps the first min(size,n) elements; clear and pop_back keep the capacity; push_back onto a full array gives capacity size+max(size,1); push_back of a range grows to exactly size+count.", "quantifier": "every reachable array state, every argument n", "why_tests_cant": "The growth rule must hold at every size, not at the sizes a test happens to reach.", "anchors": ["include/xme/container/array.hpp: reserve", "include/xme/container/array.hpp: resize", "include/xme/container/array.hpp: emplace_back", "include/xme/container/array.hpp: push_back", "include/xme/container/array.hpp: clear", "include/xme/container/array.hpp: capacity"]}
{"id": "C03", "title": "Array never leaks or double-frees storage", "statement": "Every block an Array obtains from its allocator is returned exactly once and with the size it was obtained with; when all arrays of a history have been destroyed no block is outstanding.", "quantifier": "every history of operations over any number of arrays, trivially copyable elements", "why_tests_cant": "Leak freedom is a statement about all exits of all histories; a leak checker only sees the executed ones.", "anchors": ["include/xme/container/array.hpp: ~Array", "include/xme/container/array.hpp: grow_storage", "include/xme/container/array.hpp: shrink_storage", "include/xme/container/array.hpp: realloc_insert", "include/xme/container/array.hpp: operator="]}
{"id": "C04", "title": "Array::insert of one value", "statement": "insert(pos, v) yields the old elements with v placed before pos, keeps the relative order of all others, and returns an iterator to the inserted element, whether or not storage is reallocated.", "quantifier": "every array contents, capacity and position", "why_tests_cant": "There are three code paths (end, in place, reallocation) whose correctness depends on overlapping element moves at every position.", "anchors": ["include/xme/container/array.hpp: insert(const_iterator, const T&)", "include/xme/container/array.hpp: realloc_insert"]}
{"id": "C05", "title": "Array::insert of a range", "statement": "insert(pos, first, last) yields the old elements with the whole range placed before pos in order, and returns an iterator to the first inserted element (pos if the range is empty); when storage is reallocated the new capacity is old capacity + count.", "quantifier": "every contents, capacity, position and inserted range", "why_tests_cant": "The in-place path shifts overlapping memory by an arbitrary distance; only a proof covers all distances.", "anchors": ["include/xme/container/array.hpp: insert(const_iterator, InIter, Sent)"]}
{"id": "C06", "title": "Array::erase", "statement": "erase(pos) removes exactly that element, erase(first,last) exactly that range; the other elements keep their order and values, capacity is unchanged, and the returned iterator designates the element that followed the removed ones.", "quantifier": "every contents, position and sub-range", "why_tests_cant": "Overlapping moves at every position and length.", "anchors": ["include/xme/container/array.hpp: erase"]}
{"id": "C07", "title": "Copies of arrays are independent", "statement": "After copy construction or copy assignment both arrays have equal contents, and no later operation on one of them changes what is observed through the other; copy assignment of an array to itself keeps its elements (its capacity becomes its size).", "quantifier": "every pair of arrays and every later history", "why_tests_cant": "Independence quantifies over all future operations on either copy.", "anchors": ["include/xme/container/array.hpp: Array(const Array&)", "include/xme/container/array.hpp: operator=(const Array&)", "include/xme/container/array.hpp: swap"]}
{"id": "C08", "title": "Moves transfer the contents", "statement": "Move construction and move assignment give the destination exactly the source's former contents and capacity without touching any element, leave the source empty with capacity 0 (self-move leaves the array unchanged), and never release the transferred block.", "quantifier": "every pair of arrays, including the same array twice", "why_tests_cant": "Aliasing (self move) and every prior history.", "anchors": ["include/xme/container/array.hpp: Array(Array&&)", "include/xme/container/array.hpp: operator=(Array&&)", "include/xme/container/array.hpp: ArrayData"]}
{"id": "C09", "title": "Appending is amortised constant time", "statement": "Appending n elements one at a time to an empty array relocates fewer than 2n elements in total and allocates at most 1+log2(n) (rounded up) blocks.", "quantifier": "every n", "why_tests_cant": "An asymptotic bound cannot be tested.", "anchors": ["include/xme/container/array.hpp: emplace_back", "include/xme/container/array.hpp: grow_storage"]}
{"id": "C10", "title": "Appending an element of the array to itself", "statement": "a.push_back(a[i]) / a.emplace_back(a[i]) appends a copy of the i-th element for every i < size(), whatever the capacity.", "quantifier": "every array, every i, every capacity", "why_tests_cant": "The argument may dangle only when the call reallocates; whether it does depends on the history.", "anchors": ["include/xme/container/array.hpp: push_back(const T&)", "include/xme/container/array.hpp: emplace_back", "include/xme/container/array.hpp: grow_storage"]}
{"id": "C11", "title": "Inserting an element of the array into itself", "statement": "a.insert(pos, a[i]) inserts the value a[i] had before the call, for every pos and i.", "quantifier": "every array, position, index and capacity", "why_tests_cant": "The reference may designate a slot that the shift overwrites; depends on relative positions and capacity.", "anchors": ["include/xme/container/array.hpp: insert(const_iterator, const T&)", "include/xme/container/array.hpp: realloc_insert"]}
{"id": "C12", "title": "Element lifetimes are respected for class types", "statement": "For an element type with non-trivial constructors/destructors/assignment, Array only assigns to, reads and destroys objects whose lifetime has begun and not ended, and every element it constructs is destroyed exactly once.", "quantifier": "every history, every element type", "why_tests_cant": "Violations are silent undefined behaviour; tests with ints cannot observe them.", "anchors": ["include/xme/container/array.hpp: grow_storage", "include/xme/container/array.hpp: shrink_storage", "include/xme/container/array.hpp: realloc_insert", "include/xme/container/array.hpp: insert", "include/xme/container/array.hpp: erase", "include/xme/container/array.hpp: ~Array"]}
{"id": "C13", "title": "Array exception safety", "statement": "If an element constructor or the allocator throws at any point inside a constructor, copy, push_back or emplace_back, no undefined behaviour occurs, every object constructed by the failed constructor is destroyed and its block released, and a pre-existing array keeps its former elements.", "quantifier": "every operation and every point at which an exception may be thrown", "why_tests_cant": "Quantifies over the failure point.", "anchors": ["include/xme/container/array.hpp: emplace_back", "include/xme/container/array.hpp: Array", "include/xme/ranges/uninitialized.hpp: uninitialized_copy_a", "include/xme/ranges/uninitialized.hpp: uninitialized_fill_n_a", "include/xme/ranges/destroy.hpp"]}
{"id": "C14", "title": "LinkedList behaves as a sequence under every history", "statement": "Any sequence of LinkedList operations (construct, copy, assign, push_front, pop_front, emplace/insert_after one or a range, erase_after one or a range, reverse, clear, move, destroy) whose preconditions hold has no undefined behaviour and leaves every list observing exactly the corresponding mathematical sequence.", "quantifier": "every finite history over any number of lists, all element values and positions", "why_tests_cant": "Tests run fixed short histories over pointer structures.", "anchors": ["include/xme/container/linked_list.hpp: LinkedList", "private/container/linked_list_base.hpp: LinkedListNode"]}
{"id": "C15", "title": "LinkedList releases every node exactly once", "statement": "Each node allocated by a list is destroyed and deallocated exactly once; after clear or destruction of a list none of its nodes is outstanding, and the nodes of other lists are untouched.", "quantifier": "every history over any number of lists", "why_tests_cant": "Leak freedom over all histories.", "anchors": ["include/xme/container/linked_list.hpp: clear", "include/xme/container/linked_list.hpp: erase_after", "include/xme/container/linked_list.hpp: ~LinkedList", "include/xme/container/linked_list.hpp: create_node"]}
{"id": "C16", "title": "LinkedList::reverse", "statement": "reverse() makes the list read in the opposite order; it allocates, moves and destroys nothing, and every iterator keeps designating the same element; applying it twice restores the list.", "quantifier": "every list", "why_tests_cant": "Pointer rewriting over unbounded chains.", "anchors": ["include/xme/container/linked_list.hpp: reverse"]}
{"id": "C17", "title": "LinkedList iterator stability", "statement": "Inserting, erasing other elements, reversing or moving the list never invalidates an iterator/reference to a remaining element: it keeps its address and value; insertions return the iterator of the (last) inserted element.", "quantifier": "every list, every operation, every remaining element", "why_tests_cant": "Quantifies over all nodes and all operations.", "anchors": ["include/xme/container/linked_list.hpp: insert_after", "include/xme/container/linked_list.hpp: erase_after", "include/xme/container/linked_list.hpp: emplace_after"]}
{"id": "C18", "title": "LinkedList assignment replaces the contents", "statement": "assign(first,last) / copy assignment make the list hold exactly the given range, whether it was shorter or longer before, reusing the existing nodes for the common prefix; assigning a list from itself changes nothing.", "quantifier": "every pair of lists of any lengths, including aliasing", "why_tests_cant": "The loop has three exits depending on relative lengths, plus aliasing.", "anchors": ["include/xme/container/linked_list.hpp: assign", "include/xme/container/linked_list.hpp: operator=(const LinkedList&)"]}
{"id": "C19", "title": "LinkedList move assignment", "statement": "Move assignment gives the destination the source's elements, releases the old ones and leaves the source empty; moving a list onto itself keeps its elements.", "quantifier": "every pair of lists including the same list twice", "why_tests_cant": "The self-move case needs aliasing reasoning.", "anchors": ["include/xme/container/linked_list.hpp: operator=(LinkedList&&)", "include/xme/container/linked_list.hpp: LinkedList(LinkedList&&)"]}
{"id": "C20", "title": "Exactly when erase_after and pop_front are undefined", "statement": "erase_after(pos) is defined precisely when an element follows pos, and then removes only that element; pop_front is defined precisely on non-empty lists.", "quantifier": "every list and position", "why_tests_cant": "Undefined behaviour cannot be asserted by a test.", "anchors": ["include/xme/container/linked_list.hpp: erase_after", "include/xme/container/linked_list.hpp: pop_front"]}
{"id": "C21", "title": "Inserting a range of a list into itself", "statement": "l.insert_after(pos, first, last) with a range of l terminates and inserts a copy of the range as it was before the call.", "quantifier": "every list, position and sub-range", "why_tests_cant": "Non-termination cannot be observed by a test.", "anchors": ["include/xme/container/linked_list.hpp: insert_after(const_iterator, Iter, Sent)"]}
{"id": "C22", "title": "LinkedList exception safety", "statement": "If an element constructor or the allocator throws while inserting, the list keeps its elements and the node is not leaked; if it throws inside a list constructor nothing is leaked.", "quantifier": "every operation and failure point", "why_tests_cant": "Quantifies over the failure point.", "anchors": ["include/xme/container/linked_list.hpp: create_node", "include/xme/container/linked_list.hpp: range_initialize", "include/xme/container/linked_list.hpp: emplace_after"]}
{"id": "C23", "title": "SPSC queue is FIFO without loss or duplication under every schedule", "statement": "With one producer thread and one consumer thread, in every interleaving and for every visibility order the C++ memory model allows, the sequence of consumed elements is a prefix of the sequence of successfully pushed elements, and the elements still in the queue are exactly the remaining ones, in order.", "quantifier": "all thread schedules, all stale-but-coherent atomic reads, all capacities that are powers of two, all element values, unbounded run length", "why_tests_cant": "Schedules and weak-memory behaviours are not enumerable by tests.", "anchors": ["private/container/spsc_queue_base.hpp: emplace", "private/container/spsc_queue_base.hpp: pop", "private/container/spsc_queue_base.hpp: consume", "include/xme/container/spsc_queue.hpp: SPSCQueue"]}
{"id": "C24", "title": "SPSC queue has no data race", "statement": "No execution contains two conflicting unordered accesses to an element slot: each construction of a slot happens after the destruction of its previous occupant and each read/destruction of a slot happens after its construction.", "quantifier": "all schedules and all release/acquire executions", "why_tests_cant": "Data races are a property of the happens-before relation over all executions.", "anchors": ["private/container/spsc_queue_base.hpp: emplace", "private/container/spsc_queue_base.hpp: pop", "private/container/spsc_queue_base.hpp: consume"]}
{"id": "C25", "title": "SPSC capacity bound", "statement": "A queue of capacity N = 2^k holds at most N-1 elements at any time; push by the producer returns false only if it has observed N-1 unconsumed elements and then changes nothing; it never overwrites an unconsumed element; sequentially push fails exactly when N-1 elements are stored.", "quantifier": "all schedules, all capacities 2^k", "why_tests_cant": "Needs the wrap-around arithmetic for every index and every capacity.", "anchors": ["private/container/spsc_queue_base.hpp: emplace", "private/container/spsc_queue_base.hpp: next_index"]}
{"id": "C26", "title": "read_available / write_available are safe for their owner", "statement": "read_available() called by the consumer never exceeds the number of elements it can pop, write_available() called by the producer never exceeds the number of pushes that will succeed; when no other thread runs they are exact and add up to N-1, including all 64-bit wrap-around cases.", "quantifier": "all schedules, all capacities 2^k < 2^63, all index values", "why_tests_cant": "Wrap-around index arithmetic over all index pairs and stale reads.", "anchors": ["private/container/spsc_queue_base.hpp: read_available", "private/container/spsc_queue_base.hpp: write_available"]}
{"id": "C27", "title": "read_available observed by a third thread", "statement": "read_available() called by any thread returns a number of elements that were in the queue at some moment during the call.", "quantifier": "all schedules with an observer thread", "why_tests_cant": "The two loads are not atomic together; the failing schedules are rare.", "anchors": ["private/container/spsc_queue_base.hpp: read_available"]}
{"id": "C28", "title": "SPSC element lifetimes", "statement": "Every element constructed by a successful push is destroyed exactly once: by the pop/consume that removes it or by the queue's destructor, which also returns the dynamic buffer exactly once.", "quantifier": "all histories of pushes and pops followed by destruction, all capacities", "why_tests_cant": "Counts over all histories.", "anchors": ["private/container/spsc_queue_base.hpp: pop", "private/container/spsc_queue_base.hpp: consume", "private/container/spsc_queue_base.hpp: clear", "private/container/spsc_queue_base.hpp: ~DynamicSPSCQueue"]}
{"id": "C29", "title": "SPSC operations are wait-free", "statement": "Every push, pop, consume, read_available and write_available finishes after a bounded number of its own steps whatever the other thread does.", "quantifier": "all schedules", "why_tests_cant": "Progress quantifies over infinite schedules.", "anchors": ["private/container/spsc_queue_base.hpp: emplace", "private/container/spsc_queue_base.hpp: pop"]}
{"id": "C30", "title": "SPSC queue exceptions", "statement": "If the element constructor throws during push the queue is unchanged; if the function passed to consume throws, the element stays in the queue and is handed out by the next pop. Both hold while the other thread keeps using the queue: nothing is published or removed, and the next call of consume gets the same element.", "quantifier": "all queue states and all throwing points", "why_tests_cant": "Quantifies over states and failure points.", "anchors": ["private/container/spsc_queue_base.hpp: emplace", "private/container/spsc_queue_base.hpp: consume"]}
{"id": "C31", "title": "SPSC capacity that is not a power of two", "statement": "When assertions are compiled out and a dynamic queue is created with an arbitrary capacity N >= 1, every index stays inside the buffer and the queue still holds N-1 elements as write_available promises.", "quantifier": "all capacities", "why_tests_cant": "Tests use one capacity.", "anchors": ["private/container/spsc_queue_base.hpp: next_index", "private/container/spsc_queue_base.hpp: DynamicSPSCQueue"]}
{"id": "C32", "title": "Heap invariant under every history", "statement": "After any sequence of constructions, pushes, emplaces and pops no access is out of bounds and no stored element precedes one of its children in the comparator's order.", "quantifier": "every history, every element type, every strict weak order", "why_tests_cant": "Unbounded histories and tree sizes, arbitrary comparators.", "anchors": ["include/xme/container/heap.hpp: push", "include/xme/container/heap.hpp: pop", "include/xme/container/heap.hpp: heapfy_up", "include/xme/container/heap.hpp: heapfy_down"]}
{"id": "C33", "title": "Heap conserves its elements", "statement": "push adds exactly the pushed element, pop removes exactly the element front() showed, construction from a range holds exactly the range's elements (as multisets).", "quantifier": "every history and comparator", "why_tests_cant": "Multiset equality over all histories.", "anchors": ["include/xme/container/heap.hpp: push", "include/xme/container/heap.hpp: pop", "include/xme/container/heap.hpp: Heap"]}
{"id": "C34", "title": "Heap front is a greatest element", "statement": "front() of a non-empty heap is not less than any stored element (greatest for std::less, smallest for std::greater).", "quantifier": "every history, every strict weak order", "why_tests_cant": "Arbitrary comparators and histories.", "anchors": ["include/xme/container/heap.hpp: front", "include/xme/container/heap.hpp: Heap"]}
{"id": "C35", "title": "Draining a heap sorts", "statement": "Repeatedly reading front() and popping yields the stored elements in non-increasing comparator order, all of them.", "quantifier": "every heap", "why_tests_cant": "All inputs of all lengths.", "anchors": ["include/xme/container/heap.hpp: pop"]}
{"id": "C36", "title": "Heap operations are logarithmic", "statement": "push on a heap of n elements makes at most floor(log2(n+1)) comparisons and swaps; pop makes at most 2*floor(log2(n)) comparisons.", "quantifier": "every heap size and contents", "why_tests_cant": "Complexity bounds are not testable.", "anchors": ["include/xme/container/heap.hpp: heapfy_up", "include/xme/container/heap.hpp: heapfy_down"]}
{"id": "C37", "title": "find returns the first match on every SIMD path", "statement": "Whenever it is defined (C39), xme::find over contiguous integers returns the position of the first element equal to the value, or the end, for element sizes 1, 2, 4, 8 and for the AVX2, SSE2 and scalar builds alike.", "quantifier": "every range length, contents, value, element size and instruction set", "why_tests_cant": "Block/tail boundaries, mask extraction and lane arithmetic for all lengths and contents.", "anchors": ["include/xme/core/algorithm/find.hpp: find_simd", "include/xme/core/algorithm/find.hpp: find"]}
{"id": "C38", "title": "find only reads inside the range", "statement": "Every memory access find makes lies inside [first,last).", "quantifier": "every range length, element size and instruction set", "why_tests_cant": "Out-of-range vector loads are usually silent.", "anchors": ["include/xme/core/algorithm/find.hpp: find"]}
{"id": "C39", "title": "find works at every address", "statement": "find is defined for every start address that is suitably aligned for the element type.", "quantifier": "every address", "why_tests_cant": "Whether the misaligned access faults depends on code generation.", "anchors": ["include/xme/core/algorithm/find.hpp: find_simd"]}
{"id": "C40", "title": "find agrees with operator== for floating point", "statement": "find over floats returns the first element x with x == value.", "quantifier": "every range of IEEE-754 floats", "why_tests_cant": "-0.0 and NaN at positions that depend on block boundaries.", "anchors": ["include/xme/core/algorithm/find.hpp: find_simd", "include/xme/core/algorithm/find.hpp: find"]}
{"id": "C41", "title": "reverse reverses on every SIMD path", "statement": "xme::reverse over contiguous bytes reverses the range exactly, touching only memory inside it, and returns the end of the range, in the AVX2, SSE3 and scalar builds alike.", "quantifier": "every length and contents", "why_tests_cant": "Block/middle boundaries for all lengths.", "anchors": ["include/xme/core/algorithm/reverse.hpp: reverse_simd", "include/xme/core/algorithm/reverse.hpp: reverse"]}
{"id": "C42", "title": "reverse of two-byte elements", "statement": "xme::reverse over contiguous two-byte elements reverses the range exactly in the SSE3 build.", "quantifier": "every length and contents", "why_tests_cant": "Only ranges longer than two blocks take the vector path.", "anchors": ["include/xme/core/algorithm/reverse.hpp: reverse_simd"]}
{"id": "C43", "title": "Delegate destroys each stored callable exactly once", "statement": "Over any history of constructing, moving, swapping, re-assigning, emptying and destroying delegates, each stored callable (small or heap-allocated) is destroyed exactly once and each heap block freed exactly once, never while still reachable from a live delegate.", "quantifier": "every history over any number of delegates, both storage classes", "why_tests_cant": "Ownership over all histories.", "anchors": ["include/xme/core/functional/delegate.hpp: Delegate", "include/xme/core/functional/delegate.hpp: FunctorManager"]}
{"id": "C44", "title": "Delegate calls the callable it holds", "statement": "Calling a delegate invokes exactly the callable most recently given to it (following moves and swaps); an empty, emptied or moved-from delegate throws std::bad_function_call and converts to false; a null function pointer gives an empty delegate.", "quantifier": "every history", "why_tests_cant": "All histories of moves/swaps/assignments.", "anchors": ["include/xme/core/functional/delegate.hpp: operator()", "include/xme/core/functional/delegate.hpp: operator bool", "include/xme/core/functional/delegate.hpp: swap", "include/xme/core/functional/delegate.hpp: is_empty_function"]}
{"id": "C45", "title": "Delegate::handle designates the stored callable", "statement": "handle<F>() returns a pointer to the stored callable when the delegate holds an F and null otherwise.", "quantifier": "every functor type, size and history", "why_tests_cant": "Depends on the storage class of the functor.", "anchors": ["include/xme/core/functional/delegate.hpp: handle"]}
{"id": "C46", "title": "bind_front / bind_back argument order", "statement": "bind_front(f,a...)(b...) calls f(a...,b...) and bind_back(f,a...)(b...) calls f(b...,a...), for any numbers of arguments; nested binds compose by concatenation.", "quantifier": "every arity and every argument list", "why_tests_cant": "Variadic arity is unbounded.", "anchors": ["include/xme/core/functional/bind.hpp: bind_front", "include/xme/core/functional/bind.hpp: bind_back", "include/xme/core/functional/bind.hpp: BindFront", "include/xme/core/functional/bind.hpp: BindBack"]}
{"id": "C47", "title": "ScopedDelegate runs once at scope exit", "statement": "Each scoped delegate's callable is run exactly once, when its scope ends (normally or by exception), and those of nested declarations run in reverse order of construction.", "quantifier": "every nesting of scopes and every exit point", "why_tests_cant": "All exits.", "anchors": ["include/xme/core/functional/scoped_delegate.hpp: ScopedDelegate"]}
{"id": "C48", "title": "tuple_cat concatenates", "statement": "tuple_cat(t1,...,tn) has as elements those of t1, then those of t2, ... and finally those of tn, for any number of tuples of any sizes, including empty ones.", "quantifier": "every number and size of tuples", "why_tests_cant": "A template metaprogram over unbounded arities.", "anchors": ["include/xme/container/tuple.hpp: tuple_cat", "include/xme/container/tuple.hpp: TupleCat"]}
{"id": "C49", "title": "Tuple element access, assignment, swap, conversion and apply", "statement": "get<I> reads what was stored at I; assignment copies element-wise; swap exchanges all elements; apply(f,t) calls f with all elements in order; conversion keeps every element in order.", "quantifier": "every tuple size", "why_tests_cant": "Variadic arity.", "anchors": ["include/xme/container/tuple.hpp: apply", "include/xme/container/tuple.hpp: Tuple", "private/container/tuple_base.hpp: TypeMap", "include/xme/container/pair.hpp: Pair"]}
{"id": "C50", "title": "Tuple and Pair comparisons are lexicographic", "statement": "== holds iff all corresponding elements are equal and <=> is the lexicographic order, hence a total order when the element orders are total.", "quantifier": "every tuple size and all element values", "why_tests_cant": "Order axioms quantify over triples of values.", "anchors": ["private/container/tuple_base.hpp: operator<=>", "include/xme/container/pair.hpp: operator<=>"]}
{"id": "C51", "title": "ArrayView sub-views", "statement": "subview(o,c), first(c), last(c) designate exactly the elements [o,o+c), [0,c), [n-c,n) of the viewed range; nested sub-views compose; writing through a view changes exactly that element of the viewed range.", "quantifier": "every view, offset and count inside the view", "why_tests_cant": "All offsets and nestings.", "anchors": ["include/xme/container/array_view.hpp: subview", "include/xme/container/array_view.hpp: first", "include/xme/container/array_view.hpp: last"]}
{"id": "C52", "title": "ArrayView checks its bounds", "statement": "In checked builds, a sub-view request that does not lie inside the view is stopped by the assertion.", "quantifier": "every 64-bit offset and count", "why_tests_cant": "The failing arguments lie at the 64-bit wrap-around.", "anchors": ["include/xme/container/array_view.hpp: subview"]}
{"id": "C53", "title": "as_bytes exposes the object representation", "statement": "as_bytes/as_writable_bytes give a view of exactly size()*sizeof(T) bytes covering the elements in order, and writing bytes of a representation through it changes exactly the designated element.", "quantifier": "every view, element size", "why_tests_cant": "All sizes.", "anchors": ["include/xme/container/array_view.hpp: as_bytes", "include/xme/container/array_view.hpp: as_writable_bytes", "include/xme/container/array_view.hpp: size_bytes"]}
{"id": "C54", "title": "ReverseIterator traverses backwards", "statement": "Iterating from a reversed end to a reversed begin yields the elements in opposite order; +,-,[],++,--, difference obey the random-access laws.", "quantifier": "every range and all offsets", "why_tests_cant": "Laws over all integers.", "anchors": ["include/xme/core/iterators/reverse_iterator.hpp: ReverseIterator"]}
{"id": "C55", "title": "ReverseIterator ordering", "statement": "For reverse iterators a and b of the same range, a < b exactly when b is reached from a by incrementing (b - a > 0).", "quantifier": "every pair of reverse iterators of a range", "why_tests_cant": "An order law over all pairs.", "anchors": ["include/xme/core/iterators/reverse_iterator.hpp: operator<=>"]}
{"id": "C56", "title": "has_single_bit", "statement": "has_single_bit(n) is true exactly for the powers of two, for unsigned integers of every width.", "quantifier": "every width and every value", "why_tests_cant": "2^64 values, all widths.", "anchors": ["include/xme/core/bit/has_single_bit.hpp: has_single_bit"]}
{"id": "C57", "title": "to_unsigned preserves the value modulo 2^w", "statement": "to_unsigned(x) is the unsigned number congruent to x modulo 2^w; it is x itself for non-negative x, and it is injective.", "quantifier": "every width and value", "why_tests_cant": "All values.", "anchors": ["include/xme/core/utility/to_unsigned.hpp: to_unsigned"]}
{"id": "C58", "title": "forward_like", "statement": "forward_like<Like>(x) has the constness of both operands merged and the value category of Like, as std::forward_like.", "quantifier": "all combinations of const and reference qualifiers", "why_tests_cant": "A complete table of type combinations rather than samples.", "anchors": ["include/xme/core/utility/forward_like.hpp: forward_like"]}
{"id": "C59", "title": "Vector arithmetic laws", "statement": "Element-wise +,-, scalar *,/ make vectors of every size a vector space over an exact field; dot is symmetric and bilinear; length(v)^2 = dot(v,v).", "quantifier": "all sizes, all vectors over an exact field / the reals", "why_tests_cant": "Algebraic laws over all values.", "anchors": ["include/xme/math/vector.hpp: Vector", "include/xme/math/vectors/geometry.hpp: dot", "include/xme/math/vectors/geometry.hpp: length"]}
{"id": "C60", "title": "cross product", "statement": "cross(a,b) is orthogonal to both operands, antisymmetric, and |cross(a,b)|^2 = |a|^2|b|^2 - dot(a,b)^2.", "quantifier": "all 3-vectors over an exact commutative ring", "why_tests_cant": "Algebraic law.", "anchors": ["include/xme/math/vectors/geometry.hpp: cross"]}
{"id": "C61", "title": "normalize and distance", "statement": "normalize(v) has length 1 and the direction of v for every non-zero v; distance is a metric.", "quantifier": "all real vectors", "why_tests_cant": "All vectors.", "anchors": ["include/xme/math/vectors/geometry.hpp: normalize", "include/xme/math/vectors/geometry.hpp: distance"]}
{"id": "C62", "title": "reflect", "statement": "For a unit normal n, reflect(.,n) is an involution, preserves lengths, fixes vectors orthogonal to n and negates n.", "quantifier": "all real vectors and unit normals", "why_tests_cant": "All vectors.", "anchors": ["include/xme/math/vectors/geometry.hpp: reflect"]}
{"id": "C63", "title": "faceforward", "statement": "faceforward(v,i,n) returns -v if dot(i,n) is positive and v otherwise (as documented).", "quantifier": "all real vectors", "why_tests_cant": "The boundary case dot = 0.", "anchors": ["include/xme/math/vectors/geometry.hpp: faceforward"]}
{"id": "C64", "title": "lerp", "statement": "lerp(a,b,0)=a, lerp(a,b,1)=b, lerp stays between a and b for 0<=t<=1 and is affine in t, component-wise for vectors.", "quantifier": "all reals, all vector sizes", "why_tests_cant": "All values.", "anchors": ["include/xme/math/vectors/functions.hpp: lerp"]}
{"id": "C65", "title": "sign", "statement": "sign(x) is -1, 0 or 1 with x = sign(x)*|x|; component-wise on vectors.", "quantifier": "all ordered-ring values", "why_tests_cant": "All values.", "anchors": ["include/xme/math/scalars/functions.hpp: sign", "include/xme/math/vectors/functions.hpp: sign"]}
{"id": "C66", "title": "Matrix product", "statement": "operator* of matrices and of matrix and vector is the mathematical product for every shape; it is associative, distributes over +, and the default-constructed square matrix is its identity.", "quantifier": "all shapes and all entries over an exact commutative ring", "why_tests_cant": "All shapes and values.", "anchors": ["include/xme/math/matrix.hpp: operator*", "include/xme/math/matrices/matrix4x4.hpp: Matrix"]}
{"id": "C67", "title": "determinant", "statement": "determinant of 2x2, 3x3 and 4x4 matrices is the mathematical determinant; hence it is multiplicative and invariant under transpose.", "quantifier": "all matrices over an exact commutative ring", "why_tests_cant": "A polynomial identity with 24 terms in 16 variables.", "anchors": ["include/xme/math/matrices/functions.hpp: determinant"]}
{"id": "C68", "title": "transpose, outer product, component-wise product", "statement": "transpose swaps indices and is an involution with (AB)^T = B^T A^T; outer_product(a,b) has entries a_i*b_j; hadamard is component-wise.", "quantifier": "all shapes and entries", "why_tests_cant": "All shapes.", "anchors": ["include/xme/math/matrices/functions.hpp: transpose", "include/xme/math/matrices/functions.hpp: outer_product", "include/xme/math/matrices/functions.hpp: hadamard"]}
{"id": "C69", "title": "translate and scale", "statement": "translate(m,v)/scale(m,v) equal m times the translation/scaling matrix: they map a point p as m maps p+v / v*p; translations add up and scalings multiply.", "quantifier": "all matrices, vectors and points", "why_tests_cant": "All values.", "anchors": ["include/xme/math/matrices/transformation.hpp: translate", "include/xme/math/matrices/transformation.hpp: scale"]}
{"id": "C70", "title": "rotate is a rotation", "statement": "rotate(m,angle,n) with a unit axis n equals m times a matrix that preserves lengths, has determinant 1, fixes n, and composes additively in the angle about the same axis.", "quantifier": "all real angles, unit axes and matrices", "why_tests_cant": "Trigonometric identities over all reals.", "anchors": ["include/xme/math/matrices/transformation.hpp: rotate"]}
{"id": "C71", "title": "perspective projection", "statement": "perspective_rh/lh map the view frustum to the normalized device cube: the near plane to depth -1, the far plane to +1, the field-of-view edges to +-1.", "quantifier": "all field of view, aspect ratio and 0 < near < far", "why_tests_cant": "All parameters.", "anchors": ["include/xme/math/matrices/perspective.hpp: perspective_rh", "include/xme/math/matrices/perspective.hpp: perspective_lh"]}
{"id": "C72", "title": "frustum projection", "statement": "perspective_rh/lh given (left,right,bottom,top,near,far) map the corners of the near rectangle to (+-1,+-1,-1).", "quantifier": "all frusta with left<right, bottom<top, 0<near<far", "why_tests_cant": "All parameters, in particular off-centre ones.", "anchors": ["include/xme/math/matrices/perspective.hpp: perspective_rh", "include/xme/math/matrices/perspective.hpp: perspective_lh"]}
{"id": "C73", "title": "orthographic projection", "statement": "ortho_rh/lh map the box [left,right]x[bottom,top]x[near,far] affinely onto the normalized device cube.", "quantifier": "all boxes", "why_tests_cant": "All parameters.", "anchors": ["include/xme/math/matrices/perspective.hpp: ortho_rh", "include/xme/math/matrices/perspective.hpp: ortho_lh"]}
{"id": "C74", "title": "default projection handedness", "statement": "perspective and ortho agree with the _lh functions when the library is configured for left-handed clip space and with the _rh ones otherwise.", "quantifier": "all parameters and both configurations", "why_tests_cant": "All parameters; tests run in one configuration.", "anchors": ["include/xme/math/matrices/perspective.hpp: perspective", "include/xme/math/matrices/perspective.hpp: ortho"]}
{"id": "C75", "title": "Quaternion algebra", "statement": "Quaternions form an associative algebra under the provided +,-,*: the product is Hamilton's, its norm is multiplicative and 1 is neutral.", "quantifier": "all quaternions over an exact commutative ring", "why_tests_cant": "Polynomial identities in 12 variables.", "anchors": ["include/xme/math/quaternion.hpp: Quaternion"]}
{"id": "C76", "title": "Angle conversion and reciprocal trigonometry", "statement": "radians and degrees are mutually inverse and linear, 180 degrees are pi radians; sec, csc, cot are the reciprocals of cos, sin, tan.", "quantifier": "all reals", "why_tests_cant": "All values.", "anchors": ["include/xme/math/scalars/trigonometry.hpp: radians, degrees, sec, csc, cot"]}
{"id": "C77", "title": "Mathematical constants", "statement": "Each constant literal agrees with the real number it names within a relative error of 2^-64, the unit roundoff of the 80-bit long double.", "quantifier": "every constant whose real value Lean can bound", "why_tests_cant": "Comparison with the true irrational number, not with another rounded literal.", "anchors": ["include/xme/math/constants.hpp"]}
{"id": "C78", "title": "SharedLibrary closes each library exactly once", "statement": "Over any history of open, close, move, swap and destruction, every library handle obtained is closed exactly once, and is_open() reports whether a library is open.", "quantifier": "every history over any number of objects", "why_tests_cant": "All histories.", "anchors": ["include/xme/hal/shared_library.hpp: SharedLibrary"]}
{"id": "C79", "title": "Environment variables", "statement": "set_environment_variable(n,v) followed by get_environment_variable(n) gives v, leaves other variables alone, and setting an empty value removes the variable, whatever buffers the string views point into.", "quantifier": "every environment, name, value and enclosing buffer", "why_tests_cant": "Depends on the memory behind the views.", "anchors": ["include/xme/hal/linux/platform.hpp: get_environment_variable, set_environment_variable"]}
{"id": "C80", "title": "SIMD configuration is downward closed", "statement": "Whatever set of XME_SIMD_ENABLE_* macros is defined, enabling an instruction set enables all its predecessors, and the flag set reports exactly the enabled ones.", "quantifier": "all combinations of configuration macros", "why_tests_cant": "2^11 configurations.", "anchors": ["include/xme/hal/simd_detection.hpp"]}
{"id": "C81", "title": "rotate accepts an axis of any arithmetic type", "statement": "rotate(m, angle, axis) with an axis vector of integers gives the same matrix as with the equal floating-point axis.", "quantifier": "every matrix, angle and integer axis", "why_tests_cant": "Wrong only where 1 - cos(angle) is not an integer; a test with multiples of 90 degrees passes.", "anchors": ["include/xme/math/matrices/transformation.hpp: rotate", "include/xme/math/vectors/vector3.hpp: operator*"]}
{"id": "C82", "title": "Array pointer and iterator validity", "statement": "Pointers, references and iterators into an Array of trivially copyable elements stay valid across clear, pop_back, erase, assignment to elements, and across reserve, resize, push_back and insert that the capacity suffices for: position i then designates the i-th element of the new contents and nothing is allocated. A call that needs other storage makes every old pointer dangling. Calls on other arrays never matter; moves and swap hand pointers over to the destination. After reserve(n), appending up to n elements never moves the array.", "quantifier": "every reachable state, every array, every call, every offset", "why_tests_cant": "Whether a kept pointer dangles is invisible to a test that happens to read memory not reused yet; it must hold after every history.", "anchors": ["include/xme/container/array.hpp: begin, reserve, resize, push_back, insert, erase, clear, swap", "include/xme/container/icontainer.hpp: data, operator[]"]}
{"id": "C83", "title": "Floating-point vector and matrix identities that hold exactly", "statement": "With float or double components, although every operation rounds: a+b==b+a, a-b==-(b-a)==a+(-b), a-b==0 only if a==b, a*1==a/1==a; dot is symmetric, dot(a,-b)==-dot(a,b), dot(a,a)>=0 and ==0 only for the zero vector; both length functions agree, length(-a)==length(a), doubling a vector doubles its length, distance is symmetric and 0 only for equal points; cross(a,a)==0 and cross(a,b)==-cross(b,a); multiplying by the identity matrix, translating by 0, scaling by 1 and rotating by angle 0 return the operand unchanged; lerp returns its end points exactly at 0 and 1; sign gives -1, 0 or 1.", "quantifier": "every rounding to nearest of IEEE 754, every dimension, all vectors and matrices of finite components, without overflow or underflow", "why_tests_cant": "Whether an identity survives rounding for all operands cannot be told from samples.", "anchors": ["include/xme/math/vector.hpp", "include/xme/math/vectors/geometry.hpp", "include/xme/math/vectors/functions.hpp", "include/xme/math/matrix.hpp", "include/xme/math/matrices/matrix4x4.hpp", "include/xme/math/matrices/transformation.hpp"]}
{"id": "C84", "title": "Floating-point error bounds", "statement": "With unit roundoff u: dot and every entry of matrix*vector and matrix*matrix with n terms are within ((1+u)^n - 1) times the sum of the magnitudes of the terms; length and distance are within factors (1+-u)*sqrt((1+-u)^n) and (1+-u)^2*sqrt((1+-u)^n) of the exact ones; normalize of a nonzero vector keeps the direction up to one rounding per component and has length 1 up to a factor of that order; cross, the 2x2 determinant and lerp are within ((1+u)^2-1), ((1+u)^2-1) and ((1+u)^3-1) of the magnitudes of their terms.", "quantifier": "every rounding to nearest of IEEE 754, every dimension, all vectors and matrices of finite components without overflow or underflow", "why_tests_cant": "Worst-case error over all operands.", "anchors": ["include/xme/math/vector.hpp", "include/xme/math/vectors/geometry.hpp", "include/xme/math/vectors/functions.hpp", "include/xme/math/matrix.hpp", "include/xme/math/matrices/functions.hpp"]}
{"id": "C85", "title": "Floating-point error of determinants, quaternion products and transformations", "statement": "With unit roundoff u: the 2x2, 3x3 and 4x4 determinants of a matrix with entries of magnitude at most B are within ((1+u)^2-1)*2B^2, ((1+u)^5-1)*6B^3 and ((1+u)^9-1)*24B^4 of the exact determinant; each coordinate of a quaternion product is within ((1+u)^4-1)|p||q| of Hamilton's product; reflect, translate, scale and rotate (unit axis, sin and cos accurate to (1+u)^k-1) are within the bounds stated for their terms, and leave the columns they do not touch exactly alone.", "quantifier": "every rounding to nearest of IEEE 754, all operands of finite components without overflow or underflow", "why_tests_cant": "Worst-case error over all operands.", "anchors": ["include/xme/math/matrices/functions.hpp: determinant", "include/xme/math/quaternion.hpp", "include/xme/math/vectors/geometry.hpp: reflect", "include/xme/math/matrices/transformation.hpp"]}
{"id": "C86", "title": "Floating-point accuracy of the constants and angle conversions", "statement": "Every constant, converted from its long double literal to the type, has relative error at most (1+u)(1+uL)(1+2^-64)-1, uL being the unit roundoff of long double; radians and degrees add two roundings to the error of pi.", "quantifier": "every rounding to nearest of IEEE 754, every angle", "why_tests_cant": "Every floating-point value of the argument.", "anchors": ["include/xme/math/constants.hpp", "include/xme/math/scalars/trigonometry.hpp: radians, degrees"]}
{"id": "C87", "title": "uninitialized_fill_n_a is all or nothing", "statement": "Called on n raw cells and a living value, uninitialized_fill_n_a either returns the end of the range with n copies of the value in it, or, if a constructor throws, lets the exception out with the memory exactly as before; nothing outside the range changes and the behaviour is never undefined.", "quantifier": "every memory, position, count, every pattern of throwing constructor calls", "why_tests_cant": "A test chooses which constructor throws; every position of the failure has to be cleaned up.", "anchors": ["include/xme/ranges/uninitialized.hpp: uninitialized_fill_n_a", "include/xme/ranges/destroy.hpp: destroy_a"]}
{"id": "C88", "title": "uninitialized_copy_a is all or nothing", "statement": "Called on a source range of objects and a raw destination, uninitialized_copy_a copies as many elements as the shorter range has, in order, and returns where it stopped in both; if a constructor throws, the copies made so far are destroyed, the exception leaves the call and the memory is exactly as before. The source is never changed.", "quantifier": "every memory, every pair of ranges, every pattern of throwing constructor calls", "why_tests_cant": "The clean-up runs only when a constructor throws in the middle; a happy-path test never sees it.", "anchors": ["include/xme/ranges/uninitialized.hpp: uninitialized_copy_a"]}
{"id": "C89", "title": "destroy_a and destroy_n_a destroy exactly the range", "statement": "Destroying a range of living objects, by iterators or by count, leaves raw storage there and everything else unchanged; a count that is zero or negative does nothing.", "quantifier": "every memory, every range, every count", "why_tests_cant": "One destructor call too many or too few goes unnoticed for trivial types.", "anchors": ["include/xme/ranges/destroy.hpp: destroy_a, destroy_n_a, destroy_at_a"]}
{"id": "C90", "title": "Integer vectors: component-wise arithmetic", "statement": "+, -, *, / and unary minus of vectors with integer components, with a vector, a scalar, in place, and of a vector with itself, act on each component as on mathematical integers: for signed types the exact result, undefined precisely when an exact result does not fit or a divisor is zero; for unsigned types the result modulo 2^bits, undefined only for a zero divisor; for types narrower than int the result is stored modulo 2^bits.", "quantifier": "every integer component type, every dimension, all components", "why_tests_cant": "Overflow happens for a tiny part of the operands, and which operations overflow depends on promotion rules.", "anchors": ["include/xme/math/vector.hpp", "include/xme/math/vectors/vector2.hpp", "include/xme/math/vectors/vector3.hpp", "include/xme/math/vectors/vector4.hpp"]}
{"id": "C91", "title": "Integer vectors: dot, cross, reflect and faceforward", "statement": "With signed integer components dot, cross, reflect and faceforward give the exact integer results whenever every intermediate result fits the type, and are undefined otherwise; with unsigned components dot is the dot product modulo 2^bits; faceforward returns the vector itself if the dot product of normal and incident vector is negative.", "quantifier": "every integer component type, every dimension, all components", "why_tests_cant": "Whether an intermediate result overflows depends on the order of accumulation.", "anchors": ["include/xme/math/vectors/geometry.hpp"]}
{"id": "C92", "title": "Integer vectors: length", "statement": "length() of a vector with integer components is the integer part of its Euclidean length, whenever that is a value of the component type.", "quantifier": "every integer component type, every dimension, all components", "why_tests_cant": "The squares overflow or wrap long before the length does; rounding of the root matters only for rare values.", "anchors": ["include/xme/math/vector.hpp: length", "include/xme/math/vectors/vector2.hpp: length", "include/xme/math/vectors/vector3.hpp: length", "include/xme/math/vectors/vector4.hpp: length"]}
{"id": "C93", "title": "Integer vectors and floating-point scalars", "statement": "Multiplying or dividing a vector with integer components by a floating-point scalar multiplies or divides each component by that number and converts the result.", "quantifier": "every integer component type, every dimension, all components, every scalar", "why_tests_cant": "A test with whole-number scalars does not show that the scalar is truncated first.", "anchors": ["include/xme/math/vector.hpp: operator*, operator/", "include/xme/math/vectors/vector2.hpp"]}
{"id": "C94", "title": "lerp with an integer percentage", "statement": "lerp(v1, v2, p) with a percentage of an integer type is v1 + p * (v2 - v1).", "quantifier": "every integer type of the percentage, all vectors, all percentages", "why_tests_cant": "1 - p is computed in the type of p, which wraps for unsigned types only from p = 2 on.", "anchors": ["include/xme/math/vectors/functions.hpp: lerp"]}
{"id": "C95", "title": "Constructors and conversions of vectors, matrices and quaternions", "statement": "A vector made of scalars and smaller vectors has their components, converted, in the order of the arguments; the general template fills the remaining components with zero; conversion and assignment from another component type and construction from columns convert every component in place; a 3x3 matrix embedded in a 4x4 matrix acts on the first three coordinates and leaves the fourth alone; indexing a quaternion gives w, x, y, z.", "quantifier": "all component types and conversions, every dimension, all values", "why_tests_cant": "Many hand-written overloads, each with its own permutation of components.", "anchors": ["include/xme/math/vectors/vector2.hpp", "include/xme/math/vectors/vector3.hpp", "include/xme/math/vectors/vector4.hpp", "include/xme/math/vector.hpp", "include/xme/math/matrix.hpp", "include/xme/math/matrices/matrix4x4.hpp", "include/xme/math/quaternion.hpp"]}
{"id": "C96", "title": "Comparisons of vectors, matrices and quaternions", "statement": "== holds if and only if all components are equal; <=> is decided by the first components that do not compare equal (matrices: column by column; quaternions: w, x, y, z), including unordered ones; for totally ordered components it is a total order consistent with ==; a vector with a NaN is not equal to itself and unordered relative to itself.", "quantifier": "all component types with any comparison, every dimension, all values", "why_tests_cant": "Order laws are statements about pairs and triples of values.", "anchors": ["include/xme/math/vector.hpp: operator==, operator<=>", "include/xme/math/matrix.hpp: operator==, operator<=>", "include/xme/math/quaternion.hpp: operator==, operator<=>"]}
{"id": "C97", "title": "ConstIterator is the underlying iterator made constant", "statement": "A ConstIterator around a random-access iterator at position i reads element i, moves, subtracts, indexes and compares like the position (also against the underlying iterator), is undefined exactly where the sequence is left, and visits every element once in order from begin to end; make_const_iterator gives an iterator through which elements cannot be modified and leaves constant iterators alone.", "quantifier": "every sequence, every position, every offset", "why_tests_cant": "Laws over all positions and offsets.", "anchors": ["include/xme/core/iterators/const_iterator.hpp", "include/xme/core/iterators/iterator_traits.hpp", "include/xme/core/concepts/constant_iterator.hpp"]}
{"id": "C98", "title": "AlignedData can hold its type", "statement": "AlignedData<T, Align> compiles exactly for powers of two; its data() is a multiple of Align, its storage has room for a T, storages of the elements of an array do not overlap; constructing the T in it is always defined, writes exactly its bytes and nothing else.", "quantifier": "all sizes and alignments of T, all Align, every address at which the object may be placed, every array index", "why_tests_cant": "Misalignment depends on the address; a test runs at the addresses it happens to get.", "anchors": ["include/xme/container/aligned_data.hpp"]}
{"id": "C99", "title": "Error bounds for real float and double arithmetic", "statement": "With float or double components of IEEE 754 - limited exponent, subnormal numbers, infinities, NaN, signed zeros - whenever no overflow, underflow, division-by-zero or invalid-operation exception occurs while the function runs, the result is finite and satisfies the error bounds: dot, matrix products, length, normalize, cross, lerp, reflect, determinants, quaternion products, translate and scale.", "quantifier": "every binary IEEE 754 format with at least 3 bits of precision (float and double among them), every dimension, all finite inputs, round to nearest even", "why_tests_cant": "Worst-case error over all pairs of 2^64 bit patterns per component.", "anchors": ["include/xme/math/vector.hpp", "include/xme/math/vectors/geometry.hpp", "include/xme/math/vectors/functions.hpp", "include/xme/math/matrix.hpp", "include/xme/math/matrices/matrix4x4.hpp", "include/xme/math/matrices/functions.hpp", "include/xme/math/matrices/transformation.hpp", "include/xme/math/quaternion.hpp"]}
{"id": "C100", "title": "length and normalize over the whole range of float and double", "statement": "For a vector of finite components with at least one other than zero, length is finite, not zero and close to the Euclidean length, and normalize returns finite components and a vector of length close to 1; dot of finite vectors is close to the exact sum of the products.", "quantifier": "every binary IEEE 754 format, every dimension, all vectors of finite components", "why_tests_cant": "Accuracy over the whole exponent range; a sample shows only the magnitudes tried.", "anchors": ["include/xme/math/vector.hpp", "include/xme/math/vectors/geometry.hpp", "include/xme/math/vectors/functions.hpp"]}
{"id": "C101", "title": "NaN, infinities and zeros in vectors", "statement": "A NaN component makes dot, length and distance NaN and every component of normalize and of matrix*vector NaN, and stays in its place in sums, scalings and lerp; a vector with an infinite component and no NaN has length +inf, and normalize makes NaN of its infinite components and zeros of the others; the zero vector has length +0 and normalize makes NaN of it; faceforward returns -v when the dot product is NaN or zero; sign is 1 above zero, -1 below, and +0 for zeros and NaN.", "quantifier": "every binary IEEE 754 format, every dimension, all values of the components", "why_tests_cant": "All combinations of special and ordinary values in all dimensions.", "anchors": ["include/xme/math/vector.hpp", "include/xme/math/vectors/geometry.hpp", "include/xme/math/vectors/functions.hpp", "include/xme/math/matrix.hpp", "include/xme/math/matrices/matrix4x4.hpp", "include/xme/math/matrices/functions.hpp", "include/xme/math/matrices/transformation.hpp", "include/xme/math/scalars/functions.hpp"]}
{"id": "C102", "title": "Laws that hold bit for bit in float and double", "statement": "For all values, NaN, infinities and signed zeros included: dot is symmetric, + and component-wise * commute, both length functions agree, length(-a)==length(a), distance is symmetric, -(-a), a*1 and a/1 are a, a*2 is a+a, a-b is a+(-b) and, up to the sign of zeros, -(b-a); a length is never negative nor -0, and NaN only if a component is NaN. For finite values: a-b is zero only where a and b are equal; the identity matrix times a vector, translating by 0 and lerp at 0 and 1 give the operand up to the sign of zeros; scaling by 1 gives it bit for bit. An infinite or NaN component under the identity matrix turns the others into NaN.", "quantifier": "every binary IEEE 754 format, every dimension, all values of the components", "why_tests_cant": "Identities over all bit patterns, with special values where naive algebra fails.", "anchors": ["include/xme/math/vector.hpp", "include/xme/math/vectors/geometry.hpp", "include/xme/math/vectors/functions.hpp", "include/xme/math/matrix.hpp", "include/xme/math/matrices/matrix4x4.hpp", "include/xme/math/matrices/functions.hpp", "include/xme/math/matrices/transformation.hpp"]}
{"id": "C103", "title": "Vectors along a coordinate axis", "statement": "A vector with a single component other than zero has a length that is exactly the absolute value of that component, and normalize gives exactly plus or minus the unit vector of the axis.", "quantifier": "every binary IEEE 754 format, every dimension, every finite component whose square neither overflows nor underflows", "why_tests_cant": "Exactness for all of 2^32 or 2^64 components; the failures are sparse.", "anchors": ["include/xme/math/vector.hpp", "include/xme/math/vectors/geometry.hpp", "include/xme/math/vectors/functions.hpp"]}
{"id": "C104", "title": "A callable stored in a Delegate is called where it was constructed", "statement": "Each callable that a Delegate invokes is, at the time of the invocation, at the address at which it was constructed, so that callables with pointers into themselves work.", "quantifier": "all histories of construction, assignment, move, swap, reset, call and destruction of any number of delegates, all sizes and alignments of callables", "why_tests_cant": "Bytewise copies go unnoticed with every callable that has no pointer into itself; with others the effect depends on what lies at the old address.", "anchors": ["include/xme/core/functional/delegate.hpp"]}
{"id": "C105", "title": "Heap is safe with any comparator", "statement": "Whatever the comparator answers - inconsistent with a strict weak order, or differently each time it is asked - push, emplace, pop of a non-empty heap and construction from a range end, access only existing elements, neither lose nor double an element, and push and pop make at most log2(n+1) and 2*log2(n-1) comparisons.", "quantifier": "all element types, all stateful comparators that do not throw, all states of the heap", "why_tests_cant": "Adversarial comparators, such as < on floats with NaN, lead std algorithms out of bounds only for particular sequences of answers.", "anchors": ["include/xme/container/heap.hpp"]}
{"id": "C106", "title": "Exceptions of user code in Heap reach the caller", "statement": "When the comparator, the swap of two elements or the insertion into the container throws, the exception reaches the caller of push, emplace, pop or the constructor, and the heap keeps its elements.", "quantifier": "all comparators, swaps and insertions that may throw at any call, all states of the heap", "why_tests_cant": "The throwing call is one of many; which ones reach the caller depends on the path.", "anchors": ["include/xme/container/heap.hpp"]}
{"id": "C107", "title": "Moving a Tuple moves what it owns and nothing else", "statement": "t = u leaves u unchanged; t = std::move(u) moves from exactly the elements that u owns and copies the objects that its reference elements refer to; apply(f, t) hands on as rvalues exactly the elements owned by an rvalue t, and as const lvalues those owned by a const t; tuple_cat of lvalues copies. Where the code compiles at all: tuple_cat of a non-empty rvalue tuple, and assignment between tuples of references of the same type, do not.", "quantifier": "every arity, every mixture of values, lvalue references and rvalue references, const and non-const lvalues and rvalues", "why_tests_cant": "All mixtures of element kinds and value categories in every arity.", "anchors": ["include/xme/container/tuple.hpp", "include/xme/container/pair.hpp", "private/container/tuple_base.hpp"]}
{"id": "C108", "title": "Exceptions in the assignment of a Tuple or Pair", "statement": "If the assignment of an element throws, the exception reaches the caller; the elements before it have been assigned, and all others are as they were.", "quantifier": "every arity, every position of the element that throws, every value category of the source", "why_tests_cant": "Needs an exception at each position of each arity; the declared noexcept depends on an unrelated trait.", "anchors": ["include/xme/container/tuple.hpp", "include/xme/container/pair.hpp"]}
{"id": "C109", "title": "Operators between vectors of different component types", "statement": "v op w and v op= w, with v a vector of integers and w a vector of another component type, give in each component the exact x op y (division towards zero) whenever it is a value of v's component type; converting w to v's type keeps every component that is a value of it.", "quantifier": "every integer component type, every size, every right operand of an integer or floating-point component type, + - * / and their assigning forms", "why_tests_cant": "All pairs of component types and all component values.", "anchors": ["include/xme/math/vector.hpp", "include/xme/math/vectors/vector2.hpp", "include/xme/math/vectors/vector3.hpp", "include/xme/math/vectors/vector4.hpp"]}
{"id": "C110", "title": "Exceptions of callables stored in a Delegate", "statement": "If a callable throws while a delegate stores it (Delegate d(fn), d = fn) or calls it, the exception reaches the caller and every delegate holds what it held before; after any history of such exceptions every stored callable is destroyed exactly once.", "quantifier": "every history of operations on any number of delegates, any of which may meet an exception", "why_tests_cant": "Every point of every history at which user code may throw, including the failing allocation.", "anchors": ["include/xme/core/functional/delegate.hpp"]}
{"id": "C111", "title": "Exceptions while arguments are bound", "statement": "If copying or moving the callable or an argument throws in bind_front, bind_back, or in a copy or move of what they return, the exception reaches the caller and the parts copied so far are destroyed, each once.", "quantifier": "any callable, any number of arguments, any value category and constness of each, any of them throwing", "why_tests_cant": "All combinations of categories, exception specifications and throwing parts.", "anchors": ["include/xme/core/functional/bind.hpp"]}
{"id": "C112", "title": "Exceptions of comparisons and swaps in find and reverse", "statement": "An exception thrown by a comparison in find or by a swap in reverse reaches the caller; comparisons are made in order until the first that gives true.", "quantifier": "every range handled element by element, every behaviour of the comparison and of swap, different at each call", "why_tests_cant": "All ranges and all positions at which the user's operation may throw.", "anchors": ["include/xme/core/algorithm/find.hpp", "include/xme/core/algorithm/reverse.hpp"]}
{"id": "C113", "title": "Array iterators and accessors", "statement": "For every array, begin() and end() delimit its elements: dereferencing begin() + i gives element i; sums, differences, comparisons, increments and decrements of iterators are those of positions; size(), empty(), a[i], front(), back() and data() agree with them; a loop from begin() to end() visits every element once in order, one backwards in reverse order.", "quantifier": "every array in every state reachable by the operations of the class, all positions, all offsets that stay inside", "why_tests_cant": "All histories, all pairs of positions and all offsets, negative ones included.", "anchors": ["include/xme/container/array.hpp", "include/xme/container/icontainer.hpp"]}
{"id": "C114", "title": "LinkedList iterators are forward iterators", "statement": "begin() designates the first element (or is end()), ++before_begin() is begin(), ++ gives the iterator of the next element (end() after the last), it++ returns the old iterator; iterators of a list are equal exactly if they designate the same position; a loop visits every element once in order and changes nothing.", "quantifier": "every list in every state reachable by the operations of the class, all positions, pairs of positions, and pairs of lists", "why_tests_cant": "All histories of operations and all positions; an iterator that stops early or skips shows only in some shapes.", "anchors": ["include/xme/container/linked_list.hpp", "private/container/linked_list_base.hpp"]}
{"id": "C115", "title": "ArrayView constructors", "statement": "A view made from an iterator and a length, a pair of iterators, a range, a C array or a std::array designates exactly the elements of its source, in every build; a view of fixed size cannot be made from a source of another size.", "quantifier": "every source range inside every array, every element size, every size of view, checked and release builds", "why_tests_cant": "All lengths, element sizes and class relations; release builds drop the checks a test relies on.", "anchors": ["include/xme/container/array_view.hpp"]}
{"id": "C116", "title": "ArrayView iteration and accessors", "statement": "A loop from begin() to end() of a view visits its elements in order, each once; empty(), front(), back() and v[i] agree with them.", "quantifier": "every view inside every array, every element size", "why_tests_cant": "All views and all positions.", "anchors": ["include/xme/container/array_view.hpp", "include/xme/container/icontainer.hpp"]}
{"id": "C117", "title": "Subscripts of vectors", "statement": "v[i] is component i for every i less than the number of components: it can be read and assigned, also in constant expressions; another i fails the assertion in checked builds.", "quantifier": "vectors of every size and component type, every index", "why_tests_cant": "A test sees what one compiler makes of the code; whether the access is defined cannot be seen.", "anchors": ["include/xme/math/vector.hpp", "include/xme/math/vectors/vector2.hpp", "include/xme/math/vectors/vector3.hpp", "include/xme/math/vectors/vector4.hpp"]}
{"id": "C118", "title": "Subscripts and rows of matrices", "statement": "m[c][r] is the entry in column c and row r, and m.row(r) the vector of the entries in row r, also in constant expressions, for all indices inside; others fail an assertion in checked builds.", "quantifier": "matrices of every size and component type, all indices", "why_tests_cant": "A test sees what one compiler makes of the code; all sizes and indices.", "anchors": ["include/xme/math/matrix.hpp", "include/xme/math/matrices/matrix4x4.hpp"]}
{"id": "C119", "title": "SharedLibrary::proc_address finds the symbol", "statement": "proc_address(f) gives the address of the symbol f in the library the object holds, through all openings, moves and swaps, and a null pointer if there is none or no library is open; is_open() says whether one is.", "quantifier": "every history of any number of objects, every set of libraries and symbols, every name", "why_tests_cant": "All histories and all contents of memory behind the names.", "anchors": ["include/xme/hal/shared_library.hpp"]}
{"id": "C120", "title": "Slots of a queue of fixed capacity", "statement": "The slots in which a queue with a capacity known at compile time keeps its elements lie inside the queue, are aligned for the element type and do not overlap; the queue can be made for every element type.", "quantifier": "every element type (size and alignment), every capacity, every address of the queue", "why_tests_cant": "All sizes and alignments; a test sees what one compiler makes of the pointer arithmetic, not whether it is defined.", "anchors": ["private/container/spsc_queue_base.hpp", "include/xme/container/aligned_data.hpp", "include/xme/container/spsc_queue.hpp"]}
{"id": "C121", "title": "Construction and copies of AlignedData", "statement": "Constructing an AlignedData from arguments constructs a T from them in its storage and changes nothing else; an exception reaches the caller; a copy of an AlignedData, from whatever kind of expression, holds a copy of its T.", "quantifier": "every element type, all arguments, all contents of memory, every kind of source expression", "why_tests_cant": "All element types and all kinds of source; which constructor is chosen depends on both.", "anchors": ["include/xme/container/aligned_data.hpp"]}
{"id": "C122", "title": "Heap on its storage", "statement": "Through every history of construction, push and pop a heap keeps its elements in storage it owns: indices computed in machine integers address the right elements, no other memory is read or written, an exception of the allocator leaves the elements as they were, construction from a range that fails leaves no storage behind, and the destructor releases exactly the storage of the heap. Pushing an element of the heap itself pushes its value.", "quantifier": "all strict weak orders, all histories, all arguments including elements of the heap, every point at which an exception may be thrown, all contents of memory", "why_tests_cant": "All histories and all places of an exception; an overflow of an index needs more elements than a test can store.", "anchors": ["include/xme/container/heap.hpp", "include/xme/container/array.hpp"]}
{"id": "C123", "title": "Ranges that can be read once", "statement": "push_back(first, last) and insert(pos, first, last) of an array, and construction of a heap from iterators, take the elements that the iterators yield, also when the iterators are input iterators that yield each element only once.", "quantifier": "all arrays, positions and ranges; forward iterators and the two usual kinds of single-pass iterators (those that hold the current element and those that read on dereference)", "why_tests_cant": "Tests use pointers and list iterators, which can be read twice.", "anchors": ["include/xme/container/array.hpp", "include/xme/container/heap.hpp"]}
{"id": "C124", "title": "Sizes computed by Array", "statement": "The sizes and capacities that push_back, emplace_back and insert compute do not overflow, so that the storage is large enough for the elements that are then written to it.", "quantifier": "all arrays and all ranges, lengths without bound", "why_tests_cant": "A test cannot store enough elements to come near an overflow.", "anchors": ["include/xme/container/array.hpp"]}
{"id": "C125", "title": "Allocators with state", "statement": "When allocators compare unequal, a container returns every block to an allocator equal to the one it came from, through any sequence of constructions, copies, moves, swaps, assignments, insertions and destructions; when the containers are gone no block is left.", "quantifier": "all programs over any number of arrays or lists, all allocators, both settings of the traits that the code reads", "why_tests_cant": "The usual test allocator has no state; a block given to the wrong arena seldom shows in a test.", "anchors": ["include/xme/container/array.hpp", "include/xme/container/linked_list.hpp"]}
{"id": "C126", "title": "Headers in any order", "statement": "The public headers can be included in any order and any of them can be included first.", "quantifier": "all sequences of includes of any length", "why_tests_cant": "A test file fixes one order; there is no test for each of the unboundedly many orders, and the tests that are built include one header first.", "anchors": ["include/xme/container/container.hpp", "include/xme/container/array_view.hpp", "include/xme/container/linked_list.hpp", "include/xme/container/array.hpp", "include/xme/container/spsc_queue.hpp", "include/xme/ranges/destroy.hpp"]}
{"id": "C127", "title": "Tuples made of values and of references", "statement": "make_tuple, make_pair and the deduced constructors store copies of lvalues, move rvalues and keep references to what is passed in a std::reference_wrapper; tie(x...) = make_tuple(y...) assigns all variables at once, whatever the order; forward_as_tuple passes arguments on as they were given; tuples of references compare and assign like tuples of values.", "quantifier": "all numbers of elements, all memory contents, all mixtures of lvalues, rvalues and reference wrappers", "why_tests_cant": "Tests use a few fixed tuples; the claim is about every number and mixture of arguments, every overlap between variables and arguments, and about programs that do not compile.", "anchors": ["include/xme/container/tuple.hpp", "include/xme/container/pair.hpp", "private/container/tuple_base.hpp"]}
{"id": "C128", "title": "Exceptions of comparisons of tuples and pairs", "statement": "Elements are compared in order up to the first that decides and no further; if its comparison throws, the exception reaches the caller of == or <=>.", "quantifier": "all tuples of any size, all pairs, all comparisons of elements", "why_tests_cant": "An exception thrown by the comparison of one element must be injected at each position of tuples of each size.", "anchors": ["include/xme/container/tuple.hpp", "include/xme/container/pair.hpp", "private/container/tuple_base.hpp"]}
{"id": "C129", "title": "A part of an array inserted into or appended to the array itself", "statement": "a.insert(pos, a.begin() + i, a.begin() + j) inserts the elements i, ..., j - 1 as they were before the call, and a.push_back(a.begin() + i, a.begin() + j) appends them, for every part, position and capacity; in particular a.push_back(a) doubles the array.", "quantifier": "every array of trivially copyable elements, every part of it, every position and capacity", "why_tests_cant": "Whether the call works depends on how position, part, size and capacity lie to each other; tests try a few such cases, and most of them work by luck.", "anchors": ["include/xme/container/array.hpp"]}
{"id": "C130", "title": "Inverse trigonometric functions", "statement": "math::arcsin(s) is the angle in [-pi/2, pi/2] whose sine is s, math::arccos(s) the angle in [0, pi] whose cosine is s, math::arctan(s) the angle in (-pi/2, pi/2) whose tangent is s. The first two have a result exactly for s in [-1, 1]. arcsin and arctan are increasing and odd, arccos is decreasing, and arcsin(s) + arccos(s) is a right angle.", "quantifier": "every real number s and every angle", "why_tests_cant": "The branch of the inverse matters for every argument and mixing up two functions agrees with the right one at isolated points only.", "anchors": ["include/xme/math/scalars/trigonometry.hpp"]}
{"id": "C131", "title": "Vectors of bool", "statement": "For vectors of bool of every size, v + w is true where either is, v * w where both are, v - w where they differ; -v is v; v / w is v if every component of w is true and undefined otherwise. In-place forms (also with the vector itself) do the same and a scalar counts as true unless it is zero, so v * 0.5 is v. dot says whether some component is true in both, cross and reflect are always defined, faceforward returns its first argument. length() says whether some component is true; for four components it is the square root of the number of true components instead.", "quantifier": "every size, all vectors, every real scalar", "why_tests_cant": "The rules come from promotion to int and conversion back, which differ per operator and per size specialisation; tests of bool vectors cover a few patterns of one size.", "anchors": ["include/xme/math/vector.hpp", "include/xme/math/vectors/vector2.hpp", "include/xme/math/vectors/vector3.hpp", "include/xme/math/vectors/vector4.hpp", "include/xme/math/vectors/geometry.hpp", "include/xme/math/glsl_mapping.hpp"]}
{"id": "C132", "title": "Projection matrices in floating point", "statement": "Every entry of the matrices perspective_rh, perspective_lh, perspective, ortho_rh, ortho_lh and ortho return for finite float or double parameters is the entry the formula gives in exact arithmetic with a relative error of at most (1+u)^2/(1-u) - 1, u the unit roundoff, unless an operation overflows, underflows or divides by zero; entries that are 0, 1 or -1 are so exactly. With the right edge of a frustum at the near distance no point has a finite horizontal coordinate.", "quantifier": "all finite parameters of every IEEE 754 type, all values std::tan may return, all points", "why_tests_cant": "The relative error holds for all parameters, however close near and far are; tests check a tolerance on a few matrices. The frustum with right = near is a single value of a continuous range.", "anchors": ["include/xme/math/matrices/perspective.hpp:11-130"]}
{"id": "C133", "title": "Lengths and unit vectors in floating point", "statement": "For float and double components, a vector none of whose components is larger in magnitude than the corresponding one of another vector never has a larger length. No component of a vector is larger in magnitude than length() returns, no component of b - a larger than distance(a, b), and every component of normalize(v) of a finite vector that is not zero is in [-1, 1], so that arccos and arcsin of it are defined.", "quantifier": "all vectors of every dimension over every IEEE 754 type, with infinities where the statement makes sense", "why_tests_cant": "Rounding could break an inequality by one unit in the last place for a handful among 2^96 vectors; tests compare with a tolerance and cannot see it. Where it does break, among vectors whose squares underflow, is a corner tests do not visit.", "anchors": ["include/xme/math/vectors/vector.hpp:100-118", "include/xme/math/vectors/geometry.hpp:30-56"]}
{"id": "C134", "title": "Which types the type predicates accept", "statement": "CIntegral accepts exactly the integer types (bool and the character types included), CFloatingPoint exactly float, double and long double, CArithmetic both; each with any const and volatile, and never a reference, enumeration, pointer or class. An integer type is CSignedIntegral exactly if it can hold -1 and CUnsignedIntegral exactly if it cannot. is_scoped_enum accepts exactly the scoped enumerations, whatever their underlying type and qualifiers. is_initializer_list accepts exactly the unqualified std::initializer_list types. CDifferentFromSelf<T, Self> rejects exactly Self with any qualifiers and references to that.", "quantifier": "all types: fundamental, enumerations, classes, pointers, arrays, functions and references, nested to any depth, with any qualifiers, on every platform", "why_tests_cant": "There are infinitely many types and the predicates decide at compile time which overload the rest of the library uses; a static_assert settles one type on one platform.", "anchors": ["include/xme/core/concepts/arithmetic.hpp:5-18", "include/xme/core/concepts/different_from.hpp:5-9", "include/xme/core/type_traits/is_scoped_enum.hpp:5-9", "include/xme/core/type_traits/is_initializer_list.hpp:5-9"]}
{"id": "C135", "title": "What a delegate or a binder can be made from", "statement": "A Delegate can be constructed from, and assigned, every callable expression with the right signature, named or temporary, and stores it; from an expression of its own type it is copied or moved and never stores that as a callable; assigning nullptr empties it; left out, the signature is that of the callable. A binder made from a binder of its own type is a copy or is moved from, and otherwise stores a callable made from its first argument.", "quantifier": "all expressions of all types and value categories, in all programs, with any classes derived from Delegate and any conversions", "why_tests_cant": "Which overload a call selects depends on the type and value category of the argument, of which there are infinitely many; a test that does not compile is not run at all.", "anchors": ["include/xme/core/functional/delegate.hpp:54-100", "include/xme/core/functional/delegate.hpp:119-143", "include/xme/core/functional/delegate.hpp:152-175", "include/xme/core/functional/delegate.hpp:205-234", "include/xme/core/functional/bind.hpp:15-23", "include/xme/core/functional/bind.hpp:77-85"]}
{"id": "C136", "title": "The element types of tuples and pairs", "statement": "std::tuple_element_t<I, Tuple<T...>> is the I-th of the types given, and likewise for Pair; std::tuple_size is their number; get<I> returns a reference to that type of the kind of its argument; structured bindings can name every element; every Tuple and Pair is CTupleLike, those of two elements CPairLike; and the element types of tuple_cat are those of its arguments in order.", "quantifier": "all tuples and pairs of any number of elements of any types, qualified and references included, every index and every value category", "why_tests_cant": "Element types are arbitrary; the qualifiers at fault are not those tests use, and where they matter the program does not compile.", "anchors": ["include/xme/container/tuple.hpp:57-70", "include/xme/container/tuple.hpp:113-161", "include/xme/container/pair.hpp:34-62", "include/xme/container/pair.hpp:86-131", "include/xme/container/concepts.hpp:17-40", "private/container/tuple_base.hpp:17-72"]}
{"id": "C137", "title": "Copies, moves and ranges select the right constructor", "statement": "Array, LinkedList and Heap initialised from an object of their own type are copies of it, or are moved from it if it is an rvalue, whether written C b(e) or C b = e, also when passed and returned by value; from an object of a derived class the same; from a range of another type they get its elements; push_back, insert and insert_after take an element as an element and a range by its elements.", "quantifier": "all expressions of all types and value categories, element types that can be copied or not, in all programs with any derived classes and conversions", "why_tests_cant": "Which constructor is selected depends on type, qualifiers and category of the argument, of which there are infinitely many; where none is, the test does not compile and is not written.", "anchors": ["include/xme/container/array.hpp:41-77", "include/xme/container/array.hpp:159-162", "include/xme/container/array.hpp:213-245", "include/xme/container/linked_list.hpp:41-85", "include/xme/container/linked_list.hpp:176-196", "include/xme/container/heap.hpp:38-49"]}
{"id": "C138", "title": "What the containers ask of elements and iterators", "statement": "Every operation of Array, LinkedList, Heap and SPSCQueue compiles for every element type that offers what the operation has to do with elements, as for the containers of the standard library (elements added must be constructible from what is given, elements of a growing array movable, elements erased from the middle move assignable, and only operations that copy need copies), and for every kind of iterator and range over such elements.", "quantifier": "all element types, whatever constructors, assignments, conversions, comparison and swap they have; all argument lists and all iterator types", "why_tests_cant": "Each combination of operation, element type and iterator is a separate instantiation; a combination that does not compile cannot be put into a test.", "anchors": ["include/xme/container/array.hpp:39-331", "include/xme/ranges/uninitialized.hpp:8-49", "include/xme/ranges/destroy.hpp:8-37", "include/xme/container/linked_list.hpp:38-266", "include/xme/container/aligned_data.hpp:25-32", "include/xme/container/heap.hpp:25-127", "private/container/spsc_queue_base.hpp:56-200"]}
{"id": "C139", "title": "Array calls cost exactly what they must", "statement": "A call on an Array that returns asks the allocator at most once, and does so only if the capacity is exceeded (or resize asks for another capacity, or a constructor or assignment builds new storage). Moving, swapping, clear, pop_back and element access neither allocate nor move an element. A call that reallocates assigns each element it keeps to the new storage once; insert, erase and their range versions that stay in the storage assign exactly the elements behind the position that have to be shifted, each once.", "quantifier": "all element types, arrays, positions, arguments and capacities; every call that returns", "why_tests_cant": "A test observes counts for the sizes it tries; that no call does hidden work must hold for every size, capacity and position.", "anchors": ["include/xme/container/array.hpp:39-331"]}
{"id": "C140", "title": "Singular matrices of floats have determinant exactly zero", "statement": "With float or double entries whose products do not overflow, determinant() of a matrix with two equal columns, or with a column or a row of zeros, is a zero: every rounding error cancels exactly, no tolerance is needed to detect such a matrix.", "quantifier": "all formats with at least 3 digits, all IEEE 754 entries of 2x2, 3x3 and 4x4 matrices, all pairs of columns and rows", "why_tests_cant": "Which roundings cancel depends on the order of the operations and on every one of the entries; samples with short decimals never round at all.", "anchors": ["include/xme/math/matrices/functions.hpp:8-38"]}
{"id": "C141", "title": "NaN and infinities in matrices and quaternions stay where arithmetic puts them", "statement": "A NaN of the left factor of a matrix product ruins its row of the product, one of the right factor its column, and no other entry changes because of it; a NaN entry makes every determinant NaN and a NaN component every component of a quaternion product; in entry-by-entry operations it stays in its place. Multiplying by the identity, scaling by 1 and translating by 0 return the matrix they were given.", "quantifier": "all formats, all shapes and all IEEE 754 entries, including infinities, NaN and both zeros", "why_tests_cant": "The special values can sit in any combination of entries, and each pair of neighbours interacts differently.", "anchors": ["include/xme/math/matrix.hpp:54-107", "include/xme/math/matrices/matrix4x4.hpp:52-110", "include/xme/math/matrices/functions.hpp:8-77", "include/xme/math/matrices/transformation.hpp:8-31", "include/xme/math/quaternion.hpp:20-36"]}
{"id": "C142", "title": "LinkedList calls allocate, free, construct, destroy and assign exactly what they must", "statement": "A call on a LinkedList that returns asks the allocator for one node per element it adds and for nothing else, and frees one node per element it removes. Assigning k elements to a list of n assigns to the first min(n, k) elements in place, and makes or frees only the difference; moving and reversing touch neither the allocator nor any element, except that move assignment frees the elements of its target.", "quantifier": "all histories of calls on any number of lists, including calls that threw before, all positions and ranges (also ranges of the list itself), all allocators and element values", "why_tests_cant": "The counts depend on both lengths and on aliasing; a test sees one pair of lengths, and an extra temporary node does not change what it reads back.", "anchors": ["include/xme/container/linked_list.hpp:38-100", "include/xme/container/linked_list.hpp:127-269"]}
{"id": "C143", "title": "Matrices, quaternions and axes of different floating-point types combine with the accuracy of the left type", "statement": "Operations whose operands have different floating-point types (a double matrix plus a float matrix, a float quaternion times a double quaternion, rotating a double matrix about a float axis) give the exact result up to roundings of the left operand's type: the right operand is not rounded before the operation, and computing with an axis of a narrower type, whose coordinates are exact, loses no more than computing with the same axis in the matrix' type.", "quantifier": "all formats, all operands, all angles and all math libraries with a stated accuracy", "why_tests_cant": "Tests use one component type everywhere, or small integers that every type holds exactly; the intermediate type of an expression is invisible in the result of a sample.", "anchors": ["include/xme/math/quaternion.hpp:14-35", "include/xme/math/matrix.hpp:8-42", "include/xme/math/matrices/matrix4x4.hpp:6-37", "include/xme/math/matrices/transformation.hpp:9-65"]}
{"id": "C144", "title": "Rotating a matrix again and again keeps lengths and angles up to a bound that grows with the number of rotations", "statement": "A program that applies rotate to a matrix any number of times, each time with any angle and an axis of length nearly 1, computing in floating point: the inner products of the rows of the matrix (their lengths and the angles between them) change by at most the stated relative amount per rotation, compounded; the last column never changes. Starting from the identity the resulting matrix neither stretches nor shrinks any vector by more than that bound, and its last row and column are exactly those of the identity.", "quantifier": "all floating-point formats, all matrices, all sequences of rotations of any length, all angles, all axes of length nearly 1 and all math libraries with a stated accuracy", "why_tests_cant": "A test rotates a few times by round angles and compares with a tolerance; it says nothing about ten thousand frames, other axes, or how the error grows.", "anchors": ["include/xme/math/matrices/transformation.hpp:36-65"]}
{"id": "C145", "title": "find and reverse form only pointers into the array and work in constant expressions", "statement": "xme::find and xme::reverse on a part of an array evaluate only pointer arithmetic that stays inside the array (its end included), so the call is defined; and, as both are declared constexpr, a call in a constant expression gives the same result as at run time: find the first match or the end, reverse the reversed range.", "quantifier": "all arrays, all parts of an array, all values, all vector widths, at run time and in constant expressions", "why_tests_cant": "Tests run on real machines, where a pointer past the end is just a number, and only at run time; a compile-time call that does not compile cannot be in a test suite that compiles.", "anchors": ["include/xme/core/algorithm/find.hpp:71-103", "include/xme/core/algorithm/reverse.hpp:47-75"]}
{"id": "C146", "title": "Enabling instruction sets changes neither which calls of find and reverse compile nor goes beyond the sets enabled", "statement": "Whatever combination of XME_SIMD_ENABLE_* macros is defined, the same calls of xme::find and xme::reverse compile as with none of them, and the instructions they use belong to instruction sets that the macros enable.", "quantifier": "all combinations of configuration macros, all iterator categories, sentinels, policies and element sizes", "why_tests_cant": "The tests are compiled in one configuration (AVX2), for a few element types.", "anchors": ["include/xme/core/algorithm/find.hpp:10-103", "include/xme/core/algorithm/reverse.hpp:10-75", "include/xme/hal/simd_detection.hpp:74-141"]}
{"id": "C147", "title": "Laws of matrices, vectors and quaternions in floating point: exact, or how far the two sides differ", "statement": "With float or double components: transpose(A*B) is bit for bit transpose(B)*transpose(A), also with NaN, infinities and signed zeros, and every column of A*B is A times that column of B; without overflow and underflow signs and factors of two pass through matrix products exactly, and exchanging the columns of a 2x2 matrix changes the sign of the determinant exactly. With unit roundoff u, (A*B)*v and A*(B*v), and (A*B)*C and A*(B*C), with c and k inner terms differ in each entry by at most 2((1+u)^(c+k)-1) times the sum of the magnitudes of the terms (also in real IEEE arithmetic when neither side raises an exception); A*(v+w) and A*v+A*w, (A+B)*v and A*v+B*v, A*(v*s) and (A*v)*s by at most 2((1+u)^(c+1)-1); dot(cross(a,b),a) is at most ((1+u)^5-1) times the magnitudes of its terms; reflecting twice at n gives the vector back up to ((1+u)^(2n+4)-1) times the terms plus four times the amount by which n is not a unit vector; (p*q)*s and p*(q*s) differ in each coordinate by at most 4((1+u)^8-1)|p||q||s|.", "quantifier": "all matrices of all shapes, all vectors and quaternions with float, double or any other IEEE format, every rounding to nearest", "why_tests_cant": "Tests compare with exact integers or a tolerance for a few literals; the laws quantify over all values, and which of them hold bit for bit depends on the order in which the code adds.", "anchors": ["include/xme/math/matrix.hpp:88-107", "include/xme/math/matrices/matrix4x4.hpp:89-110", "include/xme/math/matrices/functions.hpp:8-55", "include/xme/math/vectors/geometry.hpp:10-75", "include/xme/math/quaternion.hpp:26-35"]}
{"id": "C148", "title": "SPSCQueue combined with other synchronisation: a signal makes earlier pushes and removals visible and suffices to consume", "statement": "When the producer and the consumer also synchronise by other means (mutexes, semaphores, joins, other atomics, between calls or inside the element's constructor and the callback), everything that holds for the queue alone still holds: first in first out, no data race, never more than N-1 elements. In addition: if the consumer waits for a signal the producer gave between two calls, every later read_available() of the consumer counts all elements pushed before the signal and not yet removed, and it may remove that many without asking the queue; if the producer waits for a signal the consumer gave between two calls, a later push fails, and write_available() is small, only because of elements pushed beyond those removed before the signal.", "quantifier": "all interleavings, all stale-but-coherent loads, all patterns of signals and waits between the two threads, all capacities 2^k, builds with and without assertions", "why_tests_cant": "A stale read of an index after a semaphore needs a weakly ordered machine and the right timing; a test on x86 never sees it.", "anchors": ["private/container/spsc_queue_base.hpp:31-83"]}
{"id": "C149", "title": "Destroying an SPSCQueue after its threads are done destroys exactly the elements left", "statement": "If both threads have finished their calls and the destroying thread is ordered after both (it joined them), the destructor of the queue has no data race, destroys exactly the elements pushed and not removed, oldest first, each once, stops after a number of steps proportional to their number, and leaves no element behind. Being ordered after the consumer only is not enough: the destructor may then see an old write index and lose elements.", "quantifier": "all histories of pushes and removals under all interleavings and visibility orders, all capacities 2^k, all numbers of elements left", "why_tests_cant": "A test destroys the queue on the thread that used it; what a third thread sees depends on the memory model.", "anchors": ["private/container/spsc_queue_base.hpp:102-111", "private/container/spsc_queue_base.hpp:161-167"]}
{"id": "C150", "title": "Using an SPSCQueue from within a call of it: the function passed to consume, the constructor of an element", "statement": "User code that the queue runs in the middle of a call may itself use the queue: the function passed to consume may take further elements, push follow-ups and ask read_available()/write_available(), and the constructor of an element being pushed may do the same. Each element is then handed out and destroyed exactly once, and elements come out in the order they were stored.", "quantifier": "all clients (trees of calls that may depend on all earlier results), all functions and constructors, returning or throwing, all capacities 2^k, all contents of the queue, builds with and without assertions", "why_tests_cant": "A unit test passes functions that only record their argument; what happens when the index is stored after the user code has run depends on what that code does.", "anchors": ["private/container/spsc_queue_base.hpp:56-65", "private/container/spsc_queue_base.hpp:67-73", "private/container/spsc_queue_base.hpp:75-83"]}
{"id": "C151", "title": "A callable may use the delegate it runs through", "statement": "A callable called through a Delegate may itself use any delegate, also the one it is running through: call it again, replace, empty, move or swap it. The callable stays alive and can read its captured values until it returns.", "quantifier": "all states reachable by any sequence of operations on any number of delegates and callables of any size and alignment, all nestings of calls, all operations performed by the callables", "why_tests_cant": "Reading a captured value of a destroyed callable usually still yields the old bytes, so a test passes; whether the object is still there depends on its size and on what happens during the call.", "anchors": ["include/xme/core/functional/delegate.hpp:61-71", "include/xme/core/functional/delegate.hpp:152-188"]}
{"id": "C152", "title": "lerp stays between its ends and does not run backwards", "statement": "For percentages in [0, 1], each component of lerp(v1, v2, percent) (also mix, with one percentage or one per component) is finite and lies between the components of v1 and v2, does not move back towards v1 when the percentage grows, and is exactly v1's component when both are equal.", "quantifier": "all IEEE formats (float, double), all finite components, all percentages in [0, 1]", "why_tests_cant": "Whether the rounding errors of the two products add up depends on the last bits of all three operands; a test with a few round percentages sees nothing.", "anchors": ["include/xme/math/vectors/functions.hpp:12-39"]}
{"id": "C153", "title": "find over elements with an == of their own", "statement": "For an element type that is a class with its own ==, or has padding, find returns the first element x of the range with x == value, or the end, whatever the length of the range and the position of the element.", "quantifier": "every element type of 1, 2, 4 or 8 bytes, every == of its own, all ranges at aligned addresses, all values, builds with AVX2, SSE2 and without SIMD", "why_tests_cant": "The same elements are found or not depending on whether they lie in a whole vector or behind the last one; short test ranges never reach the vector code.", "anchors": ["include/xme/core/algorithm/find.hpp: find_simd", "include/xme/core/algorithm/find.hpp: find"]}
{"id": "C154", "title": "ConstIterator and ReverseIterator over any iterator and over each other", "statement": "For any bidirectional or random-access iterator over a sequence, any stack of ConstIterator and ReverseIterator adaptors on it is an iterator over the same sequence, reversed if the number of ReverseIterators is odd: dereferencing, ++ and -- (both forms), ==, and for random access +, -, +=, -=, [] and differences agree with positions in that sequence, the order operators are those of the positions, and exceptions thrown by the underlying iterator reach the caller.", "quantifier": "every underlying iterator type (any state, operations that may throw), every sequence, every stack of adaptors of any height", "why_tests_cant": "Tests wrap a pointer or an Array iterator once; stacks and iterators of users cannot be enumerated.", "anchors": ["include/xme/core/iterators/const_iterator.hpp: ConstIterator", "include/xme/core/iterators/reverse_iterator.hpp: ReverseIterator"]}
{"id": "C155", "title": "Nothing can be modified through a constant object", "statement": "Starting from a constant Array, LinkedList, Heap, ArrayView, Vector, Matrix, Quaternion, Tuple, Pair or AlignedData, from an iterator to constant elements, a ConstIterator or a ReverseIterator over one of these, or from any Heap, no sequence of calls of public members, conversions and adaptors, without casts, gives an lvalue through which an element can be modified, nor a reference to the object that is not constant.", "quantifier": "every object and iterator type of the library, every stack of iterator adaptors, every sequence of calls", "why_tests_cant": "Tests try single accessors; a path through several conversions and adaptors cannot be excluded by trying, and what must not compile is hardly ever tested.", "anchors": ["include/xme/container/array.hpp: begin, end, Iterator", "include/xme/container/linked_list.hpp: begin, cbefore_begin", "private/container/linked_list_base.hpp: LinkedListConstIterator, LinkedListNodeBase", "include/xme/container/array_view.hpp: begin, subview, first, last", "include/xme/container/icontainer.hpp: operator[], data, front, back", "include/xme/core/iterators/const_iterator.hpp: ConstIterator"]}
{"id": "C156", "title": "Assignment operators whose operand is the object itself or a part of it", "statement": "v += w, v -= w, v *= w, v /= w on vectors and the corresponding operators on matrices give every component the value of the operation on the old components and change nothing else, also if w is v itself or another column of the same matrix; with a number on the right hand side, also if the number is one of the components being changed (v /= v[0]).", "quantifier": "every size, every component type and operation, every memory contents, every position of the operand: the same object, another one, a component of the object", "why_tests_cant": "Tests use separate operands; an operand read after it was overwritten only shows for operands inside the object, in components after the overwritten one.", "anchors": ["include/xme/math/vector.hpp: VEC_SELF_OP", "include/xme/math/vectors/vector2.hpp: VEC_SELF_OP", "include/xme/math/vectors/vector3.hpp: VEC_SELF_OP", "include/xme/math/vectors/vector4.hpp: VEC_SELF_OP", "include/xme/math/matrix.hpp: MAT_SELF_OP1, MAT_SELF_OP2", "include/xme/math/matrices/matrix4x4.hpp: MAT_SELF_OP1, MAT_SELF_OP2"]}
{"id": "C157", "title": "Constant calls from several threads", "statement": "Any number of threads may call constant members of the same Array, Heap, LinkedList, ArrayView, Vector, Matrix, Quaternion, Tuple, Pair or Delegate at the same time without synchronisation, each with objects of its own besides: there is no data race, every thread gets what it would get alone, and the shared objects do not change. Threads may assign to different elements of the same Array in the same way.", "quantifier": "every number of threads, every interleaving, every program of the threads, every contents of the shared objects", "why_tests_cant": "Data races do not show in most runs, and the number of interleavings is unbounded.", "anchors": ["include/xme/container/icontainer.hpp: operator[], empty, size, front, back", "include/xme/container/array.hpp: begin, end, capacity", "include/xme/container/heap.hpp: begin, end", "include/xme/container/linked_list.hpp: begin, end", "include/xme/container/array_view.hpp: begin, end, size", "include/xme/math/vector.hpp: operator[]", "private/container/tuple_base.hpp: operator[]", "include/xme/core/functional/delegate.hpp: operator(), FunctorManager::invoke, handle"]}
{"id": "C158", "title": "What vectors, matrices and quaternions are made from", "statement": "Where its type is named, a vector is made from nothing, from one number for all components, from a vector of the same size and any component type, or from any sequence of numbers and smaller vectors with the right number of components in total, in their order; a matrix from nothing, from one number for the diagonal, from a matrix of the same size and any component type, or from as many vectors of the right size and of any component type as it has columns; a quaternion from a quaternion of any component type or from four numbers. Anything else is refused by the compiler, and no component of the result is made up.", "quantifier": "all component types, all sizes, every list of arguments of the library's types and numbers, initialisation with and without mention of the type", "why_tests_cant": "There are infinitely many lists of arguments; what must not compile, and what becomes ambiguous, is not covered by running tests; templates are checked only where they are used.", "anchors": ["include/xme/math/vector.hpp: constructors", "include/xme/math/vectors/vector2.hpp: constructors", "include/xme/math/vectors/vector3.hpp: constructors", "include/xme/math/vectors/vector4.hpp: constructors", "include/xme/math/matrix.hpp: constructors", "include/xme/math/matrices/matrix4x4.hpp: constructors", "include/xme/math/quaternion.hpp: constructors"]}
{"id": "C159", "title": "Deduced component types", "statement": "Where the template arguments are left out, Vector(args...), Matrix(columns...) and Quaternion(w, x, y, z) compile and have one component or column for each argument, in their order; the component type does not depend on the order of the arguments, it is that of the arguments if they agree, and every argument keeps its value.", "quantifier": "every list of arithmetic types, every data model (widths, ranks, promotions, precisions), all values", "why_tests_cant": "The component type depends on all argument types and on the platform; tests run on one platform with a few combinations.", "anchors": ["include/xme/math/vector.hpp: deduction guide", "include/xme/math/matrix.hpp: deduction guide", "include/xme/math/quaternion.hpp: deduction guide"]}
{"id": "C160", "title": "What noexcept reports, and exceptions of the elements", "statement": "For tuples, pairs and binders, an exception thrown by an operation of an element, a bound argument or a callable reaches the caller; the program is never terminated because it meets a function declared noexcept. And noexcept(call) is true exactly if every operation of the user's types that the call makes is declared not to throw.", "quantifier": "all element types and callables (any promise about each construction, assignment, swap, comparison and call), all numbers of elements, all value categories and constness of the arguments, every choice of which operation throws", "why_tests_cant": "Which operations throw depends on the user's types; a wrong exception specification is seen only with a type whose operations disagree about it, at the moment one of them throws, and then ends the test program.", "anchors": ["include/xme/container/pair.hpp: operator=, ==, <=>, swap, make_pair", "include/xme/container/tuple.hpp: operator=, ==, <=>, swap, apply, make_tuple", "include/xme/core/functional/bind.hpp: bind_front, bind_back, copies, call operators"]}
{"id": "C161", "title": "Projections keep what is seen: nearer points hide farther ones and straight lines stay straight", "statement": "For points in front of the camera, every projection gives the nearer of two points the smaller depth; a perspective projection shows two points at the same place exactly if they lie on one ray from the camera, and gives no two points the same coordinates; and the straight segment between two points is seen as the straight segment between their images, point for point and in the same order.", "quantifier": "all cameras (any field of view, aspect ratio, edges, and 0 < near < far), all pairs of points in front of the camera, all points of the segments between them", "why_tests_cant": "The claim relates the images of all pairs of points under all cameras; tests project single points.", "anchors": ["include/xme/math/matrices/perspective.hpp: perspective, perspective_rh, perspective_lh, ortho, ortho_rh, ortho_lh", "include/xme/math/matrices/matrix4x4.hpp: operator* with a vector"]}
{"id": "C162", "title": "Whole and fixed-point numbers are computed without rounding error", "statement": "If the components of float or double vectors, matrices and quaternions hold whole numbers, or multiples of one power of two, and the numbers in the exact computation have no more digits than the format, then sums, differences, products, scalar and vector products, products of matrices, determinants, products of quaternions, translate, scale, and lengths and distances that are whole, are the exact results; so laws that rounding breaks in general, such as transforming by a product being transforming twice, hold exactly. One digit more, and the result need not be a value of the type.", "quantifier": "all formats with at least three digits (float and double among them), all sizes, all integers and exponents within the stated bounds", "why_tests_cant": "The claim is about all grids of numbers up to 2^24 or 2^53 in every component; tests use a few small numbers.", "anchors": ["include/xme/math/vectors/geometry.hpp: dot, cross, length, distance", "include/xme/math/vector.hpp: operators, length", "include/xme/math/matrix.hpp: operator*, operator+, operator-", "include/xme/math/matrices/functions.hpp: determinant", "include/xme/math/matrices/transformation.hpp: translate, scale", "include/xme/math/quaternion.hpp: operator*"]}
{"id": "C163", "title": "Programs around a heap: simulations, the best k of a stream, merging", "statement": "A program that repeatedly takes the front of a heap and pushes elements that are not greater takes all elements in order, however the new ones depend on what it has taken, and neither loses nor invents one; pushing the elements of a stream and popping whenever there are more than k keeps the k least elements; a heap of sorted sequences compared by their first elements merges them into one sorted sequence with all their elements. No step is undefined.", "quantifier": "all strict weak orders, all initial heaps, all handlers (functions of the whole history), all streams, all k, all numbers of rounds, all families of sorted sequences", "why_tests_cant": "The claims are about unboundedly long interleavings of pushes and pops that depend on earlier results; tests run a few fixed interleavings.", "anchors": ["include/xme/container/heap.hpp: push, pop, front, size, range constructor"]}
{"id": "C164", "title": "Calls on a queue look as if made one after the other", "statement": "The results of all calls made by the two threads of a single-producer single-consumer queue are those of some order of the same calls, each thread's calls in its own order, on one queue used by a single thread: a push is refused only when that queue is full, and the available counts are exact.", "quantifier": "all power-of-two capacities, all interleavings, all stale but coherent values of the atomic loads, with and without assertions", "why_tests_cant": "Whether an explaining order exists is a statement about all orders of all calls of an execution, and the executions that have none need memory effects that a test machine may never show.", "anchors": ["private/container/spsc_queue_base.hpp:31-83: read_available, write_available, emplace, pop, consume"]}
{"id": "C165", "title": "Products, determinants, rotations and quaternions fit together", "statement": "In exact arithmetic: dot(a, cross(b, c)) is the determinant of the matrix with columns a, b, c and the identities of double and quadruple products hold; q * p * conjugate(q) with the half-angle quaternion of a unit axis is what rotate with that angle and axis makes of p, and products of such quaternions are products of the matrices; rotating commutes with cross; linear systems of two to four unknowns are solved by quotients of determinants; normalize and cross build an orthonormal right-handed frame of any two directions that are not parallel; the nearest point of a line is the one dot gives, at the distance cross gives.", "quantifier": "all vectors, matrices, quaternions, angles and unit axes over the reals (products and determinants over every commutative ring, linear systems over every field)", "why_tests_cant": "Each is an identity between values of different functions over infinitely many arguments; a wrong sign or component in one of them cancels for the usual axis-aligned test values.", "anchors": ["include/xme/math/vectors/geometry.hpp:13-56: dot, cross, length, distance, normalize", "include/xme/math/matrices/functions.hpp:9-38: determinant", "include/xme/math/matrices/transformation.hpp:33-65: rotate", "include/xme/math/quaternion.hpp: operator*"]}
{"id": "C166", "title": "Pipelines of threads connected by queues", "statement": "Let a first thread push an input into a queue, let each of any number of further threads take elements from one queue, apply a function and push the result into the next queue, trying again when a push is refused or throws, and let a last thread take from the last queue, each taking thread taking no more than read_available() told it. Then there is no data race, the j-th element taken at the end is the j-th input passed once through every function in order, what is on its way is bounded by the capacities and the number of threads, and the pipeline never gets stuck: from every state the whole input can still reach the end.", "quantifier": "any number of stages, all power-of-two capacities from 2, all functions and inputs, all interleavings, all stale but coherent values of the atomic loads, with and without assertions, with throwing constructors and callbacks", "why_tests_cant": "The executions of several threads over several queues with stale reads cannot be enumerated, and a test machine shows few of them; that nothing can get stuck is about all of them.", "anchors": ["private/container/spsc_queue_base.hpp:31-83: read_available, write_available, emplace, pop, consume"]}
{"id": "C167", "title": "Loops and queues written with a LinkedList", "statement": "A loop that erases with erase_after every element a predicate rejects returns with exactly the others, in order, their iterators still valid; a loop that erases repeated neighbours keeps the first of each run; walking to the first greater element and insert_after there, for one value after the other, gives a stably sorted list in which earlier elements keep their iterators; and a list used with an iterator to its last element (reset to before_begin() when the list becomes empty) is a first-in first-out queue. None of these touches another list, uses a dangling iterator or fails to end, and if an insertion throws the list is as it was before that insertion.", "quantifier": "all reachable states, all lists, all predicates, all strict weak orders, all sequences of values and of queue operations, all behaviours of the allocator and of throwing constructors", "why_tests_cant": "That no iterator kept across erasures and insertions ever dangles is a statement about all sequences of calls; a test run of one sequence may read freed memory and pass.", "anchors": ["include/xme/container/linked_list.hpp:109-121: before_begin, begin, end", "include/xme/container/linked_list.hpp:165-215: pop_front, insert_after, emplace_after, erase_after", "private/container/linked_list_base.hpp:37-44: iterator"]}
{"id": "C168", "title": "Loops, sorting and stacks written with an Array", "statement": "A loop over an array of trivially copyable elements that goes on with the iterator erase returns removes exactly the rejected elements and keeps the others in order; overwriting a rejected element with back() and pop_back() removes exactly the rejected ones in some order; finding the place by bisection over a[i] and insert there keeps an array in order, behind equivalent elements, and returns that place; insertion sort with a[i] sorts stably; and push_back, back and pop_back make a last-in first-out stack. The first, second and fourth keep the capacity; no other array changes; nothing is read or written outside the elements; and every loop ends.", "quantifier": "all reachable states, all arrays of trivially copyable elements, all predicates, all strict weak orders, all sequences of stack operations, while nothing throws", "why_tests_cant": "The loops go through states that depend on every element and every answer of the predicate; a test tries a few arrays, and reading one element too far usually goes unnoticed.", "anchors": ["include/xme/container/array.hpp:160-176: insert", "include/xme/container/array.hpp:221-272: push_back, pop_back, emplace_back, erase", "include/xme/container/icontainer.hpp:13-104: operator[], empty, size, back"]}
{"id": "C169", "title": "Long loops in floating point", "statement": "With float or double components: a sum accumulated with += is within ((1+u)^n - 1) times the sum of the magnitudes of the exact sum after n additions, whatever the order, and two orders differ by at most twice that; a position stepped by p += v * dt is within ((1+u)^(n+1) - 1) times the magnitudes; an average likewise with one rounding more; a chain of n square transformations of size c is within ((1+u)^(c n) - 1) times what the magnitudes give; a chain of n quaternion products within ((1+u)^(4n) - 1) times the product of the 1-norms. Adding components that are not negative never lowers a sum, and larger summands never give a smaller one. A vector advanced again and again by a step of at most 2^e never passes 2^(p+e), with p digits in the format; advanced by exactly 2^e it shows the exact count up to 2^p and stays there.", "quantifier": "all numbers of iterations, all finite inputs, all formats with radix 2 and rounding to nearest even; sums and steps also with limited exponents as long as no exception is raised", "why_tests_cant": "The error after n iterations depends on every rounding on the way; tests use short loops and tolerances found by trying, and a clock that stands still after 2^24 steps does so only after hours.", "anchors": ["include/xme/math/vector.hpp:26-36: operator+=, operator/=", "include/xme/math/matrix.hpp:88-95: operator*", "include/xme/math/quaternion.hpp:26-35: operator*"]}
{"id": "C170", "title": "Divide and conquer with ArrayView", "statement": "Programs that work on ever smaller sub-views are right: bisection with first and last finds the first position whose element is not less than a value, in as many rounds as the size has binary digits; quicksort with v[i], first and last leaves the viewed elements sorted and the same; exchanging the ends and going on with subview(1, size() - 2) reverses them; cutting a view into blocks with first and last gives all elements in order, each in one block, in blocks that do not overlap and have the requested size but for the last. None of them changes or reads anything outside the view, fails an assertion, or fails to end.", "quantifier": "all views inside an array of less than 2^63 bytes, all element sizes and contents, all strict weak orders, all block sizes, checked and unchecked builds", "why_tests_cant": "The offsets of nested sub-views depend on every comparison made before; an error of one element at a boundary shows only for particular sizes and contents.", "anchors": ["include/xme/container/array_view.hpp:168-205: subview, first, last", "include/xme/container/icontainer.hpp:14-25: operator[]"]}
{"id": "C171", "title": "Powers of matrices and quaternions", "statement": "A power computed by repeated squaring with operator* is the power, for matrices of every size and quaternions; powers multiply and compose as they should, transforming by a power is transforming that many times, and the power of a rotation turns by that many times the angle about the same axis. From this: the power of a companion matrix gives any term of a linear recurrence (Fibonacci numbers modulo 2^w in unsigned integers), the powers of the matrix of a graph count its walks, the scheme of Horner gives polynomials of a matrix. In float and double the results are exact as long as the whole numbers involved fit (Fibonacci numbers up to number 35 in float, 77 in double), and otherwise off by at most ((1+u)^(size*exponent) - 1) times what the magnitudes give.", "quantifier": "all sizes, matrices, quaternions and exponents; all commutative rings, among them unsigned integers with wrap-around; all recurrences, graphs and polynomials; all rounding functions, float and double", "why_tests_cant": "Repeated squaring multiplies the same matrices in an order that depends on the binary digits of the exponent, so that an error of one product shows only for some exponents and some shapes, and rounding errors can only be sampled.", "anchors": ["include/xme/math/matrix.hpp:54-62, 83-107: constructors, sum, products", "include/xme/math/matrices/matrix4x4.hpp:52-61, 84-110: the same for 4x4", "include/xme/math/quaternion.hpp:26-35: operator*"]}
{"id": "C172", "title": "Signals and task queues built from delegates", "statement": "A signal kept as an array of delegates: a new listener takes the first empty place, or is turned away when there is none; disconnecting assigns nullptr; sending calls every delegate that is not empty. Whatever the order of these, no empty delegate is called, each sending calls exactly the listeners connected at that time, each once and in the order of their places, and a listener is destroyed when it is disconnected, not before and not twice. A queue of tasks kept as a ring of delegates, where running moves the oldest one out, calls it and lets it go: the tasks run are the tasks accepted, in that order and each once, and a task is destroyed right after it ran. At the end of either program every callable has been destroyed once and its storage freed once, those still waiting without having been called.", "quantifier": "all numbers of places, all sequences of operations, all types of callables, stored in the delegate or outside", "why_tests_cant": "Which callable is live, called or destroyed depends on the whole history of assignments and moves between the places, and the storage of the callables on their types; tests run a few histories.", "anchors": ["include/xme/core/functional/delegate.hpp:127-148: move, construction, destruction", "include/xme/core/functional/delegate.hpp:150, 162-188: operator bool, assignment, operator(), swap"]}
{"id": "C173", "title": "Curves by repeated lerp", "statement": "A curve computed by repeated lerp of neighbouring points (the scheme of de Casteljau, in place in an array) is the Bezier curve of the points: point i of d+1 has weight binomial(d,i) t^i (1-t)^(d-i). It begins at the first and ends at the last point, is the same curve from the other end, moves with its points under matrices and translations, stays for t between 0 and 1 in every half-space that contains the points, and has as velocity d times the curve of the differences. The points met on the way are those of the two pieces into which t cuts the curve. In float and double the ends are exact up to the sign of a zero, and every point is off by at most ((1+u)^(3d) - 1) times the weighted sum of the magnitudes.", "quantifier": "all numbers of points, all dimensions, all parameters; all commutative rings, ordered fields, the reals; all rounding functions, float and double", "why_tests_cant": "Each point of the curve depends on all points of the array through d(d+1)/2 calls of lerp; tests evaluate a few curves of low degree at a few parameters.", "anchors": ["include/xme/math/vectors/functions.hpp:12-20: lerp", "include/xme/math/glsl_mapping.hpp:59-64: mix"]}
{"id": "C174", "title": "A map kept as a sorted Array", "statement": "A map from keys to values kept as an Array of pairs in the order of the keys: looking up bisects with operator[] and size(), storing overwrites the entry or inserts a new one where the bisection ended, removing erases it. Whatever sequence of these a client runs, starting with any array in order, every operation gives the value last stored under its key unless it was removed since; the array stays in strictly ascending order of keys and has exactly the entries of the map; no other array changes and no call is undefined.", "quantifier": "all ordered types of keys, all types of values (trivially copyable pairs), all starting arrays in order, all sequences of operations", "why_tests_cant": "The position of each insertion and removal, the reallocations and what later look-ups see depend on the whole history; tests run a few histories with a few keys.", "anchors": ["include/xme/container/array.hpp:160-176: insert", "include/xme/container/array.hpp:265-272: erase", "include/xme/container/icontainer.hpp:13-25, 61-76: operator[], size"]}
{"id": "C175", "title": "Areas of polygons and volumes of meshes", "statement": "Summing determinant of the 2x2 matrices whose columns are consecutive corners gives twice the signed area of a polygon: the sum equals the sum of the triangles between a corner and the sides; it does not depend on the first corner, changes its sign when the corners are listed backwards, is additive when the polygon is cut from corner to corner, and a matrix and a translation applied to all corners multiply it by determinant of the matrix. Summing determinant of the 3x3 matrices of the corners of triangles gives six times the volume of a mesh: additive, also for parts glued along a common triangle, opposite for the inside-out mesh, multiplied by determinant of a matrix applied to it, equal to the determinant of three sides for a tetrahedron, and independent of the position if the mesh has no holes. In float and double with whole coordinates of magnitude at most B the area of n corners is exact if 2*n*B^2 does not exceed 2^24 or 2^53.", "quantifier": "all polygons and meshes of any number of corners and triangles, over any commutative ring (position: any domain of characteristic 0); float and double for whole coordinates within the bound", "why_tests_cant": "The laws relate sums over any number of corners; tests compute the area of a few shapes.", "anchors": ["include/xme/math/matrices/functions.hpp:9-21: determinant", "include/xme/math/matrix.hpp:56-62, 121-129: constructor, operator[]", "include/xme/math/matrix.hpp:88-95: operator* with a vector"]}
{"id": "C176", "title": "Shortest ways with a Heap", "statement": "Dijkstra's algorithm with a Heap of (length, place) compared by greater length, so that the shortest is in front: push (0, source); while the heap is not empty take front(), pop(), and if the place was not taken before push an entry for every road from there. For every finite map with unsigned lengths, zero included, the loop ends after at most one round per road and one more; the length with which a place was first taken is the length of a shortest way from the source to it; the places never taken are exactly those that no way leads to.", "quantifier": "all finite maps with any roads and unsigned lengths (sums that do not overflow), all sources, whatever the order of entries with equal lengths", "why_tests_cant": "It depends on the order in which the heap gives back entries over the whole run, for every map; tests try a few maps.", "anchors": ["include/xme/container/heap.hpp:60-78: pop, push", "include/xme/container/heap.hpp:88-128: the sift functions"]}
{"id": "C177", "title": "Orthonormal frames and cameras", "statement": "Gram-Schmidt orthonormalisation written with dot, operator*, operator- and normalize: for any number of vectors of any dimension none of which is a combination of those before it, the result consists of as many unit vectors at right angles; the first k results have the same linear combinations as the first k vectors given, each result is on the side of the vector it was made from, and the result is the only list with these properties. The frame of a camera written with normalize and cross from an eye, a target and an up vector that is not parallel to the view: right, up and ahead are unit vectors at right angles and right-handed; the coordinates computed with dot in this frame keep distances and orientation, put the eye at the origin, the target straight ahead at its distance and up upwards.", "quantifier": "all dimensions, all independent lists of real vectors; all real eyes, targets and up vectors with a non-zero cross product", "why_tests_cant": "It is a statement about all vectors; tests check a few frames up to a tolerance.", "anchors": ["include/xme/math/vectors/geometry.hpp:10-18: dot", "include/xme/math/vectors/geometry.hpp:20-31: cross", "include/xme/math/vectors/geometry.hpp:33-56: length, distance, normalize", "include/xme/math/vector.hpp:8-23: operators"]}
{"id": "C178", "title": "Rays against planes, triangles and spheres; the nearest point of a segment", "statement": "Geometric queries written with dot, cross and lerp: the intersection of a line with a plane gives the only common point unless they are parallel; Moeller and Trumbore's test of a ray against a triangle answers exactly when the ray, not parallel to the triangle, meets it, with the way along the ray and the coordinates in the triangle of the point; the test of a ray with a unit direction against a sphere gives the first point of the ray at the distance of the radius from the centre, and no answer exactly if there is none, also when the ray starts inside; the nearest point of a segment lies on it and no other point of the segment is nearer, also when its ends coincide.", "quantifier": "all rays, planes, triangles over any (ordered) field; all real rays, spheres and segments of any dimension", "why_tests_cant": "The answers are claimed for all positions and directions including the degenerate ones; tests try a few.", "anchors": ["include/xme/math/vectors/geometry.hpp:10-18: dot", "include/xme/math/vectors/geometry.hpp:20-31: cross", "include/xme/math/vectors/functions.hpp:11-20: lerp"]}
{"id": "C179", "title": "Splitting a range with find", "statement": "A loop that calls find on the rest of a contiguous range of integers behind each match splits the range at a separator, for every range at every address and in every build: the pieces joined by the separator are the range, and no piece contains the separator.", "quantifier": "all ranges of integers of 1, 2, 4 or 8 bytes at every address, all separators, all three builds", "why_tests_cant": "The outcome depends on where the separators lie relative to the alignment of the memory; a test has a few texts at the addresses its allocator happens to return.", "anchors": ["include/xme/core/algorithm/find.hpp:71-99: find"]}
{"id": "C180", "title": "Rotating a range with reverse", "statement": "Reversing the first k elements, then the others, then the whole range with reverse rotates the range by k: elements k to the end come first, then the first k, for every length and every k, elements of every size the function accepts and every build.", "quantifier": "all ranges, all k up to the length, all builds, elements of one and two bytes", "why_tests_cant": "It is claimed for all lengths and all k; the vector paths are only entered above 16 or 32 elements, so a test on short ranges does not see them.", "anchors": ["include/xme/core/algorithm/reverse.hpp:47-71: reverse"]}
{"id": "C181", "title": "Transactions with ScopedDelegate", "statement": "A function that after each step declares a ScopedDelegate which undoes the step unless a flag is set, and sets the flag after the last step, makes all steps or none: if every step succeeds all are made and nothing is undone; if a step throws or the function returns early, the data are what they were before and the exception reaches the caller. After any sequence of such transactions, each in a try of its own, the data are what the completed ones made of them, in order.", "quantifier": "any number of steps and transactions, any data, any steps with undo operations, every position of a failure", "why_tests_cant": "The order of the undo operations matters for every number of steps and every step at which it fails; tests try one or two.", "anchors": ["include/xme/core/functional/scoped_delegate.hpp:8-24: ScopedDelegate"]}
{"id": "C182", "title": "A pool of objects in an array of AlignedData", "statement": "A pool that hands out objects constructed in the slots of an array of AlignedData<T, Align> (Align not below the alignment of T) and takes them back: after every history of acquiring, releasing and writing, every object is aligned for T and to Align, lies within the array, overlaps no other object and holds the bytes last written to it; nothing outside the array changes; acquiring is always defined and fails exactly if all slots are taken.", "quantifier": "all sizes and alignments of T, all Align not below, all numbers of slots, all histories", "why_tests_cant": "The histories are unbounded, and overlaps or misplaced slots only show up as corruption of other objects.", "anchors": ["include/xme/container/aligned_data.hpp:12-59: AlignedData"]}
{"id": "C183", "title": "A cache of the keys requested last, kept in a LinkedList", "statement": "A least-recently-used cache written with insert_after, erase_after and iterators of a LinkedList: a request is a hit exactly if the key is among the last cap different keys requested before it; after any requests the list holds exactly the last cap different keys, the latest first and each once, and the other lists of the program are as before; if a request throws, the cache is as before that request. A larger cache always holds what a smaller one holds.", "quantifier": "all capacities, all sequences of requests, all programs with any other lists, every point at which an allocation or a constructor may throw", "why_tests_cant": "It is a statement about all histories of requests; tests replay a few.", "anchors": ["include/xme/container/linked_list.hpp:109-111: before_begin", "include/xme/container/linked_list.hpp:177-179: insert_after", "include/xme/container/linked_list.hpp:210-215: erase_after"]}
{"id": "C184", "title": "Disjoint sets kept in an Array", "statement": "Disjoint sets of n members written with push_back and operator[] of an Array of indices (each element names another member of its set; looking up shortens the way): in an array that was empty, whatever sets are joined and whatever is asked in between, every call returns without undefined behaviour, and its answer is true exactly if the two members are connected by a chain of the joins made before. No other array of the program changes.", "quantifier": "all numbers of members, all sequences of joins and questions about these members, all programs with any other arrays", "why_tests_cant": "It is about all histories of joins, where each lookup also rewrites the array; tests replay a few and cannot show that every loop ends.", "anchors": ["include/xme/container/array.hpp:221-223: push_back", "include/xme/container/icontainer.hpp:13-25: operator[]"]}
{"id": "C185", "title": "Large numbers kept in Arrays", "statement": "Arithmetic on numbers of any size, kept in an Array of 32-bit words and written with push_back, pop_back, back, empty, size and operator[]: digits read in any base and written in any base stand for the same number, and in the same base come back unchanged; the sum of two arrays is the sum of their numbers, with carries running as far as they must and no leading zero word. No 64-bit intermediate result overflows, every loop ends, and no other array of the program changes.", "quantifier": "all sequences of digits, all bases from 2 to 2^32 - 1, all pairs of numbers, all programs with any other arrays", "why_tests_cant": "Carries that run through all words or appear only with certain words are missed by samples; the claim is about numbers of any size.", "anchors": ["include/xme/container/array.hpp:221-223: push_back", "include/xme/container/array.hpp:246-249: pop_back", "include/xme/container/icontainer.hpp:13-25: operator[]", "include/xme/container/icontainer.hpp:92-104: back"]}
{"id": "C186", "title": "Environment variables set for a while", "statement": "A program that saves variables with get_environment_variable, sets them, runs a function and sets them back, one inside the other and possibly the same variable several times: while the function runs each of these variables has the value set last, and afterwards each is as before, while all others are as the function left them.", "quantifier": "all environments, all sequences of names and values, all functions run inside", "why_tests_cant": "It is about every state a variable may have had before; tests use variables that are missing or have a value.", "anchors": ["include/xme/hal/linux/platform.hpp:6-8: get_environment_variable", "include/xme/hal/linux/platform.hpp:10-17: set_environment_variable"]}
{"id": "C187", "title": "Plugins: libraries kept in a list", "statement": "A host that keeps SharedLibrary objects in a list, adds those that were found and removes any of them by moving the last into its place: at any time the list holds exactly the libraries found and not removed, each still open; each library removed was closed exactly once; and when the list ends every library found was closed exactly once and nothing else was closed.", "quantifier": "all sequences of loading, failing to load and unloading at any position", "why_tests_cant": "It is about all histories; a test sees a few, and a second dlclose often goes unnoticed.", "anchors": ["include/xme/hal/shared_library.hpp:17-19: move constructor", "include/xme/hal/shared_library.hpp:23-26: move assignment", "include/xme/hal/shared_library.hpp:30-33: destructor"]}
{"id": "C188", "title": "The prime numbers below n, with an Array", "statement": "The sieve of Eratosthenes written with push_back, size and operator[] of an Array, crossing out the multiples of i from i * i on and only while i * i < size(): in an array that was empty, the call returns without undefined behaviour, the array then has n elements, and the element with index k is 1 if k is prime and 0 otherwise. No other array of the program changes.", "quantifier": "all n, all programs with any other arrays", "why_tests_cant": "It is about all n; where the loops may start and stop is a matter of proof, and a test sees only the first numbers.", "anchors": ["include/xme/container/array.hpp:221-223: push_back", "include/xme/container/icontainer.hpp:13-25: operator[]", "include/xme/container/icontainer.hpp:61-76: size"]}
{"id": "C189", "title": "Ranges made constant", "statement": "A loop over make_const_iterator(first) and make_const_sentinel(last) calls the same operations of the range in the same order and visits the same elements as the loop over first and last, for iterators that yield each element only once and sentinels of any type, and an exception, wherever it comes from, reaches the caller as there.", "quantifier": "all input iterators with any effects, all sentinels, all functions called in the loop, every operation that may throw", "why_tests_cant": "It is about all iterator and sentinel types; tests use pointers, which have no effects and never throw.", "anchors": ["include/xme/core/iterators/const_iterator.hpp:203-209: make_const_iterator", "include/xme/core/iterators/const_iterator.hpp:211-217: make_const_sentinel", "include/xme/core/iterators/const_iterator.hpp:133-136: operator=="]}
{"id": "C190", "title": "Merging two linked lists", "statement": "A program that walks along one sorted LinkedList with an iterator and brings the elements of another sorted list into it with insert_after, front and pop_front ends with the first list holding the elements of both, stably sorted, its own before equal ones of the other, and the other list empty; iterators to the elements of the first list stay valid and all other lists are as before. If an insertion throws, every element is in exactly one of the two lists, both are still sorted, and the other list holds the elements not yet brought over.", "quantifier": "all lists, all orders, all programs with any other lists, every insertion that may throw", "why_tests_cant": "The iterator walks over a list that changes under it, lists of any length are interleaved in any way, and each insertion may throw.", "anchors": ["include/xme/container/linked_list.hpp:177-179: insert_after", "include/xme/container/linked_list.hpp:165: pop_front", "include/xme/container/linked_list.hpp:210-215: erase_after"]}
{"id": "C191", "title": "Postfix expressions on an Array used as a stack", "statement": "A program that computes expressions in postfix notation on an Array with push_back, back, pop_back and size returns true exactly if the tokens, after the values already on the stack, are expressions, and then the stack holds exactly their values in order, arguments not exchanged; otherwise it returns false at the first function without two values, after which no further token could help. It never takes from an empty array, and the other arrays are as before.", "quantifier": "all expressions of any depth, all functions, all token sequences, all values already on the stack, all other arrays", "why_tests_cant": "Expressions nest to any depth and the array grows any number of times while they are computed.", "anchors": ["include/xme/container/array.hpp:221-223: push_back", "include/xme/container/array.hpp:246-249: pop_back", "include/xme/container/icontainer.hpp:92-104: back"]}
