{
 "claims": [
  {
   "property": "C01",
   "status": "proved",
   "theorems": [
    "Verif.Arr.array_refines_sequence"
   ],
   "note": ""
  },
  {
   "property": "C02",
   "status": "proved",
   "theorems": [
    "Verif.Arr.array_capacity"
   ],
   "note": ""
  },
  {
   "property": "C03",
   "status": "proved",
   "theorems": [
    "Verif.Arr.array_no_leak",
    "Verif.Arr.array_refines_sequence"
   ],
   "note": ""
  },
  {
   "property": "C04",
   "status": "proved",
   "theorems": [
    "Verif.Arr.array_insert"
   ],
   "note": ""
  },
  {
   "property": "C05",
   "status": "proved",
   "theorems": [
    "Verif.Arr.array_insert_range"
   ],
   "note": ""
  },
  {
   "property": "C06",
   "status": "proved",
   "theorems": [
    "Verif.Arr.array_erase"
   ],
   "note": ""
  },
  {
   "property": "C07",
   "status": "proved",
   "theorems": [
    "Verif.Arr.array_copy",
    "Verif.Arr.array_independent"
   ],
   "note": ""
  },
  {
   "property": "C08",
   "status": "proved",
   "theorems": [
    "Verif.Arr.array_move"
   ],
   "note": ""
  },
  {
   "property": "C09",
   "status": "proved",
   "theorems": [
    "Verif.Arr.array_amortised"
   ],
   "note": ""
  },
  {
   "property": "C10",
   "status": "partial",
   "theorems": [
    "Verif.Arr.array_push_own_partial",
    "Verif.Arr.array_push_own_full_undefined"
   ],
   "note": "False for a full array: the argument is read after its storage was released. The partial theorem covers every array with spare capacity."
  },
  {
   "property": "C100",
   "status": "partial",
   "theorems": [
    "Verif.Math.ieee_dot_range",
    "Verif.Math.ieee_length_range_partial",
    "Verif.Math.ieee_length_underflow",
    "Verif.Math.ieee_length_overflow",
    "Verif.Math.ieee_length_range_wrong"
   ],
   "note": "Holds when the sum of squares is between n times the least normal number and the largest finite number (with room for rounding). Outside it the code is wrong, not the proof: length squares the components without scaling, so length of (2^-100, 0) is 0 and normalize gives infinities, and length of (2^100, 0) is infinite and normalize gives zeros; both are proved for every format."
  },
  {
   "property": "C101",
   "status": "proved",
   "theorems": [
    "Verif.Math.ieee_nan_spreads",
    "Verif.Math.ieee_infinite_vector",
    "Verif.Math.ieee_zero_vector",
    "Verif.Math.ieee_faceforward_unordered",
    "Verif.Math.ieee_sign"
   ],
   "note": "All NaNs are one value: payload and sign of a NaN are not modelled."
  },
  {
   "property": "C102",
   "status": "proved",
   "theorems": [
    "Verif.Math.ieee_exact_laws",
    "Verif.Math.ieee_length_nonneg",
    "Verif.Math.ieee_sub_zero",
    "Verif.Math.ieee_identity_matrix",
    "Verif.Math.ieee_lerp_ends",
    "Verif.Math.ieee_neutral_transform"
   ],
   "note": "All NaNs are one value."
  },
  {
   "property": "C103",
   "status": "partial",
   "theorems": [
    "Verif.Math.ieee_axis_length",
    "Verif.Math.ieee_axis_normalize_partial",
    "Verif.Math.ieee_axis_normalize_wrong"
   ],
   "note": "The length is exact. normalize is exact for components that are powers of two, and wrong in general: normalize of the float vector (41, 0) is (1 - 2^-24, 0), because the code multiplies with the rounded reciprocal of the length."
  },
  {
   "property": "C104",
   "status": "partial",
   "theorems": [
    "Verif.Delegate.delegate_place_partial",
    "Verif.Delegate.delegate_place_wrong",
    "Verif.Delegate.delegate_place_exact"
   ],
   "note": "Holds for callables that are too large or too strictly aligned for the storage, and for others in delegates that were initialised with the callable and are never moved, swapped or assigned to. Otherwise the code is wrong, not the proof: moves, swaps and assignments copy the bytes of the storage, so a callable of at most 16 bytes that holds a pointer into itself, or whose address was registered elsewhere by its constructor (an intrusive list hook, say), is called at an address where no constructor ran."
  },
  {
   "property": "C105",
   "status": "proved",
   "theorems": [
    "Verif.HeapX.heap_any_comparator",
    "Verif.HeapX.heap_models_agree"
   ],
   "note": "The comparator is a program with a state of its own. heap_models_agree shows that the model of C32-C36 is the special case of a comparator that is a function."
  },
  {
   "property": "C106",
   "status": "partial",
   "theorems": [
    "Verif.HeapX.heap_exceptions_partial",
    "Verif.HeapX.heap_exceptions_wrong"
   ],
   "note": "Holds for exceptions of the insertion (allocation, copying the element). For the comparator and the swap the code is wrong, not the proof: heapfy_up, heapfy_down and pop are noexcept, so an exception ends the program, although push does not declare noexcept."
  },
  {
   "property": "C107",
   "status": "proved",
   "theorems": [
    "Verif.TupC.tuple_assign_moves",
    "Verif.TupC.tuple_apply_categories",
    "Verif.TupC.tuple_cat_copies",
    "Verif.TupC.tuple_category_wrong"
   ],
   "note": "tuple_category_wrong states the cases that do not compile. The branch without deducing this is modelled. Const rvalues are treated by the code as const lvalues."
  },
  {
   "property": "C108",
   "status": "partial",
   "theorems": [
    "Verif.TupC.tuple_assign_throws_partial",
    "Verif.TupC.tuple_assign_no_throw",
    "Verif.TupC.pair_assign_throws_wrong"
   ],
   "note": "Holds for Tuple, and for Pair when the elements are not nothrow swappable. Otherwise the code is wrong, not the proof: Pair::operator= is noexcept if the elements are nothrow swappable, which says nothing about their assignment; copying a pair of std::string that runs out of memory ends the program."
  },
  {
   "property": "C109",
   "status": "partial",
   "theorems": [
    "Verif.Math.mixed_exact_partial",
    "Verif.Math.mixed_unsigned_partial",
    "Verif.Math.mixed_convert",
    "Verif.Math.mixed_wrong",
    "Verif.Math.float_mixed_partial",
    "Verif.Math.float_mixed_error",
    "Verif.Math.float_mixed_wrong"
   ],
   "note": "Exact if the components of w are values of v's type (signed, at least as wide as int), and for + - * of an unsigned v with integers of any type. Otherwise the code is wrong, not the proof: each component of w is converted to v's type before the operation, so ivec2(10, 10) * vec2(0.5, 0.5) is (0, 0), int8 100 / 300 is 2, and the sum of int -1 and int64 2^31 is undefined. With a floating-point v every component of w is rounded to v's type first, so the result is the exact one rounded once only if w's components are values of that type; the error is bounded otherwise, and for every other component there is a sum that comes out as zero (exponent range unbounded here)."
  },
  {
   "property": "C11",
   "status": "partial",
   "theorems": [
    "Verif.Arr.array_insert_own_partial",
    "Verif.Arr.array_insert_own_wrong",
    "Verif.Arr.array_insert_own_not_faithful",
    "Verif.Arr.array_insert_own_full_undefined"
   ],
   "note": "False in place for an element behind the position: its predecessor is inserted; undefined at the end of a full array. The partial theorem covers all defined cases that work."
  },
  {
   "property": "C110",
   "status": "partial",
   "theorems": [
    "Verif.Delegate.delegate_throw_partial",
    "Verif.Delegate.delegate_after_exceptions",
    "Verif.Delegate.delegate_throw_wrong"
   ],
   "note": "Holds for Delegate d(fn) and for calls. False for d = fn (the code is wrong, not the proof): the operator is noexcept although it allocates and constructs, so the program ends. Destructors of callables are taken not to throw."
  },
  {
   "property": "C111",
   "status": "partial",
   "theorems": [
    "Verif.Bind.bind_back_throw",
    "Verif.Bind.bind_front_throw_partial",
    "Verif.Bind.bind_front_throw_exact",
    "Verif.Bind.bind_front_throw_wrong",
    "Verif.Bind.binder_copy_throw_wrong"
   ],
   "note": "Holds for bind_back, and for bind_front if no argument that throws is const. False for bind_front with const arguments (the exception specification asks for is_nothrow_constructible_v<BoundArgs, Args>, the operands swapped) and for copies and moves of binders (declared noexcept): the program ends."
  },
  {
   "property": "C112",
   "status": "partial",
   "theorems": [
    "Verif.Algo.Throwing.find_throw_partial",
    "Verif.Algo.Throwing.find_range_throw_partial",
    "Verif.Algo.Throwing.find_range_throw_wrong",
    "Verif.Algo.Throwing.reverse_throw_partial",
    "Verif.Algo.Throwing.reverse_throw_wrong"
   ],
   "note": "Holds for find with two iterators. False for find with a range and for reverse (the code is wrong, not the proof): they are declared noexcept, so the program ends. Paths that work element by element only."
  },
  {
   "property": "C113",
   "status": "proved",
   "theorems": [
    "Verif.Arr.array_iterator_positions",
    "Verif.Arr.array_iterator_arithmetic",
    "Verif.Arr.array_iterator_traversal",
    "Verif.Arr.array_accessors",
    "Verif.Arr.array_iterators_distinct"
   ],
   "note": "Iterators and const iterators are one type in the model. n - it (array.hpp:406-408) and it - cit do not compile and are not modelled."
  },
  {
   "property": "C114",
   "status": "proved",
   "theorems": [
    "Verif.LL.list_iterator_steps",
    "Verif.LL.list_iterator_equality",
    "Verif.LL.list_iterator_traversal",
    "Verif.LL.list_iterator_order_is_not_position"
   ],
   "note": "list_iterator_order_is_not_position records that the iterators also have <=>, which compares addresses and not positions."
  },
  {
   "property": "C115",
   "status": "partial",
   "theorems": [
    "Verif.AV.view_construct_partial",
    "Verif.AV.view_deduced",
    "Verif.AV.view_construct_checked",
    "Verif.AV.view_construct_wrong"
   ],
   "note": "Holds if the elements are of the type of the view and the view is of dynamic size or of the size of the source. False (the code is wrong, not the proof): a fixed-size view of a shorter range in release builds, iterators in the wrong order in every build, ranges of a derived class of another size."
  },
  {
   "property": "C116",
   "status": "proved",
   "theorems": [
    "Verif.AV.view_iteration",
    "Verif.AV.view_empty_undefined"
   ],
   "note": ""
  },
  {
   "property": "C117",
   "status": "partial",
   "theorems": [
    "Verif.Math.Sub.vector_subscript_partial",
    "Verif.Math.Sub.vector_subscript_wrong",
    "Verif.Math.Sub.vector_loops"
   ],
   "note": "Holds by the rules of the machine (members of one type follow each other in memory), and by those of the standard for sizes other than 2, 3 and 4. By the standard only v[0] is defined for Vector2 to Vector4 (the code is wrong, not the proof)."
  },
  {
   "property": "C118",
   "status": "partial",
   "theorems": [
    "Verif.Math.Sub.matrix_subscript_partial",
    "Verif.Math.Sub.matrix_subscript_checks",
    "Verif.Math.Sub.matrix_subscript_wrong"
   ],
   "note": "Holds by the rules of the machine, and by those of the standard if neither number is 2, 3 or 4. By the standard row() is undefined for the other matrices; columns are not checked by an assertion."
  },
  {
   "property": "C119",
   "status": "partial",
   "theorems": [
    "Verif.Lib.proc_address_partial",
    "Verif.Lib.proc_address_unopened_wrong",
    "Verif.Lib.proc_address_wrong",
    "Verif.Lib.proc_address_exact"
   ],
   "note": "Holds for objects that hold a library, names followed by a zero byte, results that are not pointers to functions, and histories without close(). False otherwise (the code is wrong, not the proof). proc_address_exact says what it gives in every history whatever. dlopen and dlsym are modelled by their descriptions."
  },
  {
   "property": "C12",
   "status": "partial",
   "theorems": [
    "Verif.Arr.array_class_lifetimes_partial",
    "Verif.Arr.array_class_undefined",
    "Verif.Arr.array_class_exact"
   ],
   "note": "False: reallocation, resize, erase and insertion of ranges assign to storage that holds no object. The partial theorem covers every history that avoids those paths; array_class_exact says exactly which calls are undefined and that insert(pos, a[pos]) with room inserts the moved-from element."
  },
  {
   "property": "C120",
   "status": "partial",
   "theorems": [
    "Verif.SPSC.Storage.static_slots_partial",
    "Verif.SPSC.Storage.static_slots_wrong"
   ],
   "note": "Holds by the rules of the machine for element types that are default initialisable. By the standard only the first slot can be used; for other element types the queue does not compile (the code is wrong, not the proof)."
  },
  {
   "property": "C121",
   "status": "partial",
   "theorems": [
    "Verif.AD.aligned_data_copy_partial",
    "Verif.AD.aligned_data_copy_wrong"
   ],
   "note": "Holds if T's constructor does not throw and, for copies, if T is trivially copyable and the source a const lvalue or a non-const rvalue. False otherwise (the code is wrong, not the proof)."
  },
  {
   "property": "C122",
   "status": "partial",
   "theorems": [
    "Verif.HeapS.heap_stored_invariant_partial",
    "Verif.HeapS.heap_stored_push_partial",
    "Verif.HeapS.heap_stored_pop_partial",
    "Verif.HeapS.heap_stored_range_partial",
    "Verif.HeapS.heap_stored_destroy_partial",
    "Verif.HeapS.heap_stored_push_own_wrong",
    "Verif.HeapS.heap_stored_class_wrong"
   ],
   "note": "Holds for trivially copyable elements, with arguments from elsewhere or, while there is room, from the heap. Pushing an own element of a full heap reads released storage, and with elements of class type growth assigns to raw storage: undefined (the code is wrong, not the proof; see C10). The comparator is pure here; for others see C105, C106."
  },
  {
   "property": "C123",
   "status": "partial",
   "theorems": [
    "Verif.Arr.single_pass_push_partial",
    "Verif.Arr.single_pass_insert_partial",
    "Verif.Arr.single_pass_insert_wrong",
    "Verif.Arr.single_pass_insert_in_place_wrong",
    "Verif.Arr.single_pass_heap"
   ],
   "note": "Arrays: holds exactly for ranges that can be read twice (and for those of at most one element, of iterators that hold the current one). Otherwise the code is wrong: std::ranges::distance has consumed the range before it is copied; push_back appends nothing or one element, insert reports elements that were never constructed. Heaps: holds."
  },
  {
   "property": "C124",
   "status": "partial",
   "theorems": [
    "Verif.Arr.array_sizes_partial",
    "Verif.Arr.array_sizes_wrong"
   ],
   "note": "Holds for storage of less than 2^63 elements and ranges of at most 2^63 elements. A longer range (std::views::iota of 64-bit numbers) makes the sum wrap, and elements are written behind the storage (the code is wrong, not the proof)."
  },
  {
   "property": "C125",
   "status": "partial",
   "theorems": [
    "Verif.Alloc.allocators_array_partial",
    "Verif.Alloc.allocators_array_kept_partial",
    "Verif.Alloc.allocators_array_wrong",
    "Verif.Alloc.allocators_list_partial",
    "Verif.Alloc.allocators_list_wrong"
   ],
   "note": "Arrays: holds unless insert(pos, first, last) needs new storage in an array whose allocator differs from a default-constructed one. Lists: holds unless a list that is not empty is moved into one with an unequal allocator; then the destructor of the latter is always wrong. The other cases are wrong in the code: the first takes the storage from a default-constructed allocator, and moving a list does not move its allocator."
  },
  {
   "property": "C126",
   "status": "partial",
   "theorems": [
    "Verif.Headers.include_order_partial",
    "Verif.Headers.include_order_wrong"
   ],
   "note": "Proved: exactly which orders compile, as far as the meaning of the name ranges is concerned. The code is wrong for the others: container.hpp and spsc_queue.hpp do not compile unless array_view.hpp and linked_list.hpp were included before, and these two do not compile after array.hpp."
  },
  {
   "property": "C127",
   "status": "partial",
   "theorems": [
    "Verif.TupC.make_tuple_stores",
    "Verif.TupC.tie_assigns_at_once",
    "Verif.TupC.tuple_of_references_partial",
    "Verif.TupC.tuple_of_references_wrong"
   ],
   "note": "Proved: what make_tuple, make_pair and deduction store; simultaneous assignment through tie. Comparison and assignment of tuples of references, and forwarding of rvalues through forward_as_tuple and apply, do not compile: proved in the _wrong theorem, with what does compile in the _partial one."
  },
  {
   "property": "C128",
   "status": "partial",
   "theorems": [
    "Verif.TupT.tuple_compare_throws_partial",
    "Verif.TupT.tuple_compare_throws_wrong"
   ],
   "note": "Proved: the first deciding comparison gives the result and later ones are not made. The code is wrong about exceptions: the operators are noexcept, so the program ends."
  },
  {
   "property": "C129",
   "status": "partial",
   "theorems": [
    "Verif.Arr.array_insert_own_range_exact",
    "Verif.Arr.array_insert_own_range_partial",
    "Verif.Arr.array_insert_own_range_wrong",
    "Verif.Arr.array_push_own_range_partial",
    "Verif.Arr.array_push_own_range_undefined"
   ],
   "note": "False. insert: proved exactly what is inserted in every case; it is the part if the storage is replaced, if the part ends at or before the position or begins at it, and something else in all other cases. push_back: right if there is room, undefined otherwise."
  },
  {
   "property": "C13",
   "status": "partial",
   "theorems": [
    "Verif.Arr.array_exception_safety_partial",
    "Verif.Arr.array_push_throw_keeps_partial",
    "Verif.Arr.array_copy_throw_undefined",
    "Verif.Arr.array_range_throw_exact",
    "Verif.Arr.array_copy_throw_exact",
    "Verif.Arr.array_assign_throw_undefined",
    "Verif.Arr.array_insert_range_throw_broken"
   ],
   "note": "False for copy/range construction and the assignments made from it (the cleanup walks from the source range; undefined exactly when the evaluation of an element fails) and for range insertion in place (the size already counts elements that do not exist); the partial theorems cover every other call at every failure point."
  },
  {
   "property": "C130",
   "status": "proved",
   "theorems": [
    "Verif.Math.Trig.inverse_trig",
    "Verif.Math.Trig.inverse_trig_laws"
   ],
   "note": "Over the real numbers; the C library's asin, acos and atan are taken to be the real inverse functions, not a number outside [-1, 1]. Rounding of the library is not modelled."
  },
  {
   "property": "C131",
   "status": "proved",
   "theorems": [
    "Verif.Math.bool_vector_ops",
    "Verif.Math.bool_geometry",
    "Verif.Math.bool_length"
   ],
   "note": "All sizes. std::sqrt is IEEE double rounded to nearest."
  },
  {
   "property": "C132",
   "status": "proved",
   "theorems": [
    "Verif.Math.ieee_projection_error",
    "Verif.Math.ieee_frustum_near_wrong"
   ],
   "note": "The entries compared with are those of the formulas in the code; C72 and C73 say where these are not the right ones. std::tan may return anything."
  },
  {
   "property": "C133",
   "status": "partial",
   "theorems": [
    "Verif.Math.ieee_length_monotone",
    "Verif.Math.ieee_component_le_length_partial",
    "Verif.Math.ieee_normalize_bounded_partial",
    "Verif.Math.ieee_normalize_bounded_wrong"
   ],
   "note": "Monotone without exception. The other two hold whenever dot(v, v) as computed is at least the smallest normal number or overflows; below that they are false: there is a vector for which normalize returns a component of 17/16."
  },
  {
   "property": "C134",
   "status": "proved",
   "theorems": [
    "Verif.Types.arithmetic_concepts_exact",
    "Verif.Types.signedness_exact",
    "Verif.Types.scoped_enum_exact",
    "Verif.Types.initializer_list_exact",
    "Verif.Types.different_from_self_exact",
    "Verif.Types.different_from_laws"
   ],
   "note": "For all types of the grammar of Core/Types.lean; the traits of the standard library are written down from the rules of the language."
  },
  {
   "property": "C135",
   "status": "partial",
   "theorems": [
    "Verif.FnInit.delegate_construct_exact",
    "Verif.FnInit.delegate_assign_exact",
    "Verif.FnInit.delegate_never_nested",
    "Verif.FnInit.delegate_init_partial",
    "Verif.FnInit.delegate_init_wrong",
    "Verif.FnInit.bind_construct_exact",
    "Verif.FnInit.delegate_deduction_exact"
   ],
   "note": "What each expression does is stated exactly. False of the code: no lvalue can be stored, a delegate cannot be copied, and callables that can only be moved are rejected; all of these fail to compile. Holds for rvalues that can be copied; a delegate is never stored in one of its own type; binders are as stated; the signature is not deduced for volatile or rvalue-qualified call operators."
  },
  {
   "property": "C136",
   "status": "partial",
   "theorems": [
    "Verif.TupTypes.tuple_well_formed_exact",
    "Verif.TupTypes.tuple_element_partial",
    "Verif.TupTypes.tuple_element_wrong",
    "Verif.TupTypes.tuple_get_exact",
    "Verif.TupTypes.tuple_bindings_exact",
    "Verif.TupTypes.tuple_like_exact",
    "Verif.TupTypes.tuple_cat_type_exact"
   ],
   "note": "False of the code for the elements of a Tuple that are neither classes nor references but const or volatile: tuple_element drops the qualifiers, so structured bindings fail to compile, tuple_cat changes the type, and a tuple with a volatile element is not CTupleLike. get of a const rvalue is an lvalue, and get of an rvalue does not compile for rvalue-reference elements. Everything else holds."
  },
  {
   "property": "C137",
   "status": "partial",
   "theorems": [
    "Verif.ContInit.own_type_copied",
    "Verif.ContInit.list_direct_exact",
    "Verif.ContInit.list_copy_exact",
    "Verif.ContInit.list_copy_wrong",
    "Verif.ContInit.own_type_partial",
    "Verif.ContInit.derived_exact",
    "Verif.ContInit.range_exact",
    "Verif.ContInit.adding_exact"
   ],
   "note": "Holds of Array and Heap and their own type. False of the code: every constructor of LinkedList with one argument is explicit, so no named list can be passed or returned by value, and LinkedList b(a) of a non-const list uses the constructor from a range; an object of a class derived from Array (written with parentheses), LinkedList or Heap is taken for a range, so it is never moved from and its allocator or comparator is lost; push_back and insert of an argument that is both an element and a range of elements do not compile."
  },
  {
   "property": "C138",
   "status": "partial",
   "theorems": [
    "Verif.Require.array_exact",
    "Verif.Require.array_sound",
    "Verif.Require.list_exact",
    "Verif.Require.heap_exact",
    "Verif.Require.heap_sound",
    "Verif.Require.queue_exact",
    "Verif.Require.move_only_wrong",
    "Verif.Require.no_assignment_wrong",
    "Verif.Require.iterators_wrong",
    "Verif.Require.no_default_wrong",
    "Verif.Require.regular_partial",
    "Verif.Require.move_only_partial"
   ],
   "note": "What each operation asks for is stated exactly. False of the code: erase and insert of a range copy the elements of the array (they are reached through constant iterators), so elements that can only be moved cannot be erased; an array grows by assignment, so elements without it cannot be added; Array is constructed only from forward iterators that can be compared with a pointer to an element, not from those of LinkedList, std::vector or std::list; LinkedList and queues of fixed capacity ask for a default constructor; Heap asks a range for its size."
  },
  {
   "property": "C139",
   "status": "proved",
   "theorems": [
    "Verif.Arr.array_price"
   ],
   "note": "Counted are calls of allocate and assignments from one element to another; the construction of new elements from the arguments, and the one construction that insert makes behind the last element, are not counted. A call that throws or is undefined (C10, C12) is not covered."
  },
  {
   "property": "C14",
   "status": "proved",
   "theorems": [
    "Verif.LL.linkedList_history",
    "Verif.LL.linkedList_observers"
   ],
   "note": "Includes operations that throw and histories that go on afterwards."
  },
  {
   "property": "C140",
   "status": "partial",
   "theorems": [
    "Verif.Math.ieee_det_equal_columns_partial",
    "Verif.Math.ieee_det_equal_columns_wrong",
    "Verif.Math.ieee_det_zero_column_row",
    "Verif.Math.ieee_det_equal_rows_partial",
    "Verif.Math.ieee_det_equal_rows_wrong",
    "Verif.Math.ieee_det_finite",
    "Verif.Math.ieee_det_overflow_wrong"
   ],
   "note": "Proved for a column or row of zeros, for two equal columns of 2x2 and 3x3 matrices and for the pairs of columns (0,1), (1,2), (2,3), (0,2) of 4x4 matrices. False for the pairs (0,3) and (1,3) of 4x4 matrices, whose sums are associated differently: a matrix with entries up to 1 has a determinant other than zero. For equal rows it holds for 2x2 and for the last two rows only; for every other pair there is a counterexample. Entries up to 2^k with 2k+1, 3k+3 or 4k+6 at most emax never overflow. No fused multiply-add."
  },
  {
   "property": "C141",
   "status": "partial",
   "theorems": [
    "Verif.Math.ieee_product_nan",
    "Verif.Math.ieee_det_nan",
    "Verif.Math.ieee_quaternion_nan",
    "Verif.Math.ieee_entrywise_nan",
    "Verif.Math.ieee_identity",
    "Verif.Math.ieee_trivial_transforms",
    "Verif.Math.ieee_identity_wrong"
   ],
   "note": "The clause about the identity is false: an infinite or NaN entry turns the other entries of its column (row) into NaN, and -0 becomes +0. ieee_identity says exactly what comes out; ieee_trivial_transforms does so for scale by 1, which is exact, and translate by 0. Quaternion product as in the code; one NaN without payload."
  },
  {
   "property": "C142",
   "status": "proved",
   "theorems": [
    "Verif.LL.linkedList_costs"
   ],
   "note": "bill says what each of the 17 operations costs in terms of the numbers of elements; Paid compares the counters before and after (allocations, constructions, deallocations, destructions, and the element operations that may throw: constructions and assignments). For calls that return; calls that throw are covered by C15. Preconditions as in C14; self move assignment is excluded there."
  },
  {
   "property": "C143",
   "status": "partial",
   "theorems": [
    "Verif.Math.mixed_quaternion_error",
    "Verif.Math.mixed_quaternion_narrow",
    "Verif.Math.mixed_matrix_partial",
    "Verif.Math.mixed_matrix_wrong",
    "Verif.Math.mixed_transform_error",
    "Verif.Math.mixed_rotate_error",
    "Verif.Math.mixed_rotate_wrong"
   ],
   "note": "Quaternions compute in the wider type and round at the end: the claim holds for them. Matrices round the right operand first (a sum that is not 0 comes out as 0); the claim holds when the right operand's entries are values of the left type. rotate multiplies the axis by 1 - cos in the axis' type: the error bound is proved with the larger of the two units, and with a double matrix, the float axis (1,0,0) and 45 degrees the first entry is off by more than 10^-8 for every accurate library. Standard model of rounding, as in C85: unbounded exponents."
  },
  {
   "property": "C144",
   "status": "proved",
   "theorems": [
    "Verif.Math.rotations_drift",
    "Verif.Math.rotations_of_identity"
   ],
   "note": "Per rotation 5d + 4d^2 + 9(1+d)((1+u)^(k+7) - 1), where d bounds the error in the squared length of the axis, u is the unit roundoff and k counts the roundings of the library's sin and cos. Standard model of rounding, as in C85: unbounded exponents, no NaN or infinity. The image of a vector is the exact one; the error of the product itself is C85's."
  },
  {
   "property": "C145",
   "status": "partial",
   "theorems": [
    "Verif.Algo.Ptr.find_pointers_partial",
    "Verif.Algo.Ptr.find_pointers_exact",
    "Verif.Algo.Ptr.find_constant_exact",
    "Verif.Algo.Ptr.find_pointers_wrong",
    "Verif.Algo.Ptr.reverse_pointers_exact"
   ],
   "note": "reverse: at run time as claimed; in constant expressions only below two vectors. find without vectors: as claimed. find with vectors: `compare + readable_bytes` leaves the array unless there is a match in the part covered by whole vectors or the array goes on behind it, and no search of a whole array is a constant expression. The effect of a vector step is taken from C37 and C41; reverse for bytes only."
  },
  {
   "property": "C146",
   "status": "partial",
   "theorems": [
    "Verif.Algo.Builds.builds_partial",
    "Verif.Algo.Builds.builds_wrong",
    "Verif.Algo.Builds.find_compiles_exact",
    "Verif.Algo.Builds.find_instructions_exact",
    "Verif.Algo.Builds.reverse_compiles_exact",
    "Verif.Algo.Builds.reverse_instructions_exact"
   ],
   "note": "Exactly which calls compile in which build and which use instructions that were not enabled. With AVX2, reverse compiles for bytes only; with SSE2, find needs elements of 1, 2, 4 or 8 bytes and no sentinel; find of 8-byte elements with SSE2 uses SSE4.1, reverse of bytes with SSE3 uses SSSE3, and the header of reverse needs SSE2 in every build."
  },
  {
   "property": "C147",
   "status": "proved",
   "theorems": [
    "Verif.Math.ieee_transpose_laws",
    "Verif.Math.fp_product_laws",
    "Verif.Math.fp_product_regroup",
    "Verif.Math.ieee_product_regroup",
    "Verif.Math.fp_product_linear",
    "Verif.Math.fp_cross_orthogonal",
    "Verif.Math.fp_reflect_twice",
    "Verif.Math.fp_quaternion_regroup",
    "Verif.Math.fp_product_regroup_not_exact"
   ],
   "note": "As stated. The bounds are proved for every rounding to nearest without overflow and underflow; for the grouping of matrix products also for IEEE 754 arithmetic when no exception is raised. fp_product_regroup_not_exact shows that the grouping does matter."
  },
  {
   "property": "C148",
   "status": "proved",
   "theorems": [
    "Verif.SPSC.Conc.sync_fifo",
    "Verif.SPSC.Conc.sync_race_free",
    "Verif.SPSC.Conc.sync_capacity",
    "Verif.SPSC.Conc.sync_read_available_fresh",
    "Verif.SPSC.Conc.sync_signal_suffices",
    "Verif.SPSC.Conc.sync_push_fresh"
   ],
   "note": "As stated, for a consumer that removes only elements it was told about or a build with assertions (as for C23 and C24). A synchronisation object is modelled by the pairs of release and acquire it creates between the two threads."
  },
  {
   "property": "C149",
   "status": "proved",
   "theorems": [
    "Verif.SPSC.Conc.destroy_after_join",
    "Verif.SPSC.Conc.destroy_without_join_leaks"
   ],
   "note": "As stated, for elements that are not trivially destructible (for the others the static queue destroys nothing, C28). The memory of the dynamic queue is given back afterwards (C28); here only the loop is modelled."
  },
  {
   "property": "C15",
   "status": "partial",
   "theorems": [
    "Verif.LL.linkedList_ledger_partial",
    "Verif.LL.linkedList_no_leak_partial",
    "Verif.LL.linkedList_releases",
    "Verif.LL.linkedList_no_double_free",
    "Verif.LL.linkedList_leaks_only_constructors"
   ],
   "note": "For histories in which no list constructor ended by an exception; with those the claim is false (C22). In every history nothing is freed or destroyed twice, and only constructors that throw lose nodes."
  },
  {
   "property": "C150",
   "status": "partial",
   "theorems": [
    "Verif.SPSC.Reenter.reenter_partial",
    "Verif.SPSC.Reenter.reenter_consume_wrong",
    "Verif.SPSC.Reenter.reenter_consume_same_wrong",
    "Verif.SPSC.Reenter.reenter_push_wrong"
   ],
   "note": "Wrong in general: consume and push read their index before the user code runs and store its successor afterwards. Taking an element from within the function passed to consume hands out and destroys the element being consumed, which is then destroyed again (undefined, for every content of the queue); storing an element from within an element's constructor constructs the outer element on top of the inner one. Proved for all clients in which code run by consume takes nothing and code run by push stores nothing (each may do what belongs to the other side, and ask): the client sees a FIFO, with an element present until the consume that hands it out returns."
  },
  {
   "property": "C151",
   "status": "partial",
   "theorems": [
    "Verif.Delegate.running_usable_partial",
    "Verif.Delegate.running_discard_wrong",
    "Verif.Delegate.running_swap_wrong"
   ],
   "note": "Wrong in general: assigning to the delegate (a callable, nullptr or another delegate) or ending it destroys the callable that is running, in every state; swapping it with another delegate puts something else at the address where a callable of at most 16 bytes runs. Proved: as long as nothing but calls is done to the delegate, recursion included, the callable stays usable whatever is done to all others; a callable too large for the storage stays usable even when its delegate is moved or swapped, until the delegate holding it is ended or overwritten."
  },
  {
   "property": "C152",
   "status": "partial",
   "theorems": [
    "Verif.Math.ieee_lerp_opposite_partial",
    "Verif.Math.ieee_lerp_near_partial",
    "Verif.Math.ieee_lerp_constant_wrong",
    "Verif.Math.ieee_lerp_monotone_wrong"
   ],
   "note": "Wrong for ends on the same side of zero: with float, lerp(3, 3, 0.04f) is 3 - 2^-22, and lerp(3, 5, t) is smaller at the float after 0.81f than at 0.81f. Proved exactly (bounds and monotonicity, no overflow) where the ends are not on the same side of zero, in every format; for all ends, the result leaves the segment by at most e = ((1+u)^3 - 1) M + 2(1+u) eta, runs back by at most 2e and does not change sign, if M + e does not overflow."
  },
  {
   "property": "C153",
   "status": "partial",
   "theorems": [
    "Verif.Algo.find_class_iff",
    "Verif.Algo.find_class_partial",
    "Verif.Algo.find_class_wrong"
   ],
   "note": "Wrong unless == is equality of all the bytes, and right if it is: both directions are proved (find_class_iff). The code accepts every element type of a supported size. Proved for every ==: builds without SIMD, ranges shorter than a vector, and ranges in which == agrees with the bytes of the value."
  },
  {
   "property": "C154",
   "status": "partial",
   "theorems": [
    "Verif.Adapt.adaptors_bidirectional_partial",
    "Verif.Adapt.adaptors_random_access_partial",
    "Verif.Adapt.adaptors_visit_partial",
    "Verif.Adapt.adaptors_order_exact",
    "Verif.Adapt.adaptors_less_wrong",
    "Verif.Adapt.adaptors_terminate_wrong"
   ],
   "note": "Movement, access, differences and equality hold for every stack over every iterator that has them. Wrong: the order operators of ReverseIterator are those of the underlying iterator, so they are reversed exactly for stacks with an odd number of ReverseIterators (adaptors_order_exact), and a loop that runs while first < last then visits nothing; every function is noexcept, so an exception of the underlying iterator ends the program."
  },
  {
   "property": "C155",
   "status": "partial",
   "theorems": [
    "Verif.Constness.constant_partial",
    "Verif.Constness.constant_exact",
    "Verif.Constness.constant_object",
    "Verif.Constness.constant_wrong"
   ],
   "note": "Holds for everything but lists and views. Wrong: the public member current_node of a constant list iterator leads, through its member next, to a pointer from which a mutable iterator can be made; a copy or part of a constant ArrayView<T> is a view that is not constant. constant_exact states exactly when an element can be modified."
  },
  {
   "property": "C156",
   "status": "proved",
   "theorems": [
    "Verif.Alias.alias_vector",
    "Verif.Alias.alias_matrix",
    "Verif.Alias.alias_self"
   ],
   "note": ""
  },
  {
   "property": "C157",
   "status": "partial",
   "theorems": [
    "Verif.Shared.shared_constant_partial",
    "Verif.Shared.shared_elements",
    "Verif.Shared.shared_delegate_wrong"
   ],
   "note": "Holds for everything but delegates: the call operator of a delegate is constant, yet it calls the stored callable as one that is not constant, so two threads that call the same constant delegate race whenever the callable writes, for instance to a captured counter (shared_delegate_wrong, for every such callable). shared_constant_partial covers delegates whose callable only reads."
  },
  {
   "property": "C158",
   "status": "partial",
   "theorems": [
    "Verif.MathInit.vector_init_exact",
    "Verif.MathInit.vector_general_exact",
    "Verif.MathInit.matrix_init_exact",
    "Verif.MathInit.matrix4_init_exact",
    "Verif.MathInit.quaternion_init_exact",
    "Verif.MathInit.same_size_partial",
    "Verif.MathInit.columns_partial",
    "Verif.MathInit.columns_count",
    "Verif.MathInit.matrix4_convert_wrong",
    "Verif.MathInit.quaternion_convert_wrong",
    "Verif.MathInit.columns_wrong",
    "Verif.MathInit.columns_count_wrong",
    "Verif.MathInit.vector_number_wrong"
   ],
   "note": "The five exact theorems say for every list of arguments whether it compiles and where each component comes from. The claim is false in these places: 4x4 matrices and quaternions are not made from others of another component type; columns of two to four components of another component type are refused; a 4x4 matrix takes one to three columns and makes the others zero, one column even as an implicit conversion; vectors of more than four components take too few numbers."
  },
  {
   "property": "C159",
   "status": "partial",
   "theorems": [
    "Verif.MathDeduce.common_exact",
    "Verif.MathDeduce.common_set",
    "Verif.MathDeduce.vector_deduced",
    "Verif.MathDeduce.vector_deduced_order",
    "Verif.MathDeduce.deduced_value_partial",
    "Verif.MathDeduce.deduced_float_partial",
    "Verif.MathDeduce.deduced_float_float",
    "Verif.MathDeduce.deduced_sign_wrong",
    "Verif.MathDeduce.deduced_digits_wrong",
    "Verif.MathDeduce.quaternion_deduced",
    "Verif.MathDeduce.quaternion_deduced_count",
    "Verif.MathDeduce.matrix_deduced_exact",
    "Verif.MathDeduce.matrix_deduced_partial",
    "Verif.MathDeduce.matrix_deduced_wrong"
   ],
   "note": "Types, sizes and order hold on every platform. Values are not always kept: negative numbers next to unsigned ones of the same width, and integers with more digits than the floating-point type, also in quaternions of integers, which become float. A matrix of columns of different component types is deduced but does not compile for columns of two to four components."
  },
  {
   "property": "C16",
   "status": "proved",
   "theorems": [
    "Verif.LL.linkedList_reverse"
   ],
   "note": ""
  },
  {
   "property": "C160",
   "status": "partial",
   "theorems": [
    "Verif.Noexcept.honest_iff",
    "Verif.Noexcept.exact_iff",
    "Verif.Noexcept.noexcept_exact",
    "Verif.Noexcept.noexcept_honest_partial",
    "Verif.Noexcept.noexcept_reported_wrong",
    "Verif.Noexcept.pair_assign_wrong",
    "Verif.Noexcept.compare_wrong",
    "Verif.Noexcept.bind_front_wrong",
    "Verif.Noexcept.call_const_rvalue_wrong",
    "Verif.Noexcept.binder_copy_wrong"
   ],
   "note": "Right for swap, apply and the calls of binders that are not const rvalues. The claim is false for: assignment of pairs (asks about swaps), comparisons and copies, moves and assignments of binders (noexcept without a condition), bind_front (constructibility the wrong way round), const rvalue binders. Each of these theorems says exactly for which types the program terminates. make_tuple, tuple assignment, bind_front and bind_back always report that they may throw."
  },
  {
   "property": "C161",
   "status": "partial",
   "theorems": [
    "Verif.Math.perspective_keeps_view",
    "Verif.Math.frustum_keeps_view",
    "Verif.Math.projection_segments",
    "Verif.Math.keepsSegment",
    "Verif.Math.perspective_depth_wrong",
    "Verif.Math.ortho_depth_wrong"
   ],
   "note": "Proved for perspective_rh and perspective_lh with either kind of parameters, over the reals, and segments for all projections. The claim is false for perspective(fov, ...) with XME_MATH_CLIP_LH and for ortho_lh, which give the farther point the smaller depth (ortho_rh for boxes behind the camera); a box around the camera gets one depth for all points."
  },
  {
   "property": "C162",
   "status": "proved",
   "theorems": [
    "Verif.Math.whole_vectors",
    "Verif.Math.whole_dot",
    "Verif.Math.whole_cross",
    "Verif.Math.whole_length",
    "Verif.Math.whole_distance",
    "Verif.Math.whole_matrices",
    "Verif.Math.whole_mulVec",
    "Verif.Math.whole_mulMat",
    "Verif.Math.whole_det",
    "Verif.Math.whole_translate",
    "Verif.Math.whole_quat",
    "Verif.Math.whole_compose",
    "Verif.Math.whole_perpendicular",
    "Verif.Math.whole_sharp",
    "Verif.Math.whole_value"
   ],
   "note": "Against the computation with integers (Mathlib's sums and determinants). Fused multiply-add or a wider type for intermediate results would give the same results here, but are not part of the model."
  },
  {
   "property": "C163",
   "status": "proved",
   "theorems": [
    "Verif.Heap.heap_simulation",
    "Verif.Heap.heap_keeps_best",
    "Verif.Heap.heap_merge"
   ],
   "note": "Client programs on the model of C32-C36. The comparator is a pure strict weak order and copies of elements are equal to them, as there."
  },
  {
   "property": "C164",
   "status": "partial",
   "theorems": [
    "Verif.SPSC.Conc.spsc_producer_explained_partial",
    "Verif.SPSC.Conc.spsc_consumer_explained_partial",
    "Verif.SPSC.Conc.spsc_one_queue_partial",
    "Verif.SPSC.Conc.spsc_one_queue_wrong"
   ],
   "note": "The claim is false of the code (acquire/release orders allow it): for every capacity of at least 4 there is an execution after which the producer was last told full and the consumer was last told empty, and no order of the calls explains it. Proved: each side's results, together with the effects of the other side, are explained by one sequential queue; all results are when one of the sides does not act on such answers."
  },
  {
   "property": "C165",
   "status": "proved",
   "theorems": [
    "Verif.Math.vector_products",
    "Verif.Math.rotation_by_quaternion",
    "Verif.Math.rotation_keeps_cross",
    "Verif.Math.determinant_solves",
    "Verif.Math.orthonormal_frame",
    "Verif.Math.nearest_on_line"
   ],
   "note": "Exact arithmetic; rounding is the subject of C84, C85 and C147."
  },
  {
   "property": "C166",
   "status": "proved",
   "theorems": [
    "Verif.SPSC.Conc.pipeline_in_order",
    "Verif.SPSC.Conc.pipeline_bound",
    "Verif.SPSC.Conc.pipeline_completes"
   ],
   "note": "Happens-before that comes from another queue of the pipeline is not used by the model (it only removes executions)."
  },
  {
   "property": "C167",
   "status": "proved",
   "theorems": [
    "Verif.LL.removeIf_result",
    "Verif.LL.removeRepeats_result",
    "Verif.LL.insertSorted_result",
    "Verif.LL.sortInto_result",
    "Verif.LL.queueRun_result",
    "Verif.LL.fifo_all"
   ],
   "note": "The loops are client programs, modelled in LinkedList/Clients.lean; predicates and comparisons do not throw."
  },
  {
   "property": "C168",
   "status": "proved",
   "theorems": [
    "Verif.Arr.eraseIf_result",
    "Verif.Arr.removeFast_result",
    "Verif.Arr.insertSorted_result",
    "Verif.Arr.insertionSort_result",
    "Verif.Arr.stackRun_result"
   ],
   "note": "The loops are client programs, modelled in Array/Clients.lean; predicates and comparisons do not throw."
  },
  {
   "property": "C169",
   "status": "proved",
   "theorems": [
    "Verif.Math.long_sum",
    "Verif.Math.long_sum_order",
    "Verif.Math.long_sum_mono",
    "Verif.Math.long_steps",
    "Verif.Math.long_mean",
    "Verif.Math.long_transform",
    "Verif.Math.long_turns",
    "Verif.Math.ieee_long_sum",
    "Verif.Math.clock_bounded",
    "Verif.Math.clock_stops"
   ],
   "note": "The loops are client programs, modelled in Math/LongRun.lean."
  },
  {
   "property": "C17",
   "status": "proved",
   "theorems": [
    "Verif.LL.linkedList_iterators",
    "Verif.LL.linkedList_insert_returns",
    "Verif.LL.linkedList_insertRange_returns"
   ],
   "note": ""
  },
  {
   "property": "C170",
   "status": "proved",
   "theorems": [
    "Verif.AV.bisect_result",
    "Verif.AV.quickSort_result",
    "Verif.AV.flip_result",
    "Verif.AV.blocks_result"
   ],
   "note": "The programs are client code, modelled in View/Clients.lean."
  },
  {
   "property": "C171",
   "status": "proved",
   "theorems": [
    "Verif.Math.matPow_result",
    "Verif.Math.quatPow_result",
    "Verif.Math.recurrence_result",
    "Verif.Math.fib_unsigned",
    "Verif.Math.walks_result",
    "Verif.Math.horner_result",
    "Verif.Math.float_power",
    "Verif.Math.whole_power",
    "Verif.Math.fib_float"
   ],
   "note": "The programs are client code, modelled in Math/Powers.lean. Unsigned integers are those that are not promoted to int (unsigned int, unsigned long)."
  },
  {
   "property": "C172",
   "status": "proved",
   "theorems": [
    "Verif.Delegate.signals_result",
    "Verif.Delegate.tasks_result"
   ],
   "note": "The programs are client code, modelled in Functional/Clients.lean. The callables are handed over as rvalues, do not throw and do not use the array they are stored in."
  },
  {
   "property": "C173",
   "status": "proved",
   "theorems": [
    "Verif.Math.casteljau_bernstein",
    "Verif.Math.casteljau_ends",
    "Verif.Math.casteljau_affine",
    "Verif.Math.casteljau_hull",
    "Verif.Math.casteljau_split",
    "Verif.Math.casteljau_deriv",
    "Verif.Math.casteljau_float",
    "Verif.Math.casteljau_ieee"
   ],
   "note": "The programs are client code, modelled in Math/Curves.lean; their only operation is lerp with a parameter of the component type."
  },
  {
   "property": "C174",
   "status": "proved",
   "theorems": [
    "Verif.Arr.map_result"
   ],
   "note": "The program is client code, modelled in Array/MapClient.lean. Elements are trivially copyable (for others see C12) and nothing throws."
  },
  {
   "property": "C175",
   "status": "proved",
   "theorems": [
    "Verif.Math.area_fan",
    "Verif.Math.area_laws",
    "Verif.Math.volume_laws",
    "Verif.Math.volume_translate",
    "Verif.Math.area_whole"
   ],
   "note": "The programs are client code, modelled in Math/Areas.lean. Exact arithmetic except for area_whole, which is about IEEE 754 arithmetic."
  },
  {
   "property": "C176",
   "status": "proved",
   "theorems": [
    "Verif.Heap.heap_shortest"
   ],
   "note": "The program is client code, modelled in Heap/Paths.lean on the loop of C163."
  },
  {
   "property": "C177",
   "status": "proved",
   "theorems": [
    "Verif.Math.orthonormalize_result",
    "Verif.Math.orthonormalize_unique",
    "Verif.Math.lookAt_frame",
    "Verif.Math.lookAt_view"
   ],
   "note": "The programs are client code, modelled in Math/Frames.lean. Real numbers; for rounding see C99, C133 and C144."
  },
  {
   "property": "C178",
   "status": "proved",
   "theorems": [
    "Verif.Math.hitPlane_result",
    "Verif.Math.hitTriangle_result",
    "Verif.Math.hitSphere_result",
    "Verif.Math.nearest_result"
   ],
   "note": "The programs are client code, modelled in Math/Rays.lean. Exact arithmetic."
  },
  {
   "property": "C179",
   "status": "partial",
   "theorems": [
    "Verif.Algo.split_partial",
    "Verif.Algo.split_wrong"
   ],
   "note": "Whenever the loop returns the pieces are right, and it returns exactly if every piece begins at a multiple of the vector width or has less than a vector behind its start (always in the build without vector instructions). Otherwise the vector builds load from a misaligned address: undefined behaviour, also for a range that is itself aligned."
  },
  {
   "property": "C18",
   "status": "proved",
   "theorems": [
    "Verif.LL.linkedList_assign",
    "Verif.LL.linkedList_copyAssign",
    "Verif.LL.linkedList_self_copyAssign"
   ],
   "note": ""
  },
  {
   "property": "C180",
   "status": "partial",
   "theorems": [
    "Verif.Algo.Rev.rotate_partial",
    "Verif.Algo.Rev.rotate_wrong"
   ],
   "note": "Right for bytes in every build, for two-byte elements without vector instructions and for fewer than 16 of them in the SSE3 build. Rotating 20 two-byte elements by 3 is wrong in the SSE3 build, and with AVX2 the program does not compile."
  },
  {
   "property": "C181",
   "status": "proved",
   "theorems": [
    "Verif.Scoped.transaction_atomic",
    "Verif.Scoped.session_result"
   ],
   "note": "The programs are client code, modelled in Functional/Undo.lean. Assumes that undo operations do not throw and undo their step, and that a step that throws changes nothing."
  },
  {
   "property": "C182",
   "status": "proved",
   "theorems": [
    "Verif.AD.pool_history"
   ],
   "note": "The program is client code, modelled in AlignedData/Pool.lean. For Align below the alignment of T see C98."
  },
  {
   "property": "C183",
   "status": "proved",
   "theorems": [
    "Verif.LL.cache_history",
    "Verif.LL.cache_larger"
   ],
   "note": "The program is client code, modelled in LinkedList/Lru.lean. Comparison of keys does not throw."
  },
  {
   "property": "C184",
   "status": "proved",
   "theorems": [
    "Verif.Arr.sets_result"
   ],
   "note": "The program is client code, modelled in Array/SetsClient.lean. The elements are integers. Loops carry fuel; any fuel above the number of calls suffices."
  },
  {
   "property": "C185",
   "status": "proved",
   "theorems": [
    "Verif.Arr.convert_result",
    "Verif.Arr.convert_back",
    "Verif.Arr.add_result"
   ],
   "note": "The program is client code, modelled in Array/Numbers.lean. Words are natural numbers; products and sums of the program are reduced modulo 2^64 and stores modulo 2^32. The two arrays are different objects."
  },
  {
   "property": "C186",
   "status": "partial",
   "theorems": [
    "Verif.Env.withVars_partial",
    "Verif.Env.withVars_empty_wrong",
    "Verif.Env.withVars_secure_wrong",
    "Verif.Env.withVars_exact"
   ],
   "note": "False as stated: set_environment_variable removes a variable instead of giving it an empty value, so one that had an empty value is gone afterwards; and in secure mode get_environment_variable gives nothing, so every variable set is gone afterwards. Holds otherwise. withVars_exact says what happens in every case. The program is client code, modelled in Hal/EnvClient.lean; its strings are followed by a zero byte."
  },
  {
   "property": "C187",
   "status": "proved",
   "theorems": [
    "Verif.Lib.plugins_closed_once"
   ],
   "note": "The program is client code, modelled in Hal/Plugins.lean; it calls neither open() nor close() on the objects in its list, whose effects are C78. The list is modelled as numbered objects."
  },
  {
   "property": "C188",
   "status": "proved",
   "theorems": [
    "Verif.Arr.sieve_result"
   ],
   "note": "The program is client code, modelled in Array/Sieve.lean. Indices are natural numbers: i * i does not overflow for arrays that fit into memory."
  },
  {
   "property": "C189",
   "status": "partial",
   "theorems": [
    "Verif.ConstRange.const_range_partial",
    "Verif.ConstRange.const_range_wrong",
    "Verif.ConstRange.const_range_exact"
   ],
   "note": "False as stated: every function of ConstIterator is noexcept, so an exception of the underlying iterator terminates the program. Holds if nothing or only the client's function throws, and if both ends were constant already. const_range_exact says what happens in every case. Comparing either way round is taken to be the same, as std::sentinel_for demands."
  },
  {
   "property": "C19",
   "status": "partial",
   "theorems": [
    "Verif.LL.linkedList_moveAssign_partial",
    "Verif.LL.linkedList_newMove",
    "Verif.LL.linkedList_self_move_loses"
   ],
   "note": "False for the self move, which destroys all elements; proved for different lists."
  },
  {
   "property": "C190",
   "status": "proved",
   "theorems": [
    "Verif.LL.mergeLists_result"
   ],
   "note": "The comparison of the client does not throw. The two lists are different lists."
  },
  {
   "property": "C191",
   "status": "proved",
   "theorems": [
    "Verif.Arr.postfix_result",
    "Verif.Arr.postfix_refused",
    "Verif.Arr.postfix_injective"
   ],
   "note": "For trivially copyable elements, like the other clients of Array. The functions of the client do not throw."
  },
  {
   "property": "C20",
   "status": "proved",
   "theorems": [
    "Verif.LL.linkedList_eraseAfter",
    "Verif.LL.linkedList_popFront"
   ],
   "note": ""
  },
  {
   "property": "C21",
   "status": "partial",
   "theorems": [
    "Verif.LL.linkedList_self_insert_partial",
    "Verif.LL.linkedList_self_insert_diverges",
    "Verif.LL.linkedList_self_insert_hangs"
   ],
   "note": "False when the position is inside the inserted range: the call never returns."
  },
  {
   "property": "C22",
   "status": "partial",
   "theorems": [
    "Verif.LL.linkedList_insert_throws_partial",
    "Verif.LL.linkedList_constructor_leaks",
    "Verif.LL.linkedList_constructor_leaks_exact"
   ],
   "note": "False for list constructors: if element k throws, exactly the k nodes already made stay allocated and belong to no list, and every other list is as it was."
  },
  {
   "property": "C23",
   "status": "proved",
   "theorems": [
    "Verif.SPSC.Conc.spsc_fifo",
    "Verif.SPSC.Conc.spsc_no_loss",
    "Verif.SPSC.Seq.spsc_seq_refines_fifo"
   ],
   "note": "Release/acquire vector-clock model; consumer either has assertions compiled in or pops only what read_available() reported."
  },
  {
   "property": "C24",
   "status": "proved",
   "theorems": [
    "Verif.SPSC.Conc.spsc_race_free",
    "Verif.SPSC.Conc.spsc_undisciplined_ub"
   ],
   "note": "The second theorem shows the client discipline is needed."
  },
  {
   "property": "C25",
   "status": "proved",
   "theorems": [
    "Verif.SPSC.Conc.spsc_capacity",
    "Verif.SPSC.Conc.spsc_push_full_iff",
    "Verif.SPSC.Conc.spsc_push_false_unchanged",
    "Verif.SPSC.Seq.spsc_seq_refines_fifo"
   ],
   "note": ""
  },
  {
   "property": "C26",
   "status": "proved",
   "theorems": [
    "Verif.SPSC.Conc.spsc_write_available_sound",
    "Verif.SPSC.Conc.spsc_read_available_sound",
    "Verif.SPSC.Conc.spsc_foreign_available_upper",
    "Verif.SPSC.Seq.spsc_seq_available_exact"
   ],
   "note": ""
  },
  {
   "property": "C27",
   "status": "partial",
   "theorems": [
    "Verif.SPSC.Conc.spsc_observer_wrong",
    "Verif.SPSC.Conc.spsc_observer_any_wrong",
    "Verif.SPSC.Conc.spsc_observer_partial"
   ],
   "note": "The claim is false (the code is wrong, not the proof): a third thread can read N-1 although one element was pushed ever. What remains is that the value is below the capacity, and nothing more: each value below the capacity can be read from a queue that never holds more than one element."
  },
  {
   "property": "C28",
   "status": "proved",
   "theorems": [
    "Verif.SPSC.Seq.spsc_lifetimes",
    "Verif.SPSC.Seq.spsc_clear"
   ],
   "note": ""
  },
  {
   "property": "C29",
   "status": "proved",
   "theorems": [
    "Verif.SPSC.Conc.spsc_never_blocked",
    "Verif.SPSC.Conc.spsc_wait_free"
   ],
   "note": ""
  },
  {
   "property": "C30",
   "status": "proved",
   "theorems": [
    "Verif.SPSC.Seq.spsc_push_throw_unchanged",
    "Verif.SPSC.Seq.spsc_consume_throw_keeps",
    "Verif.SPSC.Seq.spsc_seq_refines_fifo",
    "Verif.SPSC.Conc.spsc_consume_throw_concurrent",
    "Verif.SPSC.Conc.spsc_push_throw_concurrent"
   ],
   "note": "Sequential and concurrent. An element is identified by its push; what the throwing function did to its value stays. Destructors are taken not to throw."
  },
  {
   "property": "C31",
   "status": "partial",
   "theorems": [
    "Verif.SPSC.Seq.spsc_any_capacity_partial",
    "Verif.SPSC.Seq.spsc_non_power_of_two_capacity_wrong",
    "Verif.SPSC.Seq.spsc_any_capacity_available",
    "Verif.SPSC.Seq.spsc_non_power_of_two_read_available_wrong"
   ],
   "note": "In bounds and FIFO for every capacity, but a capacity N that is not a power of two holds only 2^a - 1 elements (2^a the largest power of two dividing N), fewer than write_available() promises. What both queries return is stated exactly: while the stored elements wrap around, read_available() reports N - 2^a elements too many, so that a consumer that believes it runs into undefined behaviour."
  },
  {
   "property": "C32",
   "status": "proved",
   "theorems": [
    "Verif.Heap.heap_invariant",
    "Verif.Heap.heap_range_defined",
    "Verif.Heap.heap_pop_empty_ub"
   ],
   "note": "pop on an empty heap is undefined behaviour and outside the claim."
  },
  {
   "property": "C33",
   "status": "proved",
   "theorems": [
    "Verif.Heap.heap_push_elements",
    "Verif.Heap.heap_pop_elements",
    "Verif.Heap.heap_range_elements"
   ],
   "note": ""
  },
  {
   "property": "C34",
   "status": "proved",
   "theorems": [
    "Verif.Heap.heap_front_greatest"
   ],
   "note": ""
  },
  {
   "property": "C35",
   "status": "proved",
   "theorems": [
    "Verif.Heap.heap_drain_sorts"
   ],
   "note": ""
  },
  {
   "property": "C36",
   "status": "proved",
   "theorems": [
    "Verif.Heap.heap_push_cost",
    "Verif.Heap.heap_pop_cost"
   ],
   "note": ""
  },
  {
   "property": "C37",
   "status": "proved",
   "theorems": [
    "Verif.Algo.find_first",
    "Verif.Algo.find_eq_findIdx"
   ],
   "note": "For calls that return; C39 says which do."
  },
  {
   "property": "C38",
   "status": "proved",
   "theorems": [
    "Verif.Algo.find_inside"
   ],
   "note": ""
  },
  {
   "property": "C39",
   "status": "partial",
   "theorems": [
    "Verif.Algo.find_address_partial",
    "Verif.Algo.find_address_wrong"
   ],
   "note": "False in the SIMD builds: aligned vector loads are used at addresses that are not multiples of the vector width. The partial theorem covers vector-aligned ranges and ranges shorter than a vector."
  },
  {
   "property": "C40",
   "status": "partial",
   "theorems": [
    "Verif.Algo.find_float_partial",
    "Verif.Algo.find_float_wrong",
    "Verif.Algo.find_any_exact"
   ],
   "note": "False for zeroes of different sign and NaN: bits are compared. The partial theorem covers ranges and values without them. The exact theorem says what is found for every element type of a supported size and every == of its own."
  },
  {
   "property": "C41",
   "status": "proved",
   "theorems": [
    "Verif.Algo.Rev.reverse_bytes"
   ],
   "note": ""
  },
  {
   "property": "C42",
   "status": "partial",
   "theorems": [
    "Verif.Algo.Rev.reverse_two_bytes_partial",
    "Verif.Algo.Rev.reverse_two_bytes_wrong",
    "Verif.Algo.Rev.reverse_two_bytes_exact",
    "Verif.Algo.Rev.reverse_two_bytes_iff",
    "Verif.Algo.Rev.reverse_two_bytes_other"
   ],
   "note": "False from 16 elements on: the blocks at both ends stay where they are. The exact theorem says what the SSE3 build does to a range of any length, and the iff theorem for which ranges that is a reversal."
  },
  {
   "property": "C43",
   "status": "proved",
   "theorems": [
    "Verif.Delegate.delegate_defined",
    "Verif.Delegate.delegate_destroys_once",
    "Verif.Delegate.delegate_frees_once",
    "Verif.Delegate.delegate_no_leak"
   ],
   "note": ""
  },
  {
   "property": "C44",
   "status": "proved",
   "theorems": [
    "Verif.Delegate.delegate_calls",
    "Verif.Delegate.delegate_invokes_only_on_call",
    "Verif.Delegate.delegate_new_callable"
   ],
   "note": ""
  },
  {
   "property": "C45",
   "status": "partial",
   "theorems": [
    "Verif.Delegate.delegate_handle_partial",
    "Verif.Delegate.delegate_handle_wrong"
   ],
   "note": "False for callables stored on the heap: handle<F>() returns the address of the pointer to them. The partial theorem covers locally stored functor types."
  },
  {
   "property": "C46",
   "status": "proved",
   "theorems": [
    "Verif.Bind.bind_front_order",
    "Verif.Bind.bind_back_order",
    "Verif.Bind.bind_nested"
   ],
   "note": "The C++23 forms bindFront<f>/bindBack<f> do not compile and are not covered."
  },
  {
   "property": "C47",
   "status": "proved",
   "theorems": [
    "Verif.Scoped.scoped_runs_once",
    "Verif.Scoped.scoped_counts",
    "Verif.Scoped.scoped_nested",
    "Verif.Scoped.scoped_runs_at_scope_end",
    "Verif.Scoped.scoped_throwing_terminates",
    "Verif.Scoped.scoped_terminated_runs_nothing"
   ],
   "note": "Under the documented requirement that the callables do not throw; the last two theorems show that without it a callable that throws ends the program and no delegate around it runs."
  },
  {
   "property": "C48",
   "status": "proved",
   "theorems": [
    "Verif.Tup.tuple_cat_concatenates"
   ],
   "note": ""
  },
  {
   "property": "C49",
   "status": "proved",
   "theorems": [
    "Verif.Tup.tuple_get",
    "Verif.Tup.tuple_assign",
    "Verif.Tup.tuple_self_assign",
    "Verif.Tup.tuple_swap",
    "Verif.Tup.tuple_self_swap",
    "Verif.Tup.tuple_apply",
    "Verif.Tup.tuple_convert",
    "Verif.Tup.pair_ops"
   ],
   "note": ""
  },
  {
   "property": "C50",
   "status": "proved",
   "theorems": [
    "Verif.Tup.tuple_compare_lexicographic",
    "Verif.Tup.tuple_equal",
    "Verif.Tup.tuple_total_order",
    "Verif.Tup.pair_compare"
   ],
   "note": ""
  },
  {
   "property": "C51",
   "status": "proved",
   "theorems": [
    "Verif.AV.view_subview",
    "Verif.AV.view_first",
    "Verif.AV.view_last",
    "Verif.AV.view_nested",
    "Verif.AV.view_read",
    "Verif.AV.view_write",
    "Verif.AV.view_access_exact"
   ],
   "note": ""
  },
  {
   "property": "C52",
   "status": "partial",
   "theorems": [
    "Verif.AV.view_first_last_checked",
    "Verif.AV.view_checked_partial",
    "Verif.AV.view_checked_exact",
    "Verif.AV.view_checked_wrong"
   ],
   "note": "False: offset + count can overflow and then passes the assertion. Proved for first and last and for sums that do not overflow."
  },
  {
   "property": "C53",
   "status": "proved",
   "theorems": [
    "Verif.AV.view_as_bytes",
    "Verif.AV.view_write_byte"
   ],
   "note": ""
  },
  {
   "property": "C54",
   "status": "proved",
   "theorems": [
    "Verif.RevIt.reverse_iterator_laws",
    "Verif.RevIt.reverse_iterator_traverses"
   ],
   "note": ""
  },
  {
   "property": "C55",
   "status": "partial",
   "theorems": [
    "Verif.RevIt.reverse_iterator_order_partial",
    "Verif.RevIt.reverse_iterator_order_wrong",
    "Verif.RevIt.reverse_iterator_mixed_wrong"
   ],
   "note": "False for all pairs: the order is that of the underlying iterators, which is the opposite. Only equality and antisymmetry hold."
  },
  {
   "property": "C56",
   "status": "proved",
   "theorems": [
    "Verif.Bits.has_single_bit_correct"
   ],
   "note": ""
  },
  {
   "property": "C57",
   "status": "proved",
   "theorems": [
    "Verif.Bits.to_unsigned_correct"
   ],
   "note": ""
  },
  {
   "property": "C58",
   "status": "proved",
   "theorems": [
    "Verif.Bits.forward_like_correct"
   ],
   "note": ""
  },
  {
   "property": "C59",
   "status": "proved",
   "theorems": [
    "Verif.Math.vector_componentwise",
    "Verif.Math.vector_space_laws",
    "Verif.Math.dot_bilinear",
    "Verif.Math.length_sq"
   ],
   "note": "Over a commutative ring/field or the reals, not over rounded floating point."
  },
  {
   "property": "C60",
   "status": "proved",
   "theorems": [
    "Verif.Math.cross_laws",
    "Verif.Math.cross_right_handed"
   ],
   "note": "Over a commutative ring/field or the reals, not over rounded floating point."
  },
  {
   "property": "C61",
   "status": "proved",
   "theorems": [
    "Verif.Math.normalize_unit",
    "Verif.Math.distance_metric"
   ],
   "note": "Over a commutative ring/field or the reals, not over rounded floating point."
  },
  {
   "property": "C62",
   "status": "proved",
   "theorems": [
    "Verif.Math.reflect_laws"
   ],
   "note": "Over a commutative ring/field or the reals, not over rounded floating point."
  },
  {
   "property": "C63",
   "status": "partial",
   "theorems": [
    "Verif.Math.faceforward_partial",
    "Verif.Math.faceforward_wrong_at_zero"
   ],
   "note": "False where dot(i,k)=0: -v is returned instead of v. The partial theorem covers every other input."
  },
  {
   "property": "C64",
   "status": "proved",
   "theorems": [
    "Verif.Math.lerp_laws",
    "Verif.Math.lerp_bool"
   ],
   "note": "Over a commutative ring/field or the reals, not over rounded floating point."
  },
  {
   "property": "C65",
   "status": "proved",
   "theorems": [
    "Verif.Math.sign_laws",
    "Verif.Math.signV_componentwise",
    "Verif.Math.sign_int"
   ],
   "note": "Over a commutative ring/field or the reals, not over rounded floating point."
  },
  {
   "property": "C66",
   "status": "proved",
   "theorems": [
    "Verif.Math.matrix_ops",
    "Verif.Math.matrix_compound",
    "Verif.Math.matrix_laws"
   ],
   "note": "Over a commutative ring/field or the reals, not over rounded floating point."
  },
  {
   "property": "C67",
   "status": "proved",
   "theorems": [
    "Verif.Math.determinant_correct",
    "Verif.Math.determinant_laws"
   ],
   "note": "Over a commutative ring/field or the reals, not over rounded floating point."
  },
  {
   "property": "C68",
   "status": "proved",
   "theorems": [
    "Verif.Math.transpose_outer_hadamard"
   ],
   "note": "Over a commutative ring/field or the reals, not over rounded floating point."
  },
  {
   "property": "C69",
   "status": "proved",
   "theorems": [
    "Verif.Math.translate_scale"
   ],
   "note": "Over a commutative ring/field or the reals, not over rounded floating point."
  },
  {
   "property": "C70",
   "status": "proved",
   "theorems": [
    "Verif.Math.rotate_turns",
    "Verif.Math.rotate_is_rotation",
    "Verif.Math.rotate_orientation"
   ],
   "note": "Over a commutative ring/field or the reals, not over rounded floating point."
  },
  {
   "property": "C71",
   "status": "proved",
   "theorems": [
    "Verif.Math.perspective_maps_frustum"
   ],
   "note": "Over a commutative ring/field or the reals, not over rounded floating point."
  },
  {
   "property": "C72",
   "status": "partial",
   "theorems": [
    "Verif.Math.frustum_partial",
    "Verif.Math.frustum_exact",
    "Verif.Math.frustum_wrong",
    "Verif.Math.ieee_frustum_near_wrong"
   ],
   "note": "False for off-centre frusta and for every frustum whose right edge is at the near distance; see the theorem for what holds."
  },
  {
   "property": "C73",
   "status": "partial",
   "theorems": [
    "Verif.Math.ortho_partial",
    "Verif.Math.ortho_wrong",
    "Verif.Math.ortho_exact"
   ],
   "note": "False for every box: the depth is never right. The exact theorem says for which boxes the other faces are."
  },
  {
   "property": "C74",
   "status": "partial",
   "theorems": [
    "Verif.Math.handedness_partial",
    "Verif.Math.handedness_view_partial",
    "Verif.Math.handedness_wrong",
    "Verif.Math.handedness_exact"
   ],
   "note": "False: with XME_MATH_CLIP_LH, perspective(fov,...) is the right-handed projection with near and far exchanged."
  },
  {
   "property": "C75",
   "status": "proved",
   "theorems": [
    "Verif.Math.quaternion_algebra"
   ],
   "note": "Over a commutative ring/field or the reals, not over rounded floating point."
  },
  {
   "property": "C76",
   "status": "proved",
   "theorems": [
    "Verif.Math.Trig.radians_degrees",
    "Verif.Math.Trig.radians_linear",
    "Verif.Math.Trig.radians_true",
    "Verif.Math.Trig.radians_180",
    "Verif.Math.Trig.reciprocals",
    "Verif.Math.Trig.pythagorean"
   ],
   "note": "Over the reals; for rounding see C86."
  },
  {
   "property": "C77",
   "status": "proved",
   "theorems": [
    "Verif.Math.Const.e_near",
    "Verif.Math.Const.e_sqr_near",
    "Verif.Math.Const.e_pow_pi_near",
    "Verif.Math.Const.pi_near",
    "Verif.Math.Const.two_pi_near",
    "Verif.Math.Const.two_over_pi_near",
    "Verif.Math.Const.pi_over_two_near",
    "Verif.Math.Const.pi_sqr_near",
    "Verif.Math.Const.inv_pi_near",
    "Verif.Math.Const.tau_near",
    "Verif.Math.Const.log2_e_near",
    "Verif.Math.Const.log10_e_near",
    "Verif.Math.Const.ln_two_near",
    "Verif.Math.Const.ln_ten_near",
    "Verif.Math.Const.sqrt_two_near",
    "Verif.Math.Const.sqrt_three_near",
    "Verif.Math.Const.sqrt_five_near",
    "Verif.Math.Const.sqrt_e_near",
    "Verif.Math.Const.sqrt_pi_near",
    "Verif.Math.Const.sqrt_two_pi_near",
    "Verif.Math.Const.sqrt_two_pi_e_near",
    "Verif.Math.Const.inv_sqrt_pi_near",
    "Verif.Math.Const.cbrt_two_near",
    "Verif.Math.Const.inv_fibonacci_near",
    "Verif.Math.Const.phi_near",
    "Verif.Math.Const.catalan_near",
    "Verif.Math.Const.euler_near",
    "Verif.Math.Const.gauss_near",
    "Verif.Math.Const.plastic_near",
    "Verif.Math.Const.zeta_two_near",
    "Verif.Math.Const.zeta_three_near",
    "Verif.Math.Const.zeta_four_near"
   ],
   "note": "Every literal of the header is within a relative error of 2^-64 of the number it names. For the rounding of the literal to the type see C86."
  },
  {
   "property": "C78",
   "status": "partial",
   "theorems": [
    "Verif.Lib.shared_library_partial",
    "Verif.Lib.shared_library_close_wrong",
    "Verif.Lib.shared_library_open_wrong",
    "Verif.Lib.shared_library_exact",
    "Verif.Lib.shared_library_is_open_exact",
    "Verif.Lib.shared_library_null_wrong"
   ],
   "note": "False as stated: close() leaves the handle in place, so is_open() stays true and the destructor closes it again; open() on an open object loses the old handle for good. Holds for histories that open only objects holding nothing and close only directly before opening again. The exact theorems say for every history whatever how often each library is closed, when that is once, and when is_open() tells the truth."
  },
  {
   "property": "C79",
   "status": "partial",
   "theorems": [
    "Verif.Env.environment_partial",
    "Verif.Env.environment_value_wrong",
    "Verif.Env.environment_name_wrong",
    "Verif.Env.environment_undefined"
   ],
   "note": "False as stated: the views are passed on by data(), so the C functions read up to the next zero byte of the buffer. Holds for views followed by a zero byte."
  },
  {
   "property": "C80",
   "status": "proved",
   "theorems": [
    "Verif.Simd.simd_use_iff",
    "Verif.Simd.simd_downward_closed",
    "Verif.Simd.simd_flags",
    "Verif.Simd.simd_operators"
   ],
   "note": ""
  },
  {
   "property": "C81",
   "status": "partial",
   "theorems": [
    "Verif.Math.rotate_integer_axis_partial",
    "Verif.Math.rotate_integer_axis_wrong",
    "Verif.Math.rotate_integer_axis_iff"
   ],
   "note": "False for integer axes: 1 - cos is truncated. Proved exactly for the multiples of a quarter turn, and what the others do to the axis."
  },
  {
   "property": "C82",
   "status": "proved",
   "theorems": [
    "Verif.Arr.array_pointers_stable",
    "Verif.Arr.array_pointers_invalidated",
    "Verif.Arr.array_pointers_elsewhere",
    "Verif.Arr.array_pointers_handed_over",
    "Verif.Arr.array_reserve_then_push"
   ],
   "note": "The first three also cover class types for the calls that treat them correctly (see C12)."
  },
  {
   "property": "C83",
   "status": "proved",
   "theorems": [
    "Verif.Math.fp_vector_exact",
    "Verif.Math.fp_dot_exact",
    "Verif.Math.fp_length_exact",
    "Verif.Math.fp_cross_exact",
    "Verif.Math.fp_identity_exact",
    "Verif.Math.fp_transform_exact",
    "Verif.Math.fp_select_exact",
    "Verif.Math.fp_add_not_assoc"
   ],
   "note": "Floating-point numbers with unbounded exponent: no overflow, underflow, infinities, NaN or fused multiply-add, and the two zeros are one."
  },
  {
   "property": "C84",
   "status": "proved",
   "theorems": [
    "Verif.Math.fp_dot_error",
    "Verif.Math.fp_length_error",
    "Verif.Math.fp_distance_error",
    "Verif.Math.fp_normalize_error",
    "Verif.Math.fp_matrix_error",
    "Verif.Math.fp_cross_error",
    "Verif.Math.fp_lerp_error"
   ],
   "note": "Floating-point numbers with unbounded exponent: no overflow, underflow, infinities, NaN or fused multiply-add."
  },
  {
   "property": "C85",
   "status": "proved",
   "theorems": [
    "Verif.Math.fp_determinant_error",
    "Verif.Math.fp_quaternion_error",
    "Verif.Math.fp_reflect_error",
    "Verif.Math.fp_translate_scale_error",
    "Verif.Math.fp_rotate_error"
   ],
   "note": "Floating-point numbers with unbounded exponent, as for C84. What the exact rotate does is C70."
  },
  {
   "property": "C86",
   "status": "proved",
   "theorems": [
    "Verif.Math.fp_constant_error",
    "Verif.Math.fp_angle_error"
   ],
   "note": "Floating-point numbers with unbounded exponent, as for C84. The hypothesis of the first theorem is what the theorems of C77 say of each constant."
  },
  {
   "property": "C87",
   "status": "proved",
   "theorems": [
    "Verif.Ranges.fill_n_all_or_nothing"
   ],
   "note": "Iterators are pointers; destructors do not throw."
  },
  {
   "property": "C88",
   "status": "partial",
   "theorems": [
    "Verif.Ranges.copy_partial",
    "Verif.Ranges.copy_throw_wrong",
    "Verif.Ranges.copy_throw_exact"
   ],
   "note": "False as stated: the handler destroys from the input iterator to the output iterator. Whenever a constructor throws, the behaviour is undefined or the source element whose copying failed is destroyed. Holds when no constructor throws."
  },
  {
   "property": "C89",
   "status": "proved",
   "theorems": [
    "Verif.Ranges.destroy_exact",
    "Verif.Ranges.destroy_undefined_exact"
   ],
   "note": "Iterators are pointers; destructors do not throw; elements that are arrays are not modelled."
  },
  {
   "property": "C90",
   "status": "partial",
   "theorems": [
    "Verif.Math.int_vector_signed",
    "Verif.Math.int_vector_unsigned",
    "Verif.Math.int_vector_narrow",
    "Verif.Math.int_vector_uint16_wrong"
   ],
   "note": "False for unsigned 16-bit components only: they are promoted to int, and 65535 * 65535 overflows it. Everything else is proved."
  },
  {
   "property": "C91",
   "status": "partial",
   "theorems": [
    "Verif.Math.int_dot_signed",
    "Verif.Math.int_dot_modular",
    "Verif.Math.int_geometry_exact",
    "Verif.Math.int_geometry_modular",
    "Verif.Math.int_dot_uint16",
    "Verif.Math.int_cross_uint16",
    "Verif.Math.int_geometry_uint16",
    "Verif.Math.int_faceforward_unsigned_wrong",
    "Verif.Math.int_faceforward_narrow_wrong"
   ],
   "note": "False for faceforward with unsigned components, which always negates, and for faceforward with components narrower than int whose dot product leaves the range of the type. The theorems give what every other call computes and exactly when it is undefined, for all integer types."
  },
  {
   "property": "C92",
   "status": "partial",
   "theorems": [
    "Verif.Math.int_length_signed_partial",
    "Verif.Math.int_length_unsigned_partial",
    "Verif.Math.int_length_unsigned_wrong",
    "Verif.Math.int_length_narrow_partial",
    "Verif.Math.int_length_narrow_wrong",
    "Verif.Math.int_length_wide_wrong",
    "Verif.Math.int_length4_partial",
    "Verif.Math.int_length4_wrong"
   ],
   "note": "False as stated: the squares are added in the component type (or int), the root of a 64-bit sum is rounded, and a vector of four returns a double. The theorems give the exact conditions per type."
  },
  {
   "property": "C93",
   "status": "partial",
   "theorems": [
    "Verif.Math.int_scale_partial",
    "Verif.Math.int_scale_exact",
    "Verif.Math.int_scale_wrong"
   ],
   "note": "False: the scalar is converted to the component type first, so 0.5 acts as 0. Proved for whole-number scalars; int_scale_exact says what every other scalar does."
  },
  {
   "property": "C94",
   "status": "partial",
   "theorems": [
    "Verif.Math.lerp_int_partial",
    "Verif.Math.lerp_int_exact",
    "Verif.Math.lerp_unsigned_wrong"
   ],
   "note": "False for unsigned percentages above 1: 1 - p wraps around. Proved whenever 1 - p fits; lerp_int_exact covers every type and percentage. The components are real numbers here."
  },
  {
   "property": "C95",
   "status": "proved",
   "theorems": [
    "Verif.Math.vector_parts",
    "Verif.Math.vector_args",
    "Verif.Math.convert_components",
    "Verif.Math.embed_acts",
    "Verif.Math.quaternion_index"
   ],
   "note": "The converting constructor of a 4x4 matrix from another component type does not compile (matrix4x4.hpp 66-68); the assignment does. Columns of another component type compile only with one component or more than four. Which calls compile is C158."
  },
  {
   "property": "C96",
   "status": "proved",
   "theorems": [
    "Verif.Math.compare_first_difference",
    "Verif.Math.compare_total_order",
    "Verif.Math.compare_total_order_matrix",
    "Verif.Math.compare_nan"
   ],
   "note": ""
  },
  {
   "property": "C97",
   "status": "proved",
   "theorems": [
    "Verif.ConstIt.const_iterator_laws",
    "Verif.ConstIt.const_iterator_traverses",
    "Verif.ConstIt.const_iterator_const"
   ],
   "note": "The conversion from a wrapper of another iterator type does not compile and is not covered; iterators that return values or proxies are not covered by the last theorem."
  },
  {
   "property": "C98",
   "status": "partial",
   "theorems": [
    "Verif.AD.aligned_data_partial",
    "Verif.AD.aligned_data_wrong"
   ],
   "note": "False for every Align below alignof(T), which is accepted. Proved for the others."
  },
  {
   "property": "C99",
   "status": "proved",
   "theorems": [
    "Verif.Math.ieee_dot_length_error",
    "Verif.Math.ieee_normalize_error",
    "Verif.Math.ieee_cross_lerp_reflect_error",
    "Verif.Math.ieee_matrix_error",
    "Verif.Math.ieee_determinant_error",
    "Verif.Math.ieee_quaternion_error",
    "Verif.Math.ieee_translate_scale_error"
   ],
   "note": "IEEE 754 values with limited exponent; the exceptions are recorded by running the same model code on values paired with a sticky flag. Not modelled: rounding modes other than nearest-even, fused multiply-add, flush-to-zero, wider intermediate types; there is one NaN."
  }
 ]
}