{"id": "C01", "title": "Contiguous addressing is a bijection", "statement": "For a container with row-major or column-major layout, element access with an in-bounds index reads buffer position in [0,size); two different in-bounds indices never share a position and every position of the buffer is some element's. Row-major positions are the rank in last-axis-fastest order, column-major in first-axis-fastest order.", "quantifier": "every number of dimensions, every shape (including 0 and 1 extents), every in-bounds index, both layouts", "why_tests_cant": "The set of shapes is infinite and axes of length 1 get a zero stride, so sampling shapes cannot exclude a collision for some other shape.", "anchors": ["include/xtensor/core/xstrides.hpp: compute_strides, adapt_strides, data_offset, element_offset", "include/xtensor/containers/xcontainer.hpp: operator(), element"]}
{"id": "C02", "title": "Strides and size computed from a shape", "statement": "Computing strides returns the product of the extents as buffer size, gives every axis of length 1 stride 0, and every backstride equals stride*(extent-1); the user-visible strides(e) report fills the zero strides of unit axes with the ordinary contiguous stride.", "quantifier": "every shape, both layouts, every axis", "why_tests_cant": "Product/recurrence property over unbounded dimension count.", "anchors": ["include/xtensor/core/xstrides.hpp: compute_strides, adapt_strides, compute_size, strides, compute_stride_impl"]}
{"id": "C03", "title": "ravel_index and unravel_index are mutually inverse", "statement": "For every shape without zero extent, unravel_index of a flat position below the size is an in-bounds index whose ravel_index is that position, and unravel_index(ravel_index(i)) = i for every in-bounds i; the order is that of the layout; a dynamic layout is rejected.", "quantifier": "every shape, flat position, in-bounds index, both layouts", "why_tests_cant": "Inverse law over an infinite domain; unit axes take a separate branch (division by a zero stride is skipped).", "anchors": ["include/xtensor/core/xstrides.hpp: unravel_noexcept, unravel_from_strides, unravel_index, ravel_index, ravel_from_strides"]}
{"id": "C04", "title": "Broadcast result shape follows the NumPy rule", "statement": "The shape of an expression over several operands is the right-aligned broadcast of the operands' shapes: each output extent is the common non-unit extent, or 1; an error is raised exactly when two operands disagree on a non-unit extent. The result (or error) does not depend on operand order or grouping.", "quantifier": "any number of operands, any shapes, any order", "why_tests_cant": "Commutativity/associativity and exact error characterisation over all lists of shapes.", "anchors": ["include/xtensor/core/xstrides.hpp: broadcast_shape, uninitialized_shape", "include/xtensor/core/xfunction.hpp: compute_cached_shape, broadcast_shape"]}
{"id": "C05", "title": "Trivial-broadcast flag is exact", "statement": "The flag that lets assignment use flat (linear) traversal is true if and only if every operand already has exactly the result shape.", "quantifier": "any list of operand shapes", "why_tests_cant": "A single missed combination (unit vs non-unit, different dimension count) silently selects the wrong copy loop; the combinations are unbounded.", "anchors": ["include/xtensor/core/xstrides.hpp: broadcast_shape", "include/xtensor/core/xfunction.hpp: broadcast_shape", "include/xtensor/core/xassign.hpp: resize, assign_xexpression"]}
{"id": "C06", "title": "broadcastable agrees with broadcasting", "statement": "A source shape is accepted for broadcasting into a fixed destination shape exactly when broadcasting it into that shape succeeds and leaves the destination shape unchanged.", "quantifier": "every pair of shapes", "why_tests_cant": "Two separately written predicates must agree on all pairs of shapes.", "anchors": ["include/xtensor/core/xstrides.hpp: broadcastable, broadcast_shape", "include/xtensor/core/xassign.hpp: assert_compatible_shape"]}
{"id": "C07", "title": "Argument-count leniency of element access", "statement": "Calling a(i...) with fewer arguments than dimensions equals padding the index with leading zeros; with more arguments equals dropping the leading ones; with a trailing xt::missing the index is padded with trailing zeros. a.element(first,last) obeys the same first two rules and a[{...}] agrees with a(...).", "quantifier": "any strides, any argument count, any arguments", "why_tests_cant": "Relates argument packs of every length to every dimension count.", "anchors": ["include/xtensor/core/xstrides.hpp: data_offset, raw_data_offset, element_offset"]}
{"id": "C08", "title": "unchecked access equals checked access", "statement": "For an in-bounds index with exactly as many arguments as dimensions, unchecked(i...) addresses the same element as operator()(i...), for every static layout even though the innermost stride is skipped for row/column-major.", "quantifier": "every shape, in-bounds index and static layout", "why_tests_cant": "The fast path drops the innermost stride, which is 0 (not 1) for unit axes; only a proof covers every shape.", "anchors": ["include/xtensor/core/xstrides.hpp: layout_data_offset, unchecked_data_offset", "include/xtensor/containers/xcontainer.hpp: unchecked"]}
{"id": "C09", "title": "at() is memory safe", "statement": "at(i...) on a contiguous container either throws or addresses a position inside the buffer; for a full-arity call with every argument in range it never throws, and a full-arity call with an argument out of range (negative included) on an axis whose extent is not 1 always throws.", "quantifier": "every shape, argument list, layout", "why_tests_cant": "Safety over all integer arguments, including negative ones converted to unsigned.", "anchors": ["include/xtensor/utils/xexception.hpp: check_index, check_dimension, check_access", "include/xtensor/core/xaccessible.hpp: at"]}
{"id": "C10", "title": "in_bounds tells whether an index is valid", "statement": "in_bounds(i...) is true exactly when the element a(i...) would address is a valid element, i.e. when each argument lies in [0, extent) of the axis it is applied to by operator().", "quantifier": "every shape, argument list", "why_tests_cant": "Equivalence between two independently implemented argument alignments.", "anchors": ["include/xtensor/core/xstrides.hpp: check_in_bounds", "include/xtensor/core/xaccessible.hpp: in_bounds"]}
{"id": "C11", "title": "periodic access is indexing modulo the extents", "statement": "periodic(i...) equals a(i0 mod n0, i1 mod n1, ...), is invariant under adding a multiple of an extent to an argument, and never leaves the buffer.", "quantifier": "every shape with non-zero extents, every (possibly negative) argument list", "why_tests_cant": "Holds for unbounded integers; depends on C++ truncating remainder being corrected.", "anchors": ["include/xtensor/core/xstrides.hpp: normalize_periodic", "include/xtensor/core/xaccessible.hpp: periodic"]}
{"id": "C12", "title": "Layout combination table", "statement": "Combining operand layouts is associative, commutative and idempotent with 'any' as identity and 'dynamic' absorbing; the result is row_major (column_major) exactly when all operands are row_major (column_major) or any, and not all any.", "quantifier": "any number of operands", "why_tests_cant": "Arbitrary operand counts.", "anchors": ["include/xtensor/core/xlayout.hpp: compute_layout, default_assignable_layout, layout_remove_any"]}
{"id": "C13", "title": "Contiguity test is sound and complete", "statement": "When the contiguity test accepts (shape, strides) for a layout, every in-bounds index is stored at its row/column-major rank; the strides the library computes itself always pass; and for shapes with no zero extent a stride vector that stores every index at its rank and is zero on unit axes always passes.", "quantifier": "every shape and stride vector", "why_tests_cant": "Quantifies over arbitrary user supplied strides.", "anchors": ["include/xtensor/core/xstrides.hpp: do_strides_match, stride_match_condition", "include/xtensor/containers/xcontainer.hpp: is_contiguous"]}
{"id": "C14", "title": "Container invariant under any history of resizes and reshapes", "statement": "After any finite sequence of construct / resize / reshape calls, successful or throwing, the container's strides, backstrides and storage size are those of its current shape and layout, so every in-bounds access stays inside the storage.", "quantifier": "every history of operations", "why_tests_cant": "Histories are unbounded; an operation that updates shape but not strides only shows on particular sequences.", "anchors": ["include/xtensor/containers/xcontainer.hpp: xstrided_container::resize, reshape, reshape_impl"]}
{"id": "C15", "title": "reshape keeps the flattened data", "statement": "A successful reshape (with unsigned or signed extents, with one -1 inferred) yields a shape with the same number of elements and the same elements in storage order; a size mismatch throws and changes nothing. An inferred extent is the unique one that preserves the size.", "quantifier": "every old/new shape pair, every layout", "why_tests_cant": "All pairs of shapes with equal product; the inferred extent uses integer division.", "anchors": ["include/xtensor/containers/xcontainer.hpp: reshape, reshape_impl"]}
{"id": "C16", "title": "Range slices select what Python slices select", "statement": "range(start, stop, step) with any combination of omitted, negative or out-of-range bounds selects on an axis of length n exactly the positions of Python's slice(start, stop, step), in the same order; in particular every selected position is inside the axis.", "quantifier": "every start, stop (present or omitted), non-zero step and axis length", "why_tests_cant": "Unbounded integers; sign combinations and clipping.", "anchors": ["include/xtensor/views/xslice.hpp: xrange_adaptor::normalize, get_size, get; xrange, xstepped_range"]}
{"id": "C17", "title": "keep and drop slices", "statement": "keep(i...) selects exactly the listed positions (negative ones counted from the end) in order; drop(i...) selects exactly the remaining positions in increasing order.", "quantifier": "every axis length and index list", "why_tests_cant": "The drop implementation uses an increment table; correctness is an inductive property of that table.", "anchors": ["include/xtensor/views/xslice.hpp: xkeep_slice, xdrop_slice"]}
{"id": "C18", "title": "A view reads and writes exactly the selected elements", "statement": "view(e, slices...)(i...) is e(...) at the position obtained by substituting each slice's i-th position for ranges, the integer for integral slices, nothing for newaxis, and identity for trailing axes; the view's shape lists the slice sizes; writing through a view changes only selected elements.", "quantifier": "every parent shape, slice list and index", "why_tests_cant": "Combination of arbitrarily many slices of different kinds; integral and newaxis slices shift the axis correspondence.", "anchors": ["include/xtensor/views/xview.hpp: access, index, compute_shape", "include/xtensor/views/xview_utils.hpp: integral_skip, newaxis_skip, integral_count_before, newaxis_count_before"]}
{"id": "C19", "title": "View strides and data offset agree with element access", "statement": "For a view on a strided expression, data_offset + sum(index*stride) is the buffer position that element access through the view reaches.", "quantifier": "every slice list, parent strides and index", "why_tests_cant": "Two code paths (strides and index mapping) must agree for every slice combination.", "anchors": ["include/xtensor/views/xview.hpp: data_offset_impl, compute_strides_impl"]}
{"id": "C20", "title": "Dynamic strided views with ellipsis and newaxis", "statement": "strided_view(e, slices) has, for every slice vector containing integers, ranges, all, newaxis and at most one ellipsis, the shape, offset and strides that address exactly the elements NumPy basic indexing selects, all inside the parent.", "quantifier": "every parent shape/strides and slice vector", "why_tests_cant": "Unbounded slice vectors; ellipsis expansion depends on counts of the other slices.", "anchors": ["include/xtensor/views/xstrided_view_base.hpp: strided_view_args::fill_args"]}
{"id": "C21", "title": "Views compose", "statement": "A view of a view addresses the element given by composing the two slice maps, to any depth, and range slices of range slices are again ranges.", "quantifier": "every tower of slices", "why_tests_cant": "Arbitrary nesting depth.", "anchors": ["include/xtensor/views/xview.hpp", "include/xtensor/views/xslice.hpp"]}
{"id": "C22", "title": "Iteration visits every element once in the requested order", "statement": "Iterating from begin<L>() to end<L>() yields exactly size() elements, the k-th being the element with the k-th multi-index in order L, whatever the strides of the underlying storage and also when the expression is iterated under a larger broadcast shape.", "quantifier": "every shape, strides, traversal order, broadcast shape", "why_tests_cant": "Inductive property of carry propagation over all dimension counts.", "anchors": ["include/xtensor/core/xiterator.hpp: stepper_tools::increment_stepper, xstepper, xiterator"]}
{"id": "C23", "title": "Random access iterator arithmetic equals repeated stepping", "statement": "it += n has the same effect as n increments and it -= n as n decrements; ++ followed by -- restores the iterator; end - begin = size.", "quantifier": "every shape, order, start position and n", "why_tests_cant": "Multi-digit carry logic over every n.", "anchors": ["include/xtensor/core/xiterator.hpp: stepper_tools::increment_stepper(n), decrement_stepper(n)"]}
{"id": "C24", "title": "All assignment loops compute the same result", "statement": "Assigning an expression writes to each destination index the value of the expression at that index, whichever loop (flat, strided inner/outer loop, general stepper loop) the dispatcher selects.", "quantifier": "every shape, operand strides, broadcast pattern, loop selection", "why_tests_cant": "Dispatcher picks loops from strides and layouts; equality must hold for all of them.", "anchors": ["include/xtensor/core/xassign.hpp: assign_data, linear_assigner, stepper_assigner, strided_loop_assigner, get_loop_sizes"]}
{"id": "C25", "title": "Vectorised flat loop covers each position exactly once", "statement": "The SIMD/unrolled flat assignment (scalar head until aligned, packed body, scalar tail) processes every index in [0,n) exactly once and no other, for every alignment and pack width.", "quantifier": "every n, alignment offset, pack size", "why_tests_cant": "Off-by-one in head/body/tail appears only for particular n, alignment pairs.", "anchors": ["include/xtensor/core/xassign.hpp: linear_assigner::run", "include/xtensor/utils/xutils.hpp: get_alignment_offset"]}
{"id": "C26", "title": "Parallel assignment is schedule independent", "statement": "Splitting the outer loop of an assignment among any number of workers, executed in any interleaving, produces the same destination as the sequential loop.", "quantifier": "every outer size, worker partition, schedule", "why_tests_cant": "Schedules cannot be enumerated by tests.", "anchors": ["include/xtensor/core/xassign.hpp: strided_loop_assigner::run (TBB/OpenMP branches), idx_tools::nth_idx, linear_assigner (parallel branches)"]}
{"id": "C27", "title": "Assignment is safe under aliasing", "statement": "a = expr gives the value of expr evaluated before the assignment even when expr reads a (or views of a).", "quantifier": "every expression, every view geometry", "why_tests_cant": "Depends on a conservative overlap test that must never report a false negative.", "anchors": ["include/xtensor/utils/xutils.hpp: memory_range, overlapping_memory_checker", "include/xtensor/core/xsemantic.hpp: operator=, assign_temporary"]}
{"id": "C28", "title": "Compound assignment means a = a op b", "statement": "a op= b leaves a equal elementwise to the old a op b under broadcasting: b is broadcast into a, and a is replaced when b is larger; incompatible shapes throw and leave a unchanged.", "quantifier": "every pair of shapes", "why_tests_cant": "Case split on shape comparison over all pairs of shapes.", "anchors": ["include/xtensor/core/xassign.hpp: computed_assign", "include/xtensor/core/xsemantic.hpp: computed_assign"]}
{"id": "C29", "title": "Scalar compound assignment touches exactly the elements", "statement": "a op= scalar applies the operation once to every element of a and changes nothing else in the underlying buffer.", "quantifier": "every container/adaptor shape and strides", "why_tests_cant": "Quantifies over adaptors with arbitrary strides.", "anchors": ["include/xtensor/core/xassign.hpp: scalar_computed_assign", "include/xtensor/core/xsemantic.hpp: scalar_computed_assign"]}
{"id": "C30", "title": "Lazy reduction is the fold over the reduced axes", "statement": "Each element of a lazy reduction over a set of axes is the fold of the reducer over all elements whose kept coordinates match, in index order, starting from the given initial value; the shape is the input shape with the axes removed (or set to 1 with keep_dims).", "quantifier": "every shape, every axis subset, every reduction function", "why_tests_cant": "Nested loops over arbitrary axis subsets and dimension counts.", "anchors": ["include/xtensor/reducers/xreducer.hpp: xreducer_stepper::aggregate, aggregate_impl, xreducer"]}
{"id": "C31", "title": "Immediate reduction equals lazy reduction", "statement": "Evaluating a reduction with the immediate strategy gives the same array as the lazy strategy for associative-commutative reducers.", "quantifier": "every shape, layout, axis set", "why_tests_cant": "Two very different loop structures must coincide.", "anchors": ["include/xtensor/reducers/xreducer.hpp: reduce_immediate"]}
{"id": "C32", "title": "Accumulation is the prefix fold along the axis", "statement": "cumsum/cumprod and general accumulators along an axis give at every index the left fold of the elements with smaller or equal coordinate on that axis; the flat form is the prefix fold of the flattened data; an axis out of range throws.", "quantifier": "every shape, axis, layout, binary operation", "why_tests_cant": "In-place loop with computed bounds over all shapes.", "anchors": ["include/xtensor/reducers/xaccumulator.hpp: accumulator_impl"]}
{"id": "C33", "title": "Transposition permutes indices", "statement": "transpose(e, perm)(i) = e(i o perm^-1) with the permuted shape; transposing with perm then its inverse gives back e; plain transpose reverses the axes and is an involution; invalid permutations are rejected.", "quantifier": "every dimension count and permutation", "why_tests_cant": "All permutations of all lengths.", "anchors": ["include/xtensor/misc/xmanipulation.hpp: transpose, transpose_impl"]}
{"id": "C34", "title": "swapaxes and moveaxis build valid permutations", "statement": "swapaxes exchanges exactly the two axes; moveaxis moves one axis to the target position keeping the order of the others; both accept negative axes and throw when out of range.", "quantifier": "every dimension count, axis pair", "why_tests_cant": "All dimension counts.", "anchors": ["include/xtensor/misc/xmanipulation.hpp: swapaxes, moveaxis"]}
{"id": "C35", "title": "flip and rot90 group laws", "statement": "flip reverses one axis (or all), is an involution and stays inside the parent buffer; rot90 applied four times is the identity and rot90<k> is k applications of rot90<1>.", "quantifier": "every shape, strides, axis pair", "why_tests_cant": "Laws over arbitrary strides and dimension counts.", "anchors": ["include/xtensor/misc/xmanipulation.hpp: flip, rot90"]}
{"id": "C36", "title": "roll is a cyclic shift", "statement": "roll(e, k) moves the flattened element at position p to (p+k) mod size and roll(e,k,axis) does the same along the axis, for any integer k; roll(roll(e,k),-k)=e.", "quantifier": "every shape, k, axis", "why_tests_cant": "Unbounded k, including negative and larger than the extent.", "anchors": ["include/xtensor/misc/xmanipulation.hpp: roll, detail::roll"]}
{"id": "C37", "title": "squeeze, expand_dims and atleast_Nd keep the elements", "statement": "squeeze removes exactly the unit axes, expand_dims inserts exactly one unit axis at the given place, atleast_Nd prepends/appends unit axes up to N; none of them moves an element; expand_dims then squeeze of that axis is the identity.", "quantifier": "every shape, strides, axis", "why_tests_cant": "All shapes and stride patterns (including broadcast zero strides).", "anchors": ["include/xtensor/misc/xmanipulation.hpp: squeeze, expand_dims, atleast_Nd"]}
{"id": "C38", "title": "arange has ceil((stop-start)/step) elements", "statement": "arange(start, stop, step) over integers has max(0, ceil((stop-start)/step)) elements start+k*step; all lie in the half-open interval and the next one would not.", "quantifier": "every start, stop, step", "why_tests_cant": "Unbounded integers, both step signs.", "anchors": ["include/xtensor/generators/xbuilder.hpp: arange, arange_generator, arange_size"]}
{"id": "C39", "title": "concatenate and stack", "statement": "concatenate along an axis has the summed extent on that axis and element i comes from the operand whose block contains i; stack inserts a new axis of operand count; mismatched shapes throw. Splitting a concatenation at the block boundaries returns the operands.", "quantifier": "any number of operands, shapes, axis", "why_tests_cant": "Block search loop over arbitrary operand lists.", "anchors": ["include/xtensor/generators/xbuilder.hpp: concatenate_access, concat_shape_builder, stack_access"]}
{"id": "C40", "title": "Triangular, diagonal and identity builders", "statement": "tril(e,k) keeps elements with col <= row+k and zeroes the rest, triu(e,k) the complementary shifted set; eye(n,m,k) is 1 exactly on col = row+k; diag puts the vector on diagonal k of a square matrix and diagonal extracts it (diagonal(diag(v,k),k) = v).", "quantifier": "every size, offset k", "why_tests_cant": "Unbounded integer offsets.", "anchors": ["include/xtensor/generators/xbuilder.hpp: tril, triu, eye, diag, diagonal, trilu_fn, diagonal_fn, diag_fn, eye_fn"]}
{"id": "C41", "title": "sort and argsort along an axis", "statement": "sort(e, axis) replaces each 1-d line along the axis by its sorted permutation and nothing crosses lines; argsort returns for each line a permutation of 0..n-1 whose gather is that sorted line.", "quantifier": "every shape, axis, content, layout", "why_tests_cant": "All contents and shapes; lines are found by stride arithmetic.", "anchors": ["include/xtensor/misc/xsort.hpp: sort, argsort, call_over_leading_axis, get_permutations, map_axis"]}
{"id": "C42", "title": "partition and median", "statement": "After partition at kth positions, each kth position holds the element a full sort would put there, everything before is <= and everything after >=; the result is a permutation of the input; median is the middle element (mean of the two middle ones).", "quantifier": "every content, every list of kth", "why_tests_cant": "All contents and kth lists.", "anchors": ["include/xtensor/misc/xsort.hpp: partition, partition_iter, median"]}
{"id": "C43", "title": "argmin/argmax return the first extremum", "statement": "argmin (argmax) along an axis or over the flattened array returns the smallest position of a minimal (maximal) element.", "quantifier": "every content, shape, axis", "why_tests_cant": "All contents, ties included.", "anchors": ["include/xtensor/misc/xsort.hpp: argmin, argmax, arg_func_impl"]}
{"id": "C44", "title": "Set operations on arrays", "statement": "unique returns the sorted duplicate-free values; setdiff1d the sorted values of the first not in the second; isin tests membership elementwise; searchsorted returns the insertion point that keeps the array sorted on the requested side.", "quantifier": "every content", "why_tests_cant": "All contents; side convention is a boolean flag.", "anchors": ["include/xtensor/misc/xsort.hpp: unique, setdiff1d", "include/xtensor/misc/xset_operation.hpp: isin, searchsorted"]}
{"id": "C45", "title": "histogram and bincount conserve counts", "statement": "Every datum inside [first edge, last edge] is counted in exactly the bin containing it (last bin closed), data outside in none, so bin counts sum to the number (weight) of in-range data; bincount(v)[k] is the number (weight) of entries equal to k and density integrates to one.", "quantifier": "every data, edges, weights", "why_tests_cant": "All data multisets.", "anchors": ["include/xtensor/misc/xhistogram.hpp: histogram_imp, bincount, bin_items"]}
{"id": "C46", "title": "pad modes", "statement": "pad keeps the original block in place and fills the margins: constant with the value, edge with the nearest element, wrap periodically, reflect/symmetric with mirror images without/with repeating the border.", "quantifier": "every shape and pad widths admissible for the mode", "why_tests_cant": "Axis-by-axis slice copies compose over arbitrary dimension counts.", "anchors": ["include/xtensor/misc/xpad.hpp: pad, tile"]}
{"id": "C47", "title": "tile and repeat", "statement": "tile(e, reps) at i is e at i mod shape; repeat(e, r, axis) lists each slice along the axis r[k] times consecutively, its extent being the sum of repeats.", "quantifier": "every shape, repeat list", "why_tests_cant": "All repeat lists including zeros.", "anchors": ["include/xtensor/misc/xpad.hpp: tile", "include/xtensor/views/xrepeat.hpp: xrepeat, xrepeat_stepper"]}
{"id": "C48", "title": "Chunked array addressing", "statement": "In a chunked array each index maps to exactly one (chunk, position in chunk), the chunk lies on the chunk grid, the position inside the chunk shape, distinct indices never collide, and reading after writing an index returns the written value without affecting any other index.", "quantifier": "every shape, chunk shape, index, write history", "why_tests_cant": "All shapes incl. those not divisible by the chunk shape; arbitrary write histories.", "anchors": ["include/xtensor/chunk/xchunked_array.hpp: get_indexes, get_chunk_indexes, operator(), element", "include/xtensor/chunk/xchunked_view.hpp"]}
{"id": "C49", "title": "Chunk iteration partitions the array", "statement": "Iterating over chunks visits every chunk of the grid once, and the per-chunk slices partition the index set, so chunk-wise assignment writes every element exactly once.", "quantifier": "every shape and chunk shape", "why_tests_cant": "Edge chunks are clipped; partition must hold for all shapes.", "anchors": ["include/xtensor/chunk/xchunked_assign.hpp: xchunk_iterator, get_slice_vector, assign", "include/xtensor/chunk/xchunked_array.hpp"]}
{"id": "C50", "title": "NumPy file header round trip", "statement": "dump_npy then load_npy restores dtype, memory order, shape and data for every array.", "quantifier": "every shape, dtype string, order", "why_tests_cant": "Header length depends on the digits of the shape; padding/length encodings have boundary cases.", "anchors": ["include/xtensor/io/xnpy.hpp: write_header, read_header, parse_header, dump_npy, load_npy"]}
{"id": "C51", "title": "Small-vector refines a sequence", "statement": "xt::svector with any inline capacity behaves as a sequence under any history of push_back, pop_back, resize, assign, insert, erase, swap and copy; inline/heap transition is unobservable and capacity is never exceeded.", "quantifier": "every inline capacity, history", "why_tests_cant": "Unbounded histories crossing the inline/heap boundary.", "anchors": ["include/xtensor/containers/xstorage.hpp: svector"]}
{"id": "C52", "title": "Missing values propagate", "statement": "Arithmetic on optional expressions is present at an index exactly when every operand is present there, and then has the value of the plain operation.", "quantifier": "every expression, broadcast pattern", "why_tests_cant": "All expression trees.", "anchors": ["include/xtensor/optional/xoptional_assembly.hpp", "include/xtensor/optional/xoptional.hpp"]}
{"id": "C53", "title": "No overflow below the address limit", "statement": "If the product of the non-zero extents fits the signed offset type, every intermediate value in stride computation and in addressing an in-bounds index fits too, so machine arithmetic equals mathematical arithmetic.", "quantifier": "every shape and index", "why_tests_cant": "Boundary near 2^63 cannot be allocated in a test.", "anchors": ["include/xtensor/core/xstrides.hpp: compute_strides, data_offset, element_offset"]}
{"id": "C54", "title": "Lazy expressions always reflect their operands", "statement": "The shape and values of a lazy expression equal those obtained by broadcasting its operands' current shapes/values, for every history of operand resizes between uses.", "quantifier": "every history of operand mutations", "why_tests_cant": "Shape is cached; the cache is observable only on histories that resize an operand after first use.", "anchors": ["include/xtensor/core/xfunction.hpp: shape, dimension, m_cache"]}
{"id": "C55", "title": "split cuts an axis into equal consecutive pieces", "statement": "split(e, n, axis) returns n views; view i shows exactly the elements whose coordinate on the axis lies in [i*step,(i+1)*step) with step = extent/n, so every element of e is in exactly one view at exactly one place; an extent not divisible by n and a non-existent axis throw.", "quantifier": "every shape, strides, offset, axis and number of pieces", "why_tests_cant": "The partition statement ranges over all shapes, strides and piece counts, including views with offsets.", "anchors": ["include/xtensor/misc/xmanipulation.hpp: split, hsplit, vsplit"]}
{"id": "C56", "title": "linspace divides the interval evenly", "statement": "linspace(start, stop, n, endpoint) has n elements; element k is start + k*(stop-start)/(n-1) with the end point and start + k*(stop-start)/n without; the first is start, with n > 1 and end point the last is exactly stop; evaluating it gives the elements access reads.", "quantifier": "every start, stop, n, endpoint (exact arithmetic)", "why_tests_cant": "All counts and interval ends; agreement of two code paths (access and bulk assignment).", "anchors": ["include/xtensor/generators/xbuilder.hpp: linspace, arange_generator, arange_assign_to"]}
{"id": "C57", "title": "meshgrid", "statement": "Component i of meshgrid(x1, ..., xn) has shape (len x1, ..., len xn) and at index idx equals x_i[idx[i]].", "quantifier": "any number of one-dimensional arguments of any lengths", "why_tests_cant": "Unbounded arity and lengths.", "anchors": ["include/xtensor/generators/xbuilder.hpp: meshgrid, meshgrid_impl, repeat_impl"]}
{"id": "C58", "title": "bin_items distributes exactly N items", "statement": "bin_items(N, weights) returns one count per bin; the counts are non-negative, add up to exactly N, and each differs from N*w_i/sum(w) by at most one.", "quantifier": "every N and every list of non-negative weights with positive sum", "why_tests_cant": "All N and weight lists; the correction step depends on rounding excess and ordering of shares.", "anchors": ["include/xtensor/misc/xhistogram.hpp: bin_items"]}
{"id": "C59", "title": "Iteration over views of expressions and with keep/drop slices", "statement": "For a view v of any expression with any list of slices, iterating begin(shape)..end(shape) over v yields, for each index of shape in traversal order, the element of the expression that the slices select for the index broadcast to the view; iterating rbegin..rend yields the same elements in reverse order.", "quantifier": "all expressions, shapes, lists of integers, ranges, all, newaxis, keep and drop slices, both traversal orders, all shapes the view broadcasts to", "why_tests_cant": "The stepper moves the parent's stepper by differences of slice values and keeps one counter per slice; combinations of slices, orders and broadcast shapes are unbounded.", "anchors": ["include/xtensor/views/xview.hpp: xview_stepper, to_end_impl, common_step_forward, common_step_backward, common_reset", "include/xtensor/views/xslice.hpp: step_size, value"]}
{"id": "C60", "title": "argwhere, nonzero, index views, filter and filtration", "statement": "argwhere and nonzero return exactly the indices where the condition holds, once each, in traversal order. Reading filter(e, c) or index_view(e, indices) yields the listed elements, also when broadcast. Assigning f(operands) to such a view gives every listed element the value the operands had before at its position, even if they share elements with it, and changes nothing else; op= with a scalar acts once on each element. filtration(e, c) op= s applies the operation exactly to the elements where c held before.", "quantifier": "all shapes, layouts, conditions, lists of indices, operands overlapping or not, all operations and contents", "why_tests_cant": "Whether a temporary is used depends on the addresses of the first and last elements only; the conditions and index lists that make them misleading are unbounded.", "anchors": ["include/xtensor/views/xindex_view.hpp: xindex_view, xfiltration, filter, filtration", "include/xtensor/core/xoperation.hpp: next_idx, nonzero, argwhere", "include/xtensor/utils/xutils.hpp: memory_range, overlapping_memory_checker"]}
{"id": "C61", "title": "Iteration over slices along or across an axis", "statement": "for (it = axis_begin(e, axis); it != axis_end(e, axis); ++it) visits, in order and once each, the views e[..., k, ...] for k = 0 ... extent-1; for (it = axis_slice_begin(e, axis); it != axis_slice_end(e, axis); ++it) visits every one-dimensional slice along the axis exactly once, in the layout's order, and each slice has exactly the elements that agree outside the axis.", "quantifier": "all containers and strided views, any number of axes and extents, every axis, both layouts", "why_tests_cant": "The slice iterator finds its next offset from remainders of the offset; whether they are right depends on all extents, the axis and the offset of the storage.", "anchors": ["include/xtensor/views/xaxis_iterator.hpp", "include/xtensor/views/xaxis_slice_iterator.hpp"]}
{"id": "C62", "title": "Fourier transforms along an axis", "statement": "fft(e, axis) replaces every sequence x_0 ... x_(n-1) of elements along the axis by its discrete Fourier transform, sum over j of x_j exp(-2 pi i j k / n), for every length n, power of two or not; ifft(fft(e, axis), axis) gives e back; convolve(x, y, axis) is the circular convolution along the axis; axis -1, the default, is the last one.", "quantifier": "all shapes, axes, lengths and element values; exact arithmetic", "why_tests_cant": "The algorithm depends on the factorisation of the length, and the loop over slices on the shape and the axis; tests transform a few vectors and compare with tolerances.", "anchors": ["include/xtensor/misc/xfft.hpp", "include/xtensor/views/xaxis_slice_iterator.hpp"]}
{"id": "C63", "title": "Random permutations and samples", "statement": "Whatever the engine draws: shuffle(e) rearranges the elements, or the sub-arrays along the first axis, and changes nothing else; every rearrangement is the result of exactly one sequence of draws. choice(e, n, replace) returns n elements of e, without replacement at n different positions, and over all sequences of draws every position is sampled equally often. With weights an element is taken exactly for draws in an interval as long as its weight, and without replacement the n elements with the greatest keys are taken.", "quantifier": "all lengths, shapes, sample sizes, weights and sequences of draws", "why_tests_cant": "Tests fix a seed or check a few frequencies; the claims are about all sequences of draws and their exact counts.", "anchors": ["include/xtensor/generators/xrandom.hpp"]}
{"id": "C64", "title": "Sample quantiles along an axis", "statement": "quantile(e, probas, axis, alpha, beta) returns an array whose first axis has one entry per probability and whose other axes are the remaining axes of e; each entry is the Hyndman-Fan quantile of the values on its line: it interpolates linearly between the plotting positions of neighbouring values in sorted order, is the smallest value below the first position and the largest above the last. It does not decrease with the probability, at 1/2 it is the median when alpha = beta, and the named methods use the documented plotting positions.", "quantifier": "all expressions, axes, line lengths, lists of probabilities, parameters up to 1, and every order std::nth_element may leave", "why_tests_cant": "Tests compare a few small arrays with NumPy; the claim is about every length, probability and partial order left by nth_element.", "anchors": ["include/xtensor/misc/xsort.hpp"]}
{"id": "C65", "title": "Means, variances, averages and extrema over axes", "statement": "mean, variance (with ddof), average (with weights), nansum, nanprod, nanmean, nanvar, nanmin, nanmax, count_nonnan, amin, amax and minmax over a set of axes return, for every index of the remaining axes, that statistic of exactly the elements which differ only along the given axes: the arithmetic mean, the sum of squared deviations over (number - ddof), the weighted mean, the statistic of the values that are not NaN (NaN if none), the least and greatest element. Axes may be counted from the end.", "quantifier": "all expressions, shapes, sets of axes, layouts, kept or dropped axes, ddof and weights", "why_tests_cant": "Tests fix a few shapes with one axis and ddof at most 1; whether the divisor and the group of every result are right is a statement about all shapes, axes and ddof.", "anchors": ["include/xtensor/core/xmath.hpp", "include/xtensor/reducers/xreducer.hpp"]}
{"id": "C66", "title": "Differences, trapezoids, interpolation, unwrapping, covariance and convolution", "statement": "diff(e, n, axis) is the n-th finite difference along the axis, whose extent is reduced by n (not below 0). trapz is the area of the trapezoids below the elements along the axis, for a step or for given abscissae. interp(x, xp, fp) is the piecewise linear function through the points, constant outside (or left/right for x strictly outside). unwrap keeps the first element, changes others by multiples of the period, leaves differences below the discontinuity and makes the others at most half a period, and does not change its argument. cov(x) has at (i, j) the covariance of rows i and j. convolve has the sums of products of elements at positions with equal sum (full), or those of them for which the vectors overlap completely (valid).", "quantifier": "all shapes, axes, orders of difference, sorted abscissae, periods, discontinuities and vectors", "why_tests_cant": "Tests have single vectors; that every element of every line is right, also for orders beyond the extent, coinciding abscissae, half periods and different lengths, is a statement about all of them.", "anchors": ["include/xtensor/core/xmath.hpp"]}
{"id": "C67", "title": "Block-wise reducers", "statement": "blockwise::sum, prod, amin, amax, mean, variance, stddev and the norms of an array over a set of axes, computed chunk by chunk and assigned to an array of the shape of the result, give at every index what the reduction of the whole array gives: the sum, product, extremum, mean, variance, root of the variance or norm of the elements that differ from it only along the reduced axes. The result does not depend on the chunk shape.", "quantifier": "all shapes, layouts, chunk shapes with positive extents, sets of axes, kept or not, and values", "why_tests_cant": "Tests have a few chunk shapes of one array; that the blocks of every group are visited exactly once and partial results of unequal blocks are merged correctly for every shape and chunk shape is a statement about all of them.", "anchors": ["include/xtensor/reducers/xblockwise_reducer.hpp", "include/xtensor/reducers/xblockwise_reducer_functors.hpp", "include/xtensor/core/xmultiindex_iterator.hpp"]}
{"id": "C68", "title": "Comma separated values", "statement": "load_csv of a table, below skip_rows header lines and with comment lines anywhere, gives the array of its rows, or of the first max_rows of them, each cell converted to the element type; the following lines stay in the stream. A text that is not a table of numbers of the type is refused. dump_csv writes one line per row of any two-dimensional expression. Reading what was written gives an array of the same shape with the same elements.", "quantifier": "all numbers of rows and columns, expressions, delimiters, comment markers, numbers of skipped and wanted rows, element values and types", "why_tests_cant": "Tests read a few fixed texts; that no row, cell or digit is lost for any table, option and value is a statement about all texts and expressions.", "anchors": ["include/xtensor/io/xcsv.hpp"]}
{"id": "C69", "title": "JSON documents", "statement": "The document written for an expression is the nested list of its elements in index order. Reading it into a container of any layout gives an array of the same shape with the same elements. Reading it into a view overwrites the elements of the view and nothing else; a document of another shape is refused and nothing is written.", "quantifier": "all shapes, strides, offsets, layouts, elements, and documents", "why_tests_cant": "Tests have a few arrays of one or two axes; that each element lands at its index for every number of axes, layout and view, and that ill-shaped documents are refused, is a statement about all of them.", "anchors": ["include/xtensor/io/xjson.hpp"]}
{"id": "C70", "title": "Storages own their memory", "statement": "In any program that constructs, copies, moves, resizes, writes, exchanges and destroys storages (uvector, and adaptors that acquired ownership of a buffer), every storage holds the sequence of elements it should, independent of all others; no block of memory is used after it was released, released twice, or released with another allocator or size; when all storages are gone all memory was given back. Storages that were moved from can be assigned again. Comparisons are lexicographic. A buffer that is not owned is never released or resized.", "quantifier": "all histories of operations over any number of storages, trivial and class types, all sizes and values", "why_tests_cant": "Tests run short fixed histories and do not observe memory; absence of double release and leaks for every interleaving of copies, moves and resizes is an invariant over all histories.", "anchors": ["include/xtensor/containers/xstorage.hpp", "include/xtensor/containers/xbuffer_adaptor.hpp"]}
{"id": "C71", "title": "Printed arrays show every element at its place", "statement": "out << e writes the nested literal of e: braces per axis, commas between parts, blanks and line ends only before parts, and at each index the text of the element there, computed from all shown elements so that columns align. Above the threshold the middle of every axis longer than twice the edge items is replaced by one ellipsis and the items at both ends are shown. Options given by manipulators hold for one output, the stream's precision is kept, an array without elements prints as {}. Lines are not longer than the line width. The HTML table has one cell per shown element with its index and text. Arrays of integers printed in full can be read back.", "quantifier": "all shapes and element values, all option values, every printer of elements", "why_tests_cant": "Tests compare a few texts; that the cached values and the printed places agree for every shape, limit and line width, and that the loops end, is an induction over axes.", "anchors": ["include/xtensor/io/xio.hpp", "include/xtensor/io/xmime.hpp"]}
{"id": "C72", "title": "Norms over axes are the norms of the elements reduced together", "statement": "norm_l0, norm_l1, norm_sq, norm_l2, norm_linf, norm_lp and norm_lp_to_p over a set of axes have, at every place, the norm of the elements that differ only along those axes, for real, integer and complex elements; without axes the norm of the whole array. For p >= 1 norm_lp has the properties of a norm: triangle inequality, homogeneity, zero only for zero. norm_induced_l1 and norm_induced_linf of a matrix are its operator norms. Immediate evaluation gives the same values, and axes that do not exist are refused with an exception.", "quantifier": "all shapes, axes, element values, exponents and matrices", "why_tests_cant": "Tests compare a few small arrays with computed numbers; that the value is the norm for every shape and set of axes, the least bound of the growth of all vectors, and free of overflow in the element type, is a statement about all of them.", "anchors": ["include/xtensor/reducers/xnorm.hpp", "include/xtensor/reducers/xreducer.hpp"]}
{"id": "C73", "title": "A dynamic view reads and writes exactly the selected elements", "statement": "dynamic_view(e, slices), with integers, ranges, all, newaxis, at most one ellipsis, keep and drop chosen at run time, has the shape of the selection; operator(), element, operator[], unchecked, flat and iteration reach the selected element of the parent at every index, also when fewer or more indices are given; assigning a value or an expression changes exactly the selected elements. Two ellipses or more slices than axes are refused. Without keep and drop it behaves as strided_view.", "quantifier": "all shapes, strides, offsets, slice vectors, indices and storages", "why_tests_cant": "The slices are data: tests try a few vectors of slices on small arrays, while the addressing has to be right for every mixture of slice kinds, including which axes the ellipsis stands for, and for every element.", "anchors": ["include/xtensor/views/xdynamic_view.hpp", "include/xtensor/views/xstrided_view_base.hpp"]}
{"id": "C74", "title": "An array built from nested braces has the braces' shape and elements", "statement": "xarray, xtensor and xtensor_fixed built from nested initializer lists have the number of entries at each level as shape and the value written at (i0, i1, ...) as element (i0, i1, ...), in row-major and column-major layout; braces that are not rectangular, or not of the static shape, are refused.", "quantifier": "all depths, shapes, element types, values and layouts; all braces, rectangular or not", "why_tests_cant": "Braces are written in the program text, so tests cover the few literals someone wrote, nearly all rectangular and row-major; the property is about every depth and every ragged form.", "anchors": ["include/xtensor/containers/xarray.hpp", "include/xtensor/containers/xtensor.hpp", "include/xtensor/containers/xfixed.hpp", "include/xtensor/core/xshape.hpp", "include/xtensor/utils/xutils.hpp"]}
{"id": "C75", "title": "Fixed shapes behave as the same shapes at run time", "statement": "For xtensor_fixed the shape of an expression, whether its operands can be broadcast, its strides, backstrides and size, all computed by templates, are those computed at run time for arrays of the same shapes: the NumPy broadcast of the operands, scalars having no axes, with conflicting shapes refused. A fixed array accepts no other shape: reshape, resize and assignment from another shape are refused, and a single value is accepted exactly by shapes with one element.", "quantifier": "all static shapes, numbers of operands, scalar positions and layouts", "why_tests_cant": "Every combination of static shapes is a different instantiation, so tests compile a handful of them; the property is about every pack of extents.", "anchors": ["include/xtensor/core/xshape.hpp", "include/xtensor/containers/xfixed.hpp", "include/xtensor/core/xfunction.hpp", "include/xtensor/core/xassign.hpp"]}
{"id": "C76", "title": "Views of real and imaginary parts", "statement": "real(a) and imag(a) of an array of complex numbers have one element per element of a, the corresponding part, in every traversal order. Assigning an expression, a value or a compound assignment to such a view replaces exactly those parts by the values the expression had before, also when the expression reads a; the other parts and everything else keep their values. Its iterators are ordered by position. A functor adaptor assigned an expression holds the elements of that expression.", "quantifier": "all shapes, strides, both parts, all expressions over real arrays, complex arrays and their parts, with or without common storage, all memories", "why_tests_cant": "Whether the assignment is correct depends on the relative position of the views in the same storage and on the loop selected; tests assign between separate arrays.", "anchors": ["include/xtensor/views/xfunctor_view.hpp", "include/xtensor/views/xoffset_view.hpp", "include/xtensor/misc/xcomplex.hpp", "include/xtensor/utils/xutils.hpp", "include/xtensor/core/xsemantic.hpp"]}
{"id": "C77", "title": "Element functions on infinities and NaN", "statement": "minimum, maximum and clip return the lesser, the greater and the nearest value inside the bounds, for infinities too, and treat NaN the same in every argument and every position; amin and amax of an array holding NaN do not depend on the order of its elements. sign is -1, 0 or 1. nan_to_num returns a number. pow<N> is the N-th power. isclose(a, b) is the documented test |a - b| <= atol + rtol*|b|; an infinity is close only to itself; allclose is true exactly when every pair of the broadcast operands is close. nansum, nancumsum and nancumprod combine exactly the elements that are not NaN.", "quantifier": "all values including infinities and NaN, all tolerances, exponents, shapes, axes and layouts", "why_tests_cant": "The outcome depends on combinations of special values, positions and axes; tests compare a few finite arrays, and a NaN in the first place or an infinity against a finite number is not among them.", "anchors": ["include/xtensor/core/xmath.hpp", "include/xtensor/core/xoperation.hpp", "include/xtensor/reducers/xreducer.hpp", "include/xtensor/reducers/xaccumulator.hpp"]}
{"id": "C78", "title": "Adapted memory is the user's memory", "statement": "adapt(container or pointer, shape, layout) refers to the given memory: index idx reads and writes the element at the place the layout gives it, every element belongs to exactly one index, and adapting changes neither the elements nor the number of elements of the user's object. The layout may be given as template argument or as function argument, in every form of adapt. With strides, idx is the element at idx . strides of the given memory. A form that cannot work is refused. Assigning an expression makes the adaptor equal to it, touches no other memory, and leaves the adaptor usable if it is refused; a = b copies elements. What layout() says is how the elements lie, so saving the adaptor saves its elements.", "quantifier": "all memories, shapes, strides, layouts, storage kinds, indices and assigned expressions", "why_tests_cant": "Tests adapt a handful of buffers whose size equals the shape's with the default layout; the failures need other sizes, padded strides, a template layout with braces, a caught exception, or an expression that refers to the adaptor.", "anchors": ["include/xtensor/containers/xadapt.hpp", "include/xtensor/containers/xarray.hpp", "include/xtensor/containers/xtensor.hpp", "include/xtensor/containers/xbuffer_adaptor.hpp", "include/xtensor/containers/xcontainer.hpp"]}
{"id": "C79", "title": "An assembly of values and flags is one container", "statement": "An xoptional_assembly keeps its values and its flags in step through every construction, resize and reshape, successful or throwing: same shape, same strides, same layout, same size. Element idx is the value and the flag of idx, whether reached by operator(), at, flat, storage(), linear iterators or begin<L>(); the elements in storage are in bijection with the indices. Assigning an element changes that element only; fill changes all; construction from a shape, from values, or from braces gives the elements asked for. An assembly broadcasts like its values. Two assemblies are equal when at each index both are missing or both present with equal values, and their storages are equal or ordered accordingly. Values and flags that do not fit each other are refused.", "quantifier": "all shapes, layouts of either half, element values, flags, and histories of resize and reshape calls with caught exceptions", "why_tests_cant": "Tests use assemblies whose two halves have the same default layout and shape and compare storages without missing elements; the failures need halves of different layout or shape, values stored under missing elements, or an allocation that fails between the halves.", "anchors": ["include/xtensor/optional/xoptional_assembly.hpp", "include/xtensor/optional/xoptional_assembly_base.hpp", "include/xtensor/optional/xoptional_assembly_storage.hpp", "include/xtensor/core/xoperation.hpp"]}
{"id": "C80", "title": "A view that says it is contiguous is, and its fast paths reach its elements", "statement": "The view test for contiguity accepts exactly integers, then at most one range, then all() (row-major), or the mirror image over all axes (column-major). Views of views of a container, to any depth, built of integers, ranges, all and newaxis, report the shape of the composed selection and place each element where the container has it; whenever their static layout or layout() is not dynamic, the elements follow each other in storage in that order from data_offset(). Linear and reverse linear iteration visit exactly the elements, in order; fill and op= with a scalar change exactly the elements; flat(i), data_element(i) and the SIMD accessors reach the i-th element; layout() finds the container's layout whenever the elements are in that order. row and col give the row and column asked for and refuse anything but two axes. A copy of a view has the shape of the view for as long as its container lives.", "quantifier": "all shapes, slices without keep and drop, depths of nesting, static and dynamic layouts and dimensions, element types, functions and memory contents", "why_tests_cant": "Contiguity is decided by template metaprogramming over slice kinds, so each combination of slices, layout and nesting depth is a different program; reading through a doubled offset or a dangling shape often yields plausible values in a test.", "anchors": ["include/xtensor/views/xview.hpp", "include/xtensor/containers/xstorage.hpp", "include/xtensor/core/xstrides.hpp", "include/xtensor/core/xsemantic.hpp"]}
{"id": "C81", "title": "Linear iterators of a function are random-access iterators over its elements", "statement": "++, --, +=, -= on the linear iterators of a function of arrays, scalars, generators, broadcasts and functions are steps along one line. Differences count steps in either direction, == holds exactly at the same position and < exactly at an earlier one. linear_end() is linear_begin() plus the number of elements; *(linear_begin() + k) is the k-th element in storage order; a traversal reads every element once and the reverse iterators read them backwards. The iterator loop of an assignment, sequential or parallel, is used only when it gives every element of the destination the value of the expression at its index.", "quantifier": "all expression trees over arrays, scalars, generators, functions of any arity and broadcasts; all shapes, layouts, positions and memory contents", "why_tests_cant": "Tests traverse functions of one or two operands with equal shapes and layouts, forwards; the failures depend on which operand comes first in the tree, on layouts that differ, or on subtracting in the other direction.", "anchors": ["include/xtensor/core/xfunction.hpp", "include/xtensor/containers/xscalar.hpp", "include/xtensor/views/xbroadcast.hpp", "include/xtensor/views/xstrided_view.hpp", "include/xtensor/core/xassign.hpp"]}
{"id": "C82", "title": "A masked view reads and writes each element under its own flag", "statement": "In masked_view(data, mask), with a mask whose shape can be broadcast to that of the data, access by index, at, element and iteration in either order and direction pair every element with the flag at its index. fill, assignment of a scalar, compound assignment of a scalar and assignment of an expression of plain values (of the shape of the view or broadcast to it) change exactly the visible elements, to exactly the value asked for, and leave the mask alone. Assignment of masked values acts on each element and its flag alone. Assigning a masked view to an array gives every element of the array the value and flag at its index.", "quantifier": "all shapes, strides and offsets of data and mask, all contents, all values, functions and expressions, every semantics of xtl::xmasked_value that keeps hidden elements", "why_tests_cant": "Tests use 3x3 row-major data with a mask of the same shape; the pairing of flags depends on the shapes, layouts and number of axes of both operands.", "anchors": ["include/xtensor/views/xmasked_view.hpp", "include/xtensor/core/xassign.hpp", "include/xtensor/core/xsemantic.hpp", "include/xtensor/core/xiterator.hpp"]}
{"id": "C83", "title": "An expression returned by a function owns its temporaries and refers to variables only", "statement": "A lazy expression built by a library function from variables and temporaries owns the temporaries and refers only to variables that the caller passed, so it can be kept after the full expression ends; and it reads the value its formula gives on the values of the arguments, nothing having been moved from before it is used.", "quantifier": "all functions written in a style of forwarding, moving and sharing (any number of parameters, declarations and nested calls); all arguments: variables, constants, temporaries, scalars, shared expressions, expressions that refer to further variables; for mean, average, variance, stddev, nanmean, nanvar, flip, isin and reductions", "why_tests_cant": "A dangling reference usually still reads the old value, so a test passes; each test passes one combination of value categories.", "anchors": ["include/xtensor/core/xexpression.hpp", "include/xtensor/core/xmath.hpp", "include/xtensor/core/xoperation.hpp", "include/xtensor/reducers/xreducer.hpp", "include/xtensor/misc/xset_operation.hpp", "include/xtensor/misc/xmanipulation.hpp", "include/xtensor/views/xview.hpp", "docs/source/closure-semantics.rst"]}
{"id": "C84", "title": "Lists of indices become arrays without loss, and trimmed sequences lose only zeros", "statement": "from_indices puts each index of a list in a row, flatten_indices one behind the other, and ravel_indices gives the positions that unravel_indices turns back; of what argwhere returns, the rows are exactly the indices of the set elements and the positions are exactly theirs in increasing order. trim_zeros is a view of a sequence without the zeros at the chosen ends, and nothing else is cut.", "quantifier": "all lists of indices of one length and all layouts; all shapes and conditions; all sequences with any extent, stride and offset, and all directions", "why_tests_cant": "Tests use one small array; the loss for lists of no index or of different lengths and the cut of whole rows need other inputs.", "anchors": ["include/xtensor/containers/xtensor.hpp", "include/xtensor/misc/xmanipulation.hpp", "include/xtensor/core/xstrides.hpp", "docs/source/indices.rst"]}
{"id": "C85", "title": "Shared expressions keep the shared object alive and read what the container held", "statement": "share(v) and make_xshared(std::move(v)) give an expression that reads the value of v, as often as v is shared, and v keeps its value; the shared object lives exactly as long as some container or shared expression holds it, use_count is the number of holders, and a shared expression reads the same until it is itself changed or something is written through a shared expression of the same object.", "quantifier": "all programs that declare, copy, move, assign and write containers and shared expressions in any order, share them any number of times and end them; all values; all states a moved-from container can be left in", "why_tests_cant": "Tests share one array once; what copies, assignments and writes do to the hidden pointer depends on the order of operations, and lifetimes are invisible to a test that passes.", "anchors": ["include/xtensor/core/xexpression.hpp", "include/xtensor/core/xsemantic.hpp", "docs/source/closure-semantics.rst", "test/test_xexpression.cpp"]}
{"id": "C86", "title": "Holders of expressions have value semantics", "statement": "A copy of an xexpression_holder reads what the holder reads and is independent of it, unless both refer to one variable of the user; moves, assignments and swaps pass on exactly what was read; from_json stores the document in the holder it was called for and nowhere else, and to_json reads it back; reads always end.", "quantifier": "all programs that declare, copy, move, assign, swap, write and end holders and variables in any order; all documents", "why_tests_cant": "The tests construct and assign holders without reading the copies; aliasing between copies, dangling references and cycles appear only after further operations.", "anchors": ["include/xtensor/misc/xexpression_holder.hpp", "include/xtensor/io/xjson.hpp", "test/test_xexpression_holder.cpp"]}
{"id": "C87", "title": "A flattened array is a window on the elements, or owns them", "statement": "ravel<L>(a) and flatten<L>(a) show the elements of a in the order of L, whatever a's layout: reading, writing, filling and assigning through the view, its copies and the variable itself always agree; a view of a temporary owns its elements and its copies are independent; an expression of another size is refused; flatnonzero lists the places of the nonzero elements in that order.", "quantifier": "all programs that make, copy, read, write, fill and assign flat views of variables and temporaries in any order; all shapes, layouts and traversals", "why_tests_cant": "The tests flatten a few small arrays and read them; the iterators kept by copies and by owned temporaries matter only in longer programs.", "anchors": ["include/xtensor/misc/xmanipulation.hpp", "include/xtensor/containers/xbuffer_adaptor.hpp", "include/xtensor/containers/xtensor.hpp", "test/test_xmanipulation.cpp"]}
{"id": "C88", "title": "Programs of assignments have value semantics", "statement": "In a program that declares arrays and assigns expressions to them (x = e, x op= e, noalias(x) = e, noalias(x) op= e, x op= scalar, and the same through strided views), every statement replaces its destination by the value its right-hand side had before the statement, changes no other array, or throws and changes nothing. The result depends neither on the allocator, nor on layouts, vectorisation or alignment.", "quantifier": "all programs of any length over any number of arrays of any shapes in both layouts, all expressions built from arrays, strided views, scalars, generators, functions and broadcasts, all allocators returning unused blocks, all choices of packed loops, pack sizes and alignments", "why_tests_cant": "The tests check one assignment at a time on fixed shapes with one allocator and one instruction set; aliasing, reuse of storage and the selected loop depend on the whole history of the program.", "anchors": ["include/xtensor/core/xassign.hpp", "include/xtensor/core/xsemantic.hpp", "include/xtensor/core/xnoalias.hpp", "include/xtensor/containers/xarray.hpp", "include/xtensor/containers/xstorage.hpp", "include/xtensor/views/xstrided_view.hpp", "test/test_xsemantic.cpp", "test/test_xassign.cpp"]}
{"id": "C89", "title": "Comparisons agree with the values compared", "statement": "e1 == e2 holds exactly if the two expressions have the same shape and equal elements at every index, whatever their layouts and whether they are evaluated; it is an equivalence, != is its negation, and for operands of one shape it is all(equal(e1, e2)). Storages compare lexicographically, so that exactly one of <, == and > holds and <= is < or ==. Slices that compare equal select the same elements.", "quantifier": "all expressions over all shapes, layouts and element comparisons; all sequences of elements of any linear order; all slices and extents", "why_tests_cant": "The tests compare arrays of one layout and storages of one size with distinct first elements; adaptors' <= and >=, sequences of different sizes and slices of different axes are not compared.", "anchors": ["include/xtensor/core/xoperation.hpp", "include/xtensor/containers/xstorage.hpp", "include/xtensor/containers/xbuffer_adaptor.hpp", "include/xtensor/views/xslice.hpp", "test/test_xoperation.cpp", "test/test_xstorage.cpp", "test/test_xbuffer_adaptor.cpp"]}
{"id": "C90", "title": "Functions of the library agree with one another", "statement": "Reducing some axes and then others gives what reducing all of them at once gives; a reduction of an element-wise sum is the sum of the reductions, and it commutes with homomorphisms. The last element of an accumulation along an axis is the reduction over it, and differences of an accumulation are the elements. Concatenating the pieces of split gives the array back; a reduction along the axis of a concatenation is the sum of the reductions of the parts. transpose, flip, roll and shuffle rearrange the elements, so that total reductions, sort and unique are the same after them. sort is idempotent and independent of the sorting algorithm; gathering at the positions of argsort sorts; the ends of the sorted elements are those at argmin and argmax. unique and setdiff1d depend on the sets of elements only, setdiff1d lists what isin rejects.", "quantifier": "all shapes, axes, keep_dims settings, elements of any commutative monoid or linear order, all permutations, shifts, draws of the engine and sorting algorithms meeting the contract of std::sort", "why_tests_cant": "Tests check each function against stored results; no test states a relation between two functions, and the relations hold only if both sides are right on all shapes and axes.", "anchors": ["include/xtensor/core/xmath.hpp", "include/xtensor/reducers/xreducer.hpp", "include/xtensor/reducers/xaccumulator.hpp", "include/xtensor/generators/xbuilder.hpp", "include/xtensor/misc/xmanipulation.hpp", "include/xtensor/misc/xsort.hpp", "include/xtensor/generators/xrandom.hpp"]}
{"id": "C91", "title": "Different ways to select the same elements agree", "statement": "view(e, s...), strided_view(e, {s...}) and dynamic_view(e, {s...}) with the same slices have the same shape and refer, at every index, to the same element of the storage. flip(e, a) is the strided view with range(_, _, -1) on axis a; squeeze(e, {a}) is the one with 0 there; row(e, i)(j) and col(e, j)(i) are e(i, j), with negative positions counted from the end, and throw unless there are two dimensions; an index_view on the list of the elements a view selects reads them in the order of the view; view(stack({x0, x1, ...}, a), ..., j) is xj; the parts range(0, k) and range(k, n) of an array along an axis, concatenated, give the array.", "quantifier": "all shapes, strides, offsets, layouts, slice lists accepted by all of the views compared, axes, positions and indices", "why_tests_cant": "Each pair of routes must agree for every combination of slices on arrays of every rank and memory layout; tests compare few selections, mostly with literals of rank two.", "anchors": ["include/xtensor/views/xview.hpp:1832-1927", "include/xtensor/views/xstrided_view.hpp", "include/xtensor/views/xdynamic_view.hpp", "include/xtensor/views/xindex_view.hpp:399-412", "include/xtensor/misc/xmanipulation.hpp", "include/xtensor/generators/xbuilder.hpp"]}
{"id": "C92", "title": "Statistics agree with one another", "statement": "average(e, w) with equal weights is mean(e), over all axes or some. The mean of c * e + d is c * mean(e) + d and its variance c * c * variance(e). variance(e) is mean(e * e) - mean(e) * mean(e) and is not negative. mean(e) lies between amin(e) and amax(e). mean(mean(e, A), B) is mean(e, C) when C has the axes of A and B. On data without NaN, nansum and nanmean are sum and mean. count_nonzero(e, axes) counts the nonzero elements of each group; over all axes it is the number of rows of argwhere(e), the length of each list of nonzero(e) and the size of filter(e, e != 0). quantile(e, {0.5}, axis) is median(e, axis) for all methods with equal parameters; quantiles do not decrease as the probability grows, and those of probability 0 and 1 with the default method are the least and the greatest element. cov(x) is symmetric and has the variances (one degree of freedom taken off) on its diagonal.", "quantifier": "all shapes, axes, keep_dims, layouts, values (exact rationals), weights, coefficients, probabilities", "why_tests_cant": "The laws relate functions with separate implementations on arrays of every rank; tests compare each function with a few literals.", "anchors": ["include/xtensor/core/xmath.hpp:2513-2576", "include/xtensor/core/xmath.hpp:1900-2320", "include/xtensor/core/xmath.hpp:3204-3235", "include/xtensor/misc/xsort.hpp", "include/xtensor/core/xoperation.hpp:855-878"]}
{"id": "C93", "title": "Histograms, digitize and bincount agree", "statement": "histogram(data, bins) counts every datum exactly once, in the bin between the edges that histogram_bin_edges(data, bins) reports. The overloads that take a number of bins (with limits, with weights) give the same as the overload that takes the edges they report. The histogram does not depend on the order of the data, and that of two samples together is the sum of their histograms. digitize(data, edges) gives the number of the bin of the histogram, counted from one. bincount(data, weights) is the histogram with the edges 0, 1, 2, .... bin_items(N, bins) distributes N items, each bin getting the quotient or one more.", "quantifier": "all data, weights, edges, limits and numbers of bins (exact arithmetic), all ways to sort", "why_tests_cant": "The overloads use two algorithms (search through sorted data, direct computation of the bin); agreement must hold for data on every edge and edges of every width, and tests compare a few samples.", "anchors": ["include/xtensor/misc/xhistogram.hpp:35-278", "include/xtensor/misc/xhistogram.hpp:421-612"]}
{"id": "C94", "title": "Integer elements give the mathematical results as far as their C++ types hold them", "statement": "An expression over integer arrays of any mixture of types has at every index the mathematical value, as long as every operation has operands and result in the range of its C++ type; what an assignment writes is the mathematical value modulo 2^bits of the destination, if no operation on the way is narrower than the destination or undefined. Comparisons, minimum, maximum, clip, division and remainder are those of the numbers whenever the common type holds both operands. sum<T>, prod<T>, cumsum<T>, cumprod<T> give the mathematical result modulo 2^bits in unsigned types, and the exact result in signed types as long as it cannot leave the range; sum<big_promote_value_type_t<E>> is exact for elements of up to 32 bits; mean is the mean of the numbers.", "quantifier": "All widths and signs of the element types, all expression trees, all shapes, lists of axes, keep_dims or not, all element values, all choices of T.", "why_tests_cant": "The result depends on the types of all operands, on the number and magnitude of the elements and on the order of the additions; overflow shows only on data no test has, and signed overflow need not show at all.", "anchors": ["include/xtensor/core/xoperation.hpp:68-130", "include/xtensor/core/xmath.hpp:367-420", "include/xtensor/core/xmath.hpp:571-615", "include/xtensor/core/xmath.hpp:1838-1947", "include/xtensor/core/xmath.hpp:2283-2335", "include/xtensor/reducers/xreducer.hpp:764-771", "include/xtensor/reducers/xreducer.hpp:1779-1868", "include/xtensor/reducers/xaccumulator.hpp:215-330"]}
{"id": "C95", "title": "Random expressions draw at every read, and once per element when they are assigned", "statement": "Reading an element of an expression with random operands draws each random operand exactly once, and the value is that of the expression on the values drawn. Assigning such an expression to a container draws, for every element of the result, each random operand exactly once, in storage order, so that the engine advances by the number of elements times the number of random operands; no two elements share a draw, and the element is the expression on its own draws; operands that cannot be broadcast throw before a draw. a = rand(shape), which fills the storage directly, gives the array and the engine state that going through an expression gives. A view of that shape is filled in the same way. randint(shape, lower, upper) draws from lower to upper - 1.", "quantifier": "All engines and distributions (any state type, any draw function), all expression trees over random and other operands, all shapes, both layouts, every order of evaluation of function arguments, all integer types and bounds.", "why_tests_cant": "Tests check means and variances of samples or one seed; how often an element is drawn, in which order and whether two elements share a draw shows only in the state of the engine, for all shapes, layouts and orders of evaluation.", "anchors": ["include/xtensor/generators/xrandom.hpp:205-243", "include/xtensor/generators/xrandom.hpp:272-308", "include/xtensor/generators/xgenerator.hpp:276-325", "include/xtensor/generators/xgenerator.hpp:374-383", "include/xtensor/core/xassign.hpp:214-225", "include/xtensor/core/xassign.hpp:640-667", "include/xtensor/core/xfunction.hpp:640-700"]}
{"id": "C96", "title": "Functions that enlarge, join and move arrays agree with one another", "statement": "tile(tile(e, r), s) has the elements of tile(e, r * s), tile(e, 1) those of e, and tiling along one axis is the concatenation of as many copies of e; tiling at most twice is padding behind with wrap. Padding twice with one constant, or twice with edge, is padding once with the sums of the widths; padding with zeros does not change the sum. roll(roll(e, k), l) is roll(e, k + l), and rolling by k joins the last k elements with the others. concatenate of a concatenation with further operands is concatenate of all operands; stack is concatenate of the operands with a new axis. linspace without its end point is arange with the step it divides the interval into; diag of ones is eye; amin(-e) is -amax(e).", "quantifier": "All arrays, element types, ranks, extents (including empty ones where not excluded), layouts, repetitions, pad widths, shifts, axes and numbers of operands within the range of the types used; arithmetic of the builders and of the sum exact.", "why_tests_cant": "Each law relates two or three functions with separate index arithmetic for all shapes at once; tests fix a handful of shapes and compare each function with a literal of its own.", "anchors": ["include/xtensor/misc/xpad.hpp:64-323", "include/xtensor/misc/xmanipulation.hpp:937-1074", "include/xtensor/generators/xbuilder.hpp:369-420", "include/xtensor/generators/xbuilder.hpp:425-466", "include/xtensor/generators/xbuilder.hpp:487-664", "include/xtensor/generators/xbuilder.hpp:780-900", "include/xtensor/core/xmath.hpp:770-812"]}
{"id": "C97", "title": "Storages stay valid when an allocation or an operation of an element throws", "statement": "A program over uvectors that catches what its operations throw never has undefined behaviour, whichever allocation, constructor or assignment of an element throws and at whatever moment. A failed constructor, change of size or write leaves all sequences as they were; after a failed assignment the target is as it was or holds copies of some first elements followed by what a change of its size leaves; moving, exchanging and destroying do not fail. Every vector owns exactly its elements throughout, and when all vectors are gone all memory has been given back.", "quantifier": "All programs of constructions, copies, moves, assignments, changes of size, writes, exchanges and destructions with arbitrary handlers, all element values and sizes, trivial and non-trivial element types, and every choice of the attempt of each operation that throws; one allocator, destructors that do not throw.", "why_tests_cant": "The number of places where an exception may come from grows with the number of elements and operations, and the handlers continue with any program; the test suite injects no failures at all.", "anchors": ["include/xtensor/containers/xstorage.hpp:160-202", "include/xtensor/containers/xstorage.hpp:204-228", "include/xtensor/containers/xstorage.hpp:244-307", "include/xtensor/containers/xstorage.hpp:318-339"]}
{"id": "C98", "title": "A reshaped generator reads the generator in row-major order", "statement": "g.reshape(shape), with as many elements, reads at every index the element of the generator with the same place in row-major order, through operator(), element and operator[]; iterating over it in either order and under any shape it broadcasts to reads the element broadcasting assigns to each index; so arange(start, stop, step).reshape({m, n}) holds start + step*(i*n + j) at (i, j). A shape without negative extents is used as given, and one -1 stands for the extent that keeps the number of elements when the others divide it.", "quantifier": "All generators, shapes, indices and shapes of iteration; all widths of the signed type of the shape as long as the product of the extents fits.", "why_tests_cant": "Shapes, indices and values are unbounded, and the view computes each index by dividing with strides that are zero on axes of one element; the tests read a few small shapes.", "anchors": ["include/xtensor/generators/xgenerator.hpp:385-488", "include/xtensor/views/xstrided_view.hpp:857-885", "include/xtensor/views/xstrided_view_base.hpp:724-743", "include/xtensor/core/xiterator.hpp:1210-1290"]}
{"id": "C99", "title": "A constant expression can be used by several threads at once", "statement": "Several threads may call const members of one expression (dimension, shape, strides, elements, assignment from it to arrays of their own) at the same time: no two conflicting accesses to a member happen at once, and every thread gets the answers it would get alone, namely the broadcast shape of the leaves, the strides of the views and the values of the elements. The same holds for the workers of the library's own parallel loop.", "quantifier": "All expressions built from containers, scalars, strided views and functions, of any size; any number of threads; any sequence of requests in each; every interleaving of their reads and writes of members.", "why_tests_cant": "The number of interleavings is unbounded and a test sees a few of them; a data race is undefined behaviour even where the observed value is right.", "anchors": ["include/xtensor/core/xfunction.hpp:396-400", "include/xtensor/core/xfunction.hpp:570-600", "include/xtensor/core/xfunction.hpp:717-733", "include/xtensor/views/xview.hpp:674-677", "include/xtensor/views/xview.hpp:1264-1288", "include/xtensor/views/xview.hpp:1333-1345", "include/xtensor/views/xview.hpp:1395-1407", "include/xtensor/views/xview.hpp:1548-1571", "include/xtensor/core/xassign.hpp:268-274", "include/xtensor/core/xassign.hpp:571-607", "include/xtensor/core/xassign.hpp:720-770"]}
{"id": "C100", "title": "An exception during an assignment leaves every array usable", "statement": "If an assignment, a compound assignment, a copy or a resize throws, because the shapes conflict, an element cannot be computed or memory is missing, then no other array has changed and the destination can still be used: its shape, strides and storage agree and every element can be read. An assignment through a temporary that throws has changed nothing at all. After an assignment that does not throw the destination has the shape and all elements of the expression.", "quantifier": "All programs of such statements over any number of arrays of any shapes and layouts; exceptions at any element of any expression; success or failure of the allocations of each statement; with or without XTENSOR_FORCE_TEMPORARY_MEMORY_IN_ASSIGNMENTS.", "why_tests_cant": "A test would have to inject a failure at every allocation and every element of every statement, in every state that earlier exceptions have left behind.", "anchors": ["include/xtensor/core/xsemantic.hpp:617-640", "include/xtensor/core/xsemantic.hpp:651-655", "include/xtensor/core/xassign.hpp:439-523", "include/xtensor/core/xassign.hpp:525-537", "include/xtensor/core/xassign.hpp:571-607", "include/xtensor/containers/xcontainer.hpp:1000-1021", "include/xtensor/containers/xcontainer.hpp:300", "include/xtensor/containers/xarray.hpp:128-129", "include/xtensor/containers/xarray.hpp:501-511", "include/xtensor/containers/xstorage.hpp:217-228", "include/xtensor/containers/xstorage.hpp:318-339"]}
{"id": "C101", "title": "What the compiler knows about shapes and axes does not change an expression", "statement": "An expression built from functions, reductions, views and broadcasts has the same shape and the same elements whether the shapes of its operands and the axes of its reductions are known to the compiler entirely (xtensor_fixed, xshape), in number (xtensor, std::array) or not at all (xarray, std::vector), what the type of the expression says about its shape is true, and the containers it is evaluated into take that shape.", "quantifier": "All expression trees of functions of any number of operands, reductions over any axes with and without keep_dims, views and broadcasts, over operands of any shape types and shapes; all elements of all reductions.", "why_tests_cant": "Every combination of shape types is another instantiation: the tests compile a handful of them, and the one test with axes known to the compiler uses the only axes for which the elements come out right.", "anchors": ["include/xtensor/core/xshape.hpp:283-297", "include/xtensor/core/xshape.hpp:356-500", "include/xtensor/core/xfunction.hpp:62-68", "include/xtensor/core/xfunction.hpp:577-600", "include/xtensor/reducers/xreducer.hpp:192-240", "include/xtensor/reducers/xreducer.hpp:746-786", "include/xtensor/reducers/xreducer.hpp:1144-1320", "include/xtensor/reducers/xreducer.hpp:1322-1462", "include/xtensor/views/xview.hpp:841-858", "include/xtensor/views/xview.hpp:1729-1746", "include/xtensor/views/xbroadcast.hpp:76-82", "include/xtensor/views/xbroadcast.hpp:254-300", "include/xtensor/core/xexpression_traits.hpp:92-160", "include/xtensor/views/xview_utils.hpp:64-92"]}
{"id": "C102", "title": "Small vectors own their memory, also when there is none to be had", "statement": "A program that constructs, copies, moves, exchanges, changes and destroys small vectors (svector) and goes on after exceptions never does anything undefined, whichever allocations fail: a statement that finds no memory leaves all vectors as they were, every block in use belongs to exactly one vector, all memory is given back when the vectors are gone, and vectors that never have more elements than fit inline never ask for memory.  Moves and swaps do not throw.", "quantifier": "All programs over any number of vectors, all inline capacities, all choices of the statements that find no memory, all element values.", "why_tests_cant": "Tests run with memory to spare, and a leak, a double release or a release to another allocator changes no value that a test compares; there are infinitely many histories and points of failure.", "anchors": ["include/xtensor/containers/xstorage.hpp:181-201", "include/xtensor/containers/xstorage.hpp:633-777", "include/xtensor/containers/xstorage.hpp:779-930", "include/xtensor/containers/xstorage.hpp:976-1048", "include/xtensor/containers/xstorage.hpp:1174-1251", "include/xtensor/containers/xstorage.hpp:1272-1358", "include/xtensor/containers/xstorage.hpp:1403-1420"]}
{"id": "C103", "title": "Arrays that were moved from can be given a value again", "statement": "However xarrays and xtensors are constructed, copied, moved, converted into each other, resized and assigned, what was copied or moved has the value of its source, an assigned array has the value of the expression, and the others are as they were; an array that was moved from may be assigned any expression and then has its value.", "quantifier": "All programs over any number of xarray and xtensor variables, all shapes, expressions that read any elements of the other variables, all element values; assignments with and without a temporary.", "why_tests_cant": "Tests move an array and look at the destination; whether the source can be used again depends on the history of each variable, on the kind of move and on the shape assigned later, and a write to memory that is not there need not fail.", "anchors": ["include/xtensor/containers/xarray.hpp:128-135", "include/xtensor/containers/xarray.hpp:466-511", "include/xtensor/containers/xtensor.hpp:123-130", "include/xtensor/containers/xtensor.hpp:515-561", "include/xtensor/containers/xcontainer.hpp:210-218", "include/xtensor/containers/xcontainer.hpp:296-303", "include/xtensor/containers/xcontainer.hpp:1000-1021", "include/xtensor/containers/xstorage.hpp:341-368", "include/xtensor/containers/xstorage.hpp:849-855", "include/xtensor/containers/xstorage.hpp:894-899"]}
{"id": "C104", "title": "Views that are kept show the array as it is now", "statement": "However an array and its views are written, resized, reshaped and assigned, a view that is kept shows, whenever the array has the shape for which the view was built, exactly the selected elements of the array as it is now, by element access and through strides and offset; a write through a view changes the selected element and no other.", "quantifier": "All histories of views and strided views being built, elements written directly and through views, resizes, reshapes (also ones that throw), assignments of expressions and copies, on an xarray of any shape and either static layout; all slices without newaxis.", "why_tests_cant": "Tests use a view right after it was built; what a view keeps, and when it computes it, depends on the kinds of its slices and on what was asked of it while the array had other shapes, and stale positions may still lie inside the storage.", "anchors": ["include/xtensor/views/xview.hpp:240-279", "include/xtensor/views/xview.hpp:412-428", "include/xtensor/views/xview.hpp:880-912", "include/xtensor/views/xview.hpp:1267-1345", "include/xtensor/views/xview.hpp:1543-1577", "include/xtensor/views/xview.hpp:1583-1657", "include/xtensor/views/xstrided_view_base.hpp:206-212", "include/xtensor/views/xstrided_view_base.hpp:312-331", "include/xtensor/containers/xcontainer.hpp:1000-1140", "include/xtensor/containers/xstorage.hpp:1741-1917"]}
{"id": "C105", "title": "Vectors are assigned element by element whatever the layouts in their types", "statement": "Whatever layouts and numbers of axes the types of the destination and of the operands have, an assignment for which the library decides from the types alone that both sides are stored in one order stores into every element the value of the expression at its index: in particular a row-major vector can be assigned from column-major vectors by the flat loop, while matrices of opposite layouts never are on the word of their types.", "quantifier": "All destination types (static layout row-major, column-major or dynamic; shape type of unknown rank, of known rank, or fixed) and all expressions of containers, contiguous views, scalars, generators and broadcasts under functions with any number of operands; all shapes and memories.", "why_tests_cant": "The decision is a compile-time one over combinations of layouts and shape types, promoted through every function in the expression; a test instantiates some of them, and a wrong decision for vectors cannot be seen in other ranks.", "anchors": ["include/xtensor/core/xassign.hpp:250-276", "include/xtensor/core/xshape.hpp:228-270", "include/xtensor/core/xshape.hpp:272-421", "include/xtensor/core/xfunction.hpp:140", "include/xtensor/core/xfunction.hpp:250-257", "include/xtensor/containers/xcontainer.hpp:105-115"]}
{"id": "C106", "title": "Arrays with a fixed number of axes take expressions with as many axes and refuse others", "statement": "Assigning an expression to an xtensor, also with `+=` and the like or through `noalias`, gives it the shape of the expression and as many stored elements if the expression has the tensor's number of axes; otherwise, or if the operands have no common shape, an exception is thrown and the tensor is as before.", "quantifier": "All numbers of axes, all trees of functions over operands of any shapes (also ones whose shape was asked for before) and all other right-hand sides, all shapes of the tensor before, all amounts of memory.", "why_tests_cant": "Tests assign expressions of the right dimension; what happens to others depends on unset extents, products modulo 2^64 and on whether the expression was asked for its shape before.", "anchors": ["include/xtensor/core/xassign.hpp:480-485", "include/xtensor/core/xassign.hpp:570-605", "include/xtensor/core/xfunction.hpp:717-733", "include/xtensor/core/xstrides.hpp:725-776", "include/xtensor/containers/xcontainer.hpp:998-1021", "include/xtensor/containers/xtensor.hpp:560-573", "include/xtensor/core/xassign.hpp:488-523", "include/xtensor/core/xsemantic.hpp:405-499"]}
{"id": "C107", "title": "Arrays with a fixed number of axes are resized and reshaped to as many extents and refuse others", "statement": "resize and reshape of an xtensor with as many extents as it has axes, in braces or as a sequence of signed or unsigned numbers, do what they do for an xarray: reshape keeps the elements if their number fits, with one extent possibly given as -1, and throws otherwise. Another number of extents is refused with an exception that leaves the tensor as it was.", "quantifier": "All numbers of axes, all lists of extents of any length and in each of the four forms, all tensors.", "why_tests_cant": "What happens to a wrong number of extents depends on how they are written (zeros filled into a braced list, a division by zero, copies past the end of a std::array); tests use the right number.", "anchors": ["include/xtensor/containers/xcontainer.hpp:278-289", "include/xtensor/containers/xcontainer.hpp:980-1021", "include/xtensor/containers/xcontainer.hpp:1091-1183"]}
{"id": "C108", "title": "Slices that do not fit an array are cut to it or refused, and views never reach outside of it", "statement": "Whatever bounds are given to ranges, the views that xt::view makes of an array show elements of that array only: ranges are cut to their axes. An integer slice that is not an index of its axis, a position in keep that is none, and more slices than the array has axes, are refused with an exception by xt::view and by xt::strided_view.", "quantifier": "All shapes, all lists of slices of any length, all bounds and integers, all elements of the views.", "why_tests_cant": "Tests slice with indices that exist and count their slices correctly; an index that does not exist gives a view that works and shows other elements, or memory outside of the array, for all shapes but those a test happens to use.", "anchors": ["include/xtensor/views/xview.hpp:1774-1831", "include/xtensor/views/xview.hpp:1729-1746", "include/xtensor/views/xslice.hpp:914-1003", "include/xtensor/views/xstrided_view_base.hpp:840-890"]}
{"id": "C109", "title": "front() and back() are the first and the last element", "statement": "For every expression with elements, front() is the element with all indices 0 and back() the one with every index at its largest value, as given by element access. This holds for containers, functions of operands that are broadcast, and views.", "quantifier": "All expressions built of arrays of any layout, scalars, generators, functions and broadcasts, all views of them, all shapes with elements.", "why_tests_cant": "back() goes one step back from the end, whose position is computed by each stepper on its own from the shape, strides, slices and operands; tests take back() of containers.", "anchors": ["include/xtensor/core/xaccessible.hpp:222-239", "include/xtensor/core/xaccessible.hpp:320-337", "include/xtensor/core/xiterable.hpp:947-980", "include/xtensor/core/xiterator.hpp:695-724", "include/xtensor/core/xstrides.hpp:169-196"]}
{"id": "C110", "title": "An element can be written in one way and read in another", "statement": "operator(), operator[] and element, at, unchecked, periodic, flat and storage, and the iterators in row-major and in column-major order of a container with as many indices as axes refer to one and the same element: after any sequence of writes through any of them, each of them reads what was written to the element last, and no other element has changed. at with out-of-range indices on an axis with an extent other than 1 throws for reads and for writes, and at is never undefined.", "quantifier": "All shapes with extents below 2^63, both layouts in the type or at run time, all sequences of writes of any length in any mixture of ways, all elements.", "why_tests_cant": "Seven computations of a position (recursive templates, inner products, remainders, steppers) must agree for every shape, layout and index, and histories mix them without bound.", "anchors": ["include/xtensor/containers/xcontainer.hpp:441-596", "include/xtensor/containers/xcontainer.hpp:671-688", "include/xtensor/core/xaccessible.hpp:173-221", "include/xtensor/core/xiterator.hpp:1136-1149"]}
