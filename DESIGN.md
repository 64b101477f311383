# Formal model of xtensor in Lean 4 — design

Source under study: `/repo` (xtensor, C++), read as text only. All paths below are
relative to `/repo/include/xtensor`.

## Layout of the development

* `lean/Verif/Spec/*`   small specifications, written without reference to the model
  (multi-indices, ranks, NumPy broadcasting, Python slices, folds over axes, ...).
* `lean/Verif/Model/*`  transcription of the C++ functions; every definition cites file and lines.
* `lean/Verif/Lemmas/*` helper lemmas.
* `lean/Verif/Props/*`  the property theorems (`C01_...`, `C02_...`), each with an `example`
  that instantiates its hypotheses non-trivially, and negation witnesses where the code
  violates the English property.

## Trusted base

* Lean 4 kernel. Every theorem depends at most on `propext`, `Classical.choice`, `Quot.sound`
  (checked with `#print axioms`). No axioms of our own, no `sorry`, no `native_decide`,
  no `bv_decide`.
* The transcription C++ → Lean, made by reading. Conventions:
  * `std::size_t` values are `Nat`, `std::ptrdiff_t` and other signed values are `Int`
    (unbounded). Where the code relies on conversion/wrap-around
    (`std::size_t(arg)` of a negative index, `char`→`uint16_t` in the npy reader,
    `shape - 1` for extent 0) the conversion is modelled explicitly. C53 shows that
    below the address limit unbounded arithmetic and machine arithmetic coincide.
  * C++ loops are structural recursions / folds over lists; containers of sizes,
    strides, indices are `List`.
  * Exceptions are `none`/`Except.error`; undefined behaviour (out-of-buffer access,
    division by zero) is a separate outcome, never a silently chosen value.
  * Standard algorithms (`std::sort`, `std::stable_sort`, `std::nth_element`, `std::set_difference`, ...) enter
    either as a direct transcription or through their documented contract (`SortBy`, `NthBy`), over which the
    theorems are quantified.
  * The buffer is a list or a function from positions; values are an arbitrary type.
* Not modelled: template meta-programming/type deduction (value categories, closures,
  SFINAE selection), floating point rounding, allocation failure other than in `uvector` (C97) and in assignments (C100), the
  contents of xtl/xsimd, BLAS, the characters iostreams produce for floating point numbers.

## Plan per property

| id | model | proof |
|----|-------|-------|
| C01 | `compute_strides`, `data_offset`, `element_offset` (`core/xstrides.hpp`) | offset = mixed-radix rank; rank is a bijection (induction on shape) |
| C02 | `compute_strides`, `adapt_strides`, `compute_size`, `strides()` | induction on shape |
| C03 | `unravel_noexcept`, `ravel_index` | induction, div/mod identities |
| C04 | `broadcast_shape`, `uninitialized_shape`, n-ary fold of `xfunction` | refinement to a NumPy rule given axis-by-axis from the right; comm/assoc follow |
| C05 | flag returned by `broadcast_shape`, folded | iff by induction over operands |
| C06 | `broadcastable` | iff by induction on reversed shapes |
| C07 | `data_offset` dispatch on argument count, `element_offset` | case analysis + dot product lemmas |
| C08 | `layout_data_offset` | induction with in-bounds hypothesis |
| C09 | `check_index`, `check_access` incl. cast to unsigned | in-bounds ⇒ offset < size from C01 |
| C10 | `check_in_bounds` | iff for full arity; negation witness for fewer arguments (left- vs right-aligned) |
| C11 | `normalize_periodic` | Euclidean mod; negation witness for fewer arguments |
| C12 | `compute_layout` on bit masks | refinement to the documented table, fold lemmas |
| C13 | `do_strides_match` | induction with running product |
| C14 | state machine of `xstrided_container` | invariant by induction on histories; signed reshape defects recorded |
| C15 | `reshape`, `reshape_impl` | corollary of C14 + bijection; defects recorded |
| C16 | `xrange_adaptor`, `xrange`, `xstepped_range` | equality with Python slice spec; negation for empty stepped ranges |
| C17 | `xkeep_slice`, `xdrop_slice` | induction over increment table |
| C18 | `xview` index mapping | equality with substitution spec; negation for double newaxis |
| C19 | `data_offset_impl`, `compute_strides_impl` | linear algebra over slices; negation recorded |
| C20 | `strided_view_args::fill_args` | equality with NumPy basic indexing spec |
| C21 | composition of slice maps | function composition; arithmetic progressions closed under composition |
| C22 | `stepper_tools::increment_stepper`, `xstepper`, `xiterator` | simulation: state after k increments = k-th multi-index |
| C23 | n-step increments/decrements | equality with iterated 1-step |
| C24 | `linear_assigner`, `stepper_assigner`, `strided_loop_assigner` | each equals the pointwise spec |
| C25 | `linear_assigner<true>::run` index arithmetic | partition of `[0,n)` |
| C26 | `nth_idx` + outer-loop split | disjoint writes commute; any permutation/interleaving yields same buffer |
| C27 | `memory_range`, checker, `operator=` | soundness for same-sign strides; negation for mixed signs |
| C28 | `computed_assign` | case analysis over shapes; negation for zero extent |
| C29 | `scalar_computed_assign` | contiguous: map; strided adaptor: negation |
| C30 | lazy `xreducer` | nested folds = fold over enumerated indices |
| C31 | `reduce_immediate` | same fold for the general path; negations for the copy path |
| C32 | `accumulator_impl` | loop invariant over buffer positions |
| C33 | `transpose`, `transpose_impl` | permutation algebra on strides |
| C34 | `swapaxes`, `moveaxis` | permutation lists |
| C35 | `flip`, `rot90` | stride negation algebra |
| C36 | `roll` | modular arithmetic; negations recorded |
| C37 | `squeeze`, `expand_dims`, `atleast_Nd` | stride list surgery; negation recorded |
| C38 | `arange` | integer division; negation recorded |
| C39 | `concatenate_access`, `stack_access` | block search induction |
| C40 | `trilu_fn`, `diag_fn`, `diagonal_fn`, `eye_fn` | direct |
| C41 | `call_over_leading_axis`, `sort`, `argsort` | lines partition the buffer; per-line permutation |
| C42 | `partition_iter`, `median` | order statistics over `nth_element` contract |
| C43 | `arg_func_impl` | induction |
| C44 | `unique`, `setdiff1d`, `isin`, `searchsorted` | refinement to set/list specs |
| C45 | `histogram_imp`, `bincount`, `bin_items` | counting; density negation recorded |
| C46 | `pad` | per-axis index map |
| C47 | `tile`, `xrepeat` | index maps |
| C48 | `xchunked_array` | div/mod bijection, map update laws |
| C49 | `xchunk_iterator`, slices | partition of index set |
| C50 | `xnpy` header writer/reader | parse ∘ print = id under explicit byte conditions; sign-extension negation |
| C51 | `svector` | refinement relation to `List`, histories |
| C52 | `xoptional` assembly | pointwise |
| C53 | stride computation in bounded integers | bounds on all intermediates |
| C54 | `xfunction` shape cache | history model; negation for operand resize |
| C55 | `split` | slice algebra |
| C56 | `linspace` | rational arithmetic |
| C57 | `meshgrid` | direct |
| C58 | `bin_items` | counting over exact rationals |
| C59 | `xview_stepper` | stepper laws over the laws of the parent's stepper |
| C60 | `argwhere`, `nonzero`, `xindex_view`, `filter`, `filtration` | ranks of successive indices; loops over addresses |
| C61 | `xaxis_iterator`, `xaxis_slice_iterator` | offsets of the loop against ranks; exact condition on the axis |
| C62 | `fft`, `ifft`, `convolve` (`radix2`, Bluestein) | decimation in time by induction on the exponent; orthogonality of roots of unity; slices from C61 |
| C63 | `shuffle`, `permutation`, `choice` (draws are parameters) | Fisher-Yates as a bijection from draws to permutations; counting the draws of the reservoir |
| C64 | `quantile` with parameters and by method | partition from C42, reshape views from C20, `moveaxis` from C34; interpolation between plotting positions |
| C65 | `mean`, `variance`, `average`, `nan*`, `amin`, `amax`, `minmax` | lazy and immediate reducers from C30, C31; groups have equal sizes; reshape view of the inner mean has the mean of the group at every index |
| C66 | `diff`, `trapz`, `interp`, `unwrap`, `cov`, `convolve` | views of adjacent elements along an axis; induction on passes; loop invariants of the three loops of `interp`; lazy sum along the axis from C30 |
| C67 | block-wise reducers | multi-index loop refines counting through a box; the blocks visited for a chunk of the result partition its groups (permutation); contract of a reduction functor, proved for each functor; pooled variance |
| C68 | comma separated values | invariant of the line loop against the list of good lines; stepper laws for the writer; codec condition per element type, proved by inverting decimal notation |
| C69 | JSON documents | induction on the axes left, with the view as prefix of integers; assignments in index order with injective addresses; shape of a nested list |
| C70 | storages on the heap | heap of blocks with allocator and life; ownership invariant (each name one block, each live block one name) preserved by local updates and exchanges; refinement of histories of sequences |
| C71 | printed arrays | loops with jumps as steps over ranges; relation between text and nested literal; reading back by removing blanks and braces; invariant on line lengths |
| C72 | norms | lazy and immediate reducers from C30, C31 with accumulators that may be undefined; real powers and Minkowski's inequality from Mathlib; operator norms as least bounds, attained at unit and sign vectors |
| C73 | dynamic views | the recursion of C20 with a slice and an adjusting stride per axis; assignment as writes to a storage, using the injectivity of C18 |
| C74 | nested braces | induction over the levels: the values in reading order are those at the row-major indices; writes to a storage at distinct positions |
| C75 | fixed shapes | the pairwise template as a function on packs; induction over the operands gluing broadcasts; uniqueness of the broadcast of C04 for the comparison |
| C76 | functor views | the loops of C24-C29 with the cell selected inside the element; parts as strided arrays of cells; parity of cell addresses for the overlap test |
| C77 | special values | case analysis over NaN, the infinities and rationals against an extended linear order; folds over the reduced elements through a version of C30 for one axis without laws on the functors; induction on the exponent |
| C78 | adapted memory | offsets are places (C01), so reads, writes and lists of writes are list updates at distinct places; resizes by cases on the kind of storage |
| C79 | assemblies | the effect of a call on everything but the contents commutes with forgetting the contents, so equal skeletons stay equal; elements by C14 |
| C80 | contiguous views | the accepted slice patterns characterised, the rank of a selected index is a constant plus its rank in the view by induction over the slices, an invariant of views carried up the tower; loops by C29 |
| C81 | iterators of functions | mutual induction over the expression tree for each operation of the tuple of iterators; the traversal by induction over the remaining steps |
| C82 | masked views | the pair of steppers obeys the stepper laws, hence walks are maps over the indices; one conditional store per index, by induction over duplicate-free indices |
| C83 | what expressions own | invariant over a small language of function bodies: what is reached lies in the caller's variables; a static order of moves gives the values |
| C84 | lists of indices | folds over writes; takeWhile at both ends |
| C85 | shared expressions | state machine of objects and counted cells; invariants over all programs |
| C86 | holders of expressions | state machine; invariant that no holder refers to a holder |
| C87 | flattened arrays | refinement of windows and owned sequences by iterator adaptors, over all programs |
| C88 | programs of assignments | simulation of arrays as functions by containers in memory, induction over programs |
| C89 | comparisons of expressions, storages, slices | induction on sequences; reduction of loops to all indices |
| C90 | relations between functions | composition of the theorems about each; permutations of index lists; sums over blocks |
| C91 | selections compared | composition of the theorems about each view through the specification of selections; slices on one axis as splits of shape and index |
| C92 | statistics compared | theorems about each statistic, then algebra of means of lists; groups counted by length_redGroup |
| C93 | histogram overloads | composition of C44, C45 and C58; simulation between counts of a machine type and exact counts |
| C94 | arithmetic of C++ integer types in expressions, reductions and accumulations | simulation: the reducer run in machine arithmetic and the reducer run on integers, or on pairs of an integer and a bound, stay related through all loops; induction on expressions for congruences |
| C95 | lazy random expressions as computations on the state of the engine | induction on expressions with an oracle for the order of arguments; permutations of draws; ranks of the storage order |
| C96 | laws between tile, pad, roll, concatenate, stack and the builders | from the characterisations of each function (C36, C38, C39, C40, C46, C47, C56, C65), which fix their elements |
| C97 | uvector when allocations and element operations throw | each operation may be interrupted at any attempt; simulation between heaps with and without the lost blocks; induction on the program and its handlers |
| C98 | reshape of generators | ranks of indices, division by strides, the iteration law of indexed steppers |
| C99 | constant expressions and threads | interleavings of reads and writes, threads that only read, an invariant of the members |
| C100 | assignments that throw | an invariant over programs that catch exceptions, characterisation of what is left |
| C101 | shape types | induction over expression trees, with the type as an invariant |
| C102 | small vectors and memory | ownership invariant over programs with failing allocations, on top of the refinement of C51 |
| C103 | moved-from arrays | simulation of programs on values, with variables that hold none |
| C104 | kept views | invariant over histories that relates what each view keeps to the shape for which it was built |
| C105 | layouts of types | induction over expressions with their types, promoted ranks bound the ranks of all operands |
| C106 | assigning to `xtensor` | broadcasting into a longer shape leaves its beginning unset, by induction over expressions; products of unset extents modulo 2^64 |
| C107 | `resize` and `reshape` of `xtensor` | reduction to the containers of C14 and C15; every wrong number of extents by cases |
| C108 | slices that do not fit: `view`, `strided_view` | a view with an index out of bounds is the view of a larger array; induction over the slices |
| C109 | `front()`, `back()` | one step back from the end, on the laws of steppers of C22 and C59 |
| C110 | the ways to reach an element | each position is the dot product of C01; induction over the writes |

Properties will be appended as the model grows.

## Disagreements between code and property

(Where the code does not satisfy the English property the Lean development proves the negation
on a concrete witness and keeps a `_partial` theorem for the part that holds.) Found while reading:

1. Stepped ranges with stop before start get a negative size (`range(5,2,2)`).
2. `xstepped_range::contains` is wrong for negative steps.
3. `in_bounds`, `normalize_periodic`, `check_element_index` align fewer arguments to the left while element access aligns them to the right.
4. Signed reshape: `%` by zero, unvalidated negative extents.
5. `xview` strides offset when newaxis and trailing axes combine; index mapping with two leading newaxes.
6. Overlap checker looks only at first/last element addresses: misses overlap for mixed-sign strides.
7. View assignment with detected overlap performs no shape check in the temporary path.
8. `broadcast(e{3}, {1})` enlarges the requested shape.
9. `reduce_immediate`: copy path ignores initial value and reducer for unit axes / empty axes.
10. `cumsum` with dynamic static layout takes the column-major branch for row-major data.
11. `nancumsum` initialisation pass uses the minimum stride, which is 0 for unit axes.
12. `arange(0,1,2)` is empty.
13. `squeeze` forgets the parent's offset and filters zero strides independently of unit extents.
14. `roll(axis)`: negative axes throw, shift larger than extent is not reduced; flat roll of an empty array divides by zero.
15. `stack` does not check shapes.
16. histogram density divides by all data.
17. `xrepeat` with leading zero repeat.
18. npy reader sign-extends header length bytes ≥ 0x80: headers of length 182 cannot be read back.
19. Chunked access with fewer indices than dimensions: chunk shape is left-aligned.
20. Lazy expression shape cache is stale after an operand is resized.
21. `a += scalar` on a strided adaptor walks the buffer, not the elements.
22. `resize(shape, custom strides)` allocates only the product of the extents: strides reaching further address past the storage.
23. An allocation failure inside `resize` leaves the new shape with the old storage.
24. Signed reshape skips the static-layout check and, for the dynamic layout with default argument, produces column-major strides.
25. A `drop` slice object normalised twice (axes of different lengths) keeps stale table entries; unsorted or repeated indices select wrong positions.
26. `xview::operator()` with a second newaxis before all parent axes are consumed, or with an integer slice between a newaxis and a later kept axis, reads the wrong element (`C18_two_newaxes_wrong`, `C18_newaxis_int_wrong`); `element()` fails only in the second case.
27. `xview::data_offset` uses stride 1 for slices whose position in the slice list exceeds the parent dimension (`C19_offset_wrong`).
28. A view called with fewer indices than its dimension aligns them to the first slices while the parent aligns what it gets to the last axes.
29. `strided_view` does not normalise negative integer slices (`C20_negative_int_wrong`); `flat`/`data_element`/`load_simd` of a strided view ignore the offset (`C20_flat_ignores_offset`); `reshape_view` performs no size check (`C20_reshape_view_unchecked`).
30. Reverse iteration of a zero-dimensional array under a larger shape reads one position past the element (`C22_reverse_zero_dim_wrong`).
31. `xindexed_stepper` (generators): `stepper_end` ignores the traversal order and `to_end` ignores the broadcast offset in column major order, so backward walks read wrong elements (`C22_reverse_generator_wrong`, `C22_generator_end_wrong`); `to_end` of a 0-d generator writes outside its index.
32. `element()`/`operator[]` of an expression passes the whole index to a generator operand of lower dimension, which uses the leading coordinates (`C22_element_generator_wrong`).
33. Generator expressions that hold arrays (`concatenate`, `stack`, `diag`, `tril`, …) are never found to overlap the destination (`C27_generator_not_seen`).
34. `noalias(view) = e` with `e` smaller than the view selects the flat loop without looking at the view's shape and reads past the end of `e` (`C24_noalias_view_broadcast_wrong`).
35. `noalias(a) += b` with a unit extent of `a` against a zero extent of `b` keeps the shape of `a` and reads past the end of `b` (`C28_noalias_zero_extent_wrong`).
36. `view += e` with `e` larger than the view neither throws nor stays inside the view (`C28_view_larger_rhs_wrong`).
37. Reverse iteration of a lazy reducer starts its substepper at the end position of the argument and reads outside it (`C30_reverse_iteration_wrong`).
38. A `keep_dims` reducer broadcast to a larger shape moves its substepper along the reduced axes and folds the wrong elements (`C30_keep_dims_broadcast_wrong`).
39. `keep_dims` on a zero-dimensional expression accepts any axis (`C30_keep_dims_zero_dim_accepts_axis`).
40. A reducer whose merge and reduce are not compatible (for instance subtraction) is not a left fold of the elements as soon as two axes are reduced (`C30_nonassociative_not_fold`).
41. `reduce_immediate` copies the elements without applying the reducer or the initial value when no axis is given or when all extents up to the fastest reduced axis are 1 (`C31_copy_path_skips_reduction`, `C31_copy_path_ignores_initial`).
42. `reduce_immediate` with a zero extent reads and writes outside the storage (`C31_zero_extent_ub`).
43. Accumulating into a result of dynamic static layout takes the column-major loop sizes on row-major storage (`C32_dynamic_layout_wrong`, `C32_dynamic_layout_ub`).
44. The initialisation pass of `nancumsum`/`nancumprod` takes the smallest stride beside the axis, which is 0 with a unit extent, and leaves elements uninitialised (`C32_init_zero_stride`).
45. `transpose(e, {0, 0})` is accepted by the default check policy and reports the layout of the argument for a view that is not laid out so (`C33_repeated_axis_accepted`).
46. `flip(e)` without axis assigns through the view it is about to return: for two or more dimensions it overwrites the elements of its argument; a 0-d argument is undefined behaviour (`C35_flip_all_overwrites`). `flip(e, axis)` and `rot90` do not check their axes.
47. `roll(e, k, axis)` rejects every negative axis and reads outside the array for `k` beyond the extent; on empty arrays `roll` divides by zero or does not terminate (`C36_negative_axis_rejected`, `C36_large_shift_ub`, `C36_roll_empty_ub`).
48. `squeeze` drops the offset of its argument; without axis list it removes the zero strides instead of the strides of unit axes; its full check accepts the axis equal to the dimension; repeated axes write out of bounds (`C37_squeeze_loses_offset`, `C37_squeeze_zero_strides`, `C37_squeeze_check_witness`).
49. `split(e, 0)` divides by zero (`C55_split_errors`).
50. `arange` over signed integers is empty when the interval is shorter than the step, instead of holding the start (`C38_short_interval_empty`, `C38_empty_iff`); unsigned integers are not affected unless the sum with the step wraps (`C38_unsigned_wraps`).
51. `arange` over floating point numbers with an interval pointing against the step converts a negative length to `size_t`; a zero step divides by zero; wide intervals overflow (`C38_reversed_interval_undefined`, `C38_undefined`).
52. The `arange`/`linspace` functor reads its first index, so an access with surplus leading indices, which containers and broadcasting allow, gives the wrong element (`C38_leading_index_wrong`). `stack` does the same (`C39_stack_unchecked`).
53. Assigning `arange` or `linspace` without temporary writes the storage of the target in order, whatever its strides (`C38_strided_assign_wrong`).
54. `stack` and one-dimensional `vstack` do not compare the shapes of their operands (`C39_stack_unchecked`); `concatenate` needs as many indices as axes and accumulates strides in an `int` (`C39_concat_limits`).
55. `diagonal` with an offset beyond the extent reports nearly 2^64 elements (`C40_diagonal_offset_huge`); `tril`/`triu` read two indices whatever the dimension and use the first two axes (`C40_tri_dimensions`).
56. `sort` and `partition` of a transposed view look at the layout of the expression but work on a temporary of another layout: the wrong axis is sorted (`C41_sort_transposed_wrong`, `C42_partition_transposed_wrong`).
57. `sort` of an expression of dynamic layout and two or more dimensions throws (`C41_sort_dynamic_throws`); an axis out of range is not checked (`C41_bad_axis_ub`).
58. `argsort` of a view reads `data()` without the offset of the view; of a transposed view it sorts the wrong lines (`C41_argsort_view_wrong`, `C41_argsort_transposed_wrong`).
59. `argpartition` over flattened arrays of shape (n, 1) compares the first element with itself; column-major arrays are read outside (`C42_argpartition_column_wrong`, `C42_argpartition_column_major_outside`).
60. `median` of integers truncates the mean of the two middle elements; of no elements it is undefined (`C42_median_integer_truncates`, `C42_median_empty_ub`).
61. `argmin`/`argmax` along an axis of a column-major array with three dimensions are scrambled under the default traversal; an axis of extent 0 leaves the result uninitialised (`C43_column_major_wrong`, `C43_empty_axis_unwritten`).
62. `searchsorted`: the flag `right` selects the opposite of what is documented (`C44_searchsorted_sides_reversed`; `digitize`, built on it, is right). Arrays of shape (n, 1) get one entry only, column-major arrays of two dimensions are read outside (`C44_searchsorted_column_wrong`, `C44_searchsorted_column_major_outside`).
63. `isin` with an initializer list stores the `std::initializer_list`, whose array ends with the full expression; the overload on iterators captures the iterators by reference. Both dangle when the lazy result is kept (`C83_isin_list_wrong`, `C83_isin_range_wrong`).
64. `histogram` of integer data with a number of bins: the edges are truncated to integers but the bins used are not (`C45_integer_edges_disagree`).
65. `density` divides by the number of data instead of the weight in range (`C45_density_wrong`).
66. `histogram_bin_edges` in `uniform` mode sets at most one interior edge per datum: edges stay uninitialised; trailing zero weights run past the table (`C45_uniform_edges_wrong`).
67. Unweighted `bincount` and `histogram` count in the value type of the data: 256 equal `uint8_t` values count as 0 (`C45_bincount_ones_wraps`). `bincount` of an empty signed array asks for an impossible size (`C45_bincount_rejects`).
68. `pad` only asserts its width limits: too wide `wrap` and `reflect` leave cells unwritten, too wide `symmetric` throws from the slice (`C46_pad_too_wide`); fewer widths than axes read out of range (`C46_pad_short`).
69. `tile` with a repetition of 0 throws unless the extent is 0 or 1 (`C47_tile_zero_throws`); `tile(e, n)` of a 0-d array writes past its list (`C47_tile_first_scalar_undefined`).
70. `repeat` with a first repeat of 0 starts at the slice that should be absent (`C47_repeat_first_zero_wrong`); with a last repeat of 0 iteration resets by too much (`C47_repeat_last_zero_wrong`).
71. `repeat`: reverse iteration reads the repeats out of range or visits other elements (`C47_repeat_reverse_wrong`); so does use in a larger broadcast shape (`C47_repeat_broadcast_wrong`).
72. `repeat`: fewer arguments than axes address leading axes, elsewhere trailing ones (`C47_repeat_few_arguments_wrong`).
73. A chunked array accessed with fewer indices than axes addresses its leading axes, other containers the trailing ones (`C48_few_indices_wrong`); with more it reads past the chunk shape (`C48_many_indices_undefined`).
74. A chunked array with a unit extent in a chunk of extent two or more reads the padding of the chunk when broadcast (`C48_broadcast_wrong`). A chunk extent of 0 divides by zero (`C48_zero_chunk_undefined`).
75. `noalias(a) = e` for a chunked array and a source that broadcasts throws or reads outside (`C49_broadcast_wrong`). `a = e` with another number of dimensions keeps the old chunk shape; `as_chunked(out) = a` does not compare the shapes (from reading).
76. `as_chunked` of a temporary takes the shape from the expression after moving it; `as_chunked(e)` without chunk shape leaves the grid unset until it is assigned a chunked array. Recorded from reading.
77. `load_npy` combines the bytes of the header length as `char`: where `char` is signed, a low byte of 128 or more is sign-extended and loading throws. `dump_npy` of an array of 24 unit axes writes such a file (`C50_long_header_wrong`).
78. `dump_npy` of a container of dynamic layout writes the storage in order and ignores the strides (`C50_custom_strides_wrong`).
79. A one-dimensional column-major array is dumped as row-major and cannot be loaded with `layout_type::column_major` (`C50_column_vector_rejected`).
80. `load_npy` accepts files that end early and leaves the rest of the array uninitialised (`C50_truncated_accepted`). The buffer, allocated as `char`, is later released through the allocator of the element type (from reading).
81. `svector::push_back(v[0])`, `insert(it, v[0])` and `assign(n, v[0])` read the element after `grow` has freed the heap block it lives in (`C51_own_element_freed`); `insert` handles only the case without growth. With the inline block, which stays, the same calls are right (`C51_own_element_partial`).
82. `svector` of a class type assigns to cells of a fresh heap block that hold no object, and frees blocks without destroying their elements; the free `swap`, declared `noexcept`, may allocate; a move construction does not take over the allocator (from reading).
83. An empty shape does not protect from overflow: with extents {2^32, 2^32, 0} the column-major strides and the signed size overflow before the zero is reached (`C53_empty_shape_overflows`). The property assumes that the product of the non-zero extents fits.
84. The shape cache of `xfunction` is never invalidated (core/xfunction.hpp:570-600): after `e.shape()` (or `size()`, `begin()`, the overlap check of an assignment to a view) a resize of an operand is not seen by `e.shape()`, `e.dimension()` nor by assignments from `e`, which then read outside an operand that has shrunk (`C54_stale_shape`, `C54_stale_reads_outside`).
85. `dimension()` of an operand may be stale while its `broadcast_shape` is not, so an expression that was never used can fail to broadcast compatible shapes or report an extent of 2^64 - 1 (`C54_stale_operand`).
86. Assigning an expression of optionals evaluates the plain operation on the numbers stored under missing values as well (optional/xoptional.hpp:1279-1293); an integer division by a missing divisor (stored as 0) is undefined although the element is missing (`C52_missing_operand_evaluated`).
87. `value()` and `has_value()` of a container of optionals rebuild its strides from the shape and the static layout (optional/xoptional.hpp:935-957): for a dynamic layout type that is column-major they show, and assignments write, other elements than access (`C52_dynamic_layout_wrong`).
88. `value()` of a function of optionals default-constructs the functor and loses its state (optional/xoptional.hpp:978-987, `C52_functor_state_lost`).
89. `xoptional_assembly(VE&&)` reads the shape of the container it has just moved from (optional/xoptional_assembly.hpp:385-390): from an `xarray` the flags get the empty shape, one flag for all elements (`C52_moved_values_share_a_flag`).
90. `xview_stepper` compares the axis with its offset but does not subtract it (views/xview.hpp:2166-2209): a view with a `keep`/`drop` slice, or of a lazy expression, used under a shape with more axes steps outside its slices from the second element on (`C59_more_axes_undefined`, `C59_zero_dim_repeated_undefined`).
91. Under a shape of the same number of axes, an axis of one element that comes from a range, `all` or `drop` on a longer parent axis is not repeated: the stepper walks along the parent (`C59_repeated_range_wrong`).
92. Reverse iteration over such views is wrong whenever the past-the-end position is not one parent step after the last element on the leading axis, or the counters are not where they are looked up: a `keep` or `drop` that is the last slice but not on the last axis, a `keep` of one index, a stepped range or a newaxis on the leading axis, an integer on the last axis of the parent, an integer before a `keep` or `drop` (`C59_reverse_keep_before_implicit_axis_wrong`, `C59_reverse_keep_one_wrong`, `C59_reverse_stepped_wrong`, `C59_reverse_newaxis_wrong`, `C59_reverse_int_last_wrong`, `C59_reverse_int_before_keep_undefined`). `to_begin` ignores the first values of the slices (`C59_reverse_zero_dim_wrong`).
93. The overlap test looks at the first and last element of each side (utils/xutils.hpp:868-938). For an index view whose indices are not in address order, or a row-major `filter` of a column-major container, elements lie outside that range; a self-assignment is then done without a temporary and reads elements already overwritten (`C60_unordered_wrong`, `C60_filter_other_layout_wrong`).
94. `xindex_view::element` and `operator[]` take the first of several indices where `operator()` takes the last (views/xindex_view.hpp:403-500): under broadcasting they return another element or read past the end (`C60_element_more_indices_wrong`).
95. With an element listed twice, `v += s` adds twice and `v += e` once (`C60_repeated_differs`).
96. `filtration` does not broadcast its condition: `std::transform` reads past the end of a smaller one (`C60_filtration_broadcast_undefined`). A condition that depends on other elements is evaluated while they change (`C60_filtration_dependent_wrong`).
97. `axis_end` leaves out the offset of the expression in its storage, and `xaxis_iterator::equal` compares offsets: iterating over a view that does not start at the first element of its storage never ends (`C61_axis_offset_endless`).
98. `xaxis_slice_iterator::operator++` compares the offset modulo the size of all axes but the slowest with the bounds of one block: in arrays of four or more axes the slices along an inner axis are wrong unless the extents are degenerate (`C61_slices_exact`). The same remainder is wrong for offsets that are no multiple of that size (`C61_slices_offset_wrong`) and for arrays that are not contiguous (`C61_slices_layout_wrong`), and it divides by zero for an axis without elements (`C61_slices_empty_undefined`).
99. `fft::ifft` does not divide by the length: `ifft(fft(x))` is `n * x` (`C62_round_trip_partial`, `C62_not_inverse`).
100. `fft::ifft` calls `e.shape(axis)` with the axis as given: for a negative axis, such as the default `-1`, it reads before the first element of the shape. `fft::convolve` passes its axis on (`C62_ifft_default_axis_undefined`, `C62_convolve_default_axis_undefined`).
101. `fft::fft` inherits the slices of disagreement 98: along an inner axis of an array with four or more axes, some sequences are not transformed and others twice (`C62_fft_inner_axis_wrong`).
102. `random::shuffle` of an empty array, and so `random::permutation(0)`, starts at index `size_t(-1)` and exchanges elements outside the array (`C63_shuffle_empty_undefined`, `C63_shuffle_rows_empty_undefined`).
103. `random::choice(e, n, replace)` reads `e.storage()`, for a view the storage of the array viewed: elements outside the view are sampled (`C63_choice_view_wrong`, `C63_choice_replace_view_wrong`).
104. `random::choice` with weights that are all zero reads the element after the last (`C63_weighted_zero_undefined`).
105. `quantile` of a transposed expression takes quantiles along the other axis, since `partition` does (`C64_quantile_transposed_wrong`).
106. `quantile` along an axis without elements reads outside the storage (`C64_quantile_empty_undefined`).
107. `variance(e, axes, ddof)` divides by (size - ddof) / number of groups, an integer quotient, instead of group size - ddof: wrong for ddof > 1 and several groups (`C65_variance_divisor`, `C65_variance_ddof_wrong`).
108. `variance` with a negative axis throws (braced list) or writes outside `keep_dim_shape` (signed sequence), although `mean` accepts it (`C65_variance_braced_negative_throws`, `C65_variance_negative_undefined`).
109. `average` with one-dimensional weights over several axes does not count the other axes in the sum of weights (`C65_average_axes_wrong`).
110. `average` with `keep_dims` and weights of the shape of the operand broadcasts a column against a row (`C65_average_keep_wrong`).
111. `amin`/`amax`/`minmax` of infinities give `max()`/`lowest()`; so do empty groups (`C65_amin_infinite_wrong`).
112. `diff(e, n, axis)` compares `n` with the number of elements instead of the extent: an array without elements loses the whole axis (`C66_diff_empty_wrong`), so that `trapz(y, x, axis)` throws (`C66_trapz_empty_throws`).
113. `interp(x, xp, fp, left, right)` gives `left` and `right` also at the first and the last point, instead of only outside as documented (`C66_interp_ends_wrong`).
114. `unwrap(p)` with an lvalue changes `p`: `E1 up(p)` is a reference (`C66_unwrap_modifies_argument`).
115. `convolve(a, v, valid)` of different lengths reads past the end of the shorter vector (`C66_convolve_valid_undefined`); of equal lengths it is a correlation, the second vector not being reversed (`C66_convolve_valid_wrong`).
116. Block-wise reducers do not normalise axes given as a number or a sequence: a negative axis makes `init_shapes` write outside the shape of the result (`C67_negative_axis_undefined`), or with `keep_dims` is ignored in that shape (`C67_negative_axis_keep_wrong`).
117. A block-wise reduction along an axis of extent 0 visits no block and leaves the destination as it was (`C67_empty_axis_wrong`).
118. `blockwise::norm_lp_to_p` and `norm_lp` take powers of the elements instead of their absolute values, and count zeros for `p = 0` (`C67_norm_lp_odd_wrong`, `C67_norm_lp_zero_wrong`).
119. `assign_to(result)` of a block-wise reducer does not resize `result`; a smaller one gets part of the result (`C67_destination_shape_wrong`).
120. `load_csv` checks only the total number of cells against the length of the last row: ragged rows are accepted (`C68_ragged_rows_wrong`).
121. `max_rows = 0` reads everything, and with `max_rows` one further line is taken from the stream and lost (`C68_max_rows_zero_wrong`, `C68_max_rows_loses_line_wrong`). An empty comment marker makes every line a comment (`C68_empty_marker_wrong`).
122. An empty last cell is dropped, an empty last line makes a file unreadable, and arrays without elements lose their shape (`C68_empty_last_cell_wrong`, `C68_empty_line_wrong`, `C68_no_elements_wrong`). A row whose first text begins with `#` is lost on reading (`C68_hash_row_wrong`).
123. `lexical_cast<std::string>` takes the length for the end: blanks behind a text are kept if there are blanks in front (`C68_string_blanks_wrong`).
124. Cells are converted without checks: trailing characters are ignored, unsigned types wrap, `short` saturates or gives 0 or an indeterminate value, 8-bit types are characters (`C68_trailing_characters_wrong`, `C68_unsigned_wraps_wrong`, `C68_small_types_wrong`, `C68_bytes_undefined`).
125. `dump_file` ignores the delimiter of its configuration, `load_file` does not (`C68_file_delimiter_wrong`).
126. JSON documents of arrays with empty axes are refused, misread, or written past the shape by `from_json` (`C69_empty_axis_wrong`, `C69_empty_axis_undefined`, `C69_empty_axis_fixed_wrong`).
127. `from_json` looks only at first elements: short rows are read beyond their end, long ones cut off, and documents of another depth are misread or write past the shape (`C69_short_row_undefined`, `C69_long_row_wrong`, `C69_fewer_axes_wrong`, `C69_more_axes_undefined`).
128. `from_json` into a view default-constructs the shape: for a dynamic dimension it is empty and the check is vacuous; for a fixed one and a shallower document indeterminate extents are compared (`C69_dynamic_view_unchecked_wrong`, `C69_view_fewer_axes_undefined`).
129. `xbuffer_owner_storage::swap` does not exchange `m_moved_from`, and an adaptor that was moved from keeps its pointer: assigning to, resizing, resetting or exchanging such an adaptor releases the block of another adaptor, or loses a buffer (`C70_moved_from_reuse_undefined`, `C70_moved_from_move_undefined`).
130. `uvector` with unequal allocators: copy assignment replaces the allocator before the old block is released, move assignment and `uvector(uvector&&, alloc)` take over a block but not its allocator (`C70_allocators_undefined`, `C70_move_allocator_undefined`).
131. `<=`, `>` and `>=` of `xbuffer_adaptor` and `xiterator_adaptor` pass a non-strict or reversed comparison to `std::lexicographical_compare` (`C70_buffer_compare_wrong`). The assignments of `xiterator_owner_adaptor` have no return statement; `xbuffer_smart_pointer::swap` takes another type (from reading).
132. With `edge_items(1)` both loops of the printing code jump to the last index, use it, and then miss their end condition `i != shape - 1`: indices past the end are read and the loop does not end (`C71_one_edge_item_undefined`).
133. A manipulator with the value 0 (`po::threshold(0)`, `po::edge_items(0)`, `po::precision(0)`) is indistinguishable from none and ignored (`C71_zero_option_wrong`).
134. `mime_bundle_repr` of an array without elements runs `recurser_run`, whose bound `shape - 1` wraps (`C71_html_empty_undefined`).
135. The line width is exceeded by rows of arrays with two or more axes (the indentation is not counted), by ellipses, and by elements that do not fit, which are written on one line (`C71_line_width_wrong`). The absolute value of the smallest integer is stored in the element type, so that it does not count for the width (`C71_smallest_integer_wrong`).
136. All norm functions are declared `noexcept`, but the reduction they build throws for axes that are not sorted or do not exist: the program is ended (`C72_bad_axes_terminate`). Braced axes are converted to `size_t` first, so that `norm_l1(e, {-1})` ends the program although every other reducer accepts it (`C72_braced_negative_terminates`).
137. `norm_sq` multiplies elements in their own type before adding them to a 64-bit sum: `unsigned int` elements from 65536 wrap, `int` and `unsigned short` elements from 46341 overflow (`C72_square_overflow`, `C72_square_wrong`).
138. Norms evaluated immediately over axes of extent 1 in front, or of a zero-dimensional array, return the elements with their sign (`C72_immediate_wrong`, by the copy path of `reduce_immediate`).
139. `xdynamic_view::unchecked(args...)` overwrites the offset it computed with `adjust_offset(args...)`, whose first parameter is the offset: it reads the storage at its first argument (`C73_unchecked_wrong`, `C73_unchecked_first_argument`).
140. `operator()` and `element` of a dynamic view with fewer indices than axes, and `operator()()`, do not apply the keep and drop slices of the axes left out (all but the first, for `operator()()`), so they read another element than with explicit zeros; `operator()()` on a view without axes indexes an empty vector of slices (`C73_fewer_arguments_wrong`, `C73_no_arguments_wrong`).
141. `xdynamic_view::flat(i)` adds `i` to the address of the first element and ignores the strides (`C73_flat_wrong`). `fill` calls `linear_begin`, which the class does not have.
142. `xarray` and `xtensor` built from ragged braces take the sizes of the first braces of each level as shape and copy all values without a check: `{{1},{2,3,4}}` writes past the storage, `{{1,2,3},{4}}` leaves elements without value, `{{1,2},{3},{4,5,6}}` moves values to other rows (`C74_ragged_wrong`, `C74_undefined_iff`).
143. `xtensor_fixed` checks braces against its shape only with `XTENSOR_ENABLE_ASSERT`; otherwise braces with too many values write past the storage (`C74_fixed_unchecked_wrong`).
144. `broadcast_fixed_shape` treats an extent 0 as a missing axis: fixed shapes `(0)` and `(3)` broadcast to `(3)` (refused in the other order) and `(0)` and `(1)` to `(1)`; a scalar counts as `(1)`, so `(2, 0)` plus a number has shape `(2, 1)` and reads elements that do not exist (`C75_zero_extent_wrong`).
145. An expression of `xtensor_fixed<T, xshape<>>` and a number has shape `(1)` rather than `()` (`C75_scalar_rank_wrong`).
146. `xfixed_container::resize` is only an assertion: without assertions an expression of any shape is assigned to a fixed array, reading past a shorter operand (`C75_assign_unchecked_wrong`). `reshape` compares with `std::equal` before comparing sizes and reads past its own shape (`C75_reshape`). `is_contiguous()` denies contiguity when the last (column-major: first) extent is 1 (`C75_is_contiguous`).
147. The overlap test compares addresses of the first and last elements without their sizes: the first imaginary part of the destination lies behind the start of the complex element that contains it, so `imag(view(a, range(2, 5))) = norm(view(a, range(0, 3)))` uses no temporary and reads an element already changed (`C76_imag_alias_wrong`).
148. `operator<` of `xfunctor_iterator` returns `!lhs.less_than(rhs)`: for `real(a)` and `imag(a)`, `begin() < end()` is false and `it < it` is true (`C76_order_wrong`).
149. `xfunctor_adaptor::operator=` copies `linear_begin()..linear_end()` whenever the layouts are equal: for `x + y` with `y` broadcast it reads past `y`, with the smaller operand first it assigns only part of the elements (`C76_adaptor_broadcast_wrong`); with two `dynamic` layouts it ignores the strides (`C76_adaptor_dynamic_wrong`). The const overloads of the reverse broadcast iterators (`rend(shape)`, `crbegin(shape)`) drop the shape and do not compile when used.
150. `minimum` and `maximum` return their second argument when either is NaN: `minimum(NaN, 1)` is 1, `minimum(1, NaN)` is NaN, and `amin` of `{1, NaN, 2}` is 2 (`C77_minimum_order_wrong`, `C77_amin_nan_wrong`).
151. `isclose(inf, x)` is true for every finite `x` whenever `rtol > 0`, as by default: the difference and the bound are both infinite (`C77_isclose_infinite_wrong`).
152. The documentation of `isclose` gives `|a - b| <= atol + rtol * |b|`; the code tests `|a - b| <= atol` or `|a - b| <= rtol * max(|a|, |b|)` (`C77_isclose_formula_wrong`).
153. `allclose` is `noexcept`: on shapes that do not broadcast the program is terminated (`C77_allclose_terminates`).
154. `nansum` over several axes uses `nan_plus` to merge partial sums as well: a partial sum that is NaN because of `inf - inf` is dropped, so `{{1, 1}, {inf, -inf}}` sums to 2 (`C77_nansum_axes_wrong`).
155. `pow<N>` stores the inner power in the element type although its result has the promoted type: `pow<4>` of `int8_t` 16 is the `int` 0 (`C77_pow_narrow_wrong`).
156. Adapting a `std::vector` with a shape resizes the user's vector to the number of elements of the shape, losing elements when that is smaller (`C78_vector_truncated_wrong`).
157. A `std::array` or a constant container that is too short for the shape is adapted without a check (an assertion for constants in debug builds), and some in-bounds index reads outside it (`C78_fixed_short_wrong`).
158. `adapt<L>(x, {n0, n1})` and `adapt<L>(c_array, shape)` do not pass `L` on: `adapt<column_major>(v, {2, 3})` is row-major, `adapt<column_major>(c_array, shape)` throws (`C78_template_layout_wrong`).
159. `adapt(v, shape, strides)` resizes the container to the product of the extents whatever the strides: with padded strides the user's vector loses the elements the last indices refer to, and a pointer with its true size is refused (`C78_strides_padded_wrong`, `C78_strides_negative_wrong`).
160. Assigning an expression of another size to an adaptor over a pointer throws after shape and strides have been replaced: the adaptor's indices then reach outside its memory (`C78_assign_refused_wrong`).
161. `operator=(temporary_type&&)` of the adaptors takes shape and strides but not the layout: a column-major adaptor with run-time layout still says `column_major` over row-major strides, and `dump_npy` then writes a permuted file (`C78_assign_layout_wrong`).
162. `dump_npy` of memory adapted with strides writes the cells in memory order (`C78_save_strided_wrong`).
163. `a = b` for adaptors over pointers copies the pointer: `a` becomes another name of `b`'s memory and its own memory is unchanged; `a = b + 0` copies the elements (`C78_copy_pointer_wrong`).
164. `flat(i)`, `storage()[i]` and the linear iterators of an assembly whose values and flags have different static layouts join the value of one element with the flag of another; `begin()` and `operator()` are right (`C79_mixed_layout_flat_wrong`).
165. Such an assembly cannot be constructed from a shape: the same layout is asked of both halves, so one of them throws (`C79_mixed_layout_shape_wrong`).
166. `resize(shape, l)` and `reshape(shape)` of such an assembly throw after the values have been changed: the halves are left with different shapes (`C79_mixed_layout_resize_wrong`).
167. `xoptional_assembly(values, flags)` and the adaptor do not compare the shapes of the two: an element may have no flag, and broadcasting succeeds to shapes the flags do not fit since the flags are only asked if the values broadcast trivially (`C79_pair_wrong`).
168. `==` of two assembly storages compares what is stored under missing elements, unlike `==` of the assemblies (`C79_storage_equality_wrong`).
169. `<`, `<=`, `>`, `>=` of assembly storages are false whenever the flags differ: not an order with `==` (`C79_storage_order_wrong`).
170. If the allocation of the flags fails, `resize` leaves the values resized and the flags not (`C79_resize_alloc_wrong`).
171. `xoptional_assembly_storage::data()` has no `return` statement: calling it, or `data()` of an assembly, is undefined (not modelled).
172. `flat(i)`, `data_element(i)`, `load_simd(i)` and `store_simd(i)` of a view of a view pass `data_offset() + i` down, although `data_offset()` already contains the offset of the view below, which adds it again: `view(view(a, 1), 1).flat(0)` of shape `[2, 2, 2]` reads position 10 of 8; SIMD assignment from contiguous nested views reads and writes there (`C80_nested_flat_wrong`).
173. A view of an rvalue container with integer and `all` slices keeps its shape and strides as references into its own member; the defaulted copy refers to the original's member, so copying and destroying it (as building any function of it does) leaves dangling references (`C80_owning_copy_wrong`).
174. `row(f(), i)` and `col(f(), i)` pass their forwarding reference on as an lvalue: the view refers to the temporary, unlike `view(f(), i, all())` (`C80_row_temporary_wrong`).
175. The difference of two linear iterators of a function is never negative: `f.linear_begin() - f.linear_end()` is 0, as the maximum starts at 0 (`C81_backward_distance_wrong`).
176. Linear iterators of a function of scalars are all equal, so its range is empty although it has one element; the same holds for any function whose first operand that is not a scalar is such a function, as `(s + t) * a` (`C81_scalars_wrong`).
177. `linear_begin()` of a function exists whatever the layouts of the operands: with a row-major and a column-major operand it combines elements of different indices. `partition(f, k, xnone())` copies `f` this way (`C81_mixed_layout_wrong`).
178. With an operand that is broadcast, the linear range of a function has the length of its first operand, or reads past the end of the others (`C81_broadcast_operand_wrong`).
179. `linear_begin(broadcast(e, shape))` and `linear_end` are those of `e`: the range has as many elements as `e` (`C81_broadcast_wrong`).
180. `xstrided_view::linear_rbegin()` is a reverse iterator made of `linear_begin()`, `linear_rend()` of `linear_end()`: the traversal starts before the first element and never ends (`C81_strided_reverse_wrong`).
181. `masked_view(data, mask)` compares no shapes. A mask with more axes than the data is read in its first row by index and at its first element by iteration, as `shape.size() - dimension()` wraps around (`C82_mask_axes_wrong`); a shorter mask is read past its end, also by `at` (`C82_short_mask_wrong`).
182. Reverse iteration over a masked view with a 0-dimensional mask reads past the flag (`C82_reverse_scalar_mask_wrong`).
183. `has_linear_assign` of a masked view promises a flat loop, but the view has no linear iterators and `linear_begin` falls back to `cbegin()` in row-major order: assigning a column-major masked view to a column-major array transposes it (`C82_into_column_wrong`); with `XTENSOR_DEFAULT_LAYOUT` column-major so does `view = view`.
184. Assigning masked values through a mask that is broadcast changes a flag that later elements share (`C82_shared_flag_wrong`, for a rule that hides the destination).
185. `masked_view(a, m) = e` with `e` larger than a view of extent 1 writes past the last element (`C82_larger_rhs_wrong`).
186. `xmasked_view` has no `broadcast_shape`, so it cannot be an operand of a function (from reading).
187. `average(e)` passes its parameter by name to `mean`: of a temporary that is not shared the result refers to an object that ends with the full expression (`C83_average_wrong`). `flip(e)`, `row(e, i)` and `col(e, i)` do the same (`C83_views_wrong`).
188. A lazy reduction keeps a reference to a variable of unsigned axes and a copy of signed ones (`C83_axes_wrong`): a change of the variable changes the reduction, or not.
189. `xclosure_t` matches `xshared_expression<E>` and not references to it, `const_xclosure_t` matches `xshared_expression<E>&` and not constant ones: a view or a vectorized function of a shared variable, and any function of a constant shared variable, refers to the variable (`C83_shared_wrong`).
190. docs/source/closure-semantics.rst gives `xscalar<std::decay_t<E>>` for scalar operands; the code keeps references to scalar variables (`C83_scalar_wrong`).
191. `auto&& c = eval(t)` dangles if `t` is a temporary container, and does not for any other temporary (`C83_eval_wrong`).
192. `from_indices` of an empty list has shape 0×0, so the number of axes is lost: `from_indices(argwhere(a))` has `a.dimension()` columns only when an element is set (`C84_from_no_index_wrong`).
193. `from_indices` and `flatten_indices` take the length of the first index for all: they read or write past the end for indices of different lengths (`C84_ragged_wrong`). `ravel_indices` refuses no index (`C84_ravel_wrong`).
194. `trim_zeros` asserts one axis in debug builds only: with more, zeros are counted in elements and cut in rows (`C84_trim_rows_wrong`).
195. `make_xshared` and `share` copy the expression: `derived_cast() &&` returns `*static_cast<derived_type*>(this)` by value. docs/source/closure-semantics.rst says that it is moved and invalid afterwards (`C85_containers_unchanged`). The copy is made in a `noexcept` function.
196. `p_shared` is copied with a container and not reset by writes: `share` after a write gives the old value (`C85_stale_wrong`), and `share` of a copy gives the object of the original (`C85_copies_wrong`). After `v = expression` the value is the old one unless the expression refers to `v`.
197. The comment at core/xexpression.hpp:505 expects a `use_count()` of 3 for two uses; it is 4, as in the documentation (`C85_use_count`).
198. `xexpression_holder(E&&)` is a better match than the copy constructor for a holder that is not constant: `auto g = h;` makes `g` refer to `h` (`C86_copy_named_wrong`), and `h = g;` then makes `h` refer to itself, so `to_json` never ends (`C86_copy_back_wrong`).
199. Copying an empty `xexpression_holder` calls `clone()` through a null pointer (`C86_copy_empty_wrong`).
200. `init_pointer_from_json` throws "unsupported data type" after it has stored an array of a supported type: `from_json` into an empty holder always throws the first time and works the second time; for an empty list it reads `j[0]` (`C86_from_json_empty_wrong`).
201. `ravel(a) = ravel(b)`, both named views of variables, copies iterators: `a` keeps its elements and the first view shows `b` from then on, unlike every other view (`C87_rebinds_wrong`).
202. `xiterator_owner_adaptor::operator=` (copy and move) returns nothing, so assigning one flat view of a temporary to another is undefined (`C87_owned_wrong`).
203. `ravel(a) = broadcast(a, {3})` for an `a` of one element is not refused: three elements are copied to the place of one (`C87_larger_wrong`).
204. `strided_view(a, {range(0, 1)}) = a + 1` with two elements on the right is not refused: the first of them is assigned (`C88_view_larger_wrong`).
205. `noalias(a) += b` with `a` of shape `[1]` and `b` of shape `[0]` reads past the end of `b`, also in a program of declarations only (`C88_noalias_empty_wrong`).
206. In detail for 131: `xbuffer_adaptor::operator<=` and `>=` pass `less_equal` and `greater_equal` to `lexicographical_compare`, so that only the first elements count: `{1, 5} <= {1, 2}`, and an empty buffer is not `<=` itself (`C89_adaptor_order`, `C89_adaptor_wrong`).
207. `xbuffer_adaptor::operator>` turns the order of the elements around but not the sequences: `{1} < {1, 2}` and `{1} > {1, 2}` both hold (`C89_adaptor_wrong`).
208. `xnewaxis::operator!=` returns true, as `operator==` does; `xdrop_slice::operator==` ignores the extent of the axis, so that slices selecting different elements compare equal (`C89_slices_wrong`).
209. `view(a, -1)`, `strided_view(a, {-1})` and `dynamic_view(a, {-1})` differ: the first is the last element, the others read before the storage (C91_negative_wrong).
210. `noalias(a) = scalar` turns `a` into an array without axes instead of filling it (C88_noalias_scalar_reshapes): core/xnoalias.hpp:97-102 assigns an `xscalar`, and assignment resizes.
211. `histogram(data, ...)` without weights counts in the value type of the data: 256 equal data of `uint8_t` are counted as 0 (C93_counts_wrap; misc/xhistogram.hpp:52, 64, 168-177).
212. `histogram(data, bins, left, right)` on integer data truncates the limits, so data outside of them are counted (C93_limits_truncated).
213. `sum<T>(e, axis)`, `prod<T>(e, axis)` and the others defined by the same macro, with an integer `axis`, do not pass `T` on: `sum<long long>(a, 0)` of two `int`s overflows, `sum<long long>(a, {0})` does not (C94_axis_forgets_type_wrong, C94_sum_axis_overflow_wrong; core/xmath.hpp:385-394).
214. `mean<T>` with an integer `T`, which the documentation advises against overflow, divides integers: `mean<long long>({1, 2})` is 1, and of no elements it divides by zero (C94_mean_truncates_wrong, C94_mean_integer_wrong; core/xmath.hpp:1862-1869).
215. `mean` of `int`s overflows in the sum although the mean is in range (C94_mean_overflow_wrong).
216. `minimum`, `maximum`, `clip` and comparisons of signed with unsigned elements compare after conversion: `clip(-5, 0u, 10u)` is 10 (C94_clip_wrong, C94_minimum_wrong, C94_compare_wrong).
217. `argpartition(e, kth, axis)` of a view reads the storage of the underlying array from its beginning (`C42_argpartition_view_wrong`), as `argsort` does.
218. A strided view that runs backwards along one axis and forwards along another is not seen to overlap operands outside the addresses of its first and last elements: `strided_view(a, {range(_, _, -1), all()}) = strided_view(a, {range(0, 1), range(0, 1)}) + 10` on a 2 × 2 array gives 10, 20, 10, 10 (`C88_mixed_directions_wrong`).
219. A lazy random expression has no fixed elements: reading an element twice draws twice, `r - r` is not 0, and a random operand that is broadcast is not repeated along the new axis (C95_read_twice_wrong, C95_difference_wrong, C95_broadcast_wrong; generators/xrandom.hpp:216-226).
220. With one seed, what is drawn for an index depends on the layout of the container, on whether a view is assigned to, and for functions of several random operands on the order in which the compiler evaluates arguments (C95_layout_wrong, C95_view_order_wrong, C95_order_wrong).
221. `randint<T>(shape, lower, upper)` does not check its interval: `lower >= upper` breaks the requirement of `std::uniform_int_distribution`, and with `upper` the least value of an unsigned or narrow type `upper - 1` wraps and all values from `lower` on are drawn (C95_randint_empty_ub, C95_randint_wraps_wrong; generators/xrandom.hpp:300-308).
222. `noalias(a) = rand(shape)` (or `arange`, `linspace`) of another size for adapted memory that cannot grow ends the program instead of throwing, since `xgenerator::assign_to` is `noexcept` (C95_adaptor_wrong; generators/xgenerator.hpp:376-383).
223. Padding twice with `wrap`, `symmetric` or `reflect` is not padding once with the sums of the widths; it is for `constant` and `edge` (C96_pad_pad_wrong, C96_pad_pad_constant, C96_pad_pad_edge).
224. `uvector(n)`, `uvector(n, x)`, the copying constructors and `resize` do not give the new block back when the constructor of an element throws; `safe_init_allocate` does not destroy the elements it constructed either (C97_leak_wrong).
225. `operator=` of `uvector` is not atomic: when an element's assignment throws, the target holds some elements of either side, or default values if the size changed (C97_assign_not_atomic_wrong).
226. `xgenerator::reshape` accepts a shape with more elements than the generator; a one-dimensional generator repeats its last element (C98_too_large_wrong).
227. `xgenerator::compute_shape` truncates a placeholder that does not divide, takes any negative extent as a placeholder and divides by it, gives zero extents for two placeholders, and computes the product in the type of the extents (C98_compute_shape_wrong).
228. `xfunction::shape() const` fills its cache without synchronisation: two first calls race, and one can return the marker 2^64-1 for every extent (C99_first_shape_wrong, C99_torn_shape_wrong).
229. `xview::strides()`, `backstrides()` and `data_offset()` fill their members in the same way, and one call can return zeros (C99_first_strides_wrong); the library's own parallel loop with batches makes these calls in its workers when both sides are contiguous by type and the left side is aligned (C99_parallel_iff).
230. `xstrided_container::resize` sets shape and strides before it allocates the storage (containers/xcontainer.hpp:1000-1021), and by default `a = e` resizes the destination itself (core/xsemantic.hpp:617-640): after `std::bad_alloc` the array has the new shape and the old, smaller storage (C100_no_memory_wrong).
231. The copy assignment of arrays is defaulted and copies shape and strides before the storage (containers/xcontainer.hpp:300): after `std::bad_alloc` the same (C100_copy_wrong).
232. A lazy reduction of an `xtensor_fixed` over `xshape<...>` axes never fills `m_dim_mapping` (reducers/xreducer.hpp:1376-1385, 1416-1419): `sum(a, xshape<0>())` reads wrong elements, some past the array (C101_static_axes_wrong).
233. `xreducer_shape_type` for a fixed shape and `xshape<...>` axes ignores `keep_dims` (reducers/xreducer.hpp:1315-1320; C101_static_keep_wrong).
234. A reduction of an `xtensor` over `xshape<...>` axes takes the larger of the two numbers of axes as its dimension (reducers/xreducer.hpp:1236-1241): extents 0 are left over and the result is empty (C101_static_axes_array_wrong).
235. `sum(a) + 1.0` of an `xtensor_fixed` has shape (1), of an `xarray` no axes (core/xshape.hpp:423-441; C101_scalar_wrong).
236. The move constructor of `svector` allocates although it is `noexcept` (containers/xstorage.hpp:894-898, 1272-1322): moving a vector with more elements than fit inline copies them, and ends the program without memory (C102_move_wrong).
237. `swap` and the move assignment of `svector` are `noexcept` and allocate (containers/xstorage.hpp:849-855, 1403-1420; C102_swap_wrong).
238. `svector::swap` exchanges heap blocks but not allocators (containers/xstorage.hpp:1284-1289; C102_allocators_wrong).
239. The destructor of `svector` destroys every cell up to the capacity (containers/xstorage.hpp:770-777), but `grow` makes objects only for the elements (1325-1358): undefined for elements of class type (C102_class_wrong).
240. A moved-from `xtensor`, and an `xarray` after move assignment, keep their shape and lose their storage (containers/xtensor.hpp:126-127, containers/xarray.hpp:132, containers/xstorage.hpp:341-368, 849-855), so that `resize` to that shape does nothing (containers/xcontainer.hpp:1003) and the assignment of an expression of that shape writes to memory that is not there (C103_in_place_wrong, C103_move_then_assign_wrong).
241. An `xarray` that was moved into a new one has no axes and no storage: assigning a 0-dimensional expression to it, `a = sum(b)`, is undefined (containers/xstorage.hpp:894-899, containers/xcontainer.hpp:1003; C103_new_then_assign_wrong). The constructor from an expression guards against just this (containers/xarray.hpp:504-509).
242. `xtensor = std::move(xarray)` copies as many extents as the `xarray` has into a `std::array` (containers/xtensor.hpp:534-537): past its end, or leaving old extents (C103_rank_wrong).
243. An `xview` computes its strides and offset when they are first asked for and keeps them (views/xview.hpp:1267-1290, 1335-1345): if the array had another shape at that time, they stay wrong when the array has its old shape again, while element access is right (C104_lazy_wrong).
244. A contiguous `xview` without ranges refers to the shape and strides of the array (views/xview.hpp:245-279, 889-903) and so follows it when it is resized, but keeps its offset: `view(a, 1, all())` then has the elements of the new second row by element access, and begins at the old one through `data_offset()`, linear iterators and what uses them (C104_offset_wrong). Other views keep their shape and refer to elements that are gone (C104_resized_wrong).
245. A function with fewer axes than the `xtensor` it is assigned to leaves extents of 2^64 - 1 in its shape (core/xassign.hpp:599-605; the check in containers/xtensor.hpp:565 is an assertion): with an even number of missing axes the assignment succeeds, with an odd one it throws and leaves a broken tensor (C106_fewer_axes_wrong, C106_odd_axes_wrong).
246. A function with more axes than the `xtensor` throws, but if its shape was asked for before, the cached extents are copied past the end of a `std::array` (core/xfunction.hpp:719-722; C106_asked_wrong); so are the shapes of right-hand sides that are no functions (C106_other_wrong).
247. `noalias(t) += e` for an `xtensor` keeps the shape of the tensor when the first axis that changes goes from extent 1 to extent 0 (core/xassign.hpp:505-513, as for `xarray` in C28), and then reads elements of an operand that has none (C106_noalias_compound_wrong).
248. `t.reshape({…})` of an `xtensor` with fewer extents than axes fills the list up with zeros and divides the number of elements by zero, as for `t.reshape({-1})` of a matrix; with more it writes past the end of a `std::array` (containers/xcontainer.hpp:1104-1113, 1147; C107_braces_fewer_wrong, C107_braces_more_wrong). Other sequences of a wrong length that fit the number of elements are copied past the end or leave indeterminate extents (1136, 1179; C107_sequence_wrong).
249. `t.resize({4})` of a matrix compiles and gives it the shape (4, 0) and no elements (containers/xcontainer.hpp:278-279; C107_resize_fewer_wrong); the check of the number of axes is an assertion.
250. `xt::view(a, xt::all(), i)` does not look at whether `i` is an index: for a matrix with `c` columns and `i = c + k` it shows `a(1, k), a(2, k), …` and something outside of the array (views/xview.hpp:1774-1831, views/xslice.hpp:914-1003; C108_view_index_wrong, C108_next_row); so does `xt::strided_view` (C108_strided_index_wrong) and `xt::keep` (views/xslice.hpp:1420-1429; C108_keep_wrong).
251. `xt::view` of an `xarray` with more slices than axes reads `e.shape()` past its end, where `xt::strided_view` throws (views/xslice.hpp:985-1003; C108_view_count_wrong).
252. `(a + b).back()` with an array `b` of dimension 0 reads `b` one position past its only element (core/xaccessible.hpp:232-239, core/xstrides.hpp:169-196; C109_back_zero_dim_wrong).
253. `back()` of views that are not strided gives other elements than the last: `view(e, range(1, 3), keep(1))`, `view(e, keep(0, 2), range(_, _, 2))`, `view(f, 2, 1)` of a function `f`; `view(e, 1, keep(1, 2))` is undefined (C109_view_back_keep_wrong, C109_view_back_stepped_wrong, C109_view_back_zero_dim_wrong, C109_view_back_int_keep_wrong).
