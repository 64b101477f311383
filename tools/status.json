{
 "C09": {
  "status": "partial",
  "note": "Exception iff characterisation and in-buffer guarantee for full-arity calls are proved; with fewer indices than axes the offset stays in the buffer only for non-empty containers (C09_at_unsafe_on_empty is a counterexample otherwise), and check_element_index is shown to miss cases."
 },
 "C10": {
  "status": "partial",
  "note": "Proved for calls with as many (or more) indices as axes and for xt::missing; with fewer indices the code checks against the leading axes (C10_fewer_arguments_wrong)."
 },
 "C11": {
  "status": "partial",
  "note": "Proved for full-arity calls on non-zero extents; with fewer indices the code reduces modulo the leading extents (C11_fewer_arguments_wrong) and a zero extent is a division by zero (C11_zero_extent_ub)."
 },
 "C14": {
  "status": "partial",
  "note": "Invariant proved over all histories of covered operations (resize, resize with layout, reshape, signed reshape within its documented contract); resize with custom strides can leave the strides addressing past the storage (C14_custom_strides_out_of_bounds, exact condition in C14_custom_strides_safe_iff), allocation failure breaks the invariant (C14_bad_alloc), signed reshape skips the static layout check (C14_signed_reshape_layout_mismatch)."
 },
 "C15": {
  "status": "partial",
  "note": "Unsigned reshape fully; signed reshape proved for one -1 placeholder on positive extents with an exactly dividing product; zero extents divide by zero, other negative extents are not rejected, dynamic layout gives column-major strides (witnesses)."
 },
 "C16": {
  "status": "partial",
  "note": "Positions always equal Python's; the reported size equals their number exactly under the iff condition C16_size_exact_iff (negative size otherwise, C16_negative_size); contains() proved for positive steps, wrong for negative ones (C16_contains_negative_step)."
 },
 "C17": {
  "status": "partial",
  "note": "keep fully; drop for strictly increasing valid indices on a fresh object; unsorted/duplicate lists and reuse of one drop object on axes of different lengths are wrong (witnesses)."
 },
 "C18": {
  "status": "partial",
  "note": "Shape, element access by operator() and element(), injectivity and write isolation proved under exact side conditions on newaxis placement; a second newaxis before the last axis, or an integer between a newaxis and a kept axis, makes the code read the wrong element (C18_two_newaxes_wrong, C18_newaxis_int_wrong)."
 },
 "C19": {
  "status": "partial",
  "note": "Strides right for every strided slice list (C19_view_strides); offset right when no more slices than axes, and more generally under OffsetExact; otherwise the code uses stride 1 (C19_offset_wrong)."
 },
 "C20": {
  "status": "partial",
  "note": "Everything proved for non-negative integers; negative integers are not normalised by the code (C20_negative_int_wrong), flat() ignores the offset (C20_flat_ignores_offset), reshape_view checks nothing (C20_reshape_view_unchecked)."
 },
 "C22": {
  "status": "partial",
  "note": "Forward iteration proved for every expression tree of strided operands, scalars, generators (at least one axis), functions and broadcasts under every shape it broadcasts to. Reverse iteration proved except when a zero-dimensional array is an operand (C22_reverse_zero_dim_wrong reads past the element) or a generator is walked backwards in column major order (C22_reverse_generator_wrong, C22_generator_end_wrong). Index-sequence access proved without generators; a lower-dimensional generator operand reads the wrong coordinate (C22_element_generator_wrong)."
 },
 "C23": {
  "status": "partial",
  "note": "All identities and arbitrary move histories proved; backward moves carry the same side conditions as reverse iteration in C22 (no zero-dimensional array operand, no generator in column major order)."
 },
 "C24": {
  "status": "proved",
  "note": "All loops agree and perform the assignment for expressions already broadcast to the destination's shape; noalias(view) = smaller expression bypasses that and reads out of bounds (C24_noalias_view_broadcast_wrong)."
 },
 "C27": {
  "status": "partial",
  "note": "Containers and views: destination ends with the old values of the expression whenever every operand's addresses lie between those of its first and last element (no strides of opposite signs) and generators read no memory; otherwise overlap can be missed (C27_mixed_sign_strides_wrong, C27_generator_not_seen)."
 },
 "C28": {
  "status": "partial",
  "note": "a op= b on containers for every b, exception iff shapes conflict; views when b broadcasts to the view (otherwise no exception and stores past the view, C28_view_larger_rhs_wrong); noalias version except unit extent against zero extent (C28_noalias_zero_extent_wrong)."
 },
 "C29": {
  "status": "partial",
  "note": "Contiguous containers, contiguous views and arbitrarily strided views; strided adaptors are walked by storage, not by element (C29_strided_adaptor_wrong)."
 },
 "C30": {
  "status": "partial",
  "note": "Shape, values under any traversal order, element access and initial values proved for all shapes, axes and expressions when merge/reduce satisfy the monoid laws (C30_own_shape, C30_element); violated: keep_dims reducers under a larger broadcast shape (C30_keep_dims_broadcast_wrong), reverse iteration (C30_reverse_iteration_wrong), reducers without the laws (C30_nonassociative_not_fold), keep_dims on a 0-d expression accepts any axis."
 },
 "C31": {
  "status": "partial",
  "note": "Immediate equals lazy for every shape without zero extent, both layouts, every axis set, keep_dims and initial value, for associative-commutative reducers (C31_immediate_eq_lazy_partial), except when the code takes its copy path (no axes, or unit extents up to the fastest reduced axis), where reducer and initial value are ignored (C31_copy_path_skips_reduction, C31_copy_path_ignores_initial); zero extents access memory out of bounds (C31_zero_extent_ub)."
 },
 "C32": {
  "status": "partial",
  "note": "Plain accumulations proved for every shape, axis and both static layouts, flat form and axis errors proved; violated: results of dynamic static layout use the column-major loop on row-major storage (C32_dynamic_layout_wrong, C32_dynamic_layout_ub), and accumulators with an initialisation function miss elements when a unit extent lies beside the axis (C32_init_zero_stride)."
 },
 "C33": {
  "status": "partial",
  "note": "Proved for every strided argument and permutation, with inverse and layout honesty; the default check policy accepts repeated axes and then reports a false layout (C33_repeated_axis_accepted); the full check rejects them (C33_full_check)."
 },
 "C35": {
  "status": "partial",
  "note": "flip along one axis and rot90 for every integer count proved (C35_flip, C35_rot90, C35_turns_mod_four); flip along all axes returns the mirrored elements (C35_flip_all_partial) but overwrites its argument beyond one dimension and is undefined on a 0-d argument (C35_flip_all_overwrites); axes are not checked (C35_flip_axis_unchecked, C35_rot90_axis_unchecked)."
 },
 "C36": {
  "status": "partial",
  "note": "Flat roll proved for every non-empty array and integer; roll along an axis proved for non-negative axes and shifts that are negative or at most the extent; violated: negative axes throw (C36_negative_axis_rejected), larger shifts and empty arrays are undefined (C36_large_shift_ub, C36_roll_empty_ub)."
 },
 "C37": {
  "status": "partial",
  "note": "expand_dims, atleast_Nd and expand-then-squeeze proved; squeeze proved for arguments whose offset is 0 and, without axis list, whose strides are 0 exactly on the unit axes (all containers without empty axes, C37_squeeze_container); violated otherwise (C37_squeeze_loses_offset, C37_squeeze_zero_strides, C37_squeeze_check_witness)."
 },
 "C55": {
  "status": "partial",
  "note": "Proved for every strided argument; zero pieces divides by zero instead of throwing (C55_split_errors)."
 },
 "C38": {
  "status": "partial",
  "note": "Length, values and bulk assignment proved for signed integers when the interval is not shorter than the step and nothing overflows, for unsigned integers without wrap, and for exact arithmetic when the interval does not point against the step; violated: intervals shorter than the step are empty (C38_short_interval_empty, C38_empty_iff), reversed floating point intervals are undefined (C38_reversed_interval_undefined), zero step and overflow (C38_undefined, C38_unsigned_wraps), surplus leading indices (C38_leading_index_wrong), strided targets (C38_strided_assign_wrong)."
 },
 "C39": {
  "status": "partial",
  "note": "concatenate proved for operands below 2^31 elements, with coverage and rejection of mismatched shapes; stack and vstack proved for equal shapes; violated: stack and one-dimensional vstack accept mismatched shapes and read past the end (C39_stack_unchecked), fewer indices and large strides (C39_concat_limits)."
 },
 "C40": {
  "status": "partial",
  "note": "eye, tril, triu, diag, diagonal and their round trips proved; violated: an offset beyond the extent gives a huge diagonal (C40_diagonal_offset_huge); one-dimensional tril is undefined (C40_tri_dimensions)."
 },
 "C41": {
  "status": "partial",
  "note": "Proved for every shape, axis and content when the expression has the row-major or column-major layout of its temporary; a transposed view is sorted along the wrong axis (C41_sort_transposed_wrong), a dynamic layout throws (C41_sort_dynamic_throws), an axis out of range is undefined (C41_bad_axis_ub), argsort of a view ignores its offset (C41_argsort_view_wrong). Flattened sort is fully proved (C41_sort_flat). std::sort/std::stable_sort enter through their contract (SortBy)."
 },
 "C42": {
  "status": "partial",
  "note": "partition proved for every list of in-range kth positions, under the layout condition of C41; kth beyond the extent is undefined, argpartition over a flattened (n,1) array compares the first element only (C42_argpartition_column_wrong). median proved over rationals (C42_median); integers truncate and empty data are undefined. argpartition along an axis is proved for row-major and column-major containers (C42_argpartition_axis_partial); a view is read from the beginning of its storage (C42_argpartition_view_wrong). std::nth_element enters through its contract (NthBy)."
 },
 "C43": {
  "status": "partial",
  "note": "Flattened version fully; along an axis when the traversal layout is that of the expression or the dimension is two (C43_axis_partial); a column-major array of three dimensions with the default traversal gives scrambled results (C43_column_major_wrong) and an axis of extent 0 leaves the result unwritten (C43_empty_axis_unwritten)."
 },
 "C44": {
  "status": "partial",
  "note": "unique, setdiff1d, isin and one-dimensional digitize fully; searchsorted gives exact insertion points but the side flag is opposite to its documentation (C44_searchsorted_sides_reversed), and it addresses arrays with one flat index, wrong for shape (n,1) and out of bounds for column-major arrays (witnesses)."
 },
 "C45": {
  "status": "partial",
  "note": "Bin contents and conservation proved for arbitrary sorted edges and for equal-width bins over the rationals (rounding not modelled); weighted bincount proved. Violations: integer data with equal bins count into bins other than the reported edges (C45_integer_edges_disagree), density integrates to in-range weight / number of data (C45_density_partial, C45_density_wrong), uniform edges left uninitialised (C45_uniform_edges_wrong), unweighted bincount wraps in the type of the data (C45_bincount_ones_wraps), bincount of no data fails."
 },
 "C46": {
  "status": "partial",
  "note": "Proved for every shape, width list and mode whose widths are within the mode's limit (C46_pad, C46_pad_constant, C46_pad_keeps). Missing: the limits are only asserted; beyond them cells stay unwritten or an exception of a view is thrown (C46_pad_too_wide), and fewer widths than axes read out of range (C46_pad_short)."
 },
 "C47": {
  "status": "partial",
  "note": "tile proved for nonzero repetitions (0 throws, C47_tile_zero_throws); tile(e, n) writes out of range on 0-d (C47_tile_first_scalar_undefined). repeat: shape proved, access and forward iteration proved unless the first (last) repeat is zero (C47_repeat_first_zero_wrong, C47_repeat_last_zero_wrong); reverse iteration, broadcasting and fewer arguments are wrong in the code (C47_repeat_reverse_wrong, C47_repeat_broadcast_wrong, C47_repeat_few_arguments_wrong)."
 },
 "C48": {
  "status": "proved",
  "note": "Proved for every shape and chunk shape of positive extents, and for write histories; the condition on the object is what resize establishes (C48_resize) and every write keeps. Outside the statement: chunk extent 0 divides by zero (C48_zero_chunk_undefined); accesses with fewer indices address leading axes, with more read past the chunk shape; broadcasting a unit axis in a longer chunk reads padding (C48_broadcast_wrong)."
 },
 "C49": {
  "status": "proved",
  "note": "Visit order, boxes and partition proved for every shape and chunk shape; assignment to a chunked array, construction, and both assignments of a chunked view proved for equal shapes. A source that would have to be broadcast throws (C49_broadcast_wrong)."
 },
 "C50": {
  "status": "partial",
  "note": "Every dump is a file of the format (C50_format), every file of the format is loaded to what it says (C50_load_partial), hence the round trip (C50_roundtrip_partial). Missing, because the code violates it: with signed char a header length with a byte of 128 or more is misread, e.g. 24 unit axes (C50_long_header_wrong; C50_short_header_fits gives the safe range); custom strides are ignored (C50_custom_strides_wrong); the order of one-dimensional column-major arrays is lost (C50_column_vector_rejected); truncated files are accepted (C50_truncated_accepted)."
 },
 "C51": {
  "status": "partial",
  "note": "Every allowed history over any collection of vectors refines sequences (C51_history), the inline capacity is unobservable (C51_inline_unobservable). Missing, because the code violates it: an element of the vector itself passed to push_back, insert or assign is read after its heap block was freed when the call has to replace the block (C51_own_element_freed; C51_own_element_partial gives the safe cases). A growing resize with Init = false leaves the new elements unspecified by design (C51_resize_uninitialised)."
 },
 "C53": {
  "status": "proved",
  "note": "For words of any size: sizes, strides and backstrides (C53_size, C53_strides, C53_user_stride), every access function on contiguous containers (C53_contiguous) and on views with offsets and negative strides (C53_view), and unravelling (C53_unravel). C53_empty_shape_overflows shows that the product must leave out the zero extents."
 },
 "C54": {
  "status": "partial",
  "note": "The code violates the property: once the shape of a function has been asked for, it is given for ever, whatever happens to the operands (C54_frozen); witnesses of a wrong shape, of reads outside a shrunk operand and of a wrong shape caused by an inner expression are C54_stale_shape, C54_stale_reads_outside and C54_stale_operand. Proved for every history of uses and resizes in which no variable changes shape after the shape of a function over it has been asked for: every shape asked anywhere in the expression, and the shape and triviality an assignment uses, are those of the current operands (C54_current_shape_partial, C54_assign_current_partial). Errors are not remembered (C54_error_not_cached). Element values are read from the operands at each access, so they are covered by the access and evaluation properties."
 },
 "C52": {
  "status": "partial",
  "note": "Access to any tree of functions, views, broadcasts and reductions: C52_access, C52_access_defined. The split into values and flags agrees with access (C52_split), and so does assignment (C52_assign_partial), provided that the operations are defined for all arguments, that the functors have no state and that the layout of the containers is that of their type. Each proviso is needed: C52_missing_operand_evaluated (the operation is applied to the number stored under a missing value: integer division by zero), C52_functor_state_lost, C52_dynamic_layout_wrong. An assembly made from an xarray that is moved in has one flag for all elements: C52_moved_values_share_a_flag. That functions of xtl::xoptional are present exactly when all arguments are is assumed, xtl is not in the repository."
 },
 "C59": {
  "status": "partial",
  "note": "Forward iteration under the view's own shape, and under shapes of its dimension that repeat only newaxes, keeps of one index and unit axes of the parent: C59_iteration_partial. Reverse iteration under the view's own shape for the views of Reversible: C59_reverse_partial. Elsewhere the code departs: C59_more_axes_undefined (every shape with more axes), C59_repeated_range_wrong, C59_zero_dim_repeated_undefined and the C59_reverse_*_wrong/_undefined theorems, one for each condition of Reversible. Counters are integers instead of wrapping words."
 },
 "C60": {
  "status": "partial",
  "note": "argwhere, nonzero, reading, fill and scalar op= are proved in full. Assignment: proved when all elements of the view and of each operand lie between the first and the last (C60_assign_partial), so for filters on containers stored in the traversal order (C60_filter_assign_partial); false otherwise (C60_unordered_wrong, C60_filter_other_layout_wrong). element() with more indices is false (C60_element_more_indices_wrong), as is acting once on repeated elements (C60_repeated_differs). Filtration: proved for conditions of the same shape that at each index read no other element (C60_filtration_partial); otherwise undefined or false. Zero-dimensional conditions of a filtration are not covered."
 },
 "C61": {
  "status": "partial",
  "note": "axis_begin/axis_end: proved when the expression starts at the beginning of its storage (C61_axis_partial, C61_axis_element); otherwise the loop never ends (C61_axis_offset_endless). axis_slice_begin/end: proved for contiguous arrays of positive extents whose offset is a multiple of the size without the slowest axis, for the axes of SlicesFit (C61_slices_partial, C61_slice_element, C61_few_axes); on containers exactly these axes are right (C61_slices_exact). Other offsets, layouts and empty axes: C61_slices_offset_wrong, C61_slices_layout_wrong, C61_slices_empty_undefined."
 },
 "C62": {
  "status": "partial",
  "note": "Exact arithmetic over any field with an exponential and a conjugation, complex numbers included (C62_complex). Proved for every length, on arrays of positive extents and the axes of SlicesFit, which are all axes of arrays with up to three: fft (C62_fft_partial), ifft up to the factor n (C62_ifft_partial, C62_round_trip_partial), convolve (C62_convolve_partial, C62_convolve_throws), the latter two for non-negative axes. Not true of the code: other axes (C62_fft_inner_axis_wrong), ifft as inverse (C62_not_inverse), negative axes of ifft and convolve (C62_ifft_default_axis_undefined, C62_convolve_default_axis_undefined)."
 },
 "C63": {
  "status": "partial",
  "note": "Proved for arrays with elements (shuffle) and one-dimensional containers (choice). Not true of the code: empty arrays (C63_shuffle_empty_undefined, C63_shuffle_rows_empty_undefined), choice from views, which samples the storage behind the view (C63_choice_view_wrong, C63_choice_replace_view_wrong), weights that are all zero (C63_weighted_zero_undefined). Weights and exponential draws are rational numbers; std::partial_sort by its contract."
 },
 "C64": {
  "status": "partial",
  "note": "Proved for expressions stored in the layout of their temporary or with one axis, and lines with elements. Not true of the code: transposed expressions (C64_quantile_transposed_wrong, from partition), lines without elements (C64_quantile_empty_undefined). Rational numbers; std::nth_element by its contract."
 },
 "C65": {
  "status": "partial",
  "note": "Means, nan reductions, statistics of all elements and single-axis averages are proved for all inputs. Not true of the code: variance with ddof > 1 and several groups (C65_variance_ddof_wrong; the exact divisor is C65_variance_divisor), negative axes in variance (C65_variance_negative_undefined, C65_variance_braced_negative_throws), average with 1-D weights over several axes (C65_average_axes_wrong) or kept axes (C65_average_keep_wrong), amin of infinities (C65_amin_infinite_wrong). Rational numbers."
 },
 "C66": {
  "status": "partial",
  "note": "trapz with a step or a vector of abscissae, interp with default ends, cov and full convolution are proved for all inputs; diff, unwrap and trapz with an array of abscissae for arrays with elements. Not true of the code: diff of arrays without elements (C66_diff_empty_wrong, C66_trapz_empty_throws), interp with left/right at the end points (C66_interp_ends_wrong), unwrap of a variable, which is changed (C66_unwrap_modifies_argument), valid convolution (C66_convolve_valid_undefined, C66_convolve_valid_wrong). Rational numbers."
 },
 "C67": {
  "status": "partial",
  "note": "Proved for all shapes with elements, chunk shapes and non-negative axes (negative ones in braces): sum, prod, mean, variance, stddev, amin, amax, norm_l0, l1, l2, sq, linf, and norm_lp_to_p for even powers or non-negative elements. Not true of the code: negative axes not in braces (C67_negative_axis_undefined, C67_negative_axis_keep_wrong), reduced axes of extent 0 (C67_empty_axis_wrong), odd powers of negative elements and p = 0 (C67_norm_lp_odd_wrong, C67_norm_lp_zero_wrong). The destination is not resized (C67_destination_shape_wrong). Rational numbers; roots are an abstract function."
 },
 "C68": {
  "status": "partial",
  "note": "Proved for all tables with at least one column whose rows have the same length: load_csv with any delimiter, marker, skip_rows and max_rows, dump_csv of any expression with two axes, and the round trip for every element conversion that survives on its own, which is proved for signed and unsigned integers, short integers and texts without blanks at the ends. Not true of the code: the witnesses C68_..._wrong and C68_bytes_undefined (ragged rows, blanks, max_rows, markers, empty cells, lines and arrays, rows that begin with #, 8-bit integers, unchecked numbers, delimiter of dump_file). Floating point text is not modelled. C68_signed_range, C68_char_cell and C68_load_file say what single cells and whole files are read as."
 },
 "C69": {
  "status": "partial",
  "note": "to_json proved for all strided expressions, with empty axes too. from_json into containers and views, and the round trip, proved for shapes without empty axes, containers of dynamic or matching fixed dimension, views of matching fixed dimension. Not true of the code: empty axes (C69_empty_axis_wrong, C69_empty_axis_undefined, C69_empty_axis_fixed_wrong), ragged documents (C69_short_row_undefined, C69_long_row_wrong), documents of another depth (C69_fewer_axes_wrong, C69_more_axes_undefined, C69_view_fewer_axes_undefined), views of dynamic dimension, whose shape is not checked (C69_dynamic_view_unchecked_wrong)."
 },
 "C70": {
  "status": "partial",
  "note": "uvector with one allocator: proved for all histories (C70_uvector, C70_uvector_no_leak, C70_uvector_access, C70_uvector_compare). Owning adaptors: proved for all histories in which an adaptor that was moved from is only destroyed. Not true of the code: reuse of adaptors that were moved from (C70_moved_from_reuse_undefined, C70_moved_from_move_undefined), vectors with different allocators (C70_allocators_undefined, C70_move_allocator_undefined), comparisons of buffers (C70_buffer_compare_wrong). Exceptions from allocations and elements of uvector are C97."
 },
 "C71": {
  "status": "partial",
  "note": "Proved for arrays with elements when the manipulators are not zero and one edge item does not meet an axis longer than two (C71_pretty_print_partial), together with reading back, alignment and, for unabbreviated sequences, line width. Not true of the code: one edge item (C71_one_edge_item_undefined), manipulators with value zero (C71_zero_option_wrong), HTML of arrays without elements (C71_html_empty_undefined), line width with more axes, ellipses or wide elements (C71_line_width_wrong), width of the smallest integer (C71_smallest_integer_wrong). Texts of floating point and complex elements are any function of the shown values."
 },
 "C72": {
  "status": "partial",
  "note": "Proved for real and complex elements and sets of axes that exist (C72_norms, C72_norms_all, C72_lp, C72_lp_is_norm, C72_complex, C72_induced), for integers whose squares can be represented in their type or int (C72_integers_partial, C72_narrow_integers), for immediate evaluation where elements are not copied (C72_immediate_partial). Not true of the code: axes that do not exist, and negative braced axes, end the program instead of throwing because the functions are noexcept (C72_bad_axes_terminate, C72_braced_negative_terminates); squares overflow in the element type before they are added to the wide sum (C72_square_overflow, C72_square_wrong); immediate evaluation over leading axes of extent 1 returns the elements (C72_immediate_wrong). Rounding and overflow of 64-bit sums are not modelled."
 },
 "C73": {
  "status": "partial",
  "note": "Proved for valid slice vectors with non-negative integers: shape, operator(), element, iteration, surplus indices (C73_dynamic_view_partial, C73_iteration_partial), assignment (C73_assign_scalar_partial, C73_assign_partial), refusals (C73_bad_slices_throw), agreement with strided_view on all slice vectors and arguments (C73_as_strided_view). Not true of the code: unchecked takes its first argument for the offset (C73_unchecked_wrong, C73_unchecked_first_argument); fewer indices than axes, and v(), leave out keep and drop slices (C73_fewer_arguments_wrong, C73_no_arguments_wrong, positive parts C73_fewer_arguments_partial, C73_no_arguments_partial); flat ignores the strides (C73_flat_wrong); negative integers are not normalised (C73_negative_int_wrong)."
 },
 "C74": {
  "status": "partial",
  "note": "Proved: rectangular braces give their shape and elements in both layouts (C74_rectangular), also for xtensor_fixed, which with assertions refuses exactly the braces of another shape (C74_fixed); an empty level makes all further extents 0 (C74_empty); construction never throws and is undefined exactly when there are more values than the shape of the first braces has elements (C74_undefined_iff). Not true of the code: ragged braces are accepted and write past the storage, leave elements without value or put them at other places (C74_ragged_wrong); xtensor_fixed without assertions likewise (C74_fixed_unchecked_wrong)."
 },
 "C75": {
  "status": "partial",
  "note": "Proved: for positive extents the static shape, refusal and triviality flag (C75_static_broadcast_partial) and agreement with run-time broadcasting (C75_static_as_dynamic_partial); strides, backstrides and size for all shapes (C75_static_strides) and so distinct addresses within the storage (C75_fixed_addresses); reshape (C75_reshape), resize with assertions (C75_resize_asserts), construction from a value (C75_scalar_constructor). Not true of the code: extents 0 broadcast to larger ones (C75_zero_extent_wrong); a scalar beside operands without axes adds an axis (C75_scalar_rank_wrong); without assertions assignment of another shape is accepted and reads out of bounds (C75_assign_unchecked_wrong); reshape to a longer shape with the own shape as prefix reads past it (C75_reshape); is_contiguous is false when the last (first) extent is 1 (C75_is_contiguous)."
 },
 "C76": {
  "status": "partial",
  "note": "Proved: reading by iteration and by index (C76_iteration, C76_element); assignment with aliasing (C76_assign_partial) except to imag(a) from expressions that use complex elements as a whole; filling and compound assignment with a scalar (C76_fill, C76_scalar, C76_parts_independent); adaptor assignment for operands of the destination's shape (C76_adaptor_partial). Not true of the code: imag(view(a, range(2, 5))) = norm(view(a, range(0, 3))) misses the overlap (C76_imag_alias_wrong); operator< of the iterators is inverted (C76_order_wrong); adaptor assignment of a broadcasting expression reads past operands or leaves elements unassigned (C76_adaptor_broadcast_wrong), and copies the storage order when both layouts are dynamic (C76_adaptor_dynamic_wrong)."
 },
 "C77": {
  "status": "partial",
  "note": "Proved: minimum, maximum, clip (C77_minimum_maximum, C77_clip, C77_clip_idempotent), sign (C77_sign, C77_sign_complex, C77_sign_unsigned), nan_to_num, pow<N> when the inner powers fit the element type (C77_pow_partial), closeness of finite and of special values, symmetry, reflexivity and the relation to the documented test (C77_isclose_*), allclose (C77_allclose), nansum along one axis (C77_nansum_partial), nancumsum and nancumprod (C77_nancumsum_flat, C77_nancumsum_axis_partial). Not true of the code: NaN is kept in the second argument and dropped in the first (C77_minimum_maximum_nan, C77_minimum_order_wrong), so amin and amax count only the elements after the last NaN (C77_amin_amax_nan, C77_amin_nan_wrong); an infinity is close to every finite number (C77_isclose_infinite_wrong); the documented formula is not the one computed (C77_isclose_formula_wrong); allclose ends the program on shapes that do not broadcast (C77_allclose_terminates); nansum over several axes drops partial sums that are NaN (C77_nansum_axes_wrong); pow<N> cuts inner powers of narrow integers (C77_pow_narrow_wrong). Rounding, overflow and the sign of zero are not modelled."
 },
 "C78": {
  "status": "partial",
  "note": "Proved for all inputs: reads, writes and the one-to-one correspondence with the memory for sequences and pointers of the right size in every layout (C78_adapt, C78_adapt_pointer, C78_adapt_flat, C78_adapt_onto, C78_write), the exact conditions of refusal (C78_refusals, C78_strides_pointer), what happens to a vector of another size (C78_vector_size), strides (C78_strides), assignment with and without a temporary (C78_assign_partial, C78_assign_temporary_partial), saving (C78_save), copies (C78_copy), reset_buffer (C78_reset). Not true of the code: a vector is resized by adapting it (C78_vector_truncated_wrong); too short a std::array or constant sequence is accepted (C78_fixed_short_wrong); the template layout is dropped with braces and C arrays (C78_template_layout_wrong); padded strides cut the vector or are refused, negative strides read before it (C78_strides_padded_wrong, C78_strides_negative_wrong); a refused assignment leaves the new shape behind (C78_assign_refused_wrong, C78_temporary_refused_wrong); assignment through a temporary does not update layout() (C78_assign_layout_wrong); strided memory is saved cell by cell (C78_save_strided_wrong); a = b rebinds pointers (C78_copy_pointer_wrong)."
 },
 "C79": {
  "status": "partial",
  "note": "Proved for all inputs: the halves stay in step over any history, a throwing call changes neither (C79_lockstep, C79_history); elements, flat access, iteration, at (C79_elements, C79_flat, C79_iterate, C79_at); assignment of an element and fill (C79_write, C79_fill); construction (C79_filled, C79_of_values, C79_braces); broadcasting (C79_broadcast); equality (C79_equality), equality of storages where nothing is missing (C79_storage_equality_partial). Not true of the code: storages compare what is stored under missing elements (C79_storage_equality_wrong) and are not totally ordered (C79_storage_order_wrong); halves of different layout are joined wrongly by flat and linear access (C79_mixed_layout_flat_wrong), cannot be built from a shape (C79_mixed_layout_shape_wrong) and are left with different shapes by resize and reshape (C79_mixed_layout_resize_wrong); halves of different shape are accepted (C79_pair_wrong); a failed allocation of the flags leaves the halves different (C79_resize_alloc_wrong). storage().data() has no return statement and is not modelled."
 },
 "C80": {
  "status": "partial",
  "note": "Proved for all inputs: which slice patterns count as contiguous (C80_row_pattern, C80_column_pattern); shape, element positions, static layout and layout() of towers of views (C80_contiguous); linear iteration in both directions (C80_linear); fill and op= (C80_update); layout() complete (C80_layout_found); flat and data_element of a view of a container (C80_flat_partial); row and col (C80_row, C80_col, C80_row_dimension); copies and views of rvalues (C80_copy_partial, C80_view_of_rvalue). Not true of the code: flat, data_element and SIMD access of a view of a view add the lower offset twice and leave the storage (C80_nested_flat_wrong); a copy of a trivially strided view that owns its container refers to the shape inside the original (C80_owning_copy_wrong); row and col of a temporary refer to it (C80_row_temporary_wrong)."
 },
 "C81": {
  "status": "partial",
  "note": "Proved for all inputs: arithmetic (C81_arithmetic); forward distances (C81_distance_partial); == and < when the first operand that is no scalar leads to an array or generator (C81_order_partial); elements, end and traversals in both directions when the arrays have the shape of the whole and one order of storage (C81_elements_partial, C81_traversal_partial); the iterator loop is the data_element loop (C81_assign_loop) and has_linear_assign admits it only where it is right (C81_linear_assign). Not true of the code: backward distances of functions are 0 (C81_backward_distance_wrong); for every function of scalars, and every function whose first non-scalar operand is one, all iterators are equal (C81_scalars_wrong); operands of different layout are read at different indices (C81_mixed_layout_wrong); broadcast operands shorten the traversal or are read past their end (C81_broadcast_operand_wrong); a broadcast expression has the iterators of its operand (C81_broadcast_wrong); reverse linear iterators of a strided view are exchanged (C81_strided_reverse_wrong)."
 },
 "C82": {
  "status": "partial",
  "note": "Proved for all inputs: access (C82_access), iteration (C82_traversal_partial, C82_reverse_partial for masks that are not 0-dimensional), fill and scalar assignment (C82_fill), compound assignment (C82_scalar_op), assignment of expressions (C82_assign), of masked values when mask and data have one shape (C82_assign_masked_partial), into arrays that are not contiguous in column-major order (C82_into_partial). Not true of the code: a mask with more axes is read differently by index and by iteration (C82_mask_axes_wrong); a shorter mask is read past its end, even by at (C82_short_mask_wrong); a 0-dimensional mask is read past its end by reverse iteration (C82_reverse_scalar_mask_wrong); a column-major masked view is transposed when assigned to a column-major array (C82_into_column_wrong); a flag shared by several elements can hide the elements after the one it was cleared for (C82_shared_flag_wrong); a larger right-hand side overruns a view of extent 1 (C82_larger_rhs_wrong)."
 },
 "C83": {
  "status": "partial",
  "note": "Proved for every function in the style (C83_style_sound, C83_values_sound) and so for mean, average with weights, variance, stddev, nanmean, nanvar with and without axes (C83_statistics, C83_values), flip along an axis, isin of an array and reductions (C83_functions). Not true of the code: average(e) of a temporary refers to its parameter (C83_average_wrong), and so do flip(e), row and col (C83_views_wrong); isin of two iterators refers to them (C83_isin_range_wrong), isin of a braced list to its array (C83_isin_list_wrong); unsigned axes are referred to and signed ones copied (C83_axes_wrong); sharing does not protect constant variables or operands of views and vectorized functions (C83_shared_wrong); a parameter forwarded twice is read after it was moved from (C83_forward_twice_wrong); scalar variables are referred to (C83_scalar_wrong); auto&& c = eval(temporary container) dangles (C83_eval_wrong)."
 },
 "C84": {
  "status": "partial",
  "note": "Proved for lists of indices of one length (C84_from_indices, C84_flatten, C84_flatten_entry, C84_ravel), after argwhere (C84_from_argwhere, C84_ravel_argwhere), and for trim_zeros of strided sequences (C84_trim_zeros). Not true of the code: the array of no indices has no columns (C84_from_no_index_wrong), indices of different lengths are read and written past the end (C84_ragged_wrong), what is no index gets the position of another element (C84_ravel_wrong), trim_zeros counts elements and cuts rows (C84_trim_rows_wrong)."
 },
 "C85": {
  "status": "partial",
  "note": "Proved by induction over programs: counts and lifetimes (C85_counts, C85_use_count), what share reads in programs that do not write in place to a shared container (C85_share_reads), what a shared expression keeps (C85_keeps), sharing as a copy (C85_containers_unchanged). Not true of the code: a container written in place, or assigned an expression that does not refer to it, is shared with its old value (C85_stale_wrong); copies of a shared container share its object (C85_copies_wrong); writes through a shared expression are not seen in the container (C85_writes_wrong); a moved-from shared expression is read through a null pointer (C85_moved_wrong)."
 },
 "C86": {
  "status": "partial",
  "note": "Proved for programs that copy holders only from constant ones (C86_copy, C86_move, C86_assign, C86_swap, C86_from_json). Not true of the code: the forwarding constructor takes over copies of holders that are not constant, so the copy refers to the original (C86_copy_named_wrong) and can refer to itself (C86_copy_back_wrong); empty holders cannot be copied (C86_copy_empty_wrong); from_json into an empty holder never succeeds the first time (C86_from_json_empty_wrong)."
 },
 "C87": {
  "status": "partial",
  "note": "Proved for programs without assignments from one flat view to another (C87_program_partial), with C87_ravel, C87_refused_partial and C87_flatnonzero. Not true of the code: assigning a flat view of a variable to another makes it show the other variable and changes no element (C87_rebinds_wrong); between views of temporaries it is undefined (C87_owned_wrong); an overlapping expression of several elements assigned to a view of one element is written past the end (C87_larger_wrong). Resizing a variable under a view is left out."
 },
 "C88": {
  "status": "partial",
  "note": "C88_programs_partial gives the final values and which statements throw, by induction over the program from C88_step_partial; C88_deterministic_partial compares two allocators and targets; C88_refused_partial: a refused statement changes nothing. Statements without the stated effect are left out and witnessed: noalias whose right-hand side reads the destination (C88_noalias_reading_wrong, the promise is the caller's), expressions larger than the view they are assigned to but compatible with it (C88_view_larger_wrong), noalias(a) += b with a broadcast shape without elements (C88_noalias_empty_wrong). Slices run forwards along all axes or backwards along all axes and have non-negative integers (forwards along one and backwards along another: the overlap is missed, C88_mixed_directions_wrong); keep and drop slices, tensors of fixed rank and dynamic layouts are not in the programs. C88_broadcast_refused: explicit broadcasts that do not fit are refused. C88_noalias_scalar_reshapes: noalias(a) = scalar makes a an array without axes."
 },
 "C89": {
  "status": "partial",
  "note": "Expressions: C89_expressions, C89_equivalence, C89_any_all, C89_all_equal; == does not broadcast although equal does (C89_broadcast_wrong). Storages: C89_storage_order for uvector, svector and const_array. For buffer adaptors C89_adaptor_order says what the operators compute, C89_adaptor_partial where that is the lexicographical order and C89_adaptor_wrong where not. Slices: C89_slices_partial, C89_drop_partial and C89_slices_wrong. Elements are linearly ordered, without NaN."
 },
 "C90": {
  "status": "proved",
  "note": "C90_stages, C90_sum_add, C90_sum_hom, C90_cumsum_last, C90_diff_cumsum, C90_concat_split, C90_sum_concat, C90_transpose_perm, C90_flip_perm, C90_roll_perm, C90_total, C90_sort_sorted, C90_argsort_gather, C90_sort_extremes, C90_unique, C90_setdiff, C90_shuffle. Over exact element types; rounding of floating-point sums is outside the model. Sorting is that of containers in their own layout, see C41."
 },
 "C91": {
  "status": "partial",
  "note": "C91_views_partial (integers not negative, newaxes where view handles them; C91_negative_wrong and C91_newaxes_wrong are the differences), C91_flip, C91_squeeze_partial (operand without offset, C37_squeeze_loses_offset), C91_row_col, C91_row_col_throws, C91_index_view, C91_stack, C91_concat_ranges."
 },
 "C92": {
  "status": "partial",
  "note": "C92_average_equal_weights, C92_average_axes_equal_weights_partial, C92_affine_partial, C92_variance_moments_partial, C92_mean_between, C92_mean_stages, C92_nan_free, C92_count_groups, C92_count_where, C92_quantile_median_partial, C92_quantile_order_partial, C92_cov_variance. Values are exact rationals; the partial ones keep the limits of the functions recorded under C42, C64 and C65: quantile and median of an operand whose layout is the default one, variance over axes that are not negative, average over axes of an operand that does not have exactly one axis."
 },
 "C93": {
  "status": "partial",
  "note": "C93_all_data, C93_overloads, C93_order, C93_append, C93_digitize (data below the last edge, the others get a number past the bins), C93_bincount, C93_bin_items_even; C93_counts_partial (the counts are kept in the value type of the data; C93_counts_wrap), C93_limits_truncated."
 },
 "C94": {
  "status": "partial",
  "note": "C94_expression_exact, C94_assign_modular, C94_compare, C94_minmax, C94_clip, C94_division, C94_sum_unsigned, C94_prod_unsigned, C94_sum_exact, C94_sum_big, C94_sum_narrow, C94_cumulative_signed, C94_cumulative_unsigned, C94_cumulative_flat; C94_sum_signed_partial, C94_prod_signed_partial (a bound on absolute values instead of the range of the result, the order matters: C94_sum_order_wrong), C94_mean_partial (C94_mean_overflow_wrong, C94_mean_truncates_wrong, C94_mean_integer_wrong); C94_axis_forgets_type_wrong, C94_compare_wrong, C94_minimum_wrong, C94_clip_wrong, C94_division_wrong. Vectorised loops and immediate reductions are not in this model."
 },
 "C95": {
  "status": "partial",
  "note": "C95_read, C95_direct, C95_assign, C95_view, C95_draw_count, C95_refused, C95_direct_is_expression, C95_adaptor_fits; C95_randint_partial (bounds with lower < upper; otherwise C95_randint_empty_ub, C95_randint_wraps_wrong). What a user may expect and does not get: C95_read_twice_wrong, C95_difference_wrong, C95_order_wrong, C95_broadcast_wrong, C95_layout_wrong, C95_view_order_wrong, C95_adaptor_wrong. The quality of the numbers and the distributions of the standard library are not modelled."
 },
 "C96": {
  "status": "proved",
  "note": "C96_tile_tile, C96_tile_one, C96_tile_concat, C96_tile_wrap, C96_pad_pad_constant, C96_pad_pad_edge, C96_pad_sum, C96_roll_roll, C96_roll_concat, C96_concat_concat, C96_stack_concat, C96_linspace_arange, C96_eye_diag, C96_amin_neg. Padding twice in the other modes is not padding once: C96_pad_pad_wrong."
 },
 "C97": {
  "status": "partial",
  "note": "Proved without restriction: no undefined behaviour, the sequences, ownership, and that at most one block is lost per failure of an element (C97_step, C97_uvector, C97_access, C97_no_fault). All memory is given back when only allocations fail (C97_no_leak_partial). Not true of the code: a constructor of an element that throws in uvector(n) or resize leaves the block with its objects, which nobody owns (C97_leak_wrong); a failed assignment changes its target (C97_assign_not_atomic_wrong)."
 },
 "C98": {
  "status": "partial",
  "note": "Proved for shapes with the generator's number of elements (C98_reshape, C98_flat_order, C98_arange), iteration without that restriction (C98_iteration), and the shapes (C98_signed_shape, C98_placeholder). Not true of the code: a larger shape is not refused and repeats the last element (C98_too_large_wrong); compute_shape truncates, takes any negative number as placeholder, and may overflow (C98_compute_shape_wrong)."
 },
 "C99": {
  "status": "partial",
  "note": "Proved: threads that ask only for what is known, for dimensions and for elements by index do not race and get the answers without caches (C99_threads); a thread alone gets them always (C99_alone); after one thread asked every function for its shape and every view for its strides anything goes (C99_warm); what the answers are (C99_shape_answer, C99_assigned); the parallel loop after a comparison of strides or a serial part (C99_parallel_compared, C99_parallel_serial_part). Not true of the code in general: two first calls of shape() race and one may read 2^64-1 for every extent (C99_first_shape_wrong, C99_torn_shape_wrong); the same for strides() of a view, which may read zeros (C99_first_strides_wrong); the workers of the parallel loop race exactly if a view has not been asked before (C99_parallel_iff)."
 },
 "C100": {
  "status": "partial",
  "note": "Proved: assignments through a temporary change nothing when they throw (C100_temporary); assignments that succeed (C100_assigned, C100_copied); exactly what is left by the others (C100_direct, C100_assign_is_direct, C100_computed, C100_scalar); every array stays usable in all programs in which memory is missing only for statements with a temporary, noalias compound assignments and scalar ones (C100_statement, C100_programs). Not true of the code: without memory `a = e` that does not overlap, `noalias(a) = e`, `a.resize(s)` and `a = b` leave the new shape with the old storage, and reading an element is then undefined (C100_no_memory_wrong, C100_copy_wrong)."
 },
 "C101": {
  "status": "partial",
  "note": "Proved for all trees in which axes are not known to the compiler one by one, no fixed shape has an extent 0 and no xshape<> meets only operands without axes: the expression can be made exactly when it has a shape by the run-time rules, has that shape, and its type fits (C101_shape_partial); erasing all types changes nothing (C101_as_dynamic_partial); elements of reductions agree (C101_element_partial). With axes known to the compiler: the shape without keep_dims (C101_static_axes_shape), elements if every axis but the first is reduced (C101_static_axes_partial). Not true of the code otherwise: C101_static_axes_wrong, C101_static_keep_wrong, C101_static_axes_array_wrong, C101_scalar_wrong, C101_zero_extent_wrong. Containers that expressions are evaluated into have room for them, also the temporaries of assignments to views (C101_eval_partial, C101_view_temporary_partial, C101_eval_types)."
 },
 "C102": {
  "status": "partial",
  "note": "Proved for element types with trivial constructors and vectors of one allocator: single statements (C102_step), programs (C102_programs), who owns the blocks (C102_no_leak), inline vectors (C102_inline), allocators of copies (C102_copy_allocator). Not true of the code: moves and swaps allocate and end the program without memory (C102_move_wrong, C102_swap_wrong), swap with different allocators (C102_allocators_wrong), elements of class type (C102_class_wrong)."
 },
 "C103": {
  "status": "partial",
  "note": "Proved for single statements (C103_statement_partial) and programs (C103_programs_partial) unless a moved-from array is given elements in place of the shape that it still reports. That case is undefined in the code (C103_in_place_wrong, C103_move_then_assign_wrong, C103_new_then_assign_wrong); a moved-from array reports elements that it does not have (C103_read_wrong, C103_size_wrong); conversion to an xtensor of another number of dimensions (C103_rank_wrong). C103_live: the same when the elements of what is assigned in place are computed in the loop, from variables that are being written, if it has nothing to do with the destination; C103_noalias_wrong shows that this is needed."
 },
 "C104": {
  "status": "partial",
  "note": "Proved for all histories in which the strides of a non-contiguous xview are asked for only while the array has the shape for which the view was built (C104_kept_partial, C104_event_partial); otherwise they stay wrong (C104_lazy_wrong). Contiguous views follow the array through any shape by element access (C104_follows, C104_rows), but not with their offset (C104_offset_wrong); other views do not (C104_resized_wrong, C104_reshaped_wrong)."
 },
 "C105": {
  "status": "proved",
  "note": "C105_same_order: the decision is sound; C105_assign: with the flags computed from the types the assignment is right (through C24_container_assign); C105_flat, C105_not_flat: what the decision is. That an array whose type has a layout is stored in that order holds for containers with the strides of their layout (C105_container) and is an assumption on other operands."
 },
 "C106": {
  "status": "partial",
  "note": "Proved: expressions with the number of axes of the tensor (C106_same_axes), operands without a common shape (C106_conflict), functions with more axes that were not asked for their shape (C106_more_axes_partial). Not true of the code without assertions: functions with more axes that were asked for their shape (C106_asked_wrong), other right-hand sides (C106_other_wrong), functions with fewer axes (C106_fewer_axes_wrong, C106_odd_axes_wrong, C106_asked_fewer_wrong). Compound assignments `t op= e` do what the claim says for all operands (C106_compound, C106_compound_refused, C106_compound_no_room), and `noalias(t) op= e` if no axis of extent 1 becomes one of extent 0 (C106_noalias_compound_partial; otherwise C106_noalias_compound_wrong)."
 },
 "C107": {
  "status": "partial",
  "note": "Proved: as many extents as axes in every form (C107_reshape, C107_reshape_placeholder, C107_resize); another number that does not fit the number of elements, not in braces (C107_other_count_partial), and fewer unsigned numbers in braces for tensors with elements (C107_braces_unsigned_fewer). Not true of the code: fewer or more extents in braces (C107_braces_fewer_wrong, C107_braces_unsigned_fewer_wrong, C107_braces_more_wrong), sequences that fit (C107_sequence_wrong), resize with another number (C107_resize_fewer_wrong, C107_resize_other_wrong)."
 },
 "C108": {
  "status": "partial",
  "note": "Proved: ranges without a step, whatever their bounds, give views of elements of the array only (C108_ranges; those with a step are in C16), and strided_view refuses too many slices (C108_strided_count). Not true of the code: xt::view takes an integer beyond its axis among any other slices and looks up elements outside of the array (C108_view_index_wrong), as does strided_view (C108_strided_index_wrong), in a matrix those of the next row (C108_next_row); with too many slices it reads an extent that does not exist (C108_view_count_wrong). Negative indices below minus the extent are looked up as negative ones (C108_view_negative_wrong). Positions in keep are not checked either (C108_keep_wrong, C108_keep_among_wrong)."
 },
 "C109": {
  "status": "partial",
  "note": "Proved: front() of all expressions (C109_front) and views (C109_view_front), back() of expressions without operands that have no axes (C109_back_partial) and of the views of Reversible (C109_view_back_partial), containers on their storage (C109_storage). Not true of the code: an operand without axes is read one position past its element by back() of any larger expression (C109_back_zero_dim_wrong); views with steppers of their own (C109_view_back_keep_wrong, C109_view_back_int_keep_wrong, C109_view_back_stepped_wrong, C109_view_back_zero_dim_wrong). Expressions without elements are not refused (C109_empty_wrong)."
 },
 "C110": {
  "status": "proved",
  "note": "C110_same_place and C110_history, for containers whose layout is the one in their type, if that has one. C110_at: when at throws. Other numbers of indices are in C07."
 }
}