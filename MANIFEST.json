{
 "claims": [
  {
   "property": "C01",
   "status": "proved",
   "theorems": [
    "Xt.C01_row_major_position",
    "Xt.C01_column_major_position",
    "Xt.C01_dynamic_column_major_position",
    "Xt.C01_bijection",
    "Xt.C01_row_major_order",
    "Xt.C01_column_major_order"
   ],
   "note": ""
  },
  {
   "property": "C02",
   "status": "proved",
   "theorems": [
    "Xt.C02_size",
    "Xt.C02_row_stride",
    "Xt.C02_column_stride",
    "Xt.C02_backstride",
    "Xt.C02_user_strides_row",
    "Xt.C02_user_strides_column"
   ],
   "note": ""
  },
  {
   "property": "C03",
   "status": "proved",
   "theorems": [
    "Xt.C03_unravel_ravel",
    "Xt.C03_ravel_unravel",
    "Xt.C03_dynamic_rejected",
    "Xt.C03_unravel_indices"
   ],
   "note": ""
  },
  {
   "property": "C04",
   "status": "proved",
   "theorems": [
    "Xt.C04_broadcast_shape",
    "Xt.C04_order_and_grouping_irrelevant",
    "Xt.C04_comm",
    "Xt.C04_assoc"
   ],
   "note": ""
  },
  {
   "property": "C05",
   "status": "proved",
   "theorems": [
    "Xt.C05_trivial_iff"
   ],
   "note": ""
  },
  {
   "property": "C06",
   "status": "proved",
   "theorems": [
    "Xt.C06_broadcastable_iff",
    "Xt.C06_broadcastable_axes"
   ],
   "note": ""
  },
  {
   "property": "C07",
   "status": "proved",
   "theorems": [
    "Xt.C07_alignment",
    "Xt.C07_leading_zeros",
    "Xt.C07_extra_dropped",
    "Xt.C07_missing",
    "Xt.C07_missing_after_full_index_drops_first"
   ],
   "note": ""
  },
  {
   "property": "C08",
   "status": "proved",
   "theorems": [
    "Xt.C08_unchecked_eq_checked",
    "Xt.C08_unchecked_dynamic",
    "Xt.C08_unchecked_fewer_arguments"
   ],
   "note": ""
  },
  {
   "property": "C09",
   "status": "partial",
   "theorems": [
    "Xt.C09_throws_iff",
    "Xt.C09_no_throw",
    "Xt.C09_at_safe_full",
    "Xt.C09_at_safe_partial",
    "Xt.C09_at_unsafe_on_empty",
    "Xt.C09_check_element_index_gaps"
   ],
   "note": "Exception iff characterisation and in-buffer guarantee for full-arity calls are proved; with fewer indices than axes the offset stays in the buffer only for non-empty containers (C09_at_unsafe_on_empty is a counterexample otherwise), and check_element_index is shown to miss cases."
  },
  {
   "property": "C10",
   "status": "partial",
   "theorems": [
    "Xt.C10_in_bounds_partial",
    "Xt.C10_in_bounds_missing",
    "Xt.C10_fewer_arguments_wrong"
   ],
   "note": "Proved for calls with as many (or more) indices as axes and for xt::missing; with fewer indices the code checks against the leading axes (C10_fewer_arguments_wrong)."
  },
  {
   "property": "C11",
   "status": "partial",
   "theorems": [
    "Xt.C11_periodic_partial",
    "Xt.C11_periodic_any_strides",
    "Xt.C11_periodic_invariant",
    "Xt.C11_fewer_arguments_wrong",
    "Xt.C11_zero_extent_ub"
   ],
   "note": "Proved for full-arity calls on non-zero extents; with fewer indices the code reduces modulo the leading extents (C11_fewer_arguments_wrong) and a zero extent is a division by zero (C11_zero_extent_ub)."
  },
  {
   "property": "C12",
   "status": "proved",
   "theorems": [
    "Xt.Layout.C12_table",
    "Xt.Layout.C12_algebra",
    "Xt.Layout.C12_result",
    "Xt.Layout.C12_perm",
    "Xt.Layout.C12_assignable"
   ],
   "note": ""
  },
  {
   "property": "C13",
   "status": "proved",
   "theorems": [
    "Xt.C13_container_is_contiguous",
    "Xt.C13_contiguity_sound",
    "Xt.C13_own_strides_match",
    "Xt.C13_contiguity_complete"
   ],
   "note": ""
  },
  {
   "property": "C14",
   "status": "partial",
   "theorems": [
    "Xt.C14_history_partial",
    "Xt.C14_no_ub",
    "Xt.C14_throw_changes_nothing",
    "Xt.C14_resize_effect",
    "Xt.C14_resize_same",
    "Xt.C14_resize_strides_effect",
    "Xt.C14_static_layout_partial",
    "Xt.C14_custom_strides_out_of_bounds",
    "Xt.C14_custom_strides_safe_iff",
    "Xt.C14_bad_alloc",
    "Xt.C14_signed_reshape_layout_mismatch"
   ],
   "note": "Invariant proved over all histories of covered operations (resize, resize with layout, reshape, signed reshape within its documented contract); resize with custom strides can leave the strides addressing past the storage (C14_custom_strides_out_of_bounds, exact condition in C14_custom_strides_safe_iff), allocation failure breaks the invariant (C14_bad_alloc), signed reshape skips the static layout check (C14_signed_reshape_layout_mismatch)."
  },
  {
   "property": "C15",
   "status": "partial",
   "theorems": [
    "Xt.C15_reshape_unsigned",
    "Xt.C15_reshape_layout_rejected",
    "Xt.C15_elements_kept",
    "Xt.C15_reshape_placeholder_partial",
    "Xt.C15_reshape_signed_plain",
    "Xt.C15_zero_extent_ub",
    "Xt.C15_contract_not_checked",
    "Xt.C15_dynamic_signed_differs"
   ],
   "note": "Unsigned reshape fully; signed reshape proved for one -1 placeholder on positive extents with an exactly dividing product; zero extents divide by zero, other negative extents are not rejected, dynamic layout gives column-major strides (witnesses)."
  },
  {
   "property": "C16",
   "status": "partial",
   "theorems": [
    "Xt.C16_range_no_step",
    "Xt.C16_range_step_partial",
    "Xt.C16_size_exact_iff",
    "Xt.C16_negative_size",
    "Xt.C16_zero_step_ub",
    "Xt.C16_contains_partial",
    "Xt.C16_contains_negative_step"
   ],
   "note": "Positions always equal Python's; the reported size equals their number exactly under the iff condition C16_size_exact_iff (negative size otherwise, C16_negative_size); contains() proved for positive steps, wrong for negative ones (C16_contains_negative_step)."
  },
  {
   "property": "C17",
   "status": "partial",
   "theorems": [
    "Xt.C17_keep",
    "Xt.C17_drop_partial",
    "Xt.C17_drop_unsorted",
    "Xt.C17_drop_reuse"
   ],
   "note": "keep fully; drop for strictly increasing valid indices on a fresh object; unsorted/duplicate lists and reuse of one drop object on axes of different lengths are wrong (witnesses)."
  },
  {
   "property": "C18",
   "status": "partial",
   "theorems": [
    "Xt.C18_view_shape",
    "Xt.C18_view_element_partial",
    "Xt.C18_view_element_no_newaxis",
    "Xt.C18_two_newaxes_wrong",
    "Xt.C18_newaxis_int_wrong",
    "Xt.C18_view_element_iter_partial",
    "Xt.C18_view_injective",
    "Xt.C18_view_write"
   ],
   "note": "Shape, element access by operator() and element(), injectivity and write isolation proved under exact side conditions on newaxis placement; a second newaxis before the last axis, or an integer between a newaxis and a kept axis, makes the code read the wrong element (C18_two_newaxes_wrong, C18_newaxis_int_wrong)."
  },
  {
   "property": "C19",
   "status": "partial",
   "theorems": [
    "Xt.C19_view_address_partial",
    "Xt.C19_view_address",
    "Xt.C19_view_strides",
    "Xt.C19_view_unit_stride",
    "Xt.C19_offset_wrong",
    "Xt.C19_view_address_row_major_newaxis"
   ],
   "note": "Strides right for every strided slice list (C19_view_strides); offset right when no more slices than axes, and more generally under OffsetExact; otherwise the code uses stride 1 (C19_offset_wrong)."
  },
  {
   "property": "C20",
   "status": "partial",
   "theorems": [
    "Xt.C20_two_ellipses_throw",
    "Xt.C20_too_many_slices_throw",
    "Xt.C20_strided_view_partial",
    "Xt.C20_unit_stride",
    "Xt.C20_negative_int_wrong",
    "Xt.C20_flat_ignores_offset",
    "Xt.C20_reshape_view",
    "Xt.C20_reshape_view_placeholder",
    "Xt.C20_reshape_view_unchecked"
   ],
   "note": "Everything proved for non-negative integers; negative integers are not normalised by the code (C20_negative_int_wrong), flat() ignores the offset (C20_flat_ignores_offset), reshape_view checks nothing (C20_reshape_view_unchecked)."
  },
  {
   "property": "C21",
   "status": "proved",
   "theorems": [
    "Xt.C21_tower",
    "Xt.C21_tower_address",
    "Xt.C21_range_of_range"
   ],
   "note": ""
  },
  {
   "property": "C22",
   "status": "partial",
   "theorems": [
    "Xt.C22_iteration",
    "Xt.C22_reverse_partial",
    "Xt.C22_reverse_zero_dim_wrong",
    "Xt.C22_reads_elements_only",
    "Xt.C22_container",
    "Xt.C22_element_eq_value_partial",
    "Xt.C22_element_generator_wrong",
    "Xt.C22_reverse_generator_wrong",
    "Xt.C22_generator_end_wrong"
   ],
   "note": "Forward iteration proved for every expression tree of strided operands, scalars, generators (at least one axis), functions and broadcasts under every shape it broadcasts to. Reverse iteration proved except when a zero-dimensional array is an operand (C22_reverse_zero_dim_wrong reads past the element) or a generator is walked backwards in column major order (C22_reverse_generator_wrong, C22_generator_end_wrong). Index-sequence access proved without generators; a lower-dimensional generator operand reads the wrong coordinate (C22_element_generator_wrong)."
  },
  {
   "property": "C23",
   "status": "partial",
   "theorems": [
    "Xt.C23_plus_eq_increments",
    "Xt.C23_minus_eq_decrements_partial",
    "Xt.C23_dec_inc_partial",
    "Xt.C23_begin_plus_size",
    "Xt.C23_negative",
    "Xt.C23_any_history_partial",
    "Xt.C23_order"
   ],
   "note": "All identities and arbitrary move histories proved; backward moves carry the same side conditions as reverse iteration in C22 (no zero-dimensional array operand, no generator in column major order)."
  },
  {
   "property": "C24",
   "status": "proved",
   "theorems": [
    "Xt.C24_assign_data",
    "Xt.C24_container_assign",
    "Xt.C24_loops_agree",
    "Xt.C24_noalias_view_broadcast_wrong"
   ],
   "note": "All loops agree and perform the assignment for expressions already broadcast to the destination's shape; noalias(view) = smaller expression bypasses that and reads out of bounds (C24_noalias_view_broadcast_wrong)."
  },
  {
   "property": "C25",
   "status": "proved",
   "theorems": [
    "Xt.C25_batches",
    "Xt.C25_each_once",
    "Xt.C25_same_as_scalar"
   ],
   "note": ""
  },
  {
   "property": "C26",
   "status": "proved",
   "theorems": [
    "Xt.C26_strided_parallel",
    "Xt.C26_linear_parallel",
    "Xt.C26_equals_sequential"
   ],
   "note": ""
  },
  {
   "property": "C27",
   "status": "partial",
   "theorems": [
    "Xt.C27_overlap_sound_partial",
    "Xt.C27_container_partial",
    "Xt.C27_view_partial",
    "Xt.C27_view_throws",
    "Xt.C27_mixed_sign_strides_wrong",
    "Xt.C27_generator_not_seen"
   ],
   "note": "Containers and views: destination ends with the old values of the expression whenever every operand's addresses lie between those of its first and last element (no strides of opposite signs) and generators read no memory; otherwise overlap can be missed (C27_mixed_sign_strides_wrong, C27_generator_not_seen)."
  },
  {
   "property": "C28",
   "status": "partial",
   "theorems": [
    "Xt.C28_compound_assign",
    "Xt.C28_incompatible_throws",
    "Xt.C28_view_compound_partial",
    "Xt.C28_noalias_compound_partial",
    "Xt.C28_view_larger_rhs_wrong",
    "Xt.C28_noalias_zero_extent_wrong"
   ],
   "note": "a op= b on containers for every b, exception iff shapes conflict; views when b broadcasts to the view (otherwise no exception and stores past the view, C28_view_larger_rhs_wrong); noalias version except unit extent against zero extent (C28_noalias_zero_extent_wrong)."
  },
  {
   "property": "C29",
   "status": "partial",
   "theorems": [
    "Xt.C29_container_partial",
    "Xt.C29_view",
    "Xt.C29_strided_adaptor_wrong"
   ],
   "note": "Contiguous containers, contiguous views and arbitrarily strided views; strided adaptors are walked by storage, not by element (C29_strided_adaptor_wrong)."
  },
  {
   "property": "C30",
   "status": "partial",
   "theorems": [
    "Xt.C30_bad_axes_throw_partial",
    "Xt.C30_keep_dims_zero_dim_accepts_axis",
    "Xt.C30_shape",
    "Xt.C30_iteration_partial",
    "Xt.C30_own_shape",
    "Xt.C30_element",
    "Xt.C30_element_one_axis",
    "Xt.C30_nonassociative_not_fold",
    "Xt.C30_keep_dims_broadcast_wrong",
    "Xt.C30_reverse_iteration_wrong"
   ],
   "note": "Shape, values under any traversal order, element access and initial values proved for all shapes, axes and expressions when merge/reduce satisfy the monoid laws (C30_own_shape, C30_element); violated: keep_dims reducers under a larger broadcast shape (C30_keep_dims_broadcast_wrong), reverse iteration (C30_reverse_iteration_wrong), reducers without the laws (C30_nonassociative_not_fold), keep_dims on a 0-d expression accepts any axis."
  },
  {
   "property": "C31",
   "status": "partial",
   "theorems": [
    "Xt.C31_immediate_values_partial",
    "Xt.C31_immediate_eq_lazy_partial",
    "Xt.C31_bad_axes_throw",
    "Xt.C31_copy_path_skips_reduction",
    "Xt.C31_copy_path_ignores_initial",
    "Xt.C31_zero_extent_ub"
   ],
   "note": "Immediate equals lazy for every shape without zero extent, both layouts, every axis set, keep_dims and initial value, for associative-commutative reducers (C31_immediate_eq_lazy_partial), except when the code takes its copy path (no axes, or unit extents up to the fastest reduced axis), where reducer and initial value are ignored (C31_copy_path_skips_reduction, C31_copy_path_ignores_initial); zero extents access memory out of bounds (C31_zero_extent_ub)."
  },
  {
   "property": "C32",
   "status": "partial",
   "theorems": [
    "Xt.C32_accumulate_axis",
    "Xt.C32_accumulate_axis_init_partial",
    "Xt.C32_bad_axis_throws",
    "Xt.C32_negative_axis",
    "Xt.C32_accumulate_flat",
    "Xt.C32_dynamic_layout_wrong",
    "Xt.C32_dynamic_layout_ub",
    "Xt.C32_init_zero_stride"
   ],
   "note": "Plain accumulations proved for every shape, axis and both static layouts, flat form and axis errors proved; violated: results of dynamic static layout use the column-major loop on row-major storage (C32_dynamic_layout_wrong, C32_dynamic_layout_ub), and accumulators with an initialisation function miss elements when a unit extent lies beside the axis (C32_init_zero_stride)."
  },
  {
   "property": "C33",
   "status": "partial",
   "theorems": [
    "Xt.C33_transpose",
    "Xt.C33_transpose_inverse",
    "Xt.C33_bad_permutation_throws",
    "Xt.C33_full_check",
    "Xt.C33_plain_transpose",
    "Xt.C33_plain_involution",
    "Xt.C33_lazy_transpose",
    "Xt.C33_layout_honest",
    "Xt.C33_repeated_axis_accepted"
   ],
   "note": "Proved for every strided argument and permutation, with inverse and layout honesty; the default check policy accepts repeated axes and then reports a false layout (C33_repeated_axis_accepted); the full check rejects them (C33_full_check)."
  },
  {
   "property": "C34",
   "status": "proved",
   "theorems": [
    "Xt.C34_swapaxes",
    "Xt.C34_bad_axis_throws",
    "Xt.C34_moveaxis",
    "Xt.C34_movePerm_spec"
   ],
   "note": ""
  },
  {
   "property": "C35",
   "status": "partial",
   "theorems": [
    "Xt.C35_flip",
    "Xt.C35_flip_stays_inside",
    "Xt.C35_flip_involution",
    "Xt.C35_flip_axis_unchecked",
    "Xt.C35_four_turns",
    "Xt.C35_turns_mod_four",
    "Xt.C35_rot90",
    "Xt.C35_rot90_same_axis_throws",
    "Xt.C35_rot90_axis_unchecked",
    "Xt.C35_flip_all_partial",
    "Xt.C35_flip_all_overwrites"
   ],
   "note": "flip along one axis and rot90 for every integer count proved (C35_flip, C35_rot90, C35_turns_mod_four); flip along all axes returns the mirrored elements (C35_flip_all_partial) but overwrites its argument beyond one dimension and is undefined on a 0-d argument (C35_flip_all_overwrites); axes are not checked (C35_flip_axis_unchecked, C35_rot90_axis_unchecked)."
  },
  {
   "property": "C36",
   "status": "partial",
   "theorems": [
    "Xt.C36_roll_flat",
    "Xt.C36_roll_back",
    "Xt.C36_roll_empty_ub",
    "Xt.C36_roll_axis_partial",
    "Xt.C36_negative_axis_rejected",
    "Xt.C36_large_shift_ub"
   ],
   "note": "Flat roll proved for every non-empty array and integer; roll along an axis proved for non-negative axes and shifts that are negative or at most the extent; violated: negative axes throw (C36_negative_axis_rejected), larger shifts and empty arrays are undefined (C36_large_shift_ub, C36_roll_empty_ub)."
  },
  {
   "property": "C37",
   "status": "partial",
   "theorems": [
    "Xt.C37_squeeze_axes_partial",
    "Xt.C37_squeeze_check_witness",
    "Xt.C37_squeeze_loses_offset",
    "Xt.C37_squeeze_partial",
    "Xt.C37_squeeze_container",
    "Xt.C37_squeeze_zero_strides",
    "Xt.C37_expand_dims",
    "Xt.C37_expand_dims_unchecked",
    "Xt.C37_expand_then_squeeze",
    "Xt.C37_atleast"
   ],
   "note": "expand_dims, atleast_Nd and expand-then-squeeze proved; squeeze proved for arguments whose offset is 0 and, without axis list, whose strides are 0 exactly on the unit axes (all containers without empty axes, C37_squeeze_container); violated otherwise (C37_squeeze_loses_offset, C37_squeeze_zero_strides, C37_squeeze_check_witness)."
  },
  {
   "property": "C38",
   "status": "partial",
   "theorems": [
    "Xt.C38_element_clamps",
    "Xt.C38_element_long_undefined",
    "Xt.C38_arange_size_partial",
    "Xt.C38_short_interval_empty",
    "Xt.C38_empty_iff",
    "Xt.C38_undefined",
    "Xt.C38_arange_size_unsigned",
    "Xt.C38_unsigned_wraps",
    "Xt.C38_arange_size_real_partial",
    "Xt.C38_reversed_interval_undefined",
    "Xt.C38_arange_values",
    "Xt.C38_arange_values_real",
    "Xt.C38_arange_assign",
    "Xt.C38_leading_index_wrong",
    "Xt.C38_strided_assign_wrong"
   ],
   "note": "Length, values and bulk assignment proved for signed integers when the interval is not shorter than the step and nothing overflows, for unsigned integers without wrap, and for exact arithmetic when the interval does not point against the step; violated: intervals shorter than the step are empty (C38_short_interval_empty, C38_empty_iff), reversed floating point intervals are undefined (C38_reversed_interval_undefined), zero step and overflow (C38_undefined, C38_unsigned_wraps), surplus leading indices (C38_leading_index_wrong), strided targets (C38_strided_assign_wrong)."
  },
  {
   "property": "C39",
   "status": "partial",
   "theorems": [
    "Xt.C39_mismatch_throws",
    "Xt.C39_bad_axis_ub",
    "Xt.C39_too_few_indices_ub",
    "Xt.C39_concatenate",
    "Xt.C39_concat_cover",
    "Xt.C39_concat_limits",
    "Xt.C39_concat_surplus",
    "Xt.C39_stack_partial",
    "Xt.C39_stack_cover",
    "Xt.C39_stack_unchecked",
    "Xt.C39_hstack",
    "Xt.C39_vstack_partial"
   ],
   "note": "concatenate proved for operands below 2^31 elements, with coverage and rejection of mismatched shapes; stack and vstack proved for equal shapes; violated: stack and one-dimensional vstack accept mismatched shapes and read past the end (C39_stack_unchecked), fewer indices and large strides (C39_concat_limits)."
  },
  {
   "property": "C40",
   "status": "partial",
   "theorems": [
    "Xt.C40_eye",
    "Xt.C40_tril",
    "Xt.C40_triu",
    "Xt.C40_tri_complement",
    "Xt.C40_tri_dimensions",
    "Xt.C40_diag",
    "Xt.C40_diagonal_partial",
    "Xt.C40_diagonal_diag",
    "Xt.C40_diagonal_offset_huge"
   ],
   "note": "eye, tril, triu, diag, diagonal and their round trips proved; violated: an offset beyond the extent gives a huge diagonal (C40_diagonal_offset_huge); one-dimensional tril is undefined (C40_tri_dimensions)."
  },
  {
   "property": "C41",
   "status": "partial",
   "theorems": [
    "Xt.C41_sort_partial",
    "Xt.C41_sort_transposed_wrong",
    "Xt.C41_sort_dynamic_throws",
    "Xt.C41_bad_axis_ub",
    "Xt.C41_sort_flat",
    "Xt.C41_argsort_partial",
    "Xt.C41_argsort_view_wrong",
    "Xt.C41_argsort_transposed_wrong"
   ],
   "note": "Proved for every shape, axis and content when the expression has the row-major or column-major layout of its temporary; a transposed view is sorted along the wrong axis (C41_sort_transposed_wrong), a dynamic layout throws (C41_sort_dynamic_throws), an axis out of range is undefined (C41_bad_axis_ub), argsort of a view ignores its offset (C41_argsort_view_wrong). Flattened sort is fully proved (C41_sort_flat). std::sort/std::stable_sort enter through their contract (SortBy)."
  },
  {
   "property": "C42",
   "status": "partial",
   "theorems": [
    "Xt.C42_argpartition_axis_partial",
    "Xt.C42_argpartition_beyond_ub",
    "Xt.C42_argpartition_view_wrong",
    "Xt.C42_pivot_is_sorted_value",
    "Xt.C42_partition_partial",
    "Xt.C42_kth_beyond_ub",
    "Xt.C42_partition_transposed_wrong",
    "Xt.C42_argpartition_partial",
    "Xt.C42_argpartition_column_wrong",
    "Xt.C42_argpartition_column_major_outside",
    "Xt.C42_median",
    "Xt.C42_median_integer_truncates",
    "Xt.C42_median_empty_ub",
    "Xt.C42_median_axis_partial"
   ],
   "note": "partition proved for every list of in-range kth positions, under the layout condition of C41; kth beyond the extent is undefined, argpartition over a flattened (n,1) array compares the first element only (C42_argpartition_column_wrong). median proved over rationals (C42_median); integers truncate and empty data are undefined. argpartition along an axis is proved for row-major and column-major containers (C42_argpartition_axis_partial); a view is read from the beginning of its storage (C42_argpartition_view_wrong). std::nth_element enters through its contract (NthBy)."
  },
  {
   "property": "C43",
   "status": "partial",
   "theorems": [
    "Xt.C43_flat",
    "Xt.C43_axis_partial",
    "Xt.C43_column_major_wrong",
    "Xt.C43_empty_axis_unwritten"
   ],
   "note": "Flattened version fully; along an axis when the traversal layout is that of the expression or the dimension is two (C43_axis_partial); a column-major array of three dimensions with the default traversal gives scrambled results (C43_column_major_wrong) and an axis of extent 0 leaves the result unwritten (C43_empty_axis_unwritten)."
  },
  {
   "property": "C44",
   "status": "partial",
   "theorems": [
    "Xt.C44_unique",
    "Xt.C44_setdiff1d",
    "Xt.C44_isin",
    "Xt.C44_searchsorted_partial",
    "Xt.C44_insertion_keeps_order",
    "Xt.C44_searchsorted_sides_reversed",
    "Xt.C44_searchsorted_column_wrong",
    "Xt.C44_searchsorted_column_major_outside",
    "Xt.C44_digitize"
   ],
   "note": "unique, setdiff1d, isin and one-dimensional digitize fully; searchsorted gives exact insertion points but the side flag is opposite to its documentation (C44_searchsorted_sides_reversed), and it addresses arrays with one flat index, wrong for shape (n,1) and out of bounds for column-major arrays (witnesses)."
  },
  {
   "property": "C45",
   "status": "partial",
   "theorems": [
    "Xt.C45_bins_disjoint",
    "Xt.C45_bins_cover",
    "Xt.C45_bins_conserve",
    "Xt.C45_histogram",
    "Xt.C45_histogram_undefined",
    "Xt.C45_histogram_equal",
    "Xt.C45_integer_edges_disagree",
    "Xt.C45_density_partial",
    "Xt.C45_density_unit",
    "Xt.C45_density_wrong",
    "Xt.C45_uniform_edges_wrong",
    "Xt.C45_bincount",
    "Xt.C45_bincount_rejects",
    "Xt.C45_bincount_ones_partial",
    "Xt.C45_bincount_ones_wraps"
   ],
   "note": "Bin contents and conservation proved for arbitrary sorted edges and for equal-width bins over the rationals (rounding not modelled); weighted bincount proved. Violations: integer data with equal bins count into bins other than the reported edges (C45_integer_edges_disagree), density integrates to in-range weight / number of data (C45_density_partial, C45_density_wrong), uniform edges left uninitialised (C45_uniform_edges_wrong), unweighted bincount wraps in the type of the data (C45_bincount_ones_wraps), bincount of no data fails."
  },
  {
   "property": "C46",
   "status": "partial",
   "theorems": [
    "Xt.C46_pad",
    "Xt.C46_pad_constant",
    "Xt.C46_pad_keeps",
    "Xt.C46_pad_too_wide",
    "Xt.C46_pad_short"
   ],
   "note": "Proved for every shape, width list and mode whose widths are within the mode's limit (C46_pad, C46_pad_constant, C46_pad_keeps). Missing: the limits are only asserted; beyond them cells stay unwritten or an exception of a view is thrown (C46_pad_too_wide), and fewer widths than axes read out of range (C46_pad_short)."
  },
  {
   "property": "C47",
   "status": "partial",
   "theorems": [
    "Xt.C47_repeat_shape",
    "Xt.C47_repeat_axis_undefined",
    "Xt.C47_repeat_same",
    "Xt.C47_repeat_access_partial",
    "Xt.C47_repeat_forward_partial",
    "Xt.C47_repeat_first_zero_wrong",
    "Xt.C47_repeat_last_zero_wrong",
    "Xt.C47_repeat_reverse_wrong",
    "Xt.C47_repeat_broadcast_wrong",
    "Xt.C47_repeat_few_arguments_wrong",
    "Xt.C47_tile_partial",
    "Xt.C47_tile_zero_throws",
    "Xt.C47_tile_first_partial",
    "Xt.C47_tile_first_scalar_undefined",
    "Xt.C47_tile_length_undefined"
   ],
   "note": "tile proved for nonzero repetitions (0 throws, C47_tile_zero_throws); tile(e, n) writes out of range on 0-d (C47_tile_first_scalar_undefined). repeat: shape proved, access and forward iteration proved unless the first (last) repeat is zero (C47_repeat_first_zero_wrong, C47_repeat_last_zero_wrong); reverse iteration, broadcasting and fewer arguments are wrong in the code (C47_repeat_reverse_wrong, C47_repeat_broadcast_wrong, C47_repeat_few_arguments_wrong)."
  },
  {
   "property": "C48",
   "status": "proved",
   "theorems": [
    "Xt.C48_resize",
    "Xt.C48_zero_chunk_undefined",
    "Xt.C48_address",
    "Xt.C48_distinct",
    "Xt.C48_write",
    "Xt.C48_history",
    "Xt.C48_scalar_assign",
    "Xt.C48_iterate",
    "Xt.C48_few_indices_wrong",
    "Xt.C48_many_indices_undefined",
    "Xt.C48_broadcast_wrong"
   ],
   "note": "Proved for every shape and chunk shape of positive extents, and for write histories; the condition on the object is what resize establishes (C48_resize) and every write keeps. Outside the statement: chunk extent 0 divides by zero (C48_zero_chunk_undefined); accesses with fewer indices address leading axes, with more read past the chunk shape; broadcasting a unit axis in a longer chunk reads padding (C48_broadcast_wrong)."
  },
  {
   "property": "C49",
   "status": "proved",
   "theorems": [
    "Xt.C49_visits",
    "Xt.C49_partition",
    "Xt.C49_assign",
    "Xt.C49_construct",
    "Xt.C49_view_assign",
    "Xt.C49_view_assign_chunked",
    "Xt.C49_broadcast_wrong"
   ],
   "note": "Visit order, boxes and partition proved for every shape and chunk shape; assignment to a chunked array, construction, and both assignments of a chunked view proved for equal shapes. A source that would have to be broadcast throws (C49_broadcast_wrong)."
  },
  {
   "property": "C50",
   "status": "partial",
   "theorems": [
    "Xt.C50_format",
    "Xt.C50_load_partial",
    "Xt.C50_mismatch_throws",
    "Xt.C50_roundtrip_partial",
    "Xt.C50_short_header_fits",
    "Xt.C50_long_header_wrong",
    "Xt.C50_truncated_accepted",
    "Xt.C50_column_vector_rejected",
    "Xt.C50_custom_strides_wrong",
    "Xt.C50_preamble_required",
    "Xt.C50_typestring_form",
    "Xt.C50_missing_extent_rejected",
    "Xt.C50_keys_required"
   ],
   "note": "Every dump is a file of the format (C50_format), every file of the format is loaded to what it says (C50_load_partial), hence the round trip (C50_roundtrip_partial). Missing, because the code violates it: with signed char a header length with a byte of 128 or more is misread, e.g. 24 unit axes (C50_long_header_wrong; C50_short_header_fits gives the safe range); custom strides are ignored (C50_custom_strides_wrong); the order of one-dimensional column-major arrays is lost (C50_column_vector_rejected); truncated files are accepted (C50_truncated_accepted)."
  },
  {
   "property": "C51",
   "status": "partial",
   "theorems": [
    "Xt.C51_step",
    "Xt.C51_history",
    "Xt.C51_inline_unobservable",
    "Xt.C51_at",
    "Xt.C51_eq",
    "Xt.C51_resize_uninitialised",
    "Xt.C51_own_element_partial",
    "Xt.C51_own_element_freed"
   ],
   "note": "Every allowed history over any collection of vectors refines sequences (C51_history), the inline capacity is unobservable (C51_inline_unobservable). Missing, because the code violates it: an element of the vector itself passed to push_back, insert or assign is read after its heap block was freed when the call has to replace the block (C51_own_element_freed; C51_own_element_partial gives the safe cases). A growing resize with Init = false leaves the new elements unspecified by design (C51_resize_uninitialised)."
  },
  {
   "property": "C52",
   "status": "partial",
   "theorems": [
    "Xt.C52_access",
    "Xt.C52_split",
    "Xt.C52_access_defined",
    "Xt.C52_container_splits",
    "Xt.C52_assembly_splits",
    "Xt.C52_assign_partial",
    "Xt.C52_access_undefined",
    "Xt.C52_assign_assembly_partial",
    "Xt.C52_missing_operand_evaluated",
    "Xt.C52_dynamic_layout_wrong",
    "Xt.C52_functor_state_lost",
    "Xt.C52_moved_values_share_a_flag",
    "Xt.C52_values_own_flags"
   ],
   "note": "Access to any tree of functions, views, broadcasts and reductions: C52_access, C52_access_defined. The split into values and flags agrees with access (C52_split), and so does assignment (C52_assign_partial), provided that the operations are defined for all arguments, that the functors have no state and that the layout of the containers is that of their type. Each proviso is needed: C52_missing_operand_evaluated (the operation is applied to the number stored under a missing value: integer division by zero), C52_functor_state_lost, C52_dynamic_layout_wrong. An assembly made from an xarray that is moved in has one flag for all elements: C52_moved_values_share_a_flag. That functions of xtl::xoptional are present exactly when all arguments are is assumed, xtl is not in the repository."
  },
  {
   "property": "C53",
   "status": "proved",
   "theorems": [
    "Xt.C53_size",
    "Xt.C53_strides",
    "Xt.C53_empty_shape_overflows",
    "Xt.C53_user_stride",
    "Xt.C53_raw_offset",
    "Xt.C53_element_offset",
    "Xt.C53_element_offset_unsigned",
    "Xt.C53_unchecked_offset",
    "Xt.C53_contiguous",
    "Xt.C53_view",
    "Xt.C53_unravel"
   ],
   "note": "For words of any size: sizes, strides and backstrides (C53_size, C53_strides, C53_user_stride), every access function on contiguous containers (C53_contiguous) and on views with offsets and negative strides (C53_view), and unravelling (C53_unravel). C53_empty_shape_overflows shows that the product must leave out the zero extents."
  },
  {
   "property": "C54",
   "status": "partial",
   "theorems": [
    "Xt.C54_current_shape_partial",
    "Xt.C54_assign_current_partial",
    "Xt.C54_frozen",
    "Xt.C54_error_not_cached",
    "Xt.C54_stale_shape",
    "Xt.C54_stale_reads_outside",
    "Xt.C54_stale_operand"
   ],
   "note": "The code violates the property: once the shape of a function has been asked for, it is given for ever, whatever happens to the operands (C54_frozen); witnesses of a wrong shape, of reads outside a shrunk operand and of a wrong shape caused by an inner expression are C54_stale_shape, C54_stale_reads_outside and C54_stale_operand. Proved for every history of uses and resizes in which no variable changes shape after the shape of a function over it has been asked for: every shape asked anywhere in the expression, and the shape and triviality an assignment uses, are those of the current operands (C54_current_shape_partial, C54_assign_current_partial). Errors are not remembered (C54_error_not_cached). Element values are read from the operands at each access, so they are covered by the access and evaluation properties."
  },
  {
   "property": "C55",
   "status": "partial",
   "theorems": [
    "Xt.C55_split",
    "Xt.C55_split_partition",
    "Xt.C55_split_errors"
   ],
   "note": "Proved for every strided argument; zero pieces divides by zero instead of throwing (C55_split_errors)."
  },
  {
   "property": "C56",
   "status": "proved",
   "theorems": [
    "Xt.C56_linspace",
    "Xt.C56_linspace_ends",
    "Xt.C56_linspace_assign"
   ],
   "note": ""
  },
  {
   "property": "C57",
   "status": "proved",
   "theorems": [
    "Xt.C57_meshgrid"
   ],
   "note": ""
  },
  {
   "property": "C58",
   "status": "proved",
   "theorems": [
    "Xt.C58_bin_items",
    "Xt.C58_single_bin"
   ],
   "note": ""
  },
  {
   "property": "C59",
   "status": "partial",
   "theorems": [
    "Xt.C59_iteration_partial",
    "Xt.C59_more_axes_undefined",
    "Xt.C59_reverse_partial",
    "Xt.C59_repeated_range_wrong",
    "Xt.C59_reverse_keep_before_implicit_axis_wrong",
    "Xt.C59_reverse_keep_one_wrong",
    "Xt.C59_reverse_int_before_keep_undefined",
    "Xt.C59_reverse_stepped_wrong",
    "Xt.C59_reverse_newaxis_wrong",
    "Xt.C59_reverse_int_last_wrong",
    "Xt.C59_reverse_zero_dim_wrong",
    "Xt.C59_zero_dim_repeated_undefined"
   ],
   "note": "Forward iteration under the view's own shape, and under shapes of its dimension that repeat only newaxes, keeps of one index and unit axes of the parent: C59_iteration_partial. Reverse iteration under the view's own shape for the views of Reversible: C59_reverse_partial. Elsewhere the code departs: C59_more_axes_undefined (every shape with more axes), C59_repeated_range_wrong, C59_zero_dim_repeated_undefined and the C59_reverse_*_wrong/_undefined theorems, one for each condition of Reversible. Counters are integers instead of wrapping words."
  },
  {
   "property": "C60",
   "status": "partial",
   "theorems": [
    "Xt.C60_argwhere",
    "Xt.C60_nonzero",
    "Xt.C60_filter_reads",
    "Xt.C60_access",
    "Xt.C60_call_broadcasts",
    "Xt.C60_element_more_indices_wrong",
    "Xt.C60_assign_partial",
    "Xt.C60_unordered_wrong",
    "Xt.C60_filter_assign_partial",
    "Xt.C60_filter_other_layout_wrong",
    "Xt.C60_fill",
    "Xt.C60_scalar",
    "Xt.C60_filter_scalar",
    "Xt.C60_repeated_differs",
    "Xt.C60_repeated_partial",
    "Xt.C60_filtration_partial",
    "Xt.C60_filtration_broadcast_undefined",
    "Xt.C60_filtration_dependent_wrong"
   ],
   "note": "argwhere, nonzero, reading, fill and scalar op= are proved in full. Assignment: proved when all elements of the view and of each operand lie between the first and the last (C60_assign_partial), so for filters on containers stored in the traversal order (C60_filter_assign_partial); false otherwise (C60_unordered_wrong, C60_filter_other_layout_wrong). element() with more indices is false (C60_element_more_indices_wrong), as is acting once on repeated elements (C60_repeated_differs). Filtration: proved for conditions of the same shape that at each index read no other element (C60_filtration_partial); otherwise undefined or false. Zero-dimensional conditions of a filtration are not covered."
  },
  {
   "property": "C61",
   "status": "partial",
   "theorems": [
    "Xt.C61_axis_element",
    "Xt.C61_axis_partial",
    "Xt.C61_axis_offset_endless",
    "Xt.C61_slices_partial",
    "Xt.C61_slice_element",
    "Xt.C61_slices_exact",
    "Xt.C61_few_axes",
    "Xt.C61_slices_offset_wrong",
    "Xt.C61_slices_layout_wrong",
    "Xt.C61_slices_empty_undefined"
   ],
   "note": "axis_begin/axis_end: proved when the expression starts at the beginning of its storage (C61_axis_partial, C61_axis_element); otherwise the loop never ends (C61_axis_offset_endless). axis_slice_begin/end: proved for contiguous arrays of positive extents whose offset is a multiple of the size without the slowest axis, for the axes of SlicesFit (C61_slices_partial, C61_slice_element, C61_few_axes); on containers exactly these axes are right (C61_slices_exact). Other offsets, layouts and empty axes: C61_slices_offset_wrong, C61_slices_layout_wrong, C61_slices_empty_undefined."
  },
  {
   "property": "C62",
   "status": "partial",
   "theorems": [
    "Xt.C62_fft_partial",
    "Xt.C62_fft_inner_axis_wrong",
    "Xt.C62_ifft_partial",
    "Xt.C62_round_trip_partial",
    "Xt.C62_not_inverse",
    "Xt.C62_ifft_default_axis_undefined",
    "Xt.C62_convolve_default_axis_undefined",
    "Xt.C62_convolve_partial",
    "Xt.C62_convolve_throws",
    "Xt.C62_complex",
    "Xt.C62_bad_arguments",
    "Xt.C62_product_short"
   ],
   "note": "Exact arithmetic over any field with an exponential and a conjugation, complex numbers included (C62_complex). Proved for every length, on arrays of positive extents and the axes of SlicesFit, which are all axes of arrays with up to three: fft (C62_fft_partial), ifft up to the factor n (C62_ifft_partial, C62_round_trip_partial), convolve (C62_convolve_partial, C62_convolve_throws), the latter two for non-negative axes. Not true of the code: other axes (C62_fft_inner_axis_wrong), ifft as inverse (C62_not_inverse), negative axes of ifft and convolve (C62_ifft_default_axis_undefined, C62_convolve_default_axis_undefined)."
  },
  {
   "property": "C63",
   "status": "partial",
   "theorems": [
    "Xt.C63_weighted_unique_undefined",
    "Xt.C63_shuffle",
    "Xt.C63_shuffle_uniform",
    "Xt.C63_shuffle_empty_undefined",
    "Xt.C63_shuffle_rows",
    "Xt.C63_shuffle_rows_empty_undefined",
    "Xt.C63_choice_replace",
    "Xt.C63_choice_unique",
    "Xt.C63_allDraws",
    "Xt.C63_choice_uniform",
    "Xt.C63_choice_view_wrong",
    "Xt.C63_choice_replace_view_wrong",
    "Xt.C63_weighted",
    "Xt.C63_weighted_length",
    "Xt.C63_weighted_zero_undefined",
    "Xt.C63_weighted_unique",
    "Xt.C63_choice_too_many_undefined"
   ],
   "note": "Proved for arrays with elements (shuffle) and one-dimensional containers (choice). Not true of the code: empty arrays (C63_shuffle_empty_undefined, C63_shuffle_rows_empty_undefined), choice from views, which samples the storage behind the view (C63_choice_view_wrong, C63_choice_replace_view_wrong), weights that are all zero (C63_weighted_zero_undefined). Weights and exponential draws are rational numbers; std::partial_sort by its contract."
  },
  {
   "property": "C64",
   "status": "partial",
   "theorems": [
    "Xt.C64_quantile_axis_undefined",
    "Xt.C64_quantile_unique",
    "Xt.C64_quantile_monotone",
    "Xt.C64_quantile_half",
    "Xt.C64_methods",
    "Xt.C64_linear_extremes",
    "Xt.C64_quantile_partial",
    "Xt.C64_quantile_method_partial",
    "Xt.C64_quantile_empty_undefined",
    "Xt.C64_quantile_transposed_wrong"
   ],
   "note": "Proved for expressions stored in the layout of their temporary or with one axis, and lines with elements. Not true of the code: transposed expressions (C64_quantile_transposed_wrong, from partition), lines without elements (C64_quantile_empty_undefined). Rational numbers; std::nth_element by its contract."
  },
  {
   "property": "C65",
   "status": "partial",
   "theorems": [
    "Xt.C65_mean_axes_throws",
    "Xt.C65_average_all_weights_throws",
    "Xt.C65_average_weights_throws",
    "Xt.C65_average_axis_undefined",
    "Xt.C65_average_keep_throws",
    "Xt.C65_nanvar_negative_undefined",
    "Xt.C65_mean",
    "Xt.C65_mean_immediate",
    "Xt.C65_variance_divisor",
    "Xt.C65_variance_partial",
    "Xt.C65_variance_ddof_wrong",
    "Xt.C65_variance_negative_undefined",
    "Xt.C65_variance_braced_negative_throws",
    "Xt.C65_average_partial",
    "Xt.C65_average_axis",
    "Xt.C65_average_axes_wrong",
    "Xt.C65_average_keep_wrong",
    "Xt.C65_mean_all",
    "Xt.C65_variance_all",
    "Xt.C65_average_all",
    "Xt.C65_nan_sum_prod_count",
    "Xt.C65_nan_min_max",
    "Xt.C65_nanmean",
    "Xt.C65_nanvar_partial",
    "Xt.C65_amin_amax_partial",
    "Xt.C65_amin_infinite_wrong"
   ],
   "note": "Means, nan reductions, statistics of all elements and single-axis averages are proved for all inputs. Not true of the code: variance with ddof > 1 and several groups (C65_variance_ddof_wrong; the exact divisor is C65_variance_divisor), negative axes in variance (C65_variance_negative_undefined, C65_variance_braced_negative_throws), average with 1-D weights over several axes (C65_average_axes_wrong) or kept axes (C65_average_keep_wrong), amin of infinities (C65_amin_infinite_wrong). Rational numbers."
  },
  {
   "property": "C66",
   "status": "partial",
   "theorems": [
    "Xt.C66_diff_partial",
    "Xt.C66_diff_empty_wrong",
    "Xt.C66_diff_bool_partial",
    "Xt.C66_trapz",
    "Xt.C66_trapz_points",
    "Xt.C66_trapz_points_array_partial",
    "Xt.C66_trapz_empty_throws",
    "Xt.C66_diff_axis_undefined",
    "Xt.C66_trapz_axis_undefined",
    "Xt.C66_trapz_points_axis_undefined",
    "Xt.C66_interp_no_data",
    "Xt.C66_unwrap_partial",
    "Xt.C66_unwrap_bound",
    "Xt.C66_unwrap_small_discontinuity",
    "Xt.C66_unwrap_modifies_argument",
    "Xt.C66_interp_partial",
    "Xt.C66_interp",
    "Xt.C66_interp_ends_wrong",
    "Xt.C66_interp_no_points_undefined",
    "Xt.C66_cov",
    "Xt.C66_cov_vector",
    "Xt.C66_cov_pair",
    "Xt.C66_convolve_full",
    "Xt.C66_convolve_dimension_throws",
    "Xt.C66_convolve_valid_undefined",
    "Xt.C66_convolve_valid_partial",
    "Xt.C66_convolve_valid_wrong"
   ],
   "note": "trapz with a step or a vector of abscissae, interp with default ends, cov and full convolution are proved for all inputs; diff, unwrap and trapz with an array of abscissae for arrays with elements. Not true of the code: diff of arrays without elements (C66_diff_empty_wrong, C66_trapz_empty_throws), interp with left/right at the end points (C66_interp_ends_wrong), unwrap of a variable, which is changed (C66_unwrap_modifies_argument), valid convolution (C66_convolve_valid_undefined, C66_convolve_valid_wrong). Rational numbers."
  },
  {
   "property": "C67",
   "status": "partial",
   "theorems": [
    "Xt.C67_sum",
    "Xt.C67_prod",
    "Xt.C67_mean",
    "Xt.C67_variance",
    "Xt.C67_stddev",
    "Xt.C67_amin",
    "Xt.C67_amax",
    "Xt.C67_norms",
    "Xt.C67_norm_l2",
    "Xt.C67_norm_linf",
    "Xt.C67_norm_lp_partial",
    "Xt.C67_braced_sum",
    "Xt.C67_chunk_shape_irrelevant",
    "Xt.C67_negative_axis_undefined",
    "Xt.C67_negative_axis_keep_wrong",
    "Xt.C67_empty_axis_wrong",
    "Xt.C67_norm_lp_odd_wrong",
    "Xt.C67_norm_lp_zero_wrong",
    "Xt.C67_destination_shape_wrong"
   ],
   "note": "Proved for all shapes with elements, chunk shapes and non-negative axes (negative ones in braces): sum, prod, mean, variance, stddev, amin, amax, norm_l0, l1, l2, sq, linf, and norm_lp_to_p for even powers or non-negative elements. Not true of the code: negative axes not in braces (C67_negative_axis_undefined, C67_negative_axis_keep_wrong), reduced axes of extent 0 (C67_empty_axis_wrong), odd powers of negative elements and p = 0 (C67_norm_lp_odd_wrong, C67_norm_lp_zero_wrong). The destination is not resized (C67_destination_shape_wrong). Rational numbers; roots are an abstract function."
  },
  {
   "property": "C68",
   "status": "partial",
   "theorems": [
    "Xt.C68_load",
    "Xt.C68_dump",
    "Xt.C68_dump_dimension",
    "Xt.C68_round_trip",
    "Xt.C68_signed_cells",
    "Xt.C68_signed_range",
    "Xt.C68_char_cell",
    "Xt.C68_unsigned_cells",
    "Xt.C68_small_cells",
    "Xt.C68_string_cell",
    "Xt.C68_string_cells",
    "Xt.C68_ragged_rows_wrong",
    "Xt.C68_string_blanks_wrong",
    "Xt.C68_max_rows_zero_wrong",
    "Xt.C68_max_rows_loses_line_wrong",
    "Xt.C68_empty_marker_wrong",
    "Xt.C68_empty_last_cell_wrong",
    "Xt.C68_empty_line_wrong",
    "Xt.C68_no_elements_wrong",
    "Xt.C68_hash_row_wrong",
    "Xt.C68_bytes_undefined",
    "Xt.C68_small_types_wrong",
    "Xt.C68_unsigned_wraps_wrong",
    "Xt.C68_trailing_characters_wrong",
    "Xt.C68_file_delimiter_wrong",
    "Xt.C68_load_file"
   ],
   "note": "Proved for all tables with at least one column whose rows have the same length: load_csv with any delimiter, marker, skip_rows and max_rows, dump_csv of any expression with two axes, and the round trip for every element conversion that survives on its own, which is proved for signed and unsigned integers, short integers and texts without blanks at the ends. Not true of the code: the witnesses C68_..._wrong and C68_bytes_undefined (ragged rows, blanks, max_rows, markers, empty cells, lines and arrays, rows that begin with #, 8-bit integers, unchecked numbers, delimiter of dump_file). Floating point text is not modelled. C68_signed_range, C68_char_cell and C68_load_file say what single cells and whole files are read as."
  },
  {
   "property": "C69",
   "status": "partial",
   "theorems": [
    "Xt.C69_to_json",
    "Xt.C69_from_json_partial",
    "Xt.C69_round_trip_partial",
    "Xt.C69_from_json_view_partial",
    "Xt.C69_view_shape_mismatch",
    "Xt.C69_empty_axis_wrong",
    "Xt.C69_empty_axis_undefined",
    "Xt.C69_empty_axis_fixed_wrong",
    "Xt.C69_short_row_undefined",
    "Xt.C69_long_row_wrong",
    "Xt.C69_fewer_axes_wrong",
    "Xt.C69_more_axes_undefined",
    "Xt.C69_dynamic_view_unchecked_wrong",
    "Xt.C69_view_fewer_axes_undefined"
   ],
   "note": "to_json proved for all strided expressions, with empty axes too. from_json into containers and views, and the round trip, proved for shapes without empty axes, containers of dynamic or matching fixed dimension, views of matching fixed dimension. Not true of the code: empty axes (C69_empty_axis_wrong, C69_empty_axis_undefined, C69_empty_axis_fixed_wrong), ragged documents (C69_short_row_undefined, C69_long_row_wrong), documents of another depth (C69_fewer_axes_wrong, C69_more_axes_undefined, C69_view_fewer_axes_undefined), views of dynamic dimension, whose shape is not checked (C69_dynamic_view_unchecked_wrong)."
  },
  {
   "property": "C70",
   "status": "partial",
   "theorems": [
    "Xt.C70_uvector",
    "Xt.C70_uvector_from_start",
    "Xt.C70_uvector_no_leak",
    "Xt.C70_uvector_access",
    "Xt.C70_owner_partial",
    "Xt.C70_owner_no_leak_partial",
    "Xt.C70_owner_elements",
    "Xt.C70_borrowed",
    "Xt.C70_uvector_compare",
    "Xt.C70_buffer_less",
    "Xt.C70_buffer_compare_wrong",
    "Xt.C70_moved_from_reuse_undefined",
    "Xt.C70_moved_from_move_undefined",
    "Xt.C70_allocators_undefined",
    "Xt.C70_move_allocator_undefined",
    "Xt.C70_memory_rules",
    "Xt.C70_copy_allocator"
   ],
   "note": "uvector with one allocator: proved for all histories (C70_uvector, C70_uvector_no_leak, C70_uvector_access, C70_uvector_compare). Owning adaptors: proved for all histories in which an adaptor that was moved from is only destroyed. Not true of the code: reuse of adaptors that were moved from (C70_moved_from_reuse_undefined, C70_moved_from_move_undefined), vectors with different allocators (C70_allocators_undefined, C70_move_allocator_undefined), comparisons of buffers (C70_buffer_compare_wrong). Exceptions from allocations and elements of uvector are C97."
  },
  {
   "property": "C71",
   "status": "partial",
   "theorems": [
    "Xt.C71_pretty_print_partial",
    "Xt.C71_empty",
    "Xt.C71_integers_read_back",
    "Xt.C71_integers_aligned_partial",
    "Xt.C71_strings_aligned",
    "Xt.C71_booleans_aligned",
    "Xt.C71_line_width_partial",
    "Xt.C71_html_partial",
    "C71_one_edge_item_undefined",
    "C71_zero_option_wrong",
    "C71_html_empty_undefined",
    "C71_line_width_wrong",
    "C71_smallest_integer_wrong"
   ],
   "note": "Proved for arrays with elements when the manipulators are not zero and one edge item does not meet an axis longer than two (C71_pretty_print_partial), together with reading back, alignment and, for unabbreviated sequences, line width. Not true of the code: one edge item (C71_one_edge_item_undefined), manipulators with value zero (C71_zero_option_wrong), HTML of arrays without elements (C71_html_empty_undefined), line width with more axes, ellipses or wide elements (C71_line_width_wrong), width of the smallest integer (C71_smallest_integer_wrong). Texts of floating point and complex elements are any function of the shown values."
  },
  {
   "property": "C72",
   "status": "partial",
   "theorems": [
    "C72_norms",
    "C72_lp",
    "C72_lp_is_norm",
    "C72_norms_all",
    "C72_braced",
    "C72_bad_axes_terminate",
    "C72_braced_negative_terminates",
    "C72_induced",
    "C72_induced_throws",
    "C72_integers_partial",
    "C72_narrow_integers",
    "C72_square_overflow",
    "C72_square_wrong",
    "C72_immediate_partial",
    "C72_immediate_linf_partial",
    "C72_immediate_wrong",
    "C72_complex",
    "C72_complex_l1"
   ],
   "note": "Proved for real and complex elements and sets of axes that exist (C72_norms, C72_norms_all, C72_lp, C72_lp_is_norm, C72_complex, C72_induced), for integers whose squares can be represented in their type or int (C72_integers_partial, C72_narrow_integers), for immediate evaluation where elements are not copied (C72_immediate_partial). Not true of the code: axes that do not exist, and negative braced axes, end the program instead of throwing because the functions are noexcept (C72_bad_axes_terminate, C72_braced_negative_terminates); squares overflow in the element type before they are added to the wide sum (C72_square_overflow, C72_square_wrong); immediate evaluation over leading axes of extent 1 returns the elements (C72_immediate_wrong). Rounding and overflow of 64-bit sums are not modelled."
  },
  {
   "property": "C73",
   "status": "partial",
   "theorems": [
    "Xt.C73_bad_slices_throw",
    "Xt.C73_dynamic_view_partial",
    "Xt.C73_as_strided_view",
    "Xt.C73_fewer_arguments_partial",
    "Xt.C73_fewer_arguments_wrong",
    "Xt.C73_no_arguments_wrong",
    "Xt.C73_no_arguments_partial",
    "Xt.C73_unchecked_wrong",
    "Xt.C73_unchecked_first_argument",
    "Xt.C73_flat_wrong",
    "Xt.C73_negative_int_wrong",
    "Xt.C73_iteration_partial",
    "Xt.C73_assign_scalar_partial",
    "Xt.C73_assign_partial"
   ],
   "note": "Proved for valid slice vectors with non-negative integers: shape, operator(), element, iteration, surplus indices (C73_dynamic_view_partial, C73_iteration_partial), assignment (C73_assign_scalar_partial, C73_assign_partial), refusals (C73_bad_slices_throw), agreement with strided_view on all slice vectors and arguments (C73_as_strided_view). Not true of the code: unchecked takes its first argument for the offset (C73_unchecked_wrong, C73_unchecked_first_argument); fewer indices than axes, and v(), leave out keep and drop slices (C73_fewer_arguments_wrong, C73_no_arguments_wrong, positive parts C73_fewer_arguments_partial, C73_no_arguments_partial); flat ignores the strides (C73_flat_wrong); negative integers are not normalised (C73_negative_int_wrong)."
  },
  {
   "property": "C74",
   "status": "partial",
   "theorems": [
    "Xt.C74_rectangular",
    "Xt.C74_empty",
    "Xt.C74_undefined_iff",
    "Xt.C74_ragged_wrong",
    "Xt.C74_fixed",
    "Xt.C74_fixed_unchecked_wrong"
   ],
   "note": "Proved: rectangular braces give their shape and elements in both layouts (C74_rectangular), also for xtensor_fixed, which with assertions refuses exactly the braces of another shape (C74_fixed); an empty level makes all further extents 0 (C74_empty); construction never throws and is undefined exactly when there are more values than the shape of the first braces has elements (C74_undefined_iff). Not true of the code: ragged braces are accepted and write past the storage, leave elements without value or put them at other places (C74_ragged_wrong); xtensor_fixed without assertions likewise (C74_fixed_unchecked_wrong)."
  },
  {
   "property": "C75",
   "status": "partial",
   "theorems": [
    "Xt.C75_static_broadcast_partial",
    "Xt.C75_static_as_dynamic_partial",
    "Xt.C75_zero_extent_wrong",
    "Xt.C75_scalar_rank_wrong",
    "Xt.C75_static_strides",
    "Xt.C75_fixed_addresses",
    "Xt.C75_is_contiguous",
    "Xt.C75_reshape",
    "Xt.C75_resize_asserts",
    "Xt.C75_assign_unchecked_wrong",
    "Xt.C75_scalar_constructor"
   ],
   "note": "Proved: for positive extents the static shape, refusal and triviality flag (C75_static_broadcast_partial) and agreement with run-time broadcasting (C75_static_as_dynamic_partial); strides, backstrides and size for all shapes (C75_static_strides) and so distinct addresses within the storage (C75_fixed_addresses); reshape (C75_reshape), resize with assertions (C75_resize_asserts), construction from a value (C75_scalar_constructor). Not true of the code: extents 0 broadcast to larger ones (C75_zero_extent_wrong); a scalar beside operands without axes adds an axis (C75_scalar_rank_wrong); without assertions assignment of another shape is accepted and reads out of bounds (C75_assign_unchecked_wrong); reshape to a longer shape with the own shape as prefix reads past it (C75_reshape); is_contiguous is false when the last (first) extent is 1 (C75_is_contiguous)."
  },
  {
   "property": "C76",
   "status": "partial",
   "theorems": [
    "Xt.C76_iteration",
    "Xt.C76_element",
    "Xt.C76_assign_partial",
    "Xt.C76_imag_alias_wrong",
    "Xt.C76_scalar",
    "Xt.C76_fill",
    "Xt.C76_parts_independent",
    "Xt.C76_order_wrong",
    "Xt.C76_adaptor_partial",
    "Xt.C76_adaptor_broadcast_wrong",
    "Xt.C76_adaptor_dynamic_wrong"
   ],
   "note": "Proved: reading by iteration and by index (C76_iteration, C76_element); assignment with aliasing (C76_assign_partial) except to imag(a) from expressions that use complex elements as a whole; filling and compound assignment with a scalar (C76_fill, C76_scalar, C76_parts_independent); adaptor assignment for operands of the destination's shape (C76_adaptor_partial). Not true of the code: imag(view(a, range(2, 5))) = norm(view(a, range(0, 3))) misses the overlap (C76_imag_alias_wrong); operator< of the iterators is inverted (C76_order_wrong); adaptor assignment of a broadcasting expression reads past operands or leaves elements unassigned (C76_adaptor_broadcast_wrong), and copies the storage order when both layouts are dynamic (C76_adaptor_dynamic_wrong)."
  },
  {
   "property": "C77",
   "status": "partial",
   "theorems": [
    "Xt.C77_minimum_maximum",
    "Xt.C77_minimum_maximum_nan",
    "Xt.C77_minimum_order_wrong",
    "Xt.C77_clip",
    "Xt.C77_clip_idempotent",
    "Xt.C77_sign",
    "Xt.C77_sign_complex",
    "Xt.C77_sign_unsigned",
    "Xt.C77_nan_to_num",
    "Xt.C77_pow_partial",
    "Xt.C77_pow_narrow_wrong",
    "Xt.C77_isclose_finite",
    "Xt.C77_isclose_special",
    "Xt.C77_isclose_symm",
    "Xt.C77_isclose_self",
    "Xt.C77_isclose_infinite_wrong",
    "Xt.C77_isclose_formula_wrong",
    "Xt.C77_isclose_bounds",
    "Xt.C77_allclose",
    "Xt.C77_allclose_terminates",
    "Xt.C77_amin_amax_nan",
    "Xt.C77_amin_nan_wrong",
    "Xt.C77_nansum_partial",
    "Xt.C77_nansum_axes_wrong",
    "Xt.C77_nancumsum_flat",
    "Xt.C77_nancumsum_axis_partial",
    "Xt.C77_comparisons",
    "Xt.C77_product",
    "Xt.C77_sum"
   ],
   "note": "Proved: minimum, maximum, clip (C77_minimum_maximum, C77_clip, C77_clip_idempotent), sign (C77_sign, C77_sign_complex, C77_sign_unsigned), nan_to_num, pow<N> when the inner powers fit the element type (C77_pow_partial), closeness of finite and of special values, symmetry, reflexivity and the relation to the documented test (C77_isclose_*), allclose (C77_allclose), nansum along one axis (C77_nansum_partial), nancumsum and nancumprod (C77_nancumsum_flat, C77_nancumsum_axis_partial). Not true of the code: NaN is kept in the second argument and dropped in the first (C77_minimum_maximum_nan, C77_minimum_order_wrong), so amin and amax count only the elements after the last NaN (C77_amin_amax_nan, C77_amin_nan_wrong); an infinity is close to every finite number (C77_isclose_infinite_wrong); the documented formula is not the one computed (C77_isclose_formula_wrong); allclose ends the program on shapes that do not broadcast (C77_allclose_terminates); nansum over several axes drops partial sums that are NaN (C77_nansum_axes_wrong); pow<N> cuts inner powers of narrow integers (C77_pow_narrow_wrong). Rounding, overflow and the sign of zero are not modelled."
  },
  {
   "property": "C78",
   "status": "partial",
   "theorems": [
    "Xt.C78_adapt",
    "Xt.C78_adapt_pointer",
    "Xt.C78_adapt_flat",
    "Xt.C78_adapt_onto",
    "Xt.C78_write",
    "Xt.C78_refusals",
    "Xt.C78_vector_size",
    "Xt.C78_vector_truncated_wrong",
    "Xt.C78_fixed_partial",
    "Xt.C78_fixed_short_wrong",
    "Xt.C78_template_layout_wrong",
    "Xt.C78_braces_partial",
    "Xt.C78_strides",
    "Xt.C78_strides_padded_wrong",
    "Xt.C78_strides_negative_wrong",
    "Xt.C78_strides_pointer",
    "Xt.C78_assign_partial",
    "Xt.C78_assign_refused_wrong",
    "Xt.C78_assign_temporary_partial",
    "Xt.C78_temporary_refused_wrong",
    "Xt.C78_save",
    "Xt.C78_assign_layout_wrong",
    "Xt.C78_save_strided_wrong",
    "Xt.C78_copy",
    "Xt.C78_copy_pointer_wrong",
    "Xt.C78_reset"
   ],
   "note": "Proved for all inputs: reads, writes and the one-to-one correspondence with the memory for sequences and pointers of the right size in every layout (C78_adapt, C78_adapt_pointer, C78_adapt_flat, C78_adapt_onto, C78_write), the exact conditions of refusal (C78_refusals, C78_strides_pointer), what happens to a vector of another size (C78_vector_size), strides (C78_strides), assignment with and without a temporary (C78_assign_partial, C78_assign_temporary_partial), saving (C78_save), copies (C78_copy), reset_buffer (C78_reset). Not true of the code: a vector is resized by adapting it (C78_vector_truncated_wrong); too short a std::array or constant sequence is accepted (C78_fixed_short_wrong); the template layout is dropped with braces and C arrays (C78_template_layout_wrong); padded strides cut the vector or are refused, negative strides read before it (C78_strides_padded_wrong, C78_strides_negative_wrong); a refused assignment leaves the new shape behind (C78_assign_refused_wrong, C78_temporary_refused_wrong); assignment through a temporary does not update layout() (C78_assign_layout_wrong); strided memory is saved cell by cell (C78_save_strided_wrong); a = b rebinds pointers (C78_copy_pointer_wrong)."
  },
  {
   "property": "C79",
   "status": "partial",
   "theorems": [
    "Xt.C79_lockstep",
    "Xt.C79_history",
    "Xt.C79_elements",
    "Xt.C79_flat",
    "Xt.C79_iterate",
    "Xt.C79_at",
    "Xt.C79_write",
    "Xt.C79_fill",
    "Xt.C79_filled",
    "Xt.C79_of_values",
    "Xt.C79_broadcast",
    "Xt.C79_braces",
    "Xt.C79_equality",
    "Xt.C79_storage_equality_partial",
    "Xt.C79_storage_equality_wrong",
    "Xt.C79_storage_le",
    "Xt.C79_fill_sizes_wrong",
    "Xt.C79_storage_order_wrong",
    "Xt.C79_mixed_layout_flat_wrong",
    "Xt.C79_mixed_layout_shape_wrong",
    "Xt.C79_mixed_layout_resize_wrong",
    "Xt.C79_pair_wrong",
    "Xt.C79_resize_alloc_wrong"
   ],
   "note": "Proved for all inputs: the halves stay in step over any history, a throwing call changes neither (C79_lockstep, C79_history); elements, flat access, iteration, at (C79_elements, C79_flat, C79_iterate, C79_at); assignment of an element and fill (C79_write, C79_fill); construction (C79_filled, C79_of_values, C79_braces); broadcasting (C79_broadcast); equality (C79_equality), equality of storages where nothing is missing (C79_storage_equality_partial). Not true of the code: storages compare what is stored under missing elements (C79_storage_equality_wrong) and are not totally ordered (C79_storage_order_wrong); halves of different layout are joined wrongly by flat and linear access (C79_mixed_layout_flat_wrong), cannot be built from a shape (C79_mixed_layout_shape_wrong) and are left with different shapes by resize and reshape (C79_mixed_layout_resize_wrong); halves of different shape are accepted (C79_pair_wrong); a failed allocation of the flags leaves the halves different (C79_resize_alloc_wrong). storage().data() has no return statement and is not modelled."
  },
  {
   "property": "C80",
   "status": "partial",
   "theorems": [
    "Xt.C80_row_pattern",
    "Xt.C80_column_pattern",
    "Xt.C80_contiguous",
    "Xt.C80_linear",
    "Xt.C80_update",
    "Xt.C80_layout_found",
    "Xt.C80_flat_partial",
    "Xt.C80_nested_flat_wrong",
    "Xt.C80_row",
    "Xt.C80_col",
    "Xt.C80_row_dimension",
    "Xt.C80_copy_partial",
    "Xt.C80_owning_copy_wrong",
    "Xt.C80_row_temporary_wrong",
    "Xt.C80_view_of_rvalue"
   ],
   "note": "Proved for all inputs: which slice patterns count as contiguous (C80_row_pattern, C80_column_pattern); shape, element positions, static layout and layout() of towers of views (C80_contiguous); linear iteration in both directions (C80_linear); fill and op= (C80_update); layout() complete (C80_layout_found); flat and data_element of a view of a container (C80_flat_partial); row and col (C80_row, C80_col, C80_row_dimension); copies and views of rvalues (C80_copy_partial, C80_view_of_rvalue). Not true of the code: flat, data_element and SIMD access of a view of a view add the lower offset twice and leave the storage (C80_nested_flat_wrong); a copy of a trivially strided view that owns its container refers to the shape inside the original (C80_owning_copy_wrong); row and col of a temporary refer to it (C80_row_temporary_wrong)."
  },
  {
   "property": "C81",
   "status": "partial",
   "theorems": [
    "Xt.C81_arithmetic",
    "Xt.C81_distance_partial",
    "Xt.C81_backward_distance_wrong",
    "Xt.C81_order_partial",
    "Xt.C81_scalars_wrong",
    "Xt.C81_elements_partial",
    "Xt.C81_traversal_partial",
    "Xt.C81_mixed_layout_wrong",
    "Xt.C81_broadcast_operand_wrong",
    "Xt.C81_broadcast_wrong",
    "Xt.C81_assign_loop",
    "Xt.C81_linear_assign",
    "Xt.C81_strided_reverse_wrong"
   ],
   "note": "Proved for all inputs: arithmetic (C81_arithmetic); forward distances (C81_distance_partial); == and < when the first operand that is no scalar leads to an array or generator (C81_order_partial); elements, end and traversals in both directions when the arrays have the shape of the whole and one order of storage (C81_elements_partial, C81_traversal_partial); the iterator loop is the data_element loop (C81_assign_loop) and has_linear_assign admits it only where it is right (C81_linear_assign). Not true of the code: backward distances of functions are 0 (C81_backward_distance_wrong); for every function of scalars, and every function whose first non-scalar operand is one, all iterators are equal (C81_scalars_wrong); operands of different layout are read at different indices (C81_mixed_layout_wrong); broadcast operands shorten the traversal or are read past their end (C81_broadcast_operand_wrong); a broadcast expression has the iterators of its operand (C81_broadcast_wrong); reverse linear iterators of a strided view are exchanged (C81_strided_reverse_wrong)."
  },
  {
   "property": "C82",
   "status": "partial",
   "theorems": [
    "Xt.C82_access",
    "Xt.C82_traversal_partial",
    "Xt.C82_reverse_partial",
    "Xt.C82_fill",
    "Xt.C82_scalar_op",
    "Xt.C82_assign",
    "Xt.C82_assign_masked_partial",
    "Xt.C82_into_partial",
    "Xt.C82_mask_axes_wrong",
    "Xt.C82_short_mask_wrong",
    "Xt.C82_reverse_scalar_mask_wrong",
    "Xt.C82_into_column_wrong",
    "Xt.C82_shared_flag_wrong",
    "Xt.C82_larger_rhs_wrong"
   ],
   "note": "Proved for all inputs: access (C82_access), iteration (C82_traversal_partial, C82_reverse_partial for masks that are not 0-dimensional), fill and scalar assignment (C82_fill), compound assignment (C82_scalar_op), assignment of expressions (C82_assign), of masked values when mask and data have one shape (C82_assign_masked_partial), into arrays that are not contiguous in column-major order (C82_into_partial). Not true of the code: a mask with more axes is read differently by index and by iteration (C82_mask_axes_wrong); a shorter mask is read past its end, even by at (C82_short_mask_wrong); a 0-dimensional mask is read past its end by reverse iteration (C82_reverse_scalar_mask_wrong); a column-major masked view is transposed when assigned to a column-major array (C82_into_column_wrong); a flag shared by several elements can hide the elements after the one it was cleared for (C82_shared_flag_wrong); a larger right-hand side overruns a view of extent 1 (C82_larger_rhs_wrong)."
  },
  {
   "property": "C83",
   "status": "partial",
   "theorems": [
    "Xt.C83_style_sound",
    "Xt.C83_statistics",
    "Xt.C83_functions",
    "Xt.C83_values_sound",
    "Xt.C83_values",
    "Xt.C83_average_wrong",
    "Xt.C83_views_wrong",
    "Xt.C83_isin_range_wrong",
    "Xt.C83_isin_list_wrong",
    "Xt.C83_axes_wrong",
    "Xt.C83_shared_wrong",
    "Xt.C83_forward_twice_wrong",
    "Xt.C83_scalar_wrong",
    "Xt.C83_eval_wrong"
   ],
   "note": "Proved for every function in the style (C83_style_sound, C83_values_sound) and so for mean, average with weights, variance, stddev, nanmean, nanvar with and without axes (C83_statistics, C83_values), flip along an axis, isin of an array and reductions (C83_functions). Not true of the code: average(e) of a temporary refers to its parameter (C83_average_wrong), and so do flip(e), row and col (C83_views_wrong); isin of two iterators refers to them (C83_isin_range_wrong), isin of a braced list to its array (C83_isin_list_wrong); unsigned axes are referred to and signed ones copied (C83_axes_wrong); sharing does not protect constant variables or operands of views and vectorized functions (C83_shared_wrong); a parameter forwarded twice is read after it was moved from (C83_forward_twice_wrong); scalar variables are referred to (C83_scalar_wrong); auto&& c = eval(temporary container) dangles (C83_eval_wrong)."
  },
  {
   "property": "C84",
   "status": "partial",
   "theorems": [
    "Xt.C84_from_indices",
    "Xt.C84_flatten",
    "Xt.C84_flatten_entry",
    "Xt.C84_ravel",
    "Xt.C84_ravel_argwhere",
    "Xt.C84_trim_zeros",
    "Xt.C84_from_argwhere",
    "Xt.C84_from_no_index_wrong",
    "Xt.C84_ragged_wrong",
    "Xt.C84_ravel_wrong",
    "Xt.C84_trim_rows_wrong"
   ],
   "note": "Proved for lists of indices of one length (C84_from_indices, C84_flatten, C84_flatten_entry, C84_ravel), after argwhere (C84_from_argwhere, C84_ravel_argwhere), and for trim_zeros of strided sequences (C84_trim_zeros). Not true of the code: the array of no indices has no columns (C84_from_no_index_wrong), indices of different lengths are read and written past the end (C84_ragged_wrong), what is no index gets the position of another element (C84_ravel_wrong), trim_zeros counts elements and cuts rows (C84_trim_rows_wrong)."
  },
  {
   "property": "C85",
   "status": "partial",
   "theorems": [
    "Xt.C85_counts",
    "Xt.C85_share_reads",
    "Xt.C85_keeps",
    "Xt.C85_containers_unchanged",
    "Xt.C85_use_count",
    "Xt.C85_stale_wrong",
    "Xt.C85_copies_wrong",
    "Xt.C85_writes_wrong",
    "Xt.C85_moved_wrong"
   ],
   "note": "Proved by induction over programs: counts and lifetimes (C85_counts, C85_use_count), what share reads in programs that do not write in place to a shared container (C85_share_reads), what a shared expression keeps (C85_keeps), sharing as a copy (C85_containers_unchanged). Not true of the code: a container written in place, or assigned an expression that does not refer to it, is shared with its old value (C85_stale_wrong); copies of a shared container share its object (C85_copies_wrong); writes through a shared expression are not seen in the container (C85_writes_wrong); a moved-from shared expression is read through a null pointer (C85_moved_wrong)."
  },
  {
   "property": "C86",
   "status": "partial",
   "theorems": [
    "Xt.C86_copy",
    "Xt.C86_move",
    "Xt.C86_assign",
    "Xt.C86_swap",
    "Xt.C86_from_json",
    "Xt.C86_copy_named_wrong",
    "Xt.C86_copy_back_wrong",
    "Xt.C86_copy_empty_wrong",
    "Xt.C86_from_json_empty_wrong"
   ],
   "note": "Proved for programs that copy holders only from constant ones (C86_copy, C86_move, C86_assign, C86_swap, C86_from_json). Not true of the code: the forwarding constructor takes over copies of holders that are not constant, so the copy refers to the original (C86_copy_named_wrong) and can refer to itself (C86_copy_back_wrong); empty holders cannot be copied (C86_copy_empty_wrong); from_json into an empty holder never succeeds the first time (C86_from_json_empty_wrong)."
  },
  {
   "property": "C87",
   "status": "partial",
   "theorems": [
    "Xt.C87_program_partial",
    "Xt.C87_ravel",
    "Xt.C87_refused_partial",
    "Xt.C87_flatnonzero",
    "Xt.C87_rebinds_wrong",
    "Xt.C87_owned_wrong",
    "Xt.C87_larger_wrong"
   ],
   "note": "Proved for programs without assignments from one flat view to another (C87_program_partial), with C87_ravel, C87_refused_partial and C87_flatnonzero. Not true of the code: assigning a flat view of a variable to another makes it show the other variable and changes no element (C87_rebinds_wrong); between views of temporaries it is undefined (C87_owned_wrong); an overlapping expression of several elements assigned to a view of one element is written past the end (C87_larger_wrong). Resizing a variable under a view is left out."
  },
  {
   "property": "C88",
   "status": "partial",
   "theorems": [
    "Xt.C88_step_partial",
    "Xt.C88_programs_partial",
    "Xt.C88_deterministic_partial",
    "Xt.C88_refused_partial",
    "Xt.C88_broadcast_refused",
    "Xt.C88_noalias_reading_wrong",
    "Xt.C88_noalias_scalar_reshapes",
    "Xt.C88_view_larger_wrong",
    "Xt.C88_mixed_directions_wrong",
    "Xt.C88_noalias_empty_wrong"
   ],
   "note": "C88_programs_partial gives the final values and which statements throw, by induction over the program from C88_step_partial; C88_deterministic_partial compares two allocators and targets; C88_refused_partial: a refused statement changes nothing. Statements without the stated effect are left out and witnessed: noalias whose right-hand side reads the destination (C88_noalias_reading_wrong, the promise is the caller's), expressions larger than the view they are assigned to but compatible with it (C88_view_larger_wrong), noalias(a) += b with a broadcast shape without elements (C88_noalias_empty_wrong). Slices run forwards along all axes or backwards along all axes and have non-negative integers (forwards along one and backwards along another: the overlap is missed, C88_mixed_directions_wrong); keep and drop slices, tensors of fixed rank and dynamic layouts are not in the programs. C88_broadcast_refused: explicit broadcasts that do not fit are refused. C88_noalias_scalar_reshapes: noalias(a) = scalar makes a an array without axes."
  },
  {
   "property": "C89",
   "status": "partial",
   "theorems": [
    "Xt.C89_storage_order",
    "Xt.C89_adaptor_order",
    "Xt.C89_adaptor_partial",
    "Xt.C89_adaptor_wrong",
    "Xt.C89_expressions",
    "Xt.C89_equivalence",
    "Xt.C89_any_all",
    "Xt.C89_all_equal",
    "Xt.C89_broadcast_wrong",
    "Xt.C89_slices_partial",
    "Xt.C89_drop_partial",
    "Xt.C89_slices_wrong"
   ],
   "note": "Expressions: C89_expressions, C89_equivalence, C89_any_all, C89_all_equal; == does not broadcast although equal does (C89_broadcast_wrong). Storages: C89_storage_order for uvector, svector and const_array. For buffer adaptors C89_adaptor_order says what the operators compute, C89_adaptor_partial where that is the lexicographical order and C89_adaptor_wrong where not. Slices: C89_slices_partial, C89_drop_partial and C89_slices_wrong. Elements are linearly ordered, without NaN."
  },
  {
   "property": "C90",
   "status": "proved",
   "theorems": [
    "Xt.C90_stages",
    "Xt.C90_sum_add",
    "Xt.C90_sum_hom",
    "Xt.C90_cumsum_last",
    "Xt.C90_diff_cumsum",
    "Xt.C90_concat_split",
    "Xt.C90_sum_concat",
    "Xt.C90_transpose_perm",
    "Xt.C90_flip_perm",
    "Xt.C90_roll_perm",
    "Xt.C90_total",
    "Xt.C90_sort_sorted",
    "Xt.C90_argsort_gather",
    "Xt.C90_sort_extremes",
    "Xt.C90_unique",
    "Xt.C90_setdiff",
    "Xt.C90_shuffle"
   ],
   "note": "C90_stages, C90_sum_add, C90_sum_hom, C90_cumsum_last, C90_diff_cumsum, C90_concat_split, C90_sum_concat, C90_transpose_perm, C90_flip_perm, C90_roll_perm, C90_total, C90_sort_sorted, C90_argsort_gather, C90_sort_extremes, C90_unique, C90_setdiff, C90_shuffle. Over exact element types; rounding of floating-point sums is outside the model. Sorting is that of containers in their own layout, see C41."
  },
  {
   "property": "C91",
   "status": "partial",
   "theorems": [
    "Xt.C91_views_partial",
    "Xt.C91_negative_wrong",
    "Xt.C91_newaxes_wrong",
    "Xt.C91_flip",
    "Xt.C91_row_col",
    "Xt.C91_row_col_throws",
    "Xt.C91_index_view",
    "Xt.C91_stack",
    "Xt.C91_squeeze_partial",
    "Xt.C91_concat_ranges"
   ],
   "note": "C91_views_partial (integers not negative, newaxes where view handles them; C91_negative_wrong and C91_newaxes_wrong are the differences), C91_flip, C91_squeeze_partial (operand without offset, C37_squeeze_loses_offset), C91_row_col, C91_row_col_throws, C91_index_view, C91_stack, C91_concat_ranges."
  },
  {
   "property": "C92",
   "status": "partial",
   "theorems": [
    "Xt.C92_average_equal_weights",
    "Xt.C92_average_axes_equal_weights_partial",
    "Xt.C92_affine_partial",
    "Xt.C92_variance_moments_partial",
    "Xt.C92_mean_between",
    "Xt.C92_nan_free",
    "Xt.C92_mean_stages",
    "Xt.C92_count_groups",
    "Xt.C92_count_where",
    "Xt.C92_quantile_median_partial",
    "Xt.C92_quantile_order_partial",
    "Xt.C92_cov_variance"
   ],
   "note": "C92_average_equal_weights, C92_average_axes_equal_weights_partial, C92_affine_partial, C92_variance_moments_partial, C92_mean_between, C92_mean_stages, C92_nan_free, C92_count_groups, C92_count_where, C92_quantile_median_partial, C92_quantile_order_partial, C92_cov_variance. Values are exact rationals; the partial ones keep the limits of the functions recorded under C42, C64 and C65: quantile and median of an operand whose layout is the default one, variance over axes that are not negative, average over axes of an operand that does not have exactly one axis."
  },
  {
   "property": "C93",
   "status": "partial",
   "theorems": [
    "Xt.C93_all_data",
    "Xt.C93_all_weights",
    "Xt.C93_overloads",
    "Xt.C93_order",
    "Xt.C93_append",
    "Xt.C93_digitize",
    "Xt.C93_bincount",
    "Xt.C93_counts_partial",
    "Xt.C93_counts_undefined",
    "Xt.C93_counts_wrap",
    "Xt.C93_limits_truncated",
    "Xt.C93_bin_items_even"
   ],
   "note": "C93_all_data, C93_overloads, C93_order, C93_append, C93_digitize (data below the last edge, the others get a number past the bins), C93_bincount, C93_bin_items_even; C93_counts_partial (the counts are kept in the value type of the data; C93_counts_wrap), C93_limits_truncated."
  },
  {
   "property": "C94",
   "status": "partial",
   "theorems": [
    "Xt.C94_expression_exact",
    "Xt.C94_assign_modular",
    "Xt.C94_assign_modular_int",
    "Xt.C94_assign_wide_wrong",
    "Xt.C94_narrow_product_undefined",
    "Xt.C94_compare",
    "Xt.C94_compare_signed",
    "Xt.C94_compare_wrong",
    "Xt.C94_minmax",
    "Xt.C94_minimum_wrong",
    "Xt.C94_clip",
    "Xt.C94_clip_wrong",
    "Xt.C94_division",
    "Xt.C94_division_by_zero",
    "Xt.C94_division_wrong",
    "Xt.C94_type",
    "Xt.C94_sum_unsigned",
    "Xt.C94_prod_unsigned",
    "Xt.C94_sum_signed_partial",
    "Xt.C94_prod_signed_partial",
    "Xt.C94_sum_exact",
    "Xt.C94_sum_big",
    "Xt.C94_sum_narrow",
    "Xt.C94_axis_forgets_type_wrong",
    "Xt.C94_sum_axis_overflow_wrong",
    "Xt.C94_sum_order_wrong",
    "Xt.C94_sum_mixed_wrong",
    "Xt.C94_mean_partial",
    "Xt.C94_mean_overflow_wrong",
    "Xt.C94_mean_truncates_wrong",
    "Xt.C94_mean_integer_wrong",
    "Xt.C94_cumulative_signed",
    "Xt.C94_cumulative_unsigned",
    "Xt.C94_cumulative_flat"
   ],
   "note": "C94_expression_exact, C94_assign_modular, C94_compare, C94_minmax, C94_clip, C94_division, C94_sum_unsigned, C94_prod_unsigned, C94_sum_exact, C94_sum_big, C94_sum_narrow, C94_cumulative_signed, C94_cumulative_unsigned, C94_cumulative_flat; C94_sum_signed_partial, C94_prod_signed_partial (a bound on absolute values instead of the range of the result, the order matters: C94_sum_order_wrong), C94_mean_partial (C94_mean_overflow_wrong, C94_mean_truncates_wrong, C94_mean_integer_wrong); C94_axis_forgets_type_wrong, C94_compare_wrong, C94_minimum_wrong, C94_clip_wrong, C94_division_wrong. Vectorised loops and immediate reductions are not in this model."
  },
  {
   "property": "C95",
   "status": "partial",
   "theorems": [
    "Xt.C95_read",
    "Xt.C95_direct",
    "Xt.C95_assign",
    "Xt.C95_view",
    "Xt.C95_draw_count",
    "Xt.C95_refused",
    "Xt.C95_direct_is_expression",
    "Xt.C95_layout_wrong",
    "Xt.C95_view_order_wrong",
    "Xt.C95_read_twice_wrong",
    "Xt.C95_difference_wrong",
    "Xt.C95_order_wrong",
    "Xt.C95_broadcast_wrong",
    "Xt.C95_randint_partial",
    "Xt.C95_randint_empty_ub",
    "Xt.C95_randint_wraps_wrong",
    "Xt.C95_adaptor_wrong",
    "Xt.C95_adaptor_fits"
   ],
   "note": "C95_read, C95_direct, C95_assign, C95_view, C95_draw_count, C95_refused, C95_direct_is_expression, C95_adaptor_fits; C95_randint_partial (bounds with lower < upper; otherwise C95_randint_empty_ub, C95_randint_wraps_wrong). What a user may expect and does not get: C95_read_twice_wrong, C95_difference_wrong, C95_order_wrong, C95_broadcast_wrong, C95_layout_wrong, C95_view_order_wrong, C95_adaptor_wrong. The quality of the numbers and the distributions of the standard library are not modelled."
  },
  {
   "property": "C96",
   "status": "proved",
   "theorems": [
    "Xt.C96_tile_tile",
    "Xt.C96_tile_one",
    "Xt.C96_tile_concat",
    "Xt.C96_tile_wrap",
    "Xt.C96_pad_pad_constant",
    "Xt.C96_pad_pad_edge",
    "Xt.C96_pad_pad_wrong",
    "Xt.C96_pad_sum",
    "Xt.C96_roll_roll",
    "Xt.C96_roll_concat",
    "Xt.C96_concat_concat",
    "Xt.C96_stack_concat",
    "Xt.C96_linspace_arange",
    "Xt.C96_eye_diag",
    "Xt.C96_amin_neg"
   ],
   "note": "C96_tile_tile, C96_tile_one, C96_tile_concat, C96_tile_wrap, C96_pad_pad_constant, C96_pad_pad_edge, C96_pad_sum, C96_roll_roll, C96_roll_concat, C96_concat_concat, C96_stack_concat, C96_linspace_arange, C96_eye_diag, C96_amin_neg. Padding twice in the other modes is not padding once: C96_pad_pad_wrong."
  },
  {
   "property": "C97",
   "status": "partial",
   "theorems": [
    "Xt.C97_step",
    "Xt.C97_uvector",
    "Xt.C97_no_leak_partial",
    "Xt.C97_no_fault",
    "Xt.C97_access",
    "Xt.C97_leak_wrong",
    "Xt.C97_assign_not_atomic_wrong",
    "Xt.C97_copy_allocator"
   ],
   "note": "Proved without restriction: no undefined behaviour, the sequences, ownership, and that at most one block is lost per failure of an element (C97_step, C97_uvector, C97_access, C97_no_fault). All memory is given back when only allocations fail (C97_no_leak_partial). Not true of the code: a constructor of an element that throws in uvector(n) or resize leaves the block with its objects, which nobody owns (C97_leak_wrong); a failed assignment changes its target (C97_assign_not_atomic_wrong)."
  },
  {
   "property": "C98",
   "status": "partial",
   "theorems": [
    "Xt.C98_access_agree",
    "Xt.C98_reshape",
    "Xt.C98_iteration",
    "Xt.C98_flat_order",
    "Xt.C98_arange",
    "Xt.C98_signed_shape",
    "Xt.C98_placeholder",
    "Xt.C98_too_large_wrong",
    "Xt.C98_compute_shape_wrong"
   ],
   "note": "Proved for shapes with the generator's number of elements (C98_reshape, C98_flat_order, C98_arange), iteration without that restriction (C98_iteration), and the shapes (C98_signed_shape, C98_placeholder). Not true of the code: a larger shape is not refused and repeats the last element (C98_too_large_wrong); compute_shape truncates, takes any negative number as placeholder, and may overflow (C98_compute_shape_wrong)."
  },
  {
   "property": "C99",
   "status": "partial",
   "theorems": [
    "Xt.C99_threads",
    "Xt.C99_alone",
    "Xt.C99_warm",
    "Xt.C99_parallel_compared",
    "Xt.C99_parallel_serial_part",
    "Xt.C99_first_shape_wrong",
    "Xt.C99_torn_shape_wrong",
    "Xt.C99_first_strides_wrong",
    "Xt.C99_parallel_iff",
    "Xt.C99_shape_answer",
    "Xt.C99_assigned"
   ],
   "note": "Proved: threads that ask only for what is known, for dimensions and for elements by index do not race and get the answers without caches (C99_threads); a thread alone gets them always (C99_alone); after one thread asked every function for its shape and every view for its strides anything goes (C99_warm); what the answers are (C99_shape_answer, C99_assigned); the parallel loop after a comparison of strides or a serial part (C99_parallel_compared, C99_parallel_serial_part). Not true of the code in general: two first calls of shape() race and one may read 2^64-1 for every extent (C99_first_shape_wrong, C99_torn_shape_wrong); the same for strides() of a view, which may read zeros (C99_first_strides_wrong); the workers of the parallel loop race exactly if a view has not been asked before (C99_parallel_iff)."
  },
  {
   "property": "C100",
   "status": "partial",
   "theorems": [
    "Xt.C100_temporary",
    "Xt.C100_assigned",
    "Xt.C100_direct",
    "Xt.C100_assign_is_direct",
    "Xt.C100_statement",
    "Xt.C100_programs",
    "Xt.C100_scalar",
    "Xt.C100_computed",
    "Xt.C100_copied",
    "Xt.C100_no_memory_wrong",
    "Xt.C100_copy_wrong",
    "Xt.C100_broken_write_wrong"
   ],
   "note": "Proved: assignments through a temporary change nothing when they throw (C100_temporary); assignments that succeed (C100_assigned, C100_copied); exactly what is left by the others (C100_direct, C100_assign_is_direct, C100_computed, C100_scalar); every array stays usable in all programs in which memory is missing only for statements with a temporary, noalias compound assignments and scalar ones (C100_statement, C100_programs). Not true of the code: without memory `a = e` that does not overlap, `noalias(a) = e`, `a.resize(s)` and `a = b` leave the new shape with the old storage, and reading an element is then undefined (C100_no_memory_wrong, C100_copy_wrong)."
  },
  {
   "property": "C101",
   "status": "partial",
   "theorems": [
    "Xt.C101_shape_partial",
    "Xt.C101_as_dynamic_partial",
    "Xt.C101_element_partial",
    "Xt.C101_static_axes_shape",
    "Xt.C101_static_axes_partial",
    "Xt.C101_static_axes_wrong",
    "Xt.C101_static_keep_wrong",
    "Xt.C101_static_axes_array_wrong",
    "Xt.C101_scalar_wrong",
    "Xt.C101_zero_extent_wrong",
    "Xt.C101_resized",
    "Xt.C101_eval_partial",
    "Xt.C101_view_temporary_partial",
    "Xt.C101_eval_types",
    "Xt.C101_eval_wrong"
   ],
   "note": "Proved for all trees in which axes are not known to the compiler one by one, no fixed shape has an extent 0 and no xshape<> meets only operands without axes: the expression can be made exactly when it has a shape by the run-time rules, has that shape, and its type fits (C101_shape_partial); erasing all types changes nothing (C101_as_dynamic_partial); elements of reductions agree (C101_element_partial). With axes known to the compiler: the shape without keep_dims (C101_static_axes_shape), elements if every axis but the first is reduced (C101_static_axes_partial). Not true of the code otherwise: C101_static_axes_wrong, C101_static_keep_wrong, C101_static_axes_array_wrong, C101_scalar_wrong, C101_zero_extent_wrong. Containers that expressions are evaluated into have room for them, also the temporaries of assignments to views (C101_eval_partial, C101_view_temporary_partial, C101_eval_types)."
  },
  {
   "property": "C102",
   "status": "partial",
   "theorems": [
    "Xt.C102_step",
    "Xt.C102_programs",
    "Xt.C102_no_leak",
    "Xt.C102_inline",
    "Xt.C102_move_wrong",
    "Xt.C102_swap_wrong",
    "Xt.C102_allocators_wrong",
    "Xt.C102_class_wrong",
    "Xt.C102_copy_allocator",
    "Xt.C102_place"
   ],
   "note": "Proved for element types with trivial constructors and vectors of one allocator: single statements (C102_step), programs (C102_programs), who owns the blocks (C102_no_leak), inline vectors (C102_inline), allocators of copies (C102_copy_allocator). Not true of the code: moves and swaps allocate and end the program without memory (C102_move_wrong, C102_swap_wrong), swap with different allocators (C102_allocators_wrong), elements of class type (C102_class_wrong)."
  },
  {
   "property": "C103",
   "status": "partial",
   "theorems": [
    "Xt.C103_statement_partial",
    "Xt.C103_programs_partial",
    "Xt.C103_read_wrong",
    "Xt.C103_size_wrong",
    "Xt.C103_in_place_wrong",
    "Xt.C103_move_then_assign_wrong",
    "Xt.C103_new_then_assign_wrong",
    "Xt.C103_rank_wrong",
    "Xt.C103_live",
    "Xt.C103_noalias_wrong"
   ],
   "note": "Proved for single statements (C103_statement_partial) and programs (C103_programs_partial) unless a moved-from array is given elements in place of the shape that it still reports. That case is undefined in the code (C103_in_place_wrong, C103_move_then_assign_wrong, C103_new_then_assign_wrong); a moved-from array reports elements that it does not have (C103_read_wrong, C103_size_wrong); conversion to an xtensor of another number of dimensions (C103_rank_wrong). C103_live: the same when the elements of what is assigned in place are computed in the loop, from variables that are being written, if it has nothing to do with the destination; C103_noalias_wrong shows that this is needed."
  },
  {
   "property": "C104",
   "status": "partial",
   "theorems": [
    "Xt.C104_kept_partial",
    "Xt.C104_event_partial",
    "Xt.C104_follows",
    "Xt.C104_rows",
    "Xt.C104_lazy_wrong",
    "Xt.C104_offset_wrong",
    "Xt.C104_resized_wrong",
    "Xt.C104_reshaped_wrong"
   ],
   "note": "Proved for all histories in which the strides of a non-contiguous xview are asked for only while the array has the shape for which the view was built (C104_kept_partial, C104_event_partial); otherwise they stay wrong (C104_lazy_wrong). Contiguous views follow the array through any shape by element access (C104_follows, C104_rows), but not with their offset (C104_offset_wrong); other views do not (C104_resized_wrong, C104_reshaped_wrong)."
  },
  {
   "property": "C105",
   "status": "proved",
   "theorems": [
    "Xt.C105_container",
    "Xt.C105_same_order",
    "Xt.C105_assign",
    "Xt.C105_flat",
    "Xt.C105_not_flat"
   ],
   "note": "C105_same_order: the decision is sound; C105_assign: with the flags computed from the types the assignment is right (through C24_container_assign); C105_flat, C105_not_flat: what the decision is. That an array whose type has a layout is stored in that order holds for containers with the strides of their layout (C105_container) and is an assumption on other operands."
  },
  {
   "property": "C106",
   "status": "partial",
   "theorems": [
    "Xt.C106_same_axes",
    "Xt.C106_conflict",
    "Xt.C106_more_axes_partial",
    "C106_asked_wrong",
    "C106_other_wrong",
    "C106_fewer_axes_wrong",
    "C106_odd_axes_wrong",
    "C106_asked_fewer_wrong",
    "Xt.C106_compound",
    "Xt.C106_compound_refused",
    "Xt.C106_noalias_compound_partial",
    "Xt.C106_noalias_compound_wrong",
    "Xt.C106_compound_no_room"
   ],
   "note": "Proved: expressions with the number of axes of the tensor (C106_same_axes), operands without a common shape (C106_conflict), functions with more axes that were not asked for their shape (C106_more_axes_partial). Not true of the code without assertions: functions with more axes that were asked for their shape (C106_asked_wrong), other right-hand sides (C106_other_wrong), functions with fewer axes (C106_fewer_axes_wrong, C106_odd_axes_wrong, C106_asked_fewer_wrong). Compound assignments `t op= e` do what the claim says for all operands (C106_compound, C106_compound_refused, C106_compound_no_room), and `noalias(t) op= e` if no axis of extent 1 becomes one of extent 0 (C106_noalias_compound_partial; otherwise C106_noalias_compound_wrong)."
  },
  {
   "property": "C107",
   "status": "partial",
   "theorems": [
    "Xt.C107_reshape",
    "Xt.C107_reshape_placeholder",
    "Xt.C107_resize",
    "Xt.C107_other_count_partial",
    "Xt.C107_braces_fewer_wrong",
    "Xt.C107_braces_unsigned_fewer",
    "Xt.C107_braces_unsigned_fewer_wrong",
    "Xt.C107_braces_more_wrong",
    "Xt.C107_sequence_wrong",
    "Xt.C107_resize_fewer_wrong",
    "Xt.C107_resize_other_wrong"
   ],
   "note": "Proved: as many extents as axes in every form (C107_reshape, C107_reshape_placeholder, C107_resize); another number that does not fit the number of elements, not in braces (C107_other_count_partial), and fewer unsigned numbers in braces for tensors with elements (C107_braces_unsigned_fewer). Not true of the code: fewer or more extents in braces (C107_braces_fewer_wrong, C107_braces_unsigned_fewer_wrong, C107_braces_more_wrong), sequences that fit (C107_sequence_wrong), resize with another number (C107_resize_fewer_wrong, C107_resize_other_wrong)."
  },
  {
   "property": "C108",
   "status": "partial",
   "theorems": [
    "Xt.C108_ranges",
    "Xt.C108_strided_count",
    "Xt.C108_view_count_wrong",
    "Xt.C108_view_index_wrong",
    "Xt.C108_strided_index_wrong",
    "Xt.C108_keep_wrong",
    "Xt.C108_keep_among_wrong",
    "Xt.C108_view_negative_wrong",
    "Xt.C108_next_row"
   ],
   "note": "Proved: ranges without a step, whatever their bounds, give views of elements of the array only (C108_ranges; those with a step are in C16), and strided_view refuses too many slices (C108_strided_count). Not true of the code: xt::view takes an integer beyond its axis among any other slices and looks up elements outside of the array (C108_view_index_wrong), as does strided_view (C108_strided_index_wrong), in a matrix those of the next row (C108_next_row); with too many slices it reads an extent that does not exist (C108_view_count_wrong). Negative indices below minus the extent are looked up as negative ones (C108_view_negative_wrong). Positions in keep are not checked either (C108_keep_wrong, C108_keep_among_wrong)."
  },
  {
   "property": "C109",
   "status": "partial",
   "theorems": [
    "Xt.C109_front",
    "Xt.C109_back_partial",
    "Xt.C109_storage",
    "Xt.C109_view_front",
    "Xt.C109_view_back_partial",
    "Xt.C109_back_zero_dim_wrong",
    "Xt.C109_empty_wrong",
    "Xt.C109_view_back_keep_wrong",
    "Xt.C109_view_back_int_keep_wrong",
    "Xt.C109_view_back_stepped_wrong",
    "Xt.C109_view_back_zero_dim_wrong"
   ],
   "note": "Proved: front() of all expressions (C109_front) and views (C109_view_front), back() of expressions without operands that have no axes (C109_back_partial) and of the views of Reversible (C109_view_back_partial), containers on their storage (C109_storage). Not true of the code: an operand without axes is read one position past its element by back() of any larger expression (C109_back_zero_dim_wrong); views with steppers of their own (C109_view_back_keep_wrong, C109_view_back_int_keep_wrong, C109_view_back_stepped_wrong, C109_view_back_zero_dim_wrong). Expressions without elements are not refused (C109_empty_wrong)."
  },
  {
   "property": "C110",
   "status": "proved",
   "theorems": [
    "Xt.C110_same_place",
    "Xt.C110_history",
    "Xt.C110_at"
   ],
   "note": "C110_same_place and C110_history, for containers whose layout is the one in their type, if that has one. C110_at: when at throws. Other numbers of indices are in C07."
  }
 ]
}