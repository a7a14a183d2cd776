{
 "claims": [
  {
   "property": "C01",
   "status": "proved",
   "theorems": [
    "Modred.C01_assignment_partitions_tasks",
    "Modred.C01_default_assignment_partitions_tasks"
   ],
   "note": "Weights in any ordered field, any number of workers and tasks."
  },
  {
   "property": "C02",
   "status": "proved",
   "theorems": [
    "Modred.C02_default_assignment_balanced",
    "Modred.C02_few_tasks_idle_workers_last",
    "Modred.C02_check_for_empty_tasks_iff"
   ],
   "note": ""
  },
  {
   "property": "C03",
   "status": "partial",
   "theorems": [
    "Modred.C03_assignment_is_prefix_partial",
    "Modred.C03_only_zero_weight_tasks_lost_partial",
    "Modred.C03_positive_last_weight_complete_partial",
    "Modred.C03_zero_weight_task_lost_violation",
    "Modred.C03_negative_weight_task_lost_violation"
   ],
   "note": "The claim is false for the code: two concrete violations are proved.  What does hold is proved in the _partial theorems."
  },
  {
   "property": "C04",
   "status": "proved",
   "theorems": [
    "Modred.C04_reduce_is_rank_ordered_fold",
    "Modred.C04_reduce_bad_root_raises",
    "Modred.C04_allreduce_gives_all_ranks_the_fold",
    "Modred.C04_maxloc_finds_first_maximum"
   ],
   "note": "Over every interleaving, with buffered or synchronous sends.  The MPI library's bcast is modelled as sends from rank 0."
  },
  {
   "property": "C05",
   "status": "proved",
   "theorems": [
    "Modred.C05_scan_is_prefix_fold",
    "Modred.C05_exscan_is_strict_prefix_fold"
   ],
   "note": "Over every interleaving."
  },
  {
   "property": "C06",
   "status": "proved",
   "theorems": [
    "Modred.C06_matched_rounds_cannot_deadlock",
    "Modred.C06_matched_rounds_can_finish",
    "Modred.C06_reduce_rounds_matched",
    "Modred.C06_allreduce_rounds_matched",
    "Modred.C06_scan_rounds_matched",
    "Modred.C06_exscan_rounds_matched",
    "Modred.C06_inner_product_rounds_matched",
    "Modred.C06_symmetric_rounds_matched",
    "Modred.C06_lin_combine_rounds_matched"
   ],
   "note": ""
  },
  {
   "property": "C07",
   "status": "proved",
   "theorems": [
    "Modred.C07_inner_product_array_in_general",
    "Modred.C07_inner_product_array",
    "Modred.C07_missing_inner_product_raises",
    "Modred.C07_empty_list_raises"
   ],
   "note": "Over every interleaving.  For products of one type; see C51 for mixed types."
  },
  {
   "property": "C08",
   "status": "proved",
   "theorems": [
    "Modred.C08_symm_inner_product_array",
    "Modred.C08_raises"
   ],
   "note": "Over every interleaving."
  },
  {
   "property": "C09",
   "status": "proved",
   "theorems": [
    "Modred.C09_lin_combine_result"
   ],
   "note": "Over every interleaving.  Vectors are values, so sums do not overwrite basis vectors; see C10 for shared storage."
  },
  {
   "property": "C10",
   "status": "partial",
   "theorems": [
    "Modred.C10_shared_disjoint_partial",
    "Modred.C10_shared_one_round_partial",
    "Modred.C10_aliasing_race_violation",
    "Modred.C10_disjoint_storage_partial",
    "Modred.C10_one_round_partial",
    "Modred.C10_aliasing_depends_on_memory_limit_violation"
   ],
   "note": "violated for more than one round of sums; proved for storage apart and for one round, for one process and for all interleavings of several"
  },
  {
   "property": "C11",
   "status": "proved",
   "theorems": [
    "Modred.C11_accepts_exactly_matching_shapes",
    "Modred.C11_missing_column_raises",
    "Modred.C11_empty_basis_raises"
   ],
   "note": ""
  },
  {
   "property": "C12",
   "status": "proved",
   "theorems": [
    "Modred.C12_at_least_three_vectors_per_process",
    "Modred.C12_limit_is_largest_within_request",
    "Modred.C12_small_request_raised",
    "Modred.C12_time_estimate_denominator_positive"
   ],
   "note": ""
  },
  {
   "property": "C13",
   "status": "partial",
   "theorems": [
    "Modred.C13_get_right_in_good_histories_partial",
    "Modred.C13_get_right_with_plain_bases_partial",
    "Modred.C13_stale_base_after_put_violation",
    "Modred.C13_scale_of_base_ignored_violation",
    "Modred.C13_base_of_base_ignored_violation",
    "Modred.C13_is_complex_of_base_ignored_violation",
    "Modred.C13_get_reads",
    "Modred.C13_put_writes"
   ],
   "note": "The claim is false for the code: four concrete violations are proved.  The _partial theorems hold for all histories in which no base changes and equal bases agree."
  },
  {
   "property": "C14",
   "status": "proved",
   "theorems": [
    "Modred.C14_float_round_trip",
    "Modred.C14_float_vector_round_trip",
    "Modred.C14_complex_round_trip",
    "Modred.C14_complex_vector_round_trip",
    "Modred.C14_complex_file_format",
    "Modred.C14_more_than_two_dimensions_raise",
    "Modred.C14_odd_columns_raise"
   ],
   "note": "Numbers printed and read back are the same (exact decimal text)."
  },
  {
   "property": "C15",
   "status": "partial",
   "theorems": [
    "Modred.C15_integers_not_restored_violation",
    "Modred.C15_no_integer_restored_violation",
    "Modred.C15_some_integers_read_back_violation",
    "Modred.C15_zeros_restored_partial"
   ],
   "note": "The claim is false for the code: proved for every 64-bit integer except zero.  Zeros come back right."
  },
  {
   "property": "C16",
   "status": "partial",
   "theorems": [
    "Modred.C16_load_signals_splits",
    "Modred.C16_one_column_raises",
    "Modred.C16_load_multiple_signals",
    "Modred.C16_no_files_raise",
    "Modred.C16_single_signal_repeated_violation"
   ],
   "note": "The claim is false for the code: concrete violations are proved.  What does hold is proved in the other theorems."
  },
  {
   "property": "C17",
   "status": "proved",
   "theorems": [
    "Modred.C17_hankel_entries",
    "Modred.C17_hankel_default",
    "Modred.C17_first_of_last_row_ignored"
   ],
   "note": ""
  },
  {
   "property": "C18",
   "status": "proved",
   "theorems": [
    "Modred.C18_hankel_chunks",
    "Modred.C18_hankel_chunks_default",
    "Modred.C18_no_chunks_raise"
   ],
   "note": ""
  },
  {
   "property": "C19",
   "status": "proved",
   "theorems": [
    "Modred.C19_singular_triples",
    "Modred.C19_kept_iff",
    "Modred.C19_truncation_error",
    "Modred.C19_exact",
    "Modred.C19_error_iff"
   ],
   "note": ""
  },
  {
   "property": "C20",
   "status": "partial",
   "theorems": [
    "Modred.C20_eigenpairs",
    "Modred.C20_kept_iff",
    "Modred.C20_positive_partial",
    "Modred.C20_zero_eigenvalues_returned_violation",
    "Modred.C20_type_error_violation",
    "Modred.C20_no_error"
   ],
   "note": "Positivity is proved for any nonnegative atol; for atol=None it is false for the code, and the violations are proved."
  },
  {
   "property": "C21",
   "status": "proved",
   "theorems": [
    "Modred.C21_eigenvectors",
    "Modred.C21_biorthonormal",
    "Modred.C21_unscaled_side",
    "Modred.C21_scale_choice"
   ],
   "note": ""
  },
  {
   "property": "C22",
   "status": "proved",
   "theorems": [
    "Modred.C22_snaps",
    "Modred.C22_direct",
    "Modred.C22_handles",
    "Modred.C22_direct_no_error"
   ],
   "note": ""
  },
  {
   "property": "C23",
   "status": "proved",
   "theorems": [
    "Modred.C23_snaps_proj_coeffs",
    "Modred.C23_snaps_energies",
    "Modred.C23_snaps_reconstruction",
    "Modred.C23_snaps_exact",
    "Modred.C23_direct",
    "Modred.C23_direct_eigenpairs",
    "Modred.C23_direct_exact",
    "Modred.C23_handles"
   ],
   "note": ""
  },
  {
   "property": "C24",
   "status": "proved",
   "theorems": [
    "Modred.C24_arrays",
    "Modred.C24_positive",
    "Modred.C24_balanced",
    "Modred.C24_handles",
    "Modred.C24_handles_positive"
   ],
   "note": ""
  },
  {
   "property": "C25",
   "status": "partial",
   "theorems": [
    "Modred.C25_complete_chunks",
    "Modred.C25_arrays",
    "Modred.C25_no_error",
    "Modred.C25_handles",
    "Modred.C25_handles_no_error",
    "Modred.C25_incomplete_chunks_violation"
   ],
   "note": "Proved for arrays, and for handles if the adjoint vectors fill complete chunks; fails for handles otherwise (violation proved)."
  },
  {
   "property": "C26",
   "status": "proved",
   "theorems": [
    "Modred.C26_snaps_sequential",
    "Modred.C26_snaps_pairs",
    "Modred.C26_wrong_shape",
    "Modred.C26_direct_sequential",
    "Modred.C26_direct_pairs",
    "Modred.C26_snaps_no_error",
    "Modred.C26_direct_no_error",
    "Modred.C26_pinv",
    "Modred.C26_full_rank",
    "Modred.C26_invariance_needed_violation",
    "Modred.C26_handles_sequential",
    "Modred.C26_handles_pairs",
    "Modred.C26_handles_sequential_no_error",
    "Modred.C26_handles_pairs_no_error"
   ],
   "note": "Arrays and handles, sequences and pairs of vectors.  The library may return any eigenvectors; eigenvalues of the reduced map are distinct and not zero as in the claim.  C26_invariance_needed_violation shows that the assumption on A cannot be dropped."
  },
  {
   "property": "C27",
   "status": "proved",
   "theorems": [
    "Modred.C27_snaps_sequential",
    "Modred.C27_snaps_pairs",
    "Modred.C27_direct_sequential",
    "Modred.C27_direct_pairs",
    "Modred.C27_methods_agree",
    "Modred.C27_handles_sequential",
    "Modred.C27_handles_pairs"
   ],
   "note": "Arrays and handles.  Agreement of the two methods is for arrays, when both retain the same number of eigenvalues."
  },
  {
   "property": "C28",
   "status": "partial",
   "theorems": [
    "Modred.C28_snaps_sequential",
    "Modred.C28_snaps_pairs",
    "Modred.C28_direct_sequential",
    "Modred.C28_direct_pairs",
    "Modred.C28_handles_sequential_partial",
    "Modred.C28_handles_pairs_partial",
    "Modred.C28_handles_ignored_violation",
    "Modred.C28_handles_violation",
    "Modred.C28_tls_handles_sequential_partial",
    "Modred.C28_tls_handles_pairs_partial",
    "Modred.C28_tls_handles_ignored_violation",
    "Modred.C28_tls_handles_violation"
   ],
   "note": "The claim is false for the code: concrete violations are proved for DMDHandles and TLSqrDMDHandles, for every library.  What does hold is proved in the _partial theorems; on arrays DMD honours the relative tolerance."
  },
  {
   "property": "C29",
   "status": "partial",
   "theorems": [
    "Modred.C29_pairs",
    "Modred.C29_sequential",
    "Modred.C29_history_partial",
    "Modred.C29_other_results",
    "Modred.C29_kept_advanced_vectors_violation",
    "Modred.C29_violation",
    "Modred.C29_tls_pairs",
    "Modred.C29_tls_sequential",
    "Modred.C29_tls_history_partial",
    "Modred.C29_tls_other_results",
    "Modred.C29_tls_kept_advanced_vectors_violation",
    "Modred.C29_tls_violation"
   ],
   "note": "The claim is false for the code: concrete violations are proved for DMDHandles and TLSqrDMDHandles.  What does hold, for every history of calls, is proved in the _partial theorems and in the theorems for pairs and for the other results."
  },
  {
   "property": "C30",
   "status": "partial",
   "theorems": [
    "Modred.C30_snaps_partial",
    "Modred.C30_snaps_real_partial",
    "Modred.C30_direct",
    "Modred.C30_handles_sequential",
    "Modred.C30_handles_pairs",
    "Modred.C30_violation"
   ],
   "note": "The claim is false for the code: C30_violation gives complex data.  It is proved for the direct method, for handles and for the snapshot method with real data."
  },
  {
   "property": "C31",
   "status": "proved",
   "theorems": [
    "Modred.C31_snaps_sequential",
    "Modred.C31_snaps_pairs",
    "Modred.C31_wrong_shape",
    "Modred.C31_direct_sequential",
    "Modred.C31_direct_pairs",
    "Modred.C31_handles_sequential",
    "Modred.C31_handles_pairs",
    "Modred.C31_handles_sequential_no_error",
    "Modred.C31_handles_pairs_no_error",
    "Modred.C31_snaps_no_error",
    "Modred.C31_direct_no_error"
   ],
   "note": "Arrays (both methods) and handles, sequences and pairs of vectors."
  },
  {
   "property": "C32",
   "status": "partial",
   "theorems": [
    "Modred.C32_interleaved",
    "Modred.C32_nearly_equal_spacing",
    "Modred.C32_lengths_differ",
    "Modred.C32_value_error_iff",
    "Modred.C32_single_time",
    "Modred.C32_small_steps_violation"
   ],
   "note": "Interleaving and error cases are proved.  The tolerance is absolute, so unequal steps that are small are accepted (proved as a violation)."
  },
  {
   "property": "C33",
   "status": "proved",
   "theorems": [
    "Modred.C33_blocks",
    "Modred.C33_fewer_dimensions",
    "Modred.C33_equally_spaced"
   ],
   "note": "Exact arithmetic; real data (see C54 for complex data)."
  },
  {
   "property": "C34",
   "status": "partial",
   "theorems": [
    "Modred.C34_guard_partial",
    "Modred.C34_accepted_iff",
    "Modred.C34_index_error_violation",
    "Modred.C34_sufficient_data_refused_violation",
    "Modred.C34_default_accepted",
    "Modred.C34_default_not_maximal_violation",
    "Modred.C34_no_data"
   ],
   "note": "The claim is false for the code: violations are proved for all sizes.  Exactly which choices work is proved as well."
  },
  {
   "property": "C35",
   "status": "partial",
   "theorems": [
    "Modred.C35_arguments_of_compute_model_used_partial",
    "Modred.C35_constructor_ignored_violation"
   ],
   "note": "The claim is false for the code: constructor arguments never have an effect (proved).  Arguments of compute_model are used."
  },
  {
   "property": "C36",
   "status": "partial",
   "theorems": [
    "Modred.C36_recovers",
    "Modred.C36_no_error",
    "Modred.C36_from_samples",
    "Modred.C36_compute_ERA_model",
    "Modred.C36_small_parameters_violation"
   ],
   "note": "Proved if the nonzero singular values exceed the fixed tolerance 1e-13; fails otherwise (violation proved)."
  },
  {
   "property": "C37",
   "status": "proved",
   "theorems": [
    "Modred.C37_independent_data",
    "Modred.C37_independent_inputs",
    "Modred.C37_single_input",
    "Modred.C37_one_dimension",
    "Modred.C37_wrong_shapes",
    "Modred.C37_wrong_number",
    "Modred.C37_no_error"
   ],
   "note": "Real signals, exact arithmetic; numpy.linalg.lstsq may be any function that returns the least-squares solution of least norm, without its cut-off for small singular values."
  },
  {
   "property": "C38",
   "status": "proved",
   "theorems": [
    "Modred.C38_arrays",
    "Modred.C38_arrays_wrong_weights",
    "Modred.C38_arrays_constructor",
    "Modred.C38_arrays_attributes",
    "Modred.C38_arrays_model",
    "Modred.C38_arrays_attribute_after_error",
    "Modred.C38_residual",
    "Modred.C38_flag",
    "Modred.C38_invariant_subspace",
    "Modred.C38_full_basis",
    "Modred.C38_handles",
    "Modred.C38_handles_empty",
    "Modred.C38_handles_constructor",
    "Modred.C38_handles_attributes",
    "Modred.C38_handles_model",
    "Modred.C38_handles_residual",
    "Modred.C38_handles_flag",
    "Modred.C38_handles_invariant_subspace",
    "Modred.C38_standard_basis"
   ],
   "note": ""
  },
  {
   "property": "C39",
   "status": "proved",
   "theorems": [
    "Modred.C39_different_lengths_raise",
    "Modred.C39_derivs_handles",
    "Modred.C39_derivs_arrays"
   ],
   "note": "Over every interleaving of the processes."
  },
  {
   "property": "C40",
   "status": "proved",
   "theorems": [
    "Modred.C40_trapz_is_weighted_sum",
    "Modred.C40_wrong_shape_raises",
    "Modred.C40_no_grids_raise",
    "Modred.C40_grids_kept",
    "Modred.C40_conjugate_symmetric",
    "Modred.C40_linear_in_second_argument",
    "Modred.C40_nonnegative"
   ],
   "note": "Any number of dimensions, exact arithmetic."
  },
  {
   "property": "C41",
   "status": "proved",
   "theorems": [
    "Modred.C41_lsim",
    "Modred.C41_superposition",
    "Modred.C41_one_dimension",
    "Modred.C41_errors",
    "Modred.C41_impulse",
    "Modred.C41_impulse_lsim"
   ],
   "note": "real systems; scipy.signal.dlsim and dimpulse are modelled by the recursion they run; shapes of A, B, C fit"
  },
  {
   "property": "C42",
   "status": "partial",
   "theorems": [
    "Modred.C42_projection",
    "Modred.C42_full_order",
    "Modred.C42_balances_partial",
    "Modred.C42_no_error",
    "Modred.C42_violation",
    "Modred.C42_unsolvable_violation",
    "Modred.C42_complex_violation",
    "Modred.C42_unstable_violation"
   ],
   "note": "negation proved for the discrete-time claim: for every library the wrong state is kept (C42_violation), and the equation can be unsolvable; structure, full-order equivalence and balancing of the continuous-time solutions proved for real systems; and a stable system can get an unstable model, for every library (C42_unstable_violation); for complex systems the transpose without conjugates can change the impulse response at full order (C42_complex_violation)"
  },
  {
   "property": "C43",
   "status": "partial",
   "theorems": [
    "Modred.C43_names_with_extension",
    "Modred.C43_all_names_without_extension",
    "Modred.C43_empty_extension_violation"
   ],
   "note": "The claim is false for the empty extension (proved); it is proved for every other one."
  },
  {
   "property": "C44",
   "status": "partial",
   "theorems": [
    "Modred.C44_pod",
    "Modred.C44_bpod",
    "Modred.C44_dmd",
    "Modred.C44_tls",
    "Modred.C44_pod_text",
    "Modred.C44_bpod_text",
    "Modred.C44_dmd_text_partial",
    "Modred.C44_dmd_exact",
    "Modred.C44_tls_exact",
    "Modred.C44_coefficients",
    "Modred.C44_coefficients_two_axes",
    "Modred.C44_single_violation",
    "Modred.C44_dmd_single_violation",
    "Modred.C44_missing",
    "Modred.C44_dmd_violation",
    "Modred.C44_complex_violation"
   ],
   "note": "Proved for POD and BPOD with real data and two or more values, for DMD and total-least-squares DMD with places that return arrays exactly. Negation proved for one value, for complex eigenvectors in text files, and for every DMD decomposition in text files."
  },
  {
   "property": "C45",
   "status": "partial",
   "theorems": [
    "Modred.C45_formula",
    "Modred.C45_wrong_size",
    "Modred.C45_entries",
    "Modred.C45_vector_as_diagonal",
    "Modred.C45_no_weights_as_ones",
    "Modred.C45_lin_combine",
    "Modred.C45_lin_combine_all",
    "Modred.C45_index_error",
    "Modred.C45_row_and_column_weights",
    "Modred.C45_array_weights",
    "Modred.C45_dimensions",
    "Modred.C45_single_weight_refused_violation",
    "Modred.C45_direct_weights"
   ],
   "note": "Proved for all weights except those with a single entry, which the code refuses (violation proved)."
  },
  {
   "property": "C46",
   "status": "partial",
   "theorems": [
    "Modred.C46_checks",
    "Modred.C46_accepts",
    "Modred.C46_wrong_double",
    "Modred.C46_in_place_multiplication",
    "Modred.C46_in_place_addition",
    "Modred.C46_sign_violation",
    "Modred.C46_small_violation"
   ],
   "note": "Proved: exactly what is checked, every genuine inner product space is accepted, wrong doubles and in-place multiplication or addition of a large enough vector are refused. Negation proved for changes in place that keep the norm, and for small vectors because the tolerance is absolute."
  },
  {
   "property": "C47",
   "status": "proved",
   "theorems": [
    "Modred.C47_flatten_list",
    "Modred.C47_sum_lists",
    "Modred.C47_atleast_2d_row",
    "Modred.C47_atleast_2d_col"
   ],
   "note": ""
  },
  {
   "property": "C48",
   "status": "proved",
   "theorems": [
    "Modred.C48_drss",
    "Modred.C48_drss_stable",
    "Modred.C48_rss",
    "Modred.C48_errors"
   ],
   "note": "exact arithmetic; random numbers are parameters"
  },
  {
   "property": "C49",
   "status": "partial",
   "theorems": [
    "Modred.C49_call_and_bcast_agrees_everywhere",
    "Modred.C49_call_from_rank_zero_only",
    "Modred.C49_bcast_gives_value_of_rank_zero",
    "Modred.C49_raising_function_blocks_other_ranks_violation"
   ],
   "note": "Proved when the function returns.  If it raises on rank 0 the other ranks block for ever; this is proved as a violation."
  },
  {
   "property": "C50",
   "status": "proved",
   "theorems": [
    "Modred.C50_node_id_injective",
    "Modred.C50_num_nodes_is_number_of_hosts"
   ],
   "note": "Host names are byte strings that are not empty and do not start with a zero byte."
  },
  {
   "property": "C51",
   "status": "partial",
   "theorems": [
    "Modred.C51_mixed_types_truncated_violation",
    "Modred.C51_one_type_exact_partial"
   ],
   "note": "The claim is false for the code: a concrete violation is proved.  What does hold is proved in the _partial theorem."
  },
  {
   "property": "C52",
   "status": "partial",
   "theorems": [
    "Modred.C52_memory_order_violation",
    "Modred.C52_memory_order_of_real_arrays_partial"
   ],
   "note": "The claim is false for the code: a violation is proved.  It is proved for real arrays."
  },
  {
   "property": "C53",
   "status": "partial",
   "theorems": [
    "Modred.C53_inner_products_within_limit_partial",
    "Modred.C53_symmetric_inner_products_within_limit_partial",
    "Modred.C53_lin_combine_within_limit_partial",
    "Modred.C53_limit_exceeded_in_exchange_violation"
   ],
   "note": "The strict claim is false for the code (violation proved: one vector more during an exchange).  The bound on the variables is proved at every moment of every interleaving.  Temporary products basis_vec * coeff are not counted."
  },
  {
   "property": "C54",
   "status": "partial",
   "theorems": [
    "Modred.C54_hankel_real_violation",
    "Modred.C54_sampled_format_real_violation",
    "Modred.C54_okid_type_violation",
    "Modred.C54_okid_inputs_violation",
    "Modred.C54_okid_real_violation",
    "Modred.C54_okid_violation"
   ],
   "note": "The claim is false for the code (proved for every array with a nonzero imaginary part).  For real data see C32 and C33."
  },
  {
   "property": "C55",
   "status": "partial",
   "theorems": [
    "Modred.C55_direct_tolerances_partial",
    "Modred.C55_methods_differ_violation"
   ],
   "note": "The claim is false for the code (violation proved); the meaning of the tolerances in the direct method is proved."
  },
  {
   "property": "C56",
   "status": "proved",
   "theorems": [
    "Modred.C56_inner_products",
    "Modred.C56_symmetric_inner_products",
    "Modred.C56_lin_combine"
   ],
   "note": ""
  },
  {
   "property": "C57",
   "status": "proved",
   "theorems": [
    "Modred.C57_derivatives",
    "Modred.C57_derivatives_handles"
   ],
   "note": ""
  },
  {
   "property": "C58",
   "status": "partial",
   "theorems": [
    "Modred.C58_snaps_partial",
    "Modred.C58_direct",
    "Modred.C58_violation"
   ],
   "note": "The claim is false for the code: C58_violation.  It is proved for the direct method and for the first eigendecomposition of the snapshot method."
  },
  {
   "property": "C59",
   "status": "proved",
   "theorems": [
    "Modred.C59_handles_sequential",
    "Modred.C59_handles_pairs",
    "Modred.C59_projection",
    "Modred.C59_modes",
    "Modred.C59_agrees",
    "Modred.C59_snaps_sequential",
    "Modred.C59_snaps_pairs",
    "Modred.C59_direct_sequential",
    "Modred.C59_direct_pairs"
   ],
   "note": ""
  },
  {
   "property": "C60",
   "status": "partial",
   "theorems": [
    "Modred.C60_pod_no_error",
    "Modred.C60_pod_reuse",
    "Modred.C60_pod_after_error",
    "Modred.C60_pod",
    "Modred.C60_pod_precomputed",
    "Modred.C60_pod_loaded",
    "Modred.C60_pod_errors",
    "Modred.C60_pod_no_vectors",
    "Modred.C60_bpod_reuse",
    "Modred.C60_bpod_after_error",
    "Modred.C60_bpod",
    "Modred.C60_bpod_precomputed",
    "Modred.C60_bpod_loaded",
    "Modred.C60_bpod_no_vectors",
    "Modred.C60_bpod_errors",
    "Modred.C60_pod_coefficients",
    "Modred.C60_bpod_coefficients",
    "Modred.C60_stale_coefficients_violation",
    "Modred.C60_failed_decomp_violation"
   ],
   "note": "Proved for all histories that keep the vectors, for computed, precomputed and loaded decompositions, with the exceptions raised. Negation proved for coefficients kept after a new decomposition and for modes after a failed one."
  },
  {
   "property": "C61",
   "status": "proved",
   "theorems": [
    "Modred.C61_era_is_bpod_projection",
    "Modred.C61_number_of_modes",
    "Modred.C61_handles"
   ],
   "note": "exact arithmetic; one singular value decomposition routine used by all"
  },
  {
   "property": "C62",
   "status": "proved",
   "theorems": [
    "Modred.C62_several_inputs",
    "Modred.C62_single_input",
    "Modred.C62_compute_ERA_model"
   ],
   "note": "exact arithmetic; real data; nonzero singular values of the Hankel array are above 1e-13"
  },
  {
   "property": "C63",
   "status": "partial",
   "theorems": [
    "Modred.C63_smart_eq",
    "Modred.C63_in_memory",
    "Modred.C63_nan_violation",
    "Modred.C63_arrays_sound",
    "Modred.C63_arrays_complete",
    "Modred.C63_same_inner_products_violation",
    "Modred.C63_arrays_equivalence",
    "Modred.C63_handles_equivalence",
    "Modred.C63_handles_sound"
   ],
   "note": "violated for not-a-number, and for weights that are different arrays with the same inner products"
  },
  {
   "property": "C64",
   "status": "proved",
   "theorems": [
    "Modred.C64_subtraction",
    "Modred.C64_base_class",
    "Modred.C64_handles"
   ],
   "note": "addition and multiplication of the subclass are those of a module over a ring"
  },
  {
   "property": "C65",
   "status": "proved",
   "theorems": [
    "Modred.C65_calls_in_turn",
    "Modred.C65_saved_when_any_returns",
    "Modred.C65_proj_coeffs_saved"
   ],
   "note": "each get and put of one vector or array is atomic; of all places of a call, those of sums are apart from those of basis vectors or all sums fit into one round"
  },
  {
   "property": "C66",
   "status": "partial",
   "theorems": [
    "Modred.C66_single_arrays",
    "Modred.C66_dmd_proj_coeffs",
    "Modred.C66_era_model",
    "Modred.C66_lti_model",
    "Modred.C66_era_decomp",
    "Modred.C66_era_sing_vals",
    "Modred.C66_text",
    "Modred.C66_spectral_coeffs_violation",
    "Modred.C66_complex_violation",
    "Modred.C66_not_available"
   ],
   "note": "violated in text files for one-dimensional and for complex arrays; proved otherwise"
  },
  {
   "property": "C67",
   "status": "proved",
   "theorems": [
    "Modred.C67_pod_snaps",
    "Modred.C67_pod_snaps_tolerances",
    "Modred.C67_pod_snaps_proj_coeffs",
    "Modred.C67_pod_handles",
    "Modred.C67_bpod_arrays",
    "Modred.C67_bpod_tolerances",
    "Modred.C67_bpod_handles",
    "Modred.C67_eig_biorthog_diagonal",
    "Modred.C67_eig_biorthog_offdiagonal",
    "Modred.C67_bound_attained",
    "Modred.C67_pod_direct"
   ],
   "note": ""
  },
  {
   "property": "C68",
   "status": "proved",
   "theorems": [
    "Modred.C68_poldif_weighted",
    "Modred.C68_poldif_unweighted",
    "Modred.C68_poldif_unique",
    "Modred.C68_poldif_powers",
    "Modred.C68_poldif_arguments"
   ],
   "note": ""
  },
  {
   "property": "C69",
   "status": "partial",
   "theorems": [
    "Modred.C69_herroots",
    "Modred.C69_nodes_unique",
    "Modred.C69_nodes_symmetric",
    "Modred.C69_herdif",
    "Modred.C69_herdif_no_derivatives",
    "Modred.C69_degree_zero_violation",
    "Modred.C69_library_exists"
   ],
   "note": "VIOLATION (proved): for degree zero, whose polynomial has no zeros, herroots returns one node; proved for all degrees from one on"
  },
  {
   "property": "C70",
   "status": "proved",
   "theorems": [
    "Modred.C70_snaps",
    "Modred.C70_direct",
    "Modred.C70_handles"
   ],
   "note": ""
  },
  {
   "property": "C71",
   "status": "proved",
   "theorems": [
    "Modred.C71_snaps_sequential",
    "Modred.C71_snaps_pairs",
    "Modred.C71_direct_sequential",
    "Modred.C71_direct_pairs",
    "Modred.C71_handles_sequential",
    "Modred.C71_handles_pairs"
   ],
   "note": ""
  },
  {
   "property": "C72",
   "status": "proved",
   "theorems": [
    "Modred.C72_snaps_sequential",
    "Modred.C72_snaps_pairs",
    "Modred.C72_direct_sequential",
    "Modred.C72_direct_pairs",
    "Modred.C72_handles_sequential",
    "Modred.C72_handles_pairs"
   ],
   "note": ""
  },
  {
   "property": "C73",
   "status": "proved",
   "theorems": [
    "Modred.C73_arrays",
    "Modred.C73_arrays_outputs",
    "Modred.C73_handles",
    "Modred.C73_era",
    "Modred.C73_era_first_markov"
   ],
   "note": ""
  },
  {
   "property": "C74",
   "status": "proved",
   "theorems": [
    "Modred.C74_weights_trapezoidal",
    "Modred.C74_weights_positive",
    "Modred.C74_adjoint",
    "Modred.C74_optimal_disturbance",
    "Modred.C74_system_no_error",
    "Modred.C74_script_system",
    "Modred.C74_script_weights",
    "Modred.C74_script_no_error",
    "Modred.C74_crank_nicolson",
    "Modred.C74_snapshots_error",
    "Modred.C74_adjoint_snapshots",
    "Modred.C74_hankel",
    "Modred.C74_model",
    "Modred.C74_exact",
    "Modred.C74_chi",
    "Modred.C74_global_mode",
    "Modred.C74_script_growth",
    "Modred.C74_script_system_no_error",
    "Modred.C74_script"
   ],
   "note": ""
  },
  {
   "property": "C75",
   "status": "partial",
   "theorems": [
    "Modred.C75_inner_product_program",
    "Modred.C75_symmetric_program",
    "Modred.C75_lin_combine_program",
    "Modred.C75_inner_product_calls_every_interleaving",
    "Modred.C75_symmetric_calls_every_interleaving",
    "Modred.C75_lin_combine_calls_every_interleaving",
    "Modred.C75_row_retrievals",
    "Modred.C75_column_retrievals",
    "Modred.C75_inner_products",
    "Modred.C75_warning_numbers",
    "Modred.C75_basis_retrievals",
    "Modred.C75_scalings",
    "Modred.C75_symmetric_retrievals",
    "Modred.C75_symmetric_warning_partial",
    "Modred.C75_symmetric_warning_violation",
    "Modred.C75_symmetric_other_chunk",
    "Modred.C75_symmetric_diagonal",
    "Modred.C75_symmetric_at_most_once",
    "Modred.C75_symmetric_mirrored",
    "Modred.C75_upper_triangle_violation"
   ],
   "note": "The code violates this in compute_symm_inner_product_array: the number in its warning is wrong for all vectors but those of the last chunk (C75_symmetric_warning_violation), and entries below the diagonal are computed, sometimes in addition to their mirror images (C75_upper_triangle_violation). Proved for everything else; for the symmetric array the exact number of retrievals, and that no entry is computed twice and of two mirrored ones at least one."
  },
  {
   "property": "C76",
   "status": "partial",
   "theorems": [
    "Modred.C76_inner_product_estimate_partial",
    "Modred.C76_symmetric_estimate_partial",
    "Modred.C76_lin_combine_estimate_partial",
    "Modred.C76_inner_product_estimate_violation",
    "Modred.C76_symmetric_estimate_violation",
    "Modred.C76_lin_combine_estimate_violation"
   ],
   "note": "The code violates this: the number of gets in all three estimates can be larger than the real one (C76_inner_product_estimate_violation, C76_symmetric_estimate_violation, C76_lin_combine_estimate_violation). Proved for the inner products, multiplications and additions alone."
  },
  {
   "property": "C77",
   "status": "proved",
   "theorems": [
    "Modred.C77_handles",
    "Modred.C77_arrays",
    "Modred.C77_adjoint_basis_counterexample"
   ],
   "note": "With an adjoint basis it need not hold (C77_adjoint_basis_counterexample)."
  },
  {
   "property": "C78",
   "status": "partial",
   "theorems": [
    "Modred.C78_default_weights_exact",
    "Modred.C78_default_weights_balanced",
    "Modred.C78_loop_counts",
    "Modred.C78_limits",
    "Modred.C78_weights_prefix",
    "Modred.C78_weights_complete_partial",
    "Modred.C78_small_weight_task_lost_violation"
   ],
   "note": "The code violates the claim for weights: a task whose weight is lost by rounding in the sum is assigned to nobody (C78_small_weight_task_lost_violation). Proved for no weights, for the loop counts and limits, and for weights whose last one is at least 2^-52 of their sum."
  },
  {
   "property": "C79",
   "status": "partial",
   "theorems": [
    "Modred.C79_inner_products_any_arithmetic",
    "Modred.C79_symmetric_any_arithmetic",
    "Modred.C79_lin_combine_order",
    "Modred.C79_lin_combine_error",
    "Modred.C79_lin_combine_integers",
    "Modred.C79_lin_combine_processes_violation",
    "Modred.C79_lin_combine_equal_columns_violation"
   ],
   "note": "The code violates the claim for lin_combine: the order of additions depends on the number of processes and on the rank, so results differ (C79_lin_combine_processes_violation, C79_lin_combine_equal_columns_violation). Proved for both inner product arrays in any arithmetic; for lin_combine the order of additions is determined, the rounding error is bounded, and sums of integers are shown to be exact."
  },
  {
   "property": "C80",
   "status": "proved",
   "theorems": [
    "Modred.C80_like_one_process",
    "Modred.C80_processes_and_memory_irrelevant",
    "Modred.C80_pod",
    "Modred.C80_pod_orthonormal",
    "Modred.C80_bpod",
    "Modred.C80_bpod_biorthonormal",
    "Modred.C80_dmd_sequential",
    "Modred.C80_dmd_pairs",
    "Modred.C80_tls_sequential",
    "Modred.C80_tls_pairs"
   ],
   "note": "Each rank works with its own object and a common store of vectors. A rank goes on after an exception in the model; the theorems show that no exception is raised if one process raises none."
  },
  {
   "property": "C81",
   "status": "proved",
   "theorems": [
    "Modred.C81_snaps",
    "Modred.C81_direct",
    "Modred.C81_handles",
    "Modred.C81_bpod_arrays",
    "Modred.C81_bpod_handles",
    "Modred.C81_era"
   ],
   "note": "Exact arithmetic; the library's eigendecomposition and SVD are assumed correct. The bound from rtol is in terms of the values that the library returns."
  },
  {
   "property": "C82",
   "status": "proved",
   "theorems": [
    "Modred.C82_weights",
    "Modred.C82_grid",
    "Modred.C82_pod",
    "Modred.C82_custom_operations",
    "Modred.C82_custom_inner_product",
    "Modred.C82_custom_sanity",
    "Modred.C82_custom_round_trip",
    "Modred.C82_custom_different_grids",
    "Modred.C82_scaled"
   ],
   "note": "Exact arithmetic. Custom vectors with data of different shapes are not modelled; files keep what is written. Vectors on different grids: sums and inner products depend on the order (C82_custom_different_grids)."
  },
  {
   "property": "C83",
   "status": "partial",
   "theorems": [
    "Modred.C83_quadrature_violation",
    "Modred.C83_num_modes_partial",
    "Modred.C83_left_out_partial",
    "Modred.C83_no_singular_values_partial",
    "Modred.C83_error_violation",
    "Modred.C83_hankel_violation"
   ],
   "note": "Violated by the code: C83_error_violation, C83_quadrature_violation, C83_hankel_violation. What holds is C83_num_modes_partial, C83_left_out_partial and C83_no_singular_values_partial."
  },
  {
   "property": "C84",
   "status": "partial",
   "theorems": [
    "Modred.C84_nobody_goes_on_partial",
    "Modred.C84_others_wait_violation",
    "Modred.C84_lin_combine_partial",
    "Modred.C84_some_sums_written_violation",
    "Modred.C84_derivs_partial",
    "Modred.C84_saving_partial"
   ],
   "note": "Violated by the code: C84_others_wait_violation, C84_some_sums_written_violation. What holds is in the other theorems. Work that raises is taken to have changed nothing in the store."
  },
  {
   "property": "C85",
   "status": "proved",
   "theorems": [
    "Modred.C85_singular",
    "Modred.C85_galerkin",
    "Modred.C85_projection"
   ],
   "note": "Under the hypothesis that the inner product is conjugate symmetric."
  },
  {
   "property": "C86",
   "status": "proved",
   "theorems": [
    "Modred.C86_like_one_process",
    "Modred.C86_pod",
    "Modred.C86_bpod",
    "Modred.C86_dmd",
    "Modred.C86_tls",
    "Modred.C86_attributes",
    "Modred.C86_pod_text"
   ],
   "note": "For saving and loading functions that do not raise; for those that do see C87."
  },
  {
   "property": "C87",
   "status": "partial",
   "theorems": [
    "Modred.C87_call_violation",
    "Modred.C87_computation_partial",
    "Modred.C87_lin_combine_partial",
    "Modred.C87_load_violation",
    "Modred.C87_save_violation",
    "Modred.C87_pod_get_violation",
    "Modred.C87_bpod_get_violation",
    "Modred.C87_attribute_violation",
    "Modred.C87_pod_decomp_violation",
    "Modred.C87_pod_modes_partial",
    "Modred.C87_bpod_no_outputs_partial",
    "Modred.C87_bpod_decomp_violation",
    "Modred.C87_dmd_sequential_violation",
    "Modred.C87_dmd_pairs_violation",
    "Modred.C87_dmd_lengths_partial",
    "Modred.C87_dmd_modes_partial",
    "Modred.C87_tls_sequential_violation",
    "Modred.C87_tls_pairs_violation",
    "Modred.C87_tls_lengths_partial",
    "Modred.C87_tls_modes_partial"
   ],
   "note": "All processes raise where every process does the work; where only rank 0 does it, the others wait for ever (violations proved)."
  },
  {
   "property": "C88",
   "status": "partial",
   "theorems": [
    "Modred.C88_combined_partial",
    "Modred.C88_no_iadd_partial",
    "Modred.C88_arrays_partial",
    "Modred.C88_refused",
    "Modred.C88_types_violation",
    "Modred.C88_rmul_violation",
    "Modred.C88_sharing_violation"
   ],
   "note": "Positive part for classes that meet a stated list of conditions; the conditions in the guide are not enough (three violations proved)."
  },
  {
   "property": "C89",
   "status": "partial",
   "theorems": [
    "Modred.C89_owner_partial",
    "Modred.C89_one_process_partial",
    "Modred.C89_still_empty_violation"
   ],
   "note": "Proved on one process; on several the handles stay empty on all processes but one (violation proved)."
  },
  {
   "property": "C90",
   "status": "partial",
   "theorems": [
    "Modred.C90_snaps_sequential_partial",
    "Modred.C90_snaps_pairs_partial",
    "Modred.C90_direct_sequential_partial",
    "Modred.C90_direct_pairs_partial",
    "Modred.C90_tls_snaps_sequential_partial",
    "Modred.C90_tls_snaps_pairs_partial",
    "Modred.C90_tls_direct_sequential_partial",
    "Modred.C90_tls_direct_pairs_partial",
    "Modred.C90_handles_sequential_partial",
    "Modred.C90_handles_pairs_partial",
    "Modred.C90_tls_handles_sequential_partial",
    "Modred.C90_tls_handles_pairs_partial",
    "Modred.C90_exact_partial",
    "Modred.C90_exact_violation"
   ],
   "note": "Proved for projected modes, and for exact modes if the advanced data are combinations of the data; violated for exact modes in general (counterexample proved)."
  },
  {
   "property": "C91",
   "status": "proved",
   "theorems": [
    "Modred.C91_snaps_sequential",
    "Modred.C91_snaps_pairs",
    "Modred.C91_direct_pairs",
    "Modred.C91_handles_sequential",
    "Modred.C91_handles_pairs",
    "Modred.C91_tolerance",
    "Modred.C91_bound_attained",
    "Modred.C91_direct_sequential",
    "Modred.C91_tls_snaps_sequential",
    "Modred.C91_tls_snaps_pairs",
    "Modred.C91_tls_direct_sequential",
    "Modred.C91_tls_direct_pairs",
    "Modred.C91_tls_handles_sequential",
    "Modred.C91_tls_handles_pairs"
   ],
   "note": "For total-least-squares DMD the bounds are for the projected vectors."
  },
  {
   "property": "C92",
   "status": "proved",
   "theorems": [
    "Modred.C92_with_mpi",
    "Modred.C92_without_mpi",
    "Modred.C92_rank_zero",
    "Modred.C92_pod",
    "Modred.C92_bpod",
    "Modred.C92_dmd",
    "Modred.C92_tls",
    "Modred.C92_galerkin"
   ],
   "note": ""
  },
  {
   "property": "C93",
   "status": "proved",
   "theorems": [
    "Modred.C93_pod_decomp",
    "Modred.C93_bpod_decomp",
    "Modred.C93_pod_modes",
    "Modred.C93_bpod_modes",
    "Modred.C93_dmd_decomp",
    "Modred.C93_tls_decomp",
    "Modred.C93_dmd_modes",
    "Modred.C93_tls_modes",
    "Modred.C93_dmd_history",
    "Modred.C93_tls_history",
    "Modred.C93_galerkin",
    "Modred.C93_pod_snaps",
    "Modred.C93_bpod_arrays",
    "Modred.C93_dmd_snaps",
    "Modred.C93_tls_snaps",
    "Modred.C93_pod_direct",
    "Modred.C93_dmd_direct_pairs",
    "Modred.C93_dmd_direct_sequential",
    "Modred.C93_tls_direct_pairs",
    "Modred.C93_tls_direct_sequential"
   ],
   "note": "For the direct methods, which decompose the data themselves: without max_num_eigvals, and eigenvalues and modes agree where decompositions determine them. C106 makes a tolerance of max_num_eigvals where the eigenvalues are separated."
  },
  {
   "property": "C94",
   "status": "partial",
   "theorems": [
    "Modred.C94_pod_snaps",
    "Modred.C94_pod_direct",
    "Modred.C94_single_modes",
    "Modred.C94_pod_handles",
    "Modred.C94_default_tolerance_has_units_violation"
   ],
   "note": "Proved if the absolute tolerance is changed with the units; with the default tolerance the number of modes depends on units (C94_default_tolerance_has_units_violation)."
  },
  {
   "property": "C95",
   "status": "partial",
   "theorems": [
    "Modred.C95_snaps_pairs",
    "Modred.C95_snaps_sequential",
    "Modred.C95_direct_pairs",
    "Modred.C95_direct_sequential",
    "Modred.C95_single_modes",
    "Modred.C95_truncation_violation",
    "Modred.C95_handles_pairs",
    "Modred.C95_handles_sequential"
   ],
   "note": "Proved without max_num_eigvals, and so by C106 also with it, unless it leaves out some of the eigenvectors with the same eigenvalue of the correlation array; then even the eigenvalues depend on the choice of the library (C95_truncation_violation)."
  },
  {
   "property": "C96",
   "status": "proved",
   "theorems": [
    "Modred.C96_snaps_sequential",
    "Modred.C96_snaps_pairs",
    "Modred.C96_tls_snaps_sequential",
    "Modred.C96_tls_snaps_pairs",
    "Modred.C96_direct_sequential",
    "Modred.C96_direct_pairs",
    "Modred.C96_tls_direct_sequential",
    "Modred.C96_tls_direct_pairs",
    "Modred.C96_handles_sequential",
    "Modred.C96_handles_pairs",
    "Modred.C96_tls_handles_sequential",
    "Modred.C96_tls_handles_pairs"
   ],
   "note": ""
  },
  {
   "property": "C97",
   "status": "proved",
   "theorems": [
    "Modred.C97_arrays",
    "Modred.C97_inputs_outputs",
    "Modred.C97_single_modes",
    "Modred.C97_handles",
    "Modred.C97_handles_inputs_outputs"
   ],
   "note": ""
  },
  {
   "property": "C98",
   "status": "partial",
   "theorems": [
    "Modred.C98_response_partial",
    "Modred.C98_equal_values_violation",
    "Modred.C98_units_violation"
   ],
   "note": "Proved if the number of states does not separate equal singular values and the tolerance of util.svd keeps as many singular values in both units. Both conditions are needed: C98_equal_values_violation has two correct libraries whose models with one state differ, and C98_units_violation has data whose model in other units has no state, because ERA uses the fixed absolute tolerance 1e-13."
  },
  {
   "property": "C99",
   "status": "partial",
   "theorems": [
    "Modred.C99_inner_product_program",
    "Modred.C99_symmetric_program",
    "Modred.C99_when_printed",
    "Modred.C99_quiet",
    "Modred.C99_inner_products_partial",
    "Modred.C99_inner_products",
    "Modred.C99_symmetric",
    "Modred.C99_last_report",
    "Modred.C99_parallel_violation",
    "Modred.C99_zero_violation",
    "Modred.C99_lin_combine_partial",
    "Modred.C99_lin_combine_one_partial",
    "Modred.C99_lin_combine_violation",
    "Modred.C99_symmetric_all_program",
    "Modred.C99_exchange_last",
    "Modred.C99_symmetric_all_partial",
    "Modred.C99_symmetric_one",
    "Modred.C99_symmetric_parallel_violation"
   ],
   "note": "Proved for inner products if the processes divide the rows equally (so always for one process), for symmetric arrays in one process, and for lin_combine with one basis vector in one process. For symmetric arrays with several processes the percentages never go down, but are only bounded by 100 times the number of processes. C99_parallel_violation prints 200%; C99_symmetric_parallel_violation prints 133%; C99_zero_violation prints 0% after everything is done, because zero inner products are taken for missing ones; C99_lin_combine_violation prints 0, 50, 0, 50."
  },
  {
   "property": "C100",
   "status": "partial",
   "theorems": [
    "Modred.C100_determined",
    "Modred.C100_orthogonal",
    "Modred.C100_order",
    "Modred.C100_coordinates_partial",
    "Modred.C100_units_partial",
    "Modred.C100_units_violation"
   ],
   "note": "Proved for any order and any orthogonal change of coordinates, and for any change of coordinates if inputs and delayed inputs and outputs are linearly independent. Otherwise C100_units_violation: the least-squares solution of least norm is taken, and the norm mixes inputs and outputs, so that units matter."
  },
  {
   "property": "C101",
   "status": "partial",
   "theorems": [
    "Modred.C101_dmd_pairs_max",
    "Modred.C101_dmd_sequential_max",
    "Modred.C101_tls_pairs_max",
    "Modred.C101_tls_sequential_max",
    "Modred.C101_pod",
    "Modred.C101_dmd_pairs",
    "Modred.C101_dmd_sequential",
    "Modred.C101_dmd_tolerance_violation",
    "Modred.C101_pod_handles",
    "Modred.C101_dmd_handles_pairs_partial",
    "Modred.C101_dmd_handles_sequential_partial",
    "Modred.C101_bpod_handles",
    "Modred.C101_tls_pairs",
    "Modred.C101_tls_sequential",
    "Modred.C101_tls_handles_pairs_partial",
    "Modred.C101_tls_handles_sequential_partial"
   ],
   "note": "Proved if the tolerances of the method of snapshots are the squares of those of the direct method, and for DMD with distinct eigenvalues and max_num_eigvals, if given, between eigenvalues that differ; for total-least-squares DMD also without a relative tolerance, which the projection uses twice (C58). With the same tolerances, which are the defaults, the methods keep different numbers of modes: C55_methods_differ_violation for POD and C101_dmd_tolerance_violation for DMD. Handles agree exactly with arrays; for DMDHandles and TLSqrDMDHandles only without a relative tolerance, which the classes ignore (see C28), and the spectral coefficients of total-least-squares DMD for real data only (for complex data see C30)."
  },
  {
   "property": "C102",
   "status": "proved",
   "theorems": [
    "Modred.C102_snaps_pairs",
    "Modred.C102_snaps_sequential",
    "Modred.C102_direct_pairs",
    "Modred.C102_direct_sequential",
    "Modred.C102_handles_pairs",
    "Modred.C102_handles_sequential"
   ],
   "note": "Vectors and advanced vectors in units of different size are another problem: the projection weighs both together."
  },
  {
   "property": "C103",
   "status": "partial",
   "theorems": [
    "Modred.C103_print_msg",
    "Modred.C103_vector_space",
    "Modred.C103_constructor",
    "Modred.C103_loops",
    "Modred.C103_from_rank_zero_partial",
    "Modred.C103_from_rank_zero_violation"
   ],
   "note": "Proved except for print_from_rank_zero, which ignores output_channel: C103_from_rank_zero_violation writes a message for standard error to standard output and accepts any name. Names of channels are ASCII."
  },
  {
   "property": "C104",
   "status": "partial",
   "theorems": [
    "Modred.C104_histories_with_exceptions",
    "Modred.C104_get_keeps_store",
    "Modred.C104_unreadable_changes_nothing",
    "Modred.C104_put_elsewhere",
    "Modred.C104_put_then_get",
    "Modred.C104_put_raises_partial",
    "Modred.C104_put_destroys_pickle_violation",
    "Modred.C104_put_text_partial",
    "Modred.C104_text_round_trip",
    "Modred.C104_put_destroys_text_violation",
    "Modred.C104_without_exceptions",
    "Modred.C104_get_reads",
    "Modred.C104_get_missing",
    "Modred.C104_put_exception"
   ],
   "note": "Proved for get, in the histories of C13. For put it is proved for exceptions before the file is opened. Exceptions while a file is written destroy the vector that was there: C104_put_destroys_pickle_violation (objects that cannot be pickled) and C104_put_destroys_text_violation (arrays without dimensions, which np.savetxt refuses after opening the file)."
  },
  {
   "property": "C105",
   "status": "proved",
   "theorems": [
    "Modred.C105_error_bound",
    "Modred.C105_compute_ERA_model",
    "Modred.C105_from_samples",
    "Modred.C105_lsim",
    "Modred.C105_bpod",
    "Modred.C105_short_arrays_violation",
    "Modred.C105_bpod_handles",
    "Modred.C105_lower_bound"
   ],
   "note": "Exact arithmetic. C105_short_arrays_violation shows that the impulse response must have died out within the blocks: otherwise the model of a stable system can be unstable."
  },
  {
   "property": "C106",
   "status": "proved",
   "theorems": [
    "Modred.C106_dmd_snaps_pairs",
    "Modred.C106_dmd_snaps_sequential",
    "Modred.C106_dmd_direct_pairs",
    "Modred.C106_dmd_direct_sequential",
    "Modred.C106_dmd_handles_pairs",
    "Modred.C106_dmd_handles_sequential",
    "Modred.C106_tls_snaps_pairs",
    "Modred.C106_tls_snaps_sequential",
    "Modred.C106_tls_direct_pairs",
    "Modred.C106_tls_direct_sequential",
    "Modred.C106_tls_handles_pairs",
    "Modred.C106_tls_handles_sequential"
   ],
   "note": "If eigenvalues are equal and max_num_eigvals cuts between them there is no such tolerance, and the result depends on the library: C95_truncation_violation."
  },
  {
   "property": "C107",
   "status": "proved",
   "theorems": [
    "Modred.C107_pod_snaps",
    "Modred.C107_pod_direct",
    "Modred.C107_dmd_snaps_pairs",
    "Modred.C107_dmd_snaps_sequential",
    "Modred.C107_dmd_direct_pairs",
    "Modred.C107_dmd_direct_sequential",
    "Modred.C107_predictions",
    "Modred.C107_bpod",
    "Modred.C107_era",
    "Modred.C107_tls_snaps_pairs",
    "Modred.C107_tls_snaps_sequential",
    "Modred.C107_tls_direct_pairs",
    "Modred.C107_tls_direct_sequential"
   ],
   "note": "Eigenvalues of DMD are assumed distinct, as in C26. That eigh, svd and cholesky return real arrays for real arrays is assumed of the library."
  },
  {
   "property": "C108",
   "status": "partial",
   "theorems": [
    "Modred.C108_inner_products_partial",
    "Modred.C108_symm_inner_products_partial",
    "Modred.C108_no_list_raises",
    "Modred.C108_lin_combine_partial",
    "Modred.C108_lin_combine_no_list_raises",
    "Modred.C108_pod_decomp_partial",
    "Modred.C108_pod_modes_partial",
    "Modred.C108_bpod_modes_partial",
    "Modred.C108_dmd_modes_partial",
    "Modred.C108_bpod_slices_partial",
    "Modred.C108_bpod_one_handle_violation",
    "Modred.C108_dmd_one_handle_violation"
   ],
   "note": "Proved for the functions of the vector space, for PODHandles, for the modes of BPODHandles and for exact modes of DMDHandles. The code violates it in BPODHandles.compute_decomp and in DMDHandles.compute_decomp, compute_proj_modes and compute_adjoint_modes; the negations are proved."
  },
  {
   "property": "C109",
   "status": "proved",
   "theorems": [
    "Modred.C109_chosen",
    "Modred.C109_pod_snaps",
    "Modred.C109_pod_direct",
    "Modred.C109_bpod",
    "Modred.C109_dmd_snaps_sequential",
    "Modred.C109_dmd_snaps_pairs",
    "Modred.C109_dmd_direct_sequential",
    "Modred.C109_dmd_direct_pairs",
    "Modred.C109_tls_snaps_sequential",
    "Modred.C109_tls_snaps_pairs",
    "Modred.C109_tls_direct_sequential",
    "Modred.C109_tls_direct_pairs",
    "Modred.C109_pod_handles",
    "Modred.C109_bpod_direct_handles",
    "Modred.C109_bpod_adjoint_handles",
    "Modred.C109_dmd_handles",
    "Modred.C109_tls_handles"
   ],
   "note": ""
  },
  {
   "property": "C110",
   "status": "proved",
   "theorems": [
    "Modred.C110_era",
    "Modred.C110_era_function",
    "Modred.C110_balanced",
    "Modred.C110_galerkin_arrays",
    "Modred.C110_galerkin_handles",
    "Modred.C110_needs_biorthonormal"
   ],
   "note": "The limit for bases that are not biorthonormal is C110_needs_biorthonormal."
  },
  {
   "property": "C111",
   "status": "proved",
   "theorems": [
    "Modred.C111_snaps_sequential",
    "Modred.C111_snaps_pairs",
    "Modred.C111_direct_sequential",
    "Modred.C111_direct_pairs",
    "Modred.C111_sequence",
    "Modred.C111_handles_sequential",
    "Modred.C111_handles_pairs",
    "Modred.C111_tls_snaps_sequential",
    "Modred.C111_tls_snaps_pairs",
    "Modred.C111_tls_direct_sequential",
    "Modred.C111_tls_direct_pairs",
    "Modred.C111_tls_handles_sequential",
    "Modred.C111_tls_handles_pairs"
   ],
   "note": ""
  },
  {
   "property": "C112",
   "status": "partial",
   "theorems": [
    "Modred.C112_block_exact_partial",
    "Modred.C112_block_violation",
    "Modred.C112_block_is_array",
    "Modred.C112_sum_arrays_comm",
    "Modred.C112_sum_arrays_assoc",
    "Modred.C112_sum_arrays",
    "Modred.C112_allreduce",
    "Modred.C112_data_members",
    "Modred.C112_data_members_raise"
   ],
   "note": "InnerProductBlock gives its array the type of the first inner product, so fractions can be lost, and raises IndexError for empty lists (C112_block_violation); exact for inner products of one type (C112_block_exact_partial). Everything about sum_arrays and get_data_members is proved."
  },
  {
   "property": "C113",
   "status": "proved",
   "theorems": [
    "Modred.C113_when_it_raises",
    "Modred.C113_value",
    "Modred.C113_conjugate_symmetric",
    "Modred.C113_linear",
    "Modred.C113_positive",
    "Modred.C113_shapes_ignored",
    "Modred.C113_arrays_agree",
    "Modred.C113_trapz"
   ],
   "note": ""
  },
  {
   "property": "C114",
   "status": "proved",
   "theorems": [
    "Modred.C114_pod_snaps",
    "Modred.C114_pod_direct",
    "Modred.C114_pod_handles"
   ],
   "note": ""
  },
  {
   "property": "C115",
   "status": "proved",
   "theorems": [
    "Modred.C115_pod_snaps",
    "Modred.C115_pod_direct",
    "Modred.C115_pod_handles",
    "Modred.C115_zero_vectors_snaps",
    "Modred.C115_zero_vectors_direct",
    "Modred.C115_repeated_snaps",
    "Modred.C115_repeated_direct",
    "Modred.C115_zero_vectors_handles",
    "Modred.C115_repeated_handles"
   ],
   "note": ""
  },
  {
   "property": "C116",
   "status": "proved",
   "theorems": [
    "Modred.C116_snaps_zero_pairs",
    "Modred.C116_snaps_repeated_pairs",
    "Modred.C116_direct_zero_pairs",
    "Modred.C116_direct_repeated_pairs",
    "Modred.C116_same_eigenvalues",
    "Modred.C116_tls_snaps_zero_pairs",
    "Modred.C116_tls_snaps_repeated_pairs",
    "Modred.C116_tls_direct_zero_pairs",
    "Modred.C116_tls_direct_repeated_pairs",
    "Modred.C116_handles_zero_pairs",
    "Modred.C116_handles_repeated_pairs",
    "Modred.C116_tls_handles_zero_pairs",
    "Modred.C116_tls_handles_repeated_pairs",
    "Modred.C116_tls_number"
   ],
   "note": ""
  },
  {
   "property": "C117",
   "status": "proved",
   "theorems": [
    "Modred.C117_bpod_zero",
    "Modred.C117_bpod_repeated",
    "Modred.C117_handles_zero",
    "Modred.C117_handles_repeated",
    "Modred.C117_era_zero",
    "Modred.C117_era_repeated"
   ],
   "note": ""
  },
  {
   "property": "C118",
   "status": "proved",
   "theorems": [
    "Modred.C118_pod_snaps",
    "Modred.C118_pod_direct",
    "Modred.C118_pod_handles",
    "Modred.C118_bpod_arrays",
    "Modred.C118_bpod_handles",
    "Modred.C118_dmd_snaps_seq",
    "Modred.C118_dmd_snaps_pairs",
    "Modred.C118_dmd_direct_seq",
    "Modred.C118_dmd_direct_pairs",
    "Modred.C118_tls_snaps_seq",
    "Modred.C118_tls_snaps_pairs",
    "Modred.C118_tls_direct_seq",
    "Modred.C118_tls_direct_pairs",
    "Modred.C118_dmd_handles",
    "Modred.C118_tls_handles",
    "Modred.C118_pod_direct_needs_tolerance"
   ],
   "note": ""
  },
  {
   "property": "C119",
   "status": "proved",
   "theorems": [
    "Modred.C119_change",
    "Modred.C119_snaps",
    "Modred.C119_snaps_more",
    "Modred.C119_direct",
    "Modred.C119_direct_more",
    "Modred.C119_handles",
    "Modred.C119_handles_more",
    "Modred.C119_bpod_arrays",
    "Modred.C119_bpod_handles",
    "Modred.C119_era_more",
    "Modred.C119_era"
   ],
   "note": ""
  },
  {
   "property": "C120",
   "status": "proved",
   "theorems": [
    "Modred.C120_snaps",
    "Modred.C120_direct",
    "Modred.C120_handles"
   ],
   "note": ""
  },
  {
   "property": "C121",
   "status": "proved",
   "theorems": [
    "Modred.C121_era"
   ],
   "note": ""
  },
  {
   "property": "C122",
   "status": "proved",
   "theorems": [
    "Modred.C122_snaps",
    "Modred.C122_direct",
    "Modred.C122_handles"
   ],
   "note": ""
  },
  {
   "property": "C123",
   "status": "proved",
   "theorems": [
    "Modred.C123_snaps",
    "Modred.C123_direct",
    "Modred.C123_handles",
    "Modred.C123_bpod_arrays"
   ],
   "note": ""
  },
  {
   "property": "C124",
   "status": "proved",
   "theorems": [
    "Modred.C124_snaps_sequential",
    "Modred.C124_snaps_pairs",
    "Modred.C124_tls_snaps_sequential",
    "Modred.C124_tls_snaps_pairs",
    "Modred.C124_direct_sequential",
    "Modred.C124_direct_pairs",
    "Modred.C124_tls_direct_sequential",
    "Modred.C124_tls_direct_pairs",
    "Modred.C124_handles_sequential",
    "Modred.C124_handles_pairs",
    "Modred.C124_tls_handles_sequential",
    "Modred.C124_tls_handles_pairs"
   ],
   "note": ""
  },
  {
   "property": "C125",
   "status": "proved",
   "theorems": [
    "Modred.C125_arrays",
    "Modred.C125_handles",
    "Modred.C125_adjoint_system",
    "Modred.C125_handles_adjoint_system"
   ],
   "note": ""
  },
  {
   "property": "C126",
   "status": "proved",
   "theorems": [
    "Modred.C126_dual_model",
    "Modred.C126_no_error",
    "Modred.C126_compute_ERA_model",
    "Modred.C126_response"
   ],
   "note": ""
  },
  {
   "property": "C127",
   "status": "proved",
   "theorems": [
    "Modred.C127_snaps_sequential",
    "Modred.C127_snaps_pairs",
    "Modred.C127_direct_sequential",
    "Modred.C127_direct_pairs",
    "Modred.C127_handles_sequential",
    "Modred.C127_handles_pairs",
    "Modred.C127_tls_snaps_sequential",
    "Modred.C127_tls_snaps_pairs",
    "Modred.C127_tls_direct_sequential",
    "Modred.C127_tls_direct_pairs",
    "Modred.C127_tls_handles_sequential",
    "Modred.C127_tls_handles_pairs"
   ],
   "note": ""
  },
  {
   "property": "C128",
   "status": "proved",
   "theorems": [
    "Modred.C128_snaps_sequential",
    "Modred.C128_snaps_pairs",
    "Modred.C128_tls_snaps_sequential",
    "Modred.C128_tls_snaps_pairs",
    "Modred.C128_direct_sequential",
    "Modred.C128_direct_pairs",
    "Modred.C128_tls_direct_sequential",
    "Modred.C128_tls_direct_pairs",
    "Modred.C128_handles_sequential",
    "Modred.C128_handles_pairs",
    "Modred.C128_tls_handles_sequential",
    "Modred.C128_tls_handles_pairs"
   ],
   "note": ""
  },
  {
   "property": "C129",
   "status": "proved",
   "theorems": [
    "Modred.C129_arrays",
    "Modred.C129_handles"
   ],
   "note": ""
  },
  {
   "property": "C130",
   "status": "proved",
   "theorems": [
    "Modred.C130_balanced_truncation"
   ],
   "note": ""
  },
  {
   "property": "C131",
   "status": "proved",
   "theorems": [
    "Modred.C131_balanced_truncation"
   ],
   "note": ""
  },
  {
   "property": "C132",
   "status": "proved",
   "theorems": [
    "Modred.C132_arrays",
    "Modred.C132_handles"
   ],
   "note": ""
  },
  {
   "property": "C133",
   "status": "proved",
   "theorems": [
    "Modred.C133_snaps_pairs",
    "Modred.C133_direct_pairs",
    "Modred.C133_handles_pairs"
   ],
   "note": ""
  },
  {
   "property": "C134",
   "status": "proved",
   "theorems": [
    "Modred.C134_handles",
    "Modred.C134_arrays"
   ],
   "note": ""
  },
  {
   "property": "C135",
   "status": "proved",
   "theorems": [
    "Modred.C135_snaps_sequential",
    "Modred.C135_snaps_pairs",
    "Modred.C135_direct_sequential",
    "Modred.C135_direct_pairs",
    "Modred.C135_handles_sequential",
    "Modred.C135_handles_pairs"
   ],
   "note": ""
  },
  {
   "property": "C136",
   "status": "proved",
   "theorems": [
    "Modred.C136_arrays",
    "Modred.C136_handles"
   ],
   "note": ""
  },
  {
   "property": "C137",
   "status": "proved",
   "theorems": [
    "Modred.C137_snaps_pairs",
    "Modred.C137_snaps_sequential",
    "Modred.C137_direct_pairs",
    "Modred.C137_direct_sequential",
    "Modred.C137_handles_pairs",
    "Modred.C137_handles_sequential"
   ],
   "note": ""
  },
  {
   "property": "C138",
   "status": "proved",
   "theorems": [
    "Modred.C138_one_step",
    "Modred.C138_self_adjoint",
    "Modred.C138_handles_self_adjoint",
    "Modred.C138_handles_one_step"
   ],
   "note": ""
  },
  {
   "property": "C139",
   "status": "proved",
   "theorems": [
    "Modred.C139_hermitian",
    "Modred.C139_system",
    "Modred.C139_system_default",
    "Modred.C139_compute_ERA_model",
    "Modred.C139_needs_sign"
   ],
   "note": ""
  }
 ]
}
