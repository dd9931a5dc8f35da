# Axioms per theorem

Written by tools/axioms.py.

| theorem | axioms |
|---|---|
| SpMP.Props.C01_simple_partition | Classical.choice, Quot.sound, propext |
| SpMP.Props.C02_load_balanced_partition | Classical.choice, Quot.sound, propext |
| SpMP.Props.C03_prefixSum | Classical.choice, Quot.sound, propext |
| SpMP.Props.C03_prefixSumMultiple | Classical.choice, Quot.sound, propext |
| SpMP.Props.C04_isPerm_false | Quot.sound, propext |
| SpMP.Props.C04_isPerm_partial | Classical.choice, Quot.sound, propext |
| SpMP.Props.C05_getInversePerm | Classical.choice, Quot.sound, propext |
| SpMP.Props.C05_isInversePerm | Classical.choice, Quot.sound, propext |
| SpMP.Props.C05_reorder | Classical.choice, Quot.sound, propext |
| SpMP.Props.C05_gather_eq_scatter | Classical.choice, Quot.sound, propext |
| SpMP.Props.C05_round_trip | Classical.choice, Quot.sound, propext |
| SpMP.Props.C05_round_trip_inverse | Classical.choice, Quot.sound, propext |
| SpMP.Props.C06_pool_partial | Classical.choice, Quot.sound, propext |
| SpMP.Props.C06_too_large | Classical.choice, Quot.sound, propext |
| SpMP.Props.C06_front_too_large_false | propext |
| SpMP.Props.C06_ndebug_false | propext |
| SpMP.Props.C07_base_conversion_partial | Classical.choice, Quot.sound, propext |
| SpMP.Props.C07_round_trip | Classical.choice, Quot.sound, propext |
| SpMP.Props.C07_idempotent | Classical.choice, Quot.sound, propext |
| SpMP.Props.C07_extptr_false | Classical.choice, Quot.sound, propext |
| SpMP.Props.C08_copy_partial | Classical.choice, Quot.sound, propext |
| SpMP.Props.C08_extptr_false | Classical.choice, Quot.sound, propext |
| SpMP.Props.C09_transpose_partial | Classical.choice, Quot.sound, propext |
| SpMP.Props.C09_zero_cols_false | Classical.choice, Quot.sound, propext |
| SpMP.Props.C10_transpose_twice_partial | Classical.choice, Quot.sound, propext |
| SpMP.Props.C11_dcoo2csr | Classical.choice, Quot.sound, propext |
| SpMP.Props.C11_coo2csr_unsorted | Classical.choice, Quot.sound, propext |
| SpMP.Props.C12_qsort | Classical.choice, Quot.sound, propext |
| SpMP.Props.C13_load_general_partial | Classical.choice, Quot.sound, propext |
| SpMP.Props.C13_malformed_partial | Classical.choice, Quot.sound, propext |
| SpMP.Props.C13_csr_constructor_partial | Classical.choice, Quot.sound, propext |
| SpMP.Props.C13_too_many_lines_false | Classical.choice, Quot.sound, propext |
| SpMP.Props.C14_load_symmetric_partial | Classical.choice, Quot.sound, propext |
| SpMP.Props.C14_pattern_symmetric | Classical.choice, Quot.sound, propext |
| SpMP.Props.C14_base0_false | Classical.choice, Quot.sound, propext |
| SpMP.Props.C15_base0_false | Classical.choice, Quot.sound, propext |
| SpMP.Props.C15_empty_symmetric_false | Classical.choice, Quot.sound, propext |
| SpMP.Props.C16_store_load_partial | Classical.choice, Quot.sound, propext |
| SpMP.Props.C16_store_unchanged_partial | Classical.choice, Quot.sound, propext |
| SpMP.Props.C16_load_diag | Classical.choice, Quot.sound, propext |
| SpMP.Props.C16_open_fails_base1_false | Classical.choice, Quot.sound, propext |
| SpMP.Props.C16_load_base1_nodiag_false | Classical.choice, Quot.sound, propext |
| SpMP.Props.C17_store_load_partial | Classical.choice, Quot.sound, propext |
| SpMP.Props.C17_store_load_text_partial | Classical.choice, Quot.sound, propext |
| SpMP.Props.C18_permute_partial | Classical.choice, Quot.sound, propext |
| SpMP.Props.C18_product_partial | Classical.choice, Quot.sound, propext |
| SpMP.Props.C18_null_debug_false | Classical.choice, Quot.sound, propext |
| SpMP.Props.C18_sort_novalues_false | Classical.choice, Quot.sound, propext |
| SpMP.Props.C19_permuteRows_partial | Classical.choice, Quot.sound, propext |
| SpMP.Props.C19_base1_false | Classical.choice, Quot.sound, propext |
| SpMP.Props.C20_splitLU_partial | Classical.choice, Quot.sound, propext |
| SpMP.Props.C20_ext_base1_false | Classical.choice, Quot.sound, propext |
| SpMP.Props.C21_symmetricPattern_partial | Classical.choice, Quot.sound, propext |
| SpMP.Props.C21_base1_false | Classical.choice, Quot.sound, propext |
| SpMP.Props.C22_spmv_partial | Classical.choice, Quot.sound, propext |
| SpMP.Props.C22_spmv_plain | Classical.choice, Quot.sound, propext |
| SpMP.Props.C22_alias_false | Classical.choice, Quot.sound, propext |
| SpMP.Props.C23_spmdm_partial | Classical.choice, Quot.sound, propext |
| SpMP.Props.C23_stride_false | Classical.choice, Quot.sound, propext |
| SpMP.Props.C24_laplacian_partial | Classical.choice, Quot.sound, propext |
| SpMP.Props.C24_spd_partial | Classical.choice, Quot.sound, propext |
| SpMP.Props.C24_flat_false | Classical.choice, Quot.sound, propext |
| SpMP.Props.C24_thin_false | Classical.choice, Quot.sound, propext |
| SpMP.Props.C25_isSymmetric_partial | Classical.choice, Quot.sound, propext |
| SpMP.Props.C25_base1_false | Classical.choice, Quot.sound, propext |
| SpMP.Props.C26_hasZeroDiag_partial | Classical.choice, Quot.sound, propext |
| SpMP.Props.C26_base1_false | Classical.choice, Quot.sound, propext |
| SpMP.Props.C27_bandwidth | Classical.choice, Quot.sound, propext |
| SpMP.Props.C27_averageWidth | Classical.choice, Quot.sound, propext |
| SpMP.Props.C27_maxDegree | Classical.choice, Quot.sound, propext |
| SpMP.Props.C28_equals | Classical.choice, Quot.sound, propext |
| SpMP.Props.C29_findLevels_partial | Classical.choice, Quot.sound, propext |
| SpMP.Props.C29_two_threads_partial | Classical.choice, Quot.sound, propext |
| SpMP.Props.C29_small_partial | Classical.choice, Quot.sound, propext |
| SpMP.Props.C29_levels_unique | Quot.sound, propext |
| SpMP.Props.C29_queue_overflow_false | Classical.choice, Quot.sound, propext |
| SpMP.Props.C30_task_partition_partial | Classical.choice, Quot.sound, propext |
| SpMP.Props.C30_in_memory_partial | Classical.choice, Quot.sound, propext |
| SpMP.Props.C30_default_cost | Classical.choice, Quot.sound, propext |
| SpMP.Props.C30_zero_cost_false | propext |
| SpMP.Props.C30_zero_cost_aggregate_ub | propext |
| SpMP.Props.C31_task_graph | Classical.choice, Quot.sound, propext |
| SpMP.Props.C32_built_graph | Classical.choice, Quot.sound, propext |
| SpMP.Props.C31_in_memory | Classical.choice, Quot.sound, propext |
| SpMP.Props.C31_library_in_memory | Classical.choice, Quot.sound, propext |
| SpMP.Props.C31_repeated_entries_false | Classical.choice, Quot.sound, propext |
| SpMP.Props.C31_barrier_reduction_false | Classical.choice, Quot.sound, propext |
| SpMP.Props.C32_reduction | Classical.choice, Quot.sound, propext |
| SpMP.Props.C33_library | Classical.choice, Quot.sound, propext |
| SpMP.Props.C33_C34_library_any_kernel | Classical.choice, Quot.sound, propext |
| SpMP.Props.C33_forward_p2p | Classical.choice, Quot.sound, propext |
| SpMP.Props.C33_any_kernel | Classical.choice, Quot.sound, propext |
| SpMP.Props.C34_library | Classical.choice, Quot.sound, propext |
| SpMP.Props.C34_backward_p2p | Classical.choice, Quot.sound, propext |
| SpMP.Props.C34_any_kernel | Classical.choice, Quot.sound, propext |
| SpMP.Props.C35_library | Classical.choice, Quot.sound, propext |
| SpMP.Props.C35_no_deadlock | Classical.choice, Quot.sound, propext |
| SpMP.Props.C36_library | Classical.choice, Quot.sound, propext |
| SpMP.Props.C36_barrier | Classical.choice, Quot.sound, propext |
| SpMP.Props.C37_room_partial | Classical.choice, Quot.sound, propext |
| SpMP.Props.C37_overlap_false | propext |
| SpMP.Props.C38_library | Classical.choice, Quot.sound, propext |
| SpMP.Props.C38_reordered | Classical.choice, Quot.sound, propext |
| SpMP.Props.C38_library_barrier | Classical.choice, Quot.sound, propext |
| SpMP.Props.C38_reordered_barrier | Classical.choice, Quot.sound, propext |
| SpMP.Props.C39_parallel_ilu0 | Classical.choice, Quot.sound, propext |
| SpMP.Props.C39_ref_base_one_ub | Classical.choice, Quot.sound, propext |
| SpMP.Props.C40_barrier_separates | Classical.choice, Quot.sound, propext |
| SpMP.Props.C40_one_episode_apart | Classical.choice, Quot.sound, propext |
| SpMP.Props.C40_mcrt_false | propext |
| SpMP.Props.C41_no_deadlock | Classical.choice, Quot.sound, propext |
| SpMP.Props.C41_not_stuck | Classical.choice, Quot.sound, propext |
| SpMP.Props.C41_fair_termination | Classical.choice, Quot.sound, propext |
| SpMP.Props.C42_reduction_partial | Classical.choice, Quot.sound, propext |
| SpMP.Props.C42_one_core_partial | Classical.choice, Quot.sound, propext |
| SpMP.Props.C42_idempotent_partial | Classical.choice, Quot.sound, propext |
| SpMP.Props.C42_separates_partial | Classical.choice, Quot.sound, propext |
| SpMP.Props.C42_fair_partial | Classical.choice, Quot.sound, propext |
| SpMP.Props.C42_one_core_false | Classical.choice, Quot.sound, propext |
| SpMP.Props.C42_overlapping_episodes_false | Classical.choice, Quot.sound, propext |
| SpMP.Props.C43_components_partial | Classical.choice, Quot.sound, propext |
| SpMP.Props.C43_one_thread_partial | Classical.choice, Quot.sound, propext |
| SpMP.Props.C43_same_block_iff | Quot.sound, propext |
| SpMP.Props.C43_lost_union_false | Classical.choice, Quot.sound, propext |
| SpMP.Props.C43_empty_false | Classical.choice, Quot.sound, propext |
| SpMP.Props.C44_connected_partial | Classical.choice, Quot.sound, propext |
| SpMP.Props.C44_one_thread_partial | Classical.choice, Quot.sound, propext |
| SpMP.Props.C44_search_partial | Classical.choice, Quot.sound, propext |
| SpMP.Props.C44_numbering_unique_positions | none |
| SpMP.Props.C44_one_by_one_false | Classical.choice, Quot.sound, propext |
| SpMP.Props.C44_duplicate_entry_false | Classical.choice, Quot.sound, propext |
| SpMP.Props.C44_lost_union_false | Classical.choice, Quot.sound, propext |
| SpMP.Props.C45_one_thread_partial | Classical.choice, Quot.sound, propext |
| SpMP.Props.C45_team_partial | Classical.choice, Quot.sound, propext |
| SpMP.Props.C45_lost_union_false | Classical.choice, Quot.sound, propext |
| SpMP.Props.C45_prefix_false | Classical.choice, Quot.sound, propext |
| SpMP.Props.C45_duplicate_entry_false | Classical.choice, Quot.sound, propext |
| SpMP.Props.C45_path_false | Classical.choice, Quot.sound, propext |
| SpMP.Props.C46_room_partial | Classical.choice, Quot.sound, propext |
| SpMP.Props.C46_dense_row_false | Classical.choice, Quot.sound, propext |
| SpMP.Props.C46_one_by_one_false | Classical.choice, Quot.sound, propext |
| SpMP.Props.C47_linear | Classical.choice, Quot.sound, propext |
| SpMP.Props.C47_one_winner | Quot.sound, propext |
| SpMP.Props.C47_testAndSet | Classical.choice, Quot.sound, propext |
| SpMP.Props.C47_constructor | Classical.choice, Quot.sound, propext |
| SpMP.Props.C48_parMemset_false | Classical.choice, Quot.sound, propext |
| SpMP.Props.C48_parMemset_partial | Classical.choice, Quot.sound, propext |
| SpMP.Props.C48_parMemcpy_partial | Classical.choice, Quot.sound, propext |
| SpMP.Props.C49_constructDiagPtr | Classical.choice, Quot.sound, propext |
| SpMP.Props.C49_computeInverseDiag | Classical.choice, Quot.sound, propext |
| SpMP.Props.C49_computeInverseDiag_again | Classical.choice, Quot.sound, propext |
| SpMP.Props.C50_banner_partial | Classical.choice, Quot.sound, propext |
| SpMP.Props.C50_banner_empty | Classical.choice, Quot.sound, propext |
| SpMP.Props.C50_banner_exact_false | Classical.choice, Quot.sound, propext |
| SpMP.Props.C50_long_word_false | Classical.choice, Quot.sound, propext |
| SpMP.Props.C50_format_parse | Classical.choice, Quot.sound, propext |
| SpMP.Props.C50_is_valid | propext |
| SpMP.Props.C50_size_partial | Classical.choice, Quot.sound, propext |
| SpMP.Props.C50_size_eof | Quot.sound, propext |
| SpMP.Props.C50_size_hang_false | Classical.choice, Quot.sound, propext |
| SpMP.Props.C50_writers_report_false | Classical.choice, Quot.sound, propext |
| SpMP.Props.C50_writers_text_partial | Classical.choice, Quot.sound, propext |
| SpMP.Props.C51_load_partial | Classical.choice, Quot.sound, propext |
| SpMP.Props.C51_reject | Classical.choice, Quot.sound, propext |
| SpMP.Props.C51_zero_columns_false | Classical.choice, Quot.sound, propext |
| SpMP.Props.C52_waxpby | Classical.choice, Quot.sound, propext |
| SpMP.Props.C53_ilu0_reproduces | Classical.choice, Quot.sound, propext |
| SpMP.Props.C53_parallel_factors | Classical.choice, Quot.sound, propext |
| SpMP.Props.C54_permuteColsInPlace_partial | Classical.choice, Quot.sound, propext |
| SpMP.Props.C54_base1_debug_false | Classical.choice, Quot.sound, propext |
| SpMP.Props.C54_novalues_false | Classical.choice, Quot.sound, propext |
| SpMP.Props.C55_computed_parents_partial | Classical.choice, Quot.sound, propext |
| SpMP.Props.C55_room_partial | Classical.choice, Quot.sound, propext |
| SpMP.Props.C55_overlap_false | Quot.sound, propext |
| SpMP.Props.C56_component_partial | Classical.choice, Quot.sound, propext |
| SpMP.Props.C56_search_partial | Classical.choice, Quot.sound, propext |
| SpMP.Props.C56_pipeline_partial | Classical.choice, Quot.sound, propext |
| SpMP.Props.C57_select_partial | Classical.choice, Quot.sound, propext |
| SpMP.Props.C57_candidates_false | Classical.choice, Quot.sound, propext |
| SpMP.Props.C58_prefixSum | Classical.choice, Quot.sound, propext |
| SpMP.Props.C58_reorder | Classical.choice, Quot.sound, propext |
| SpMP.Props.C58_parMem | Classical.choice, Quot.sound, propext |
| SpMP.Props.C58_spmv | Classical.choice, Quot.sound, propext |
| SpMP.Props.C58_spmdm | Classical.choice, Quot.sound, propext |
| SpMP.Props.C58_waxpby | Classical.choice, Quot.sound, propext |
| SpMP.Props.C58_barrier_sweeps | Classical.choice, Quot.sound, propext |
| SpMP.Props.C58_p2p_sweeps | Classical.choice, Quot.sound, propext |
| SpMP.Props.C58_ilu0 | Classical.choice, Quot.sound, propext |
| SpMP.Props.C58_base_conversion | Classical.choice, Quot.sound, propext |
| SpMP.Props.C58_copy | Classical.choice, Quot.sound, propext |
| SpMP.Props.C58_transpose_partial | Classical.choice, Quot.sound, propext |
| SpMP.Props.C58_permute_partial | Classical.choice, Quot.sound, propext |
| SpMP.Props.C58_permuteRows_partial | Classical.choice, Quot.sound, propext |
| SpMP.Props.C58_permuteColsInPlace | Classical.choice, Quot.sound, propext |
| SpMP.Props.C58_splitLU | Classical.choice, Quot.sound, propext |
| SpMP.Props.C58_laplacian | Classical.choice, Quot.sound, propext |
| SpMP.Props.C58_dcoo2csr | Classical.choice, Quot.sound, propext |
| SpMP.Props.C58_diag | Classical.choice, Quot.sound, propext |
| SpMP.Props.C58_isSymmetric_partial | Classical.choice, Quot.sound, propext |
| SpMP.Props.C58_hasZeroDiag_partial | Classical.choice, Quot.sound, propext |
| SpMP.Props.C58_bandwidth | Classical.choice, Quot.sound, propext |
| SpMP.Props.C58_findLevels_partial | Classical.choice, Quot.sound, propext |
| SpMP.Props.C58_isSymmetric_false | Classical.choice, Quot.sound, propext |
| SpMP.Props.C58_hasZeroDiag_false | Classical.choice, Quot.sound, propext |
| SpMP.Props.C58_transpose_false | Classical.choice, Quot.sound, propext |
| SpMP.Props.C58_permute_false | Classical.choice, Quot.sound, propext |
| SpMP.Props.C59_write_partial | Classical.choice, Quot.sound, propext |
| SpMP.Props.C59_read_partial | Classical.choice, Quot.sound, propext |
| SpMP.Props.C59_round_trip_partial | Classical.choice, Quot.sound, propext |
| SpMP.Props.C59_unsymmetric_partial | Classical.choice, Quot.sound, propext |
| SpMP.Props.C59_coo_store_load_partial | Classical.choice, Quot.sound, propext |
| SpMP.Props.C59_write_integer | Classical.choice, Quot.sound, propext |
| SpMP.Props.C59_write_integer_false | Classical.choice, Quot.sound, propext |
| SpMP.Props.C59_read_integer_false | Classical.choice, Quot.sound, propext |
| SpMP.Props.C59_full_device_false | Classical.choice, Quot.sound, propext |
| SpMP.Props.C59_unsymmetric_short_false | Classical.choice, Quot.sound, propext |
| SpMP.Props.C60_dot | Classical.choice, Quot.sound, propext |
| SpMP.Props.C60_pcg_partial | Classical.choice, Quot.sound, propext |
| SpMP.Props.C60_converges_partial | Classical.choice, Quot.sound, propext |
| SpMP.Props.C60_error_partial | Classical.choice, Quot.sound, propext |
| SpMP.Props.C60_deterministic | Classical.choice, Quot.sound, propext |
| SpMP.Props.C60_exact_start_false | Classical.choice, Quot.sound, propext |
| SpMP.Props.C60_base1_false | Classical.choice, Quot.sound, propext |
| SpMP.Props.C61_preconditioner | Classical.choice, Quot.sound, propext |
| SpMP.Props.C61_pivots | Classical.choice, Quot.sound, propext |
| SpMP.Props.C61_pcg_ilu0_partial | Classical.choice, Quot.sound, propext |
| SpMP.Props.C61_converges_partial | Classical.choice, Quot.sound, propext |
| SpMP.Props.C61_deterministic | Classical.choice, Quot.sound, propext |
| SpMP.Props.C61_positive_definite_false | Classical.choice, Quot.sound, propext |
| SpMP.Props.C62_symgs_opt_partial | Classical.choice, Quot.sound, propext |
| SpMP.Props.C62_ilu0_opt_partial | Classical.choice, Quot.sound, propext |
| SpMP.Props.C62_symgs_same_partial | Classical.choice, Quot.sound, propext |
| SpMP.Props.C62_ilu0_same_partial | Classical.choice, Quot.sound, propext |
| SpMP.Props.C62_symgs_converges_partial | Classical.choice, Quot.sound, propext |
| SpMP.Props.C62_ilu0_converges_partial | Classical.choice, Quot.sound, propext |
| SpMP.Props.C63_construct_partial | Classical.choice, Quot.sound, propext |
| SpMP.Props.C63_pointers_partial | Classical.choice, Quot.sound, propext |
| SpMP.Props.C64_release_partial | Quot.sound, propext |
| SpMP.Props.C64_borrowed_partial | Quot.sound, propext |
| SpMP.Props.C64_no_leak_partial | Quot.sound, propext |
| SpMP.Props.C64_wrong_release_false | propext |
| SpMP.Props.C64_leak_false | propext |
| SpMP.Props.C64_full_false | propext |
| SpMP.Props.C65_barrier_init_partial | Classical.choice, Quot.sound, propext |
| SpMP.Props.C65_barrier_return_partial | Classical.choice, Quot.sound, propext |
| SpMP.Props.C65_reduce_init_partial | Classical.choice, Quot.sound, propext |
| SpMP.Props.C65_reduce_return_partial | Classical.choice, Quot.sound, propext |
| SpMP.Props.C65_many_cores_false | Classical.choice, Quot.sound, propext |
| SpMP.Props.C65_many_threads_false | Classical.choice, Quot.sound, propext |
| SpMP.Props.C65_loadimba_false | propext |
| SpMP.Props.C66_latest_partial | Classical.choice, Quot.sound, propext |
| SpMP.Props.C66_stats_partial | Classical.choice, Quot.sound, propext |
| SpMP.Props.C66_after_partial | Classical.choice, Quot.sound, propext |
| SpMP.Props.C66_print_partial | Classical.choice, Quot.sound, propext |
| SpMP.Props.C66_details_partial | Quot.sound, propext |
| SpMP.Props.C66_reset_partial | Quot.sound, propext |
| SpMP.Props.C66_overlapping_false | Classical.choice, Quot.sound, propext |
| SpMP.Props.C66_printed_false | Classical.choice, Quot.sound, propext |
| SpMP.Props.C66_unused_false | propext |
| SpMP.Props.C67_counts_partial | Classical.choice, Quot.sound, propext |
| SpMP.Props.C67_short_counts_false | Classical.choice, Quot.sound, propext |
| SpMP.Props.C68_grid_names | Classical.choice, Quot.sound, propext |
| SpMP.Props.C68_bin_names | Classical.choice, Quot.sound, propext |
| SpMP.Props.C68_file_names | Classical.choice, Quot.sound, propext |
| SpMP.Props.C68_grid_partial | Classical.choice, Quot.sound, propext |
| SpMP.Props.C68_bin_partial | Classical.choice, Quot.sound, propext |
| SpMP.Props.C68_text_general_partial | Classical.choice, Quot.sound, propext |
| SpMP.Props.C68_text_symmetric_partial | Classical.choice, Quot.sound, propext |
| SpMP.Props.C68_convert_partial | Classical.choice, Quot.sound, propext |
| SpMP.Props.C68_missing | Classical.choice, Quot.sound, propext |
| SpMP.Props.C68_rejected_false | Classical.choice, Quot.sound, propext |
| SpMP.Props.C68_skew_false | Classical.choice, Quot.sound, propext |
| SpMP.Props.C68_names_false | Classical.choice, Quot.sound, propext |
| SpMP.Props.C68_bin_base1_false | Classical.choice, Quot.sound, propext |
| SpMP.Props.C69_simple_partition | Classical.choice, Quot.sound, propext |
| SpMP.Props.C69_simple_partition_only | Quot.sound, propext |
| SpMP.Props.C69_prefix_partial | Classical.choice, Quot.sound, propext |
| SpMP.Props.C69_prefix_only | Classical.choice, Quot.sound, propext |
| SpMP.Props.C69_transpose_partial | Classical.choice, Quot.sound, propext |
| SpMP.Props.C69_transpose_only | Classical.choice, Quot.sound, propext |
| SpMP.Props.C69_transpose_false | Classical.choice, Quot.sound, propext |
| SpMP.Props.C69_laplacian_partial | Classical.choice, Quot.sound, propext |
| SpMP.Props.C69_laplacian_only | Classical.choice, Quot.sound, propext |
| SpMP.Props.C69_cube | Classical.choice, Quot.sound, propext |
| SpMP.Props.C69_schedule_buffers | Classical.choice, Quot.sound, propext |
| SpMP.Props.C69_schedule_buffers_only | Quot.sound, propext |
| SpMP.Props.C69_rcm_buffers | Classical.choice, Quot.sound, propext |
| SpMP.Props.C69_bfs_buffers | Quot.sound, propext |
| SpMP.Props.C69_components_buffers | Quot.sound, propext |
| SpMP.Props.C69_spmv_partial | Classical.choice, Quot.sound, propext |
| SpMP.Props.C69_spmv_only | Classical.choice, Quot.sound, propext |
| SpMP.Props.C69_bandwidth_partial | Classical.choice, Quot.sound, propext |
| SpMP.Props.C69_bandwidth_only | Classical.choice, Quot.sound, propext |
| SpMP.Props.C69_spmdm_partial | Classical.choice, Quot.sound, propext |
| SpMP.Props.C69_spmdm_only | Classical.choice, Quot.sound, propext |
| SpMP.Props.C69_spmdm_false | Classical.choice, Quot.sound, propext |
| SpMP.Props.C70_bfs_team_partial | Classical.choice, Quot.sound, propext |
| SpMP.Props.C70_one_thread_partial | Classical.choice, Quot.sound, propext |
| SpMP.Props.C70_main_partial | Classical.choice, Quot.sound, propext |
| SpMP.Props.C70_uninitialised_false | Classical.choice, Quot.sound, propext |
| SpMP.Props.C71_construct_partial | Classical.choice, Quot.sound, propext |
| SpMP.Props.C71_same_permutation | Classical.choice, Quot.sound, propext |
| SpMP.Props.C71_borrowed_p2p | Classical.choice, Quot.sound, propext |
| SpMP.Props.C71_borrowed_barrier | Classical.choice, Quot.sound, propext |
| SpMP.Props.C71_reordered_p2p | Classical.choice, Quot.sound, propext |
| SpMP.Props.C71_reordered_barrier | Classical.choice, Quot.sound, propext |
| SpMP.Props.C72_convert_partial | Classical.choice, Quot.sound, propext |
| SpMP.Props.C72_one_column_partial | Classical.choice, Quot.sound, propext |
| SpMP.Props.C72_columns_false | Classical.choice, Quot.sound, propext |
| SpMP.Props.C72_short_false | Classical.choice, Quot.sound, propext |
| SpMP.Props.C73_reorder_partial | Classical.choice, Quot.sound, propext |
| SpMP.Props.C73_no_diagonal_false | Classical.choice, Quot.sound, propext |
| SpMP.Props.C73_vector_unset_false | Classical.choice, Quot.sound, propext |
| SpMP.Props.C74_check_partial | Classical.choice, Quot.sound, propext |
| SpMP.Props.C74_stops | Classical.choice, Quot.sound, propext |
| SpMP.Props.C74_drivers_partial | Classical.choice, Quot.sound, propext |
| SpMP.Props.C74_nan_false | Classical.choice, Quot.sound, propext |
| SpMP.Props.C74_larger_false | Classical.choice, Quot.sound, propext |
| SpMP.Props.C75_blocks_partial | Classical.choice, Quot.sound, propext |
| SpMP.Props.C75_free_partial | Classical.choice, Quot.sound, propext |
| SpMP.Props.C75_alloc_partial | Classical.choice, Quot.sound, propext |
| SpMP.Props.C75_pool_partial | Classical.choice, Quot.sound, propext |
| SpMP.Props.C75_finalize_partial | Classical.choice, Quot.sound, propext |
| SpMP.Props.C75_out_of_memory_false | Quot.sound, propext |
| SpMP.Props.C75_overflow_false | Quot.sound, propext |
| SpMP.Props.C75_reinitialize_false | Classical.choice, Quot.sound, propext |
| SpMP.Props.C75_finalised_false | propext |
| SpMP.Props.C76_print_partial | Classical.choice, Quot.sound, propext |
| SpMP.Props.C76_equals_partial | Classical.choice, Quot.sound, propext |
| SpMP.Props.C76_isSymmetric_partial | Classical.choice, Quot.sound, propext |
| SpMP.Props.C76_nnz_base1_false | Classical.choice, Quot.sound, propext |
| SpMP.Props.C76_sym_base1_false | Classical.choice, Quot.sound, propext |
| SpMP.Props.C76_print_pattern_false | Classical.choice, Quot.sound, propext |
| SpMP.Props.C77_barrier_partial | Classical.choice, Quot.sound, propext |
| SpMP.Props.C77_barrier_unused | Classical.choice, Quot.sound, propext |
| SpMP.Props.C77_reduce_partial | Classical.choice, Quot.sound, propext |
| SpMP.Props.C77_loadimba_partial | Classical.choice, Quot.sound, propext |
| SpMP.Props.C77_loadimba_leak_false | Classical.choice, Quot.sound, propext |
| SpMP.Props.C77_loadimba_unused_false | Classical.choice, Quot.sound, propext |
| SpMP.Props.C77_bad_alloc_false | none |
| SpMP.Props.C78_first_partial | Classical.choice, Quot.sound, propext |
| SpMP.Props.C78_serial_partial | Classical.choice, Quot.sound, propext |
| SpMP.Props.C78_later_partial | Classical.choice, Quot.sound, propext |
| SpMP.Props.C78_no_race | Classical.choice, Quot.sound, propext |
| SpMP.Props.C78_size_partial | Quot.sound, propext |
| SpMP.Props.C78_resize_false | Classical.choice, Quot.sound, propext |
| SpMP.Props.C78_loadimba_mic_false | none |
| SpMP.Props.C79_median | Classical.choice, Quot.sound, propext |
| SpMP.Props.C79_no_runs_ub | propext |
| SpMP.Props.C80_program_partial | Classical.choice, Quot.sound, propext |
| SpMP.Props.C80_ilu_partial | Classical.choice, Quot.sound, propext |
| SpMP.Props.C80_symgs_opt_partial | Classical.choice, Quot.sound, propext |
| SpMP.Props.C80_ilu_opt_partial | Classical.choice, Quot.sound, propext |
| SpMP.Props.C80_matrix_name_ub | Classical.choice, Quot.sound, propext |
| SpMP.Props.C81_flush | Classical.choice, Quot.sound, propext |
| SpMP.Props.C81_initialize | Classical.choice, Quot.sound, propext |
| SpMP.Props.C81_prepare | Classical.choice, Quot.sound, propext |
| SpMP.Props.C81_repetitions | Classical.choice, Quot.sound, propext |
| SpMP.Props.C81_buffer_unset_ub | Classical.choice, Quot.sound, propext |
