c("C01", "proved", ["C01_simple_partition"], "all n, T, thread ids")
c("C02", "proved", ["C02_load_balanced_partition"], "includes std::lower_bound as a halving loop, asserts and array bounds; work bound is ceil(total/T) plus the last row")
c("C03", "proved", ["C03_prefixSum", "C03_prefixSumMultiple"], "all team sizes, vector lengths and interleavings; barriers are phase boundaries")
c("C04", "partial", ["C04_isPerm_false", "C04_isPerm_partial"], "false of the code: duplicate-free out-of-range arrays such as [5,7] are accepted (release build). Proved: accepts exactly the duplicate-free arrays")
c("C05", "proved", ["C05_getInversePerm", "C05_isInversePerm", "C05_reorder", "C05_gather_eq_scatter", "C05_round_trip", "C05_round_trip_inverse"], "one thread per iteration of the parallel-for, all interleavings")
c("C48", "partial", ["C48_parMemset_false", "C48_parMemset_partial", "C48_parMemcpy_partial"], "false for n >= 2^31 (int arithmetic on a size_t count); proved for every n < 2^31")
c("C07", "partial", ["C07_base_conversion_partial", "C07_round_trip", "C07_idempotent", "C07_extptr_false"], "false of the code for matrices with extptr: the external boundary is not shifted. Proved without extptr; the round trip and idempotence hold with it too")
c("C08", "partial", ["C08_copy_partial", "C08_extptr_false"], "false of the code for extptr, which the copy constructor drops. Proved for all other arrays")
c("C40", "proved", ["C40_barrier_separates", "C40_one_episode_apart", "C40_mcrt_false"], "all core counts, threads per core, episode counts and interleavings, for lgNumCores = ceil(log2(numCores)); with USE_MCRT the rounding is wrong and the property is refuted")
c("C41", "proved", ["C41_no_deadlock", "C41_not_stuck", "C41_fair_termination"], "progress from every reachable state, no access out of bounds, termination of every fair run")
c("C22", "partial", ["C22_spmv_partial", "C22_spmv_plain", "C22_alias_false"], "false of the code for w == x when the matrix has more columns than rows (only m elements of x are saved); proved for everything else, over every commutative ring")
c("C23", "partial", ["C23_spmdm_partial", "C23_stride_false"], "false of the code for base 1 with row strides other than 1; proved otherwise, over every commutative ring")
c("C25", "partial", ["C25_isSymmetric_partial", "C25_base1_false"], "false of the code for base 1 (last column skipped); proved for base 0; with the value check, rows without duplicate columns")
c("C26", "partial", ["C26_hasZeroDiag_partial", "C26_base1_false"], "false of the code for base 1 (reads past the row pointers); proved for base 0")
c("C27", "proved", ["C27_bandwidth", "C27_averageWidth", "C27_maxDegree"], "every team size, interleaving and reduction tree; exact rational average")
c("C28", "proved", ["C28_equals"], "")
c("C49", "proved", ["C49_constructDiagPtr", "C49_computeInverseDiag", "C49_computeInverseDiag_again"], "base 0 and 1; stated over any One/Div structure, so also for floating point")
c("C52", "proved", ["C52_waxpby"], "every branch and aliasing, over every commutative ring")
c("C09","partial",["C09_transpose_partial","C09_zero_cols_false"],"Proved for every matrix with at least one column, any team size, interleaving and base. Missing: n = 0, where the code returns an object without row pointers (C09_zero_cols_false). The only cell written by several threads is the last row pointer, always with the same value (ConstRule.lean); all other phases are proved with disjoint footprints (par_rule).")
c("C10","partial",["C10_transpose_twice_partial"],"Stable sort of each row; identity on rows ordered by column. Missing: matrices without rows or without columns, where transpose returns an object without row pointers (see C09_zero_cols_false).")
c("C20", "partial", ["C20_splitLU_partial", "C20_ext_base1_false"],
  "Proved for base 0 (with or without external pointers) and base 1 without external pointers, every team size and schedule. Missing case is false of the code: base 1 with extptr reads out of bounds (C20_ext_base1_false), because make0BasedIndexing leaves extptr unshifted.")
c("C11","proved",["C11_dcoo2csr","C11_coo2csr_unsorted"],"Every coordinate list with in-range indices, both bases, with and without sorting, diagptr and separate diagonal data; every interleaving of the parallel loops.")
c("C12","proved",["C12_qsort"],"Termination: recursion depth at most the number of elements. Uses an Equiv.Perm internally; the statement is a list permutation.")
c("C13","partial",["C13_load_general_partial","C13_malformed_partial","C13_csr_constructor_partial","C13_too_many_lines_false"],"Proved: 1-based files and 0-based files (recognised by a zero index) with any pad for 1-based, pattern and transposed loading, rejection of out-of-range coordinates and of missing lines, and the CSR constructor. Missing: a file with more lines than stated writes past its arrays (C13_too_many_lines_false). The file is given as parsed numbers.")
c("C14","partial",["C14_load_symmetric_partial","C14_pattern_symmetric","C14_base0_false"],"Proved for square 1-based files, both flags, any pad. 0-based symmetric files read uninitialised memory (C14_base0_false).")
c("C15","partial",["C13_load_general_partial","C14_load_symmetric_partial","C15_base0_false","C15_empty_symmetric_false"],"Proved for 1-based files (general, and symmetric with at least one entry). False for 0-based files (padding entries shifted) and for symmetric files without entries (out-of-bounds write).")
c("C17","partial",["C17_store_load_partial","C17_store_load_text_partial"],"Structure exact for every matrix and base, also through the text of the file; values come back as fmt v, the result of printing with 16 significant digits and reading again, so exactly those with fmt v = v are preserved. printf and strtod of doubles are parameters.")
c("C16","partial",["C16_store_load_partial","C16_store_unchanged_partial","C16_load_diag","C16_open_fails_base1_false","C16_load_base1_nodiag_false"],"Round trip proved for both bases on both sides. False of the code: storing a 1-based matrix to a file that cannot be opened leaves it 0-based; loading 1-based a matrix with a row without diagonal entry reads an uninitialised diagptr.")
c("C06","partial",["C06_pool_partial","C06_too_large","C06_front_too_large_false","C06_ndebug_false"],"With assertions, for every pool size, alignment and history without size_t overflow in which front requests fit the pool. False of the code: allocateFront larger than the pool (unsigned wrap-around), and every non-fitting allocation when compiled with NDEBUG.")
c("C47","proved",["C47_linear","C47_one_winner","C47_testAndSet","C47_constructor"],"Every number of threads, adaptive client programs and interleavings of byte accesses (sequentially consistent memory).")
c("C24","partial",["C24_laplacian_partial","C24_spd_partial","C24_flat_false","C24_thin_false"],"Proved for every grid with all or none of the dimensions equal to 1, both bases, every schedule; in exact arithmetic the matrix is symmetric positive definite. False of the code otherwise: the row counts test nz for all three dimensions.")
c("C29","partial",["C29_findLevels_partial","C29_two_threads_partial","C29_small_partial","C29_levels_unique","C29_queue_overflow_false"],"Every symmetric pattern, team size and interleaving of the atomic parallel search, as long as a thread's discovery queue cannot overflow (always for one or two threads, and for at most 64 rows). Missing: larger patterns on larger teams, where a thread may write past its share of the queue buffer (C29_queue_overflow_false: 64 threads, 71 rows).")
c("C30", "partial", ["C30_task_partition_partial", "C30_in_memory_partial", "C30_default_cost", "C30_zero_cost_false", "C30_zero_cost_aggregate_ub"], "Every list of levels, team size, barrier and aggregation option; functional model of LevelSchedule.cpp:602-797, and C30_in_memory_partial for the memory-level model (PartMem.lean; every interleaving and race policy, allocated sizes, both permutation assertions). Needs positive row costs (always so for the default cost); with zero costs rows are lost or the shift writes out of bounds: shown false.")
c("C31", "partial", ["C31_task_graph", "C32_built_graph", "C31_in_memory", "C31_library_in_memory", "C31_repeated_entries_false", "C31_barrier_reduction_false"], "Every matrix meeting the documented preconditions (full diagonal, symmetric pattern, columns left of extptr are rows), every partition of its levels, with and without reduction, every order of the concurrent appends. C31_in_memory: memory-level model of all phases of constructTaskGraph_ including its load balancing; every interleaving is free of undefined behaviour and leaves parent lists with that guarantee, for rows without repeated columns (false otherwise: C31_repeated_entries_false). Reduction together with useBarrier is false (the lists of empty tasks have no room, overlap with the next list, and a needed edge is dropped: C31_barrier_reduction_false); parent counts are stored as short in the code, as integers in the model.")
c("C32", "proved", ["C32_reduction", "C32_built_graph"], "Every acyclic task graph; forward and backward order unchanged")
c("C33", "proved", ["C33_library", "C33_C34_library_any_kernel", "C33_forward_p2p", "C33_any_kernel"], "Every schedule built by the (modelled) library for a matrix meeting the documented preconditions; sequentially consistent memory")
c("C34", "proved", ["C34_library", "C33_C34_library_any_kernel", "C34_backward_p2p", "C34_any_kernel"], "as C33; equality with the storage-order reference loop needs exchangeable subtractions (exact arithmetic), the loop over reversed entries is matched exactly")
c("C35", "proved", ["C35_library", "C35_no_deadlock"], "as C33; progress in every reachable state and termination of fair runs")
c("C36", "proved", ["C36_library", "C36_barrier"], "every schedule built with useBarrier; barriers are phase boundaries (justified by C40/C41)")
c("C37", "partial", ["C37_room_partial", "C37_overlap_false"], "False of the code: lists are placed by the lengths of other lists and overwrite each other (two independent rows, two threads). Partial: a list is intact when it fits the room reserved for it, and the last one always is.")
c("C38", "proved", ["C38_library", "C38_reordered", "C38_library_barrier", "C38_reordered_barrier"], "as C33; point-to-point and barriers, exact arithmetic (exchangeable subtractions)")
c("C39", "proved", ["C39_parallel_ilu0", "C39_ref_base_one_ub"], "Every schedule built by the modelled library, sorted rows, base 0 or 1, every interleaving, no arithmetic law used. The sequential comparison routine itself reads rowptr[-1] with base 1 (shown), so it is matched for base 0.")
c("C53", "proved", ["C53_ilu0_reproduces", "C53_parallel_factors"], "Any field, nonzero pivots")
c("C18", "partial", ["C18_permute_partial", "C18_product_partial", "C18_null_debug_false", "C18_sort_novalues_false"], "All cases but two that are false of the code: a null row permutation in a debug build (the assertion dereferences it) and sorting a pattern-only matrix (values moved through a null pointer).")
c("C19", "partial", ["C19_permuteRows_partial", "C19_base1_false"], "False of the code for base 1 (arrays of the result indexed with the base added). Proved for base 0, all optional arrays, every schedule.")
c("C54", "partial", ["C54_permuteColsInPlace_partial", "C54_base1_debug_false", "C54_novalues_false"], "False of the code for base 1 in debug builds (wrong assertion) and for pattern-only matrices without diagonal pointers. Proved otherwise, given a stored diagonal wherever diagonal pointers exist.")
c("C21", "partial", ["C21_symmetricPattern_partial", "C21_base1_false"], "False of the code for base 1 (the slot counters are indexed with the base added: out-of-bounds write). Proved for base 0, every team size and every interleaving of the atomic counters.")
c("C50", "partial", ["C50_banner_partial", "C50_banner_empty", "C50_banner_exact_false", "C50_long_word_false", "C50_format_parse", "C50_is_valid", "C50_size_partial", "C50_size_eof", "C50_size_hang_false", "C50_writers_report_false", "C50_writers_text_partial"], "Text-level model. False of the code: the first word need only begin with the banner and further words are ignored; words of 64 characters overflow a buffer; a size line that is not numeric can loop for ever; the writers always report failure. The rest is proved for every line, comment block and size.")
c("C51", "partial", ["C51_load_partial", "C51_reject", "C51_zero_columns_false"], "Every array text with at least one column; false of the code for zero columns (write before the vector). strtod is a parameter. A malformed size line can loop for ever (C50_size_hang_false).")
c("C42", "partial", ["C42_reduction_partial", "C42_one_core_partial", "C42_idempotent_partial", "C42_separates_partial", "C42_fair_partial", "C42_one_core_false", "C42_overlapping_episodes_false"], "False of the code for a single core (its value is combined with itself) and for episodes that overlap (value slots are not doubled as the flags are). For a single core the exact result is proved (the reduction combined with itself), hence idempotent operations such as max are right for every number of cores. Otherwise proved for two or more cores, any number of threads per core, any number of episodes separated from each other, every interleaving, any commutative monoid. The tables are those that init leaves (C65); LoadImba::wait is C66")
c("C43","partial",["C43_components_partial","C43_one_thread_partial","C43_same_block_iff","C43_lost_union_false","C43_empty_false"],"Every team and interleaving: no undefined behaviour, termination, and a consistent description (smallest roots, sizes, starts, sorted nodes) of an equivalence contained in connectivity; exactly the components for one thread. False of the code for several threads: a plain write after a failed compare-and-swap loses a union (C43_lost_union_false). With no node to classify the function has undefined behaviour (C43_empty_false). With and without the bit vector, both bases.")
c("C44","partial",["C44_connected_partial","C44_one_thread_partial","C44_search_partial","C44_numbering_unique_positions","C44_one_by_one_false","C44_duplicate_entry_false","C44_lost_union_false"],"Every team and interleaving when all rows are connected to row 0; every symmetric pattern with at least two rows and no entry stored twice for one thread; both bases, any size threshold. The team search is proved for any source and team. False of the code: 1x1 with one thread writes outside an array (C44_one_by_one_false); a diagonal entry stored twice is taken for a pair of rows (C44_duplicate_entry_false); several components with several threads can return no permutation at all (C44_lost_union_false).")
c("C46","partial",["C46_room_partial","C46_dense_row_false","C46_one_by_one_false"],"Every matrix with fewer columns than rows, or with no full row, every team size and every interleaving. Missing and false: a full row with at least as many columns as rows (write past the degree sums), and 1x1 with one thread.")
c("C55","partial",["C55_computed_parents_partial","C55_room_partial","C55_overlap_false"],"Proved for the lists as computed (every pattern, partition, option, order of appends), and for the lists handed out wherever they are not overwritten. False of the code for overwritten lists (C37): two independent rows on two threads.")
c("C56","partial",["C56_component_partial","C56_search_partial","C56_pipeline_partial","C45_path_false"],"A whole large component (marks, search, level sizes, placing with spin loops), for every team, distribution of iterations and interleaving: no undefined behaviour, deadlock-free, one result. Not covered because false of the code: a component that needs every row of the matrix as a level (prefix sums and write offsets are one element short).")
c("C57","partial",["C57_select_partial","C57_candidates_false"],"Every team, distribution of iterations and interleaving, when T times the last level of a search is at most the number of rows (always so for one thread). Otherwise false of the code: racing threads queue the last level several times and overflow the candidates.")
c("C45","partial",["C45_one_thread_partial","C45_team_partial","C45_lost_union_false","C45_prefix_false","C45_duplicate_entry_false","C45_path_false"],"One thread: every symmetric pattern without an entry stored twice, both bases, whatever std::sort does with equal degrees; the matrix is restored. Components of PAR_THR rows or more are covered with and without pseudo-diameter source selection. Every team, distribution of iterations and interleaving from exact components on, when the size of a small component + team size <= PAR_THR. False of the code: several threads (a lost union sends a search out of its component; the last slice of the prefix sums is one element short for a path of PAR_THR-1 rows), a diagonal entry stored twice, a matrix that is one long path.")
c("C58","partial",["C58_prefixSum","C58_reorder","C58_parMem","C58_spmv","C58_spmdm","C58_waxpby","C58_barrier_sweeps","C58_p2p_sweeps","C58_ilu0","C58_base_conversion","C58_copy","C58_transpose_partial","C58_permute_partial","C58_permuteRows_partial","C58_permuteColsInPlace","C58_splitLU","C58_laplacian","C58_dcoo2csr","C58_diag","C58_isSymmetric_partial","C58_hasZeroDiag_partial","C58_bandwidth","C58_findLevels_partial","C58_isSymmetric_false","C58_hasZeroDiag_false","C58_transpose_false","C58_permute_false"],"Race freedom in every reachable state of every interleaving for the functions listed; the theorems named _partial allow races on the one cell or counters they name, where the code does race. Not covered: the searches, union-find and spin loops, racy by design.")
c("C59","partial",["C59_write_partial","C59_read_partial","C59_round_trip_partial","C59_unsymmetric_partial","C59_coo_store_load_partial","C59_write_integer","C59_write_integer_false","C59_read_integer_false","C59_full_device_false","C59_unsymmetric_short_false"],"Every coordinate header that is possible and not of integer type, every list of entries with int indices, comments and trailing text. Printing and reading doubles are parameters with the assumption that what is printed is read as one number. False of the code: integer headers, a full device, short files in mm_read_unsymmetric_sparse.")
c("C60","partial",["C60_dot","C60_pcg_partial","C60_converges_partial","C60_error_partial","C60_deterministic","C60_exact_start_false","C60_base1_false"],"pcg_symgs, dot, forwardSolveRef, backwardSolveRef and the scaling of U over exact arithmetic in any ordered field, for every team, sharing and order of the reductions: refinement of the textbook method, no division by zero, true residual, decrease of the energy norm, termination by the criterion within as many steps as there are rows. Needs a starting vector that is not the solution (0/0 otherwise) and a base-0 matrix (reads past the values of U otherwise): both shown. Floating point rounding is not modelled.")
c("C61","partial",["C61_preconditioner","C61_pivots","C61_pcg_ilu0_partial","C61_converges_partial","C61_deterministic","C61_positive_definite_false"],"pcg_ilu0 with everything it calls over exact arithmetic in any ordered field. Symmetry and positive definiteness of the incomplete factors of a symmetric matrix with positive pivots; positivity of the pivots for (weakly) diagonally dominant matrices with non-positive entries off the diagonal; positive definiteness alone is not enough (Kershaw's matrix, shown). Same restrictions as C60: starting vector that is not the solution, base 0. Floating point rounding is not modelled.")
c("C62","partial",["C62_symgs_opt_partial","C62_ilu0_opt_partial","C62_symgs_same_partial","C62_ilu0_same_partial","C62_symgs_converges_partial","C62_ilu0_converges_partial"],"pcg_symgs_opt and pcg_ilu0_opt with everything they call (permutation of the matrix and its factors, reordering of the vectors, point-to-point triangular solves and factorisation, inner products), over exact arithmetic in any ordered field, for every schedule of C30-C32. Missing: base 1 and matrices with external columns, a starting vector that is the solution (C60), floating point rounding; the benign race of permute on the last row pointer (C58) is an explicit hypothesis on the race policy.")
c("C63","partial",["C63_construct_partial","C63_pointers_partial"],"Both public overloads (CSR object, bare arrays), with the diagonal pointers, the symmetry and partial sorting assertions of a debug build, level search, task partition and task graph composed as one script over memory; every matrix, team, cost function, base, options except reduction together with useBarrier (false: C31_barrier_reduction_false). Missing: teams on which a discovery queue may overflow (false in general: C29_queue_overflow_false); the fusion overload.")
c("C64","partial",["C64_release_partial","C64_borrowed_partial","C64_no_leak_partial","C64_wrong_release_false","C64_leak_false","C64_full_false"],"Every history of the 29 calls of Verif/Own.lean. The full property is false of the code: eight histories release wrongly (extptr of an owning matrix, extptr kept across loadBin, foreign diagptr, copy assignment, copies of COO and LevelSchedule, two constructions in the pool, construction in the pool without reduction), ten lose arrays (results of transpose, permute and splitLU, Laplacian into a new matrix, alloc twice, rejected triplet files, schedules constructed twice or without reduction, fused schedules in the pool, diagonal pointers of a pooled matrix). Proved: releases and the caller's arrays for all histories without the former, completeness for all histories without the latter. Missing: allocator reuse of addresses, failed allocations, malformed files in the file constructor.")
c("C65","partial",["C65_barrier_init_partial","C65_barrier_return_partial","C65_reduce_init_partial","C65_reduce_return_partial","C65_many_cores_false","C65_many_threads_false","C65_loadimba_false"],"Both init, with their counting barriers, for every team and interleaving. False of the code: more than 128 threads per core and reducing barriers with pseudo cores numbered above 127 (both kept in int8_t), and the last synchronisation of LoadImba::init, which waits for nobody. Missing: calling init twice on one object.")
c("C66","partial",["C66_latest_partial","C66_stats_partial","C66_after_partial","C66_print_partial","C66_details_partial","C66_reset_partial","C66_overlapping_false","C66_printed_false","C66_unused_false"],"Every number of cores, episodes separated from each other, any number of them, every interleaving. False of the code: consecutive calls with only work between them can be charged the arrival of the next episode, and printLoadImbalance subtracts without a sign. The report of print: the summary line of a barrier shows the extremes and the rounded means of the waits if the totals fit 64 bits, the details every thread's entries, and after reset only later calls count; a barrier never used is reported with a smallest wait of 2^64 - 1. Missing: overlapping episodes, the decimal text of the numbers.")
c("C67","partial",["C67_counts_partial","C67_short_counts_false"],"Exact if the matrix has at most 2^15 rows or the schedule at most 2^15 tasks, for every team, option and order of the concurrent appends. False of the code in general: a matrix with 131080 rows, two threads, default cost; with and without transitive reduction a task with more than 32767 parents gets a negative count and waits for nobody.")
c("C68","partial",["C68_grid_names","C68_bin_names","C68_file_names","C68_grid_partial","C68_bin_partial","C68_text_general_partial","C68_text_symmetric_partial","C68_convert_partial","C68_missing","C68_rejected_false","C68_skew_false","C68_names_false","C68_bin_base1_false"],"Which reader is chosen is characterised for every name; texts for every coordinate header (general, symmetric or forced symmetric; real, complex, integer or pattern), comments, sizes and entries, 1-based or (general, without padding) 0-based; binary files as storeBin writes them; the converter followed by the constructor. False of the code elsewhere: binary files into base 1 without full diagonal (C68_bin_base1_false), 0-based texts that are symmetric (C14) or padded (C15). False of the code: rejected texts (the answer of the loader is ignored), skew-symmetric and Hermitian headers (read as general), names that begin with a large number or are a number.")
c("C69","partial",["C69_simple_partition","C69_simple_partition_only","C69_prefix_partial","C69_prefix_only","C69_transpose_partial","C69_transpose_only","C69_transpose_false","C69_laplacian_partial","C69_laplacian_only","C69_cube","C69_schedule_buffers","C69_schedule_buffers_only","C69_rcm_buffers","C69_bfs_buffers","C69_components_buffers","C69_spmv_partial","C69_spmv_only","C69_bandwidth_partial","C69_bandwidth_only","C69_spmdm_partial","C69_spmdm_only","C69_spmdm_false"],"False as stated: the bucket array of transpose has (n+1)*T elements and overflows for an empty row of 2^24 columns and 128 threads, and the product with a dense matrix cannot address operands of more than 2^31 elements. For the partition, the prefix sums, the generator, the work buffer of a schedule and the arrays of the reorderings the exact bounds are proved (sufficient and necessary), for transpose, the products and the bandwidth a sufficient and a necessary one (for the dense product the necessary one is for a team of one). Not checked: the values stored in counters and sums, increments of loop counters and of make1Based, the other functions.")
c("C70","partial",["C70_bfs_team_partial","C70_one_thread_partial","C70_main_partial","C70_uninitialised_false"],"Breadth-first numbering by any team for matrices whose rows are all connected; every option and any number of components for one thread; then permute, bandwidth and product. Missing: the RCM options with several threads (C45). False of the code: several components with several threads (C44), and the driver multiplies with an array nobody has written.")
c("C71","partial",["C71_construct_partial","C71_same_permutation","C71_borrowed_p2p","C71_borrowed_barrier","C71_reordered_p2p","C71_reordered_barrier"],"Proved for every matrix, team size, cost and option of the modelled construction and every interleaving; the solves on reordered systems in exact arithmetic (exchangeable subtractions). Missing, as in C63: barriers together with transitive reduction, and level searches whose discovery queues overflow.")
c("C72","partial",["C72_convert_partial","C72_one_column_partial","C72_columns_false","C72_short_false"],"Every array text with at least as many numbers as rows: exactly the first numbers are written, all of them for one column, the same vector as C51. False of the code: several columns and complex arrays (the rest is dropped) and missing numbers (an uninitialised variable is stored).")
c("C73","partial",["C73_reorder_partial","C73_no_diagonal_false","C73_vector_unset_false"],"The whole program for every team and interleaving, both bases, exact arithmetic, for matrices with fewer columns than rows or without a full row. Missing: a full row with at least as many columns as rows, and 1x1 with one thread (false, C46), matrices without rows or columns (false, C09). False of the code as well: a matrix read from a text with a row without diagonal entry (permute copies an inverse diagonal that was never set), and the vector of the program, which is never set.")
c("C74","partial",["C74_check_partial","C74_stops","C74_drivers_partial","C74_nan_false","C74_larger_false"],"Every vector of numbers, tolerance and limit; every sequence of checks of vectors of one length. Exact arithmetic: the rounding of the quotient is not modelled. False of the code: a result that is not a number is accepted, and so is any number where infinity is expected; a longer vector is compared with elements beyond the end of the reference.")
c("C75","partial",["C75_blocks_partial","C75_free_partial","C75_alloc_partial","C75_pool_partial","C75_finalize_partial","C75_out_of_memory_false","C75_overflow_false","C75_reinitialize_false","C75_finalised_false"],"Every history of requests up to 2^64 - 4 MB of which mmap or posix_memalign meets each, every order of freeing, every content. False of the code: when both fail the function writes to the address of MAP_FAILED instead of returning null; larger sizes wrap around; initialising a pool twice loses its first memory; a finalised pool keeps its size and answers requests.")
c("C76","partial",["C76_print_partial","C76_equals_partial","C76_isSymmetric_partial","C76_nnz_base1_false","C76_sym_base1_false","C76_print_pattern_false"],"print for every matrix with values, equals for matrices counted from 0 or with equally many entries, isSymmetric for matrices counted from 0; the values of the messages, not the text printf makes of them. False of the code: for matrices counted from 1 the numbers of entries and the positions of asymmetries are one too large; print dereferences the null values of a matrix without values.")
c("C77","partial",["C77_barrier_partial","C77_barrier_unused","C77_reduce_partial","C77_loadimba_partial","C77_loadimba_leak_false","C77_loadimba_unused_false","C77_bad_alloc_false"],"Barrier and ReduceBarrier give back exactly their memory, every number of cores and threads, every interleaving of the allocations of init, every addresses. False of LoadImba: its destructor leaves one structure of every thread in use, and follows pointers never set if init was not called; a constructor that throws leaves the arrays it has in use. Missing: the sizes of the blocks, allocations of init that fail, whose result the code does not test, init called twice.")
c("C78","partial",["C78_first_partial","C78_serial_partial","C78_later_partial","C78_no_race","C78_size_partial","C78_resize_false","C78_loadimba_mic_false"],"Every number of threads and interleaving, inside and outside of a parallel region. False of the code: a team of another size gets the barrier made for the first one, and on the coprocessor the instrumented barrier of 6 threads is made for 4. Missing: deleteInstance while threads use the object, teams of different regions that run at the same time; a call of init is one event here (C65 models it).")
c("C79","proved",["C79_median","C79_no_runs_ub"],"Every linear order of times (no NaN), every sort that permutes into ascending order, every rounding of the quotient. Without a run the access is outside of the array. How the number is formatted is not modelled.")
c("C80","partial",["C80_program_partial","C80_ilu_partial","C80_symgs_opt_partial","C80_ilu_opt_partial","C80_matrix_name_ub"],"Every cube, team, sharing, interleaving, tolerance and limit; exact arithmetic. The four solvers of main, each after the generator; the two on the reordered system for any schedule built by C30 from the levels of C28. Missing: the four runs one after the other in one memory; the construction of the schedule is taken from C30, not run in the same memory. False of the code: with any argument of four characters or more the copied name is not terminated.")
c("C81","proved",["C81_flush","C81_initialize","C81_prepare","C81_repetitions","C81_buffer_unset_ub"],"Exact arithmetic over any commutative ring. C81_repetitions: any number of measured runs of the reference solver of trsv_test, any triangles in either base. C81_buffer_unset_ub: with every team and sharing, flushLlc on the unwritten buffer of the drivers reads memory nobody has written.")
