{
 "claims": [
  {
   "property": "C01",
   "status": "proved",
   "theorems": [
    "SpMP.Props.C01_simple_partition"
   ],
   "note": "all n, T, thread ids"
  },
  {
   "property": "C02",
   "status": "proved",
   "theorems": [
    "SpMP.Props.C02_load_balanced_partition"
   ],
   "note": "includes std::lower_bound as a halving loop, asserts and array bounds; work bound is ceil(total/T) plus the last row"
  },
  {
   "property": "C03",
   "status": "proved",
   "theorems": [
    "SpMP.Props.C03_prefixSum",
    "SpMP.Props.C03_prefixSumMultiple"
   ],
   "note": "all team sizes, vector lengths and interleavings; barriers are phase boundaries"
  },
  {
   "property": "C04",
   "status": "partial",
   "theorems": [
    "SpMP.Props.C04_isPerm_false",
    "SpMP.Props.C04_isPerm_partial"
   ],
   "note": "false of the code: duplicate-free out-of-range arrays such as [5,7] are accepted (release build). Proved: accepts exactly the duplicate-free arrays"
  },
  {
   "property": "C05",
   "status": "proved",
   "theorems": [
    "SpMP.Props.C05_getInversePerm",
    "SpMP.Props.C05_isInversePerm",
    "SpMP.Props.C05_reorder",
    "SpMP.Props.C05_gather_eq_scatter",
    "SpMP.Props.C05_round_trip",
    "SpMP.Props.C05_round_trip_inverse"
   ],
   "note": "one thread per iteration of the parallel-for, all interleavings"
  },
  {
   "property": "C06",
   "status": "partial",
   "theorems": [
    "SpMP.Props.C06_pool_partial",
    "SpMP.Props.C06_too_large",
    "SpMP.Props.C06_front_too_large_false",
    "SpMP.Props.C06_ndebug_false"
   ],
   "note": "With assertions, for every pool size, alignment and history without size_t overflow in which front requests fit the pool. False of the code: allocateFront larger than the pool (unsigned wrap-around), and every non-fitting allocation when compiled with NDEBUG."
  },
  {
   "property": "C07",
   "status": "partial",
   "theorems": [
    "SpMP.Props.C07_base_conversion_partial",
    "SpMP.Props.C07_round_trip",
    "SpMP.Props.C07_idempotent",
    "SpMP.Props.C07_extptr_false"
   ],
   "note": "false of the code for matrices with extptr: the external boundary is not shifted. Proved without extptr; the round trip and idempotence hold with it too"
  },
  {
   "property": "C08",
   "status": "partial",
   "theorems": [
    "SpMP.Props.C08_copy_partial",
    "SpMP.Props.C08_extptr_false"
   ],
   "note": "false of the code for extptr, which the copy constructor drops. Proved for all other arrays"
  },
  {
   "property": "C09",
   "status": "partial",
   "theorems": [
    "SpMP.Props.C09_transpose_partial",
    "SpMP.Props.C09_zero_cols_false"
   ],
   "note": "Proved for every matrix with at least one column, any team size, interleaving and base. Missing: n = 0, where the code returns an object without row pointers (C09_zero_cols_false). The only cell written by several threads is the last row pointer, always with the same value (ConstRule.lean); all other phases are proved with disjoint footprints (par_rule)."
  },
  {
   "property": "C10",
   "status": "partial",
   "theorems": [
    "SpMP.Props.C10_transpose_twice_partial"
   ],
   "note": "Stable sort of each row; identity on rows ordered by column. Missing: matrices without rows or without columns, where transpose returns an object without row pointers (see C09_zero_cols_false)."
  },
  {
   "property": "C11",
   "status": "proved",
   "theorems": [
    "SpMP.Props.C11_dcoo2csr",
    "SpMP.Props.C11_coo2csr_unsorted"
   ],
   "note": "Every coordinate list with in-range indices, both bases, with and without sorting, diagptr and separate diagonal data; every interleaving of the parallel loops."
  },
  {
   "property": "C12",
   "status": "proved",
   "theorems": [
    "SpMP.Props.C12_qsort"
   ],
   "note": "Termination: recursion depth at most the number of elements. Uses an Equiv.Perm internally; the statement is a list permutation."
  },
  {
   "property": "C13",
   "status": "partial",
   "theorems": [
    "SpMP.Props.C13_load_general_partial",
    "SpMP.Props.C13_malformed_partial",
    "SpMP.Props.C13_csr_constructor_partial",
    "SpMP.Props.C13_too_many_lines_false"
   ],
   "note": "Proved: 1-based files and 0-based files (recognised by a zero index) with any pad for 1-based, pattern and transposed loading, rejection of out-of-range coordinates and of missing lines, and the CSR constructor. Missing: a file with more lines than stated writes past its arrays (C13_too_many_lines_false). The file is given as parsed numbers."
  },
  {
   "property": "C14",
   "status": "partial",
   "theorems": [
    "SpMP.Props.C14_load_symmetric_partial",
    "SpMP.Props.C14_pattern_symmetric",
    "SpMP.Props.C14_base0_false"
   ],
   "note": "Proved for square 1-based files, both flags, any pad. 0-based symmetric files read uninitialised memory (C14_base0_false)."
  },
  {
   "property": "C15",
   "status": "partial",
   "theorems": [
    "SpMP.Props.C13_load_general_partial",
    "SpMP.Props.C14_load_symmetric_partial",
    "SpMP.Props.C15_base0_false",
    "SpMP.Props.C15_empty_symmetric_false"
   ],
   "note": "Proved for 1-based files (general, and symmetric with at least one entry). False for 0-based files (padding entries shifted) and for symmetric files without entries (out-of-bounds write)."
  },
  {
   "property": "C16",
   "status": "partial",
   "theorems": [
    "SpMP.Props.C16_store_load_partial",
    "SpMP.Props.C16_store_unchanged_partial",
    "SpMP.Props.C16_load_diag",
    "SpMP.Props.C16_open_fails_base1_false",
    "SpMP.Props.C16_load_base1_nodiag_false"
   ],
   "note": "Round trip proved for both bases on both sides. False of the code: storing a 1-based matrix to a file that cannot be opened leaves it 0-based; loading 1-based a matrix with a row without diagonal entry reads an uninitialised diagptr."
  },
  {
   "property": "C17",
   "status": "partial",
   "theorems": [
    "SpMP.Props.C17_store_load_partial",
    "SpMP.Props.C17_store_load_text_partial"
   ],
   "note": "Structure exact for every matrix and base, also through the text of the file; values come back as fmt v, the result of printing with 16 significant digits and reading again, so exactly those with fmt v = v are preserved. printf and strtod of doubles are parameters."
  },
  {
   "property": "C18",
   "status": "partial",
   "theorems": [
    "SpMP.Props.C18_permute_partial",
    "SpMP.Props.C18_product_partial",
    "SpMP.Props.C18_null_debug_false",
    "SpMP.Props.C18_sort_novalues_false"
   ],
   "note": "All cases but two that are false of the code: a null row permutation in a debug build (the assertion dereferences it) and sorting a pattern-only matrix (values moved through a null pointer)."
  },
  {
   "property": "C19",
   "status": "partial",
   "theorems": [
    "SpMP.Props.C19_permuteRows_partial",
    "SpMP.Props.C19_base1_false"
   ],
   "note": "False of the code for base 1 (arrays of the result indexed with the base added). Proved for base 0, all optional arrays, every schedule."
  },
  {
   "property": "C20",
   "status": "partial",
   "theorems": [
    "SpMP.Props.C20_splitLU_partial",
    "SpMP.Props.C20_ext_base1_false"
   ],
   "note": "Proved for base 0 (with or without external pointers) and base 1 without external pointers, every team size and schedule. Missing case is false of the code: base 1 with extptr reads out of bounds (C20_ext_base1_false), because make0BasedIndexing leaves extptr unshifted."
  },
  {
   "property": "C21",
   "status": "partial",
   "theorems": [
    "SpMP.Props.C21_symmetricPattern_partial",
    "SpMP.Props.C21_base1_false"
   ],
   "note": "False of the code for base 1 (the slot counters are indexed with the base added: out-of-bounds write). Proved for base 0, every team size and every interleaving of the atomic counters."
  },
  {
   "property": "C22",
   "status": "partial",
   "theorems": [
    "SpMP.Props.C22_spmv_partial",
    "SpMP.Props.C22_spmv_plain",
    "SpMP.Props.C22_alias_false"
   ],
   "note": "false of the code for w == x when the matrix has more columns than rows (only m elements of x are saved); proved for everything else, over every commutative ring"
  },
  {
   "property": "C23",
   "status": "partial",
   "theorems": [
    "SpMP.Props.C23_spmdm_partial",
    "SpMP.Props.C23_stride_false"
   ],
   "note": "false of the code for base 1 with row strides other than 1; proved otherwise, over every commutative ring"
  },
  {
   "property": "C24",
   "status": "partial",
   "theorems": [
    "SpMP.Props.C24_laplacian_partial",
    "SpMP.Props.C24_spd_partial",
    "SpMP.Props.C24_flat_false",
    "SpMP.Props.C24_thin_false"
   ],
   "note": "Proved for every grid with all or none of the dimensions equal to 1, both bases, every schedule; in exact arithmetic the matrix is symmetric positive definite. False of the code otherwise: the row counts test nz for all three dimensions."
  },
  {
   "property": "C25",
   "status": "partial",
   "theorems": [
    "SpMP.Props.C25_isSymmetric_partial",
    "SpMP.Props.C25_base1_false"
   ],
   "note": "false of the code for base 1 (last column skipped); proved for base 0; with the value check, rows without duplicate columns"
  },
  {
   "property": "C26",
   "status": "partial",
   "theorems": [
    "SpMP.Props.C26_hasZeroDiag_partial",
    "SpMP.Props.C26_base1_false"
   ],
   "note": "false of the code for base 1 (reads past the row pointers); proved for base 0"
  },
  {
   "property": "C27",
   "status": "proved",
   "theorems": [
    "SpMP.Props.C27_bandwidth",
    "SpMP.Props.C27_averageWidth",
    "SpMP.Props.C27_maxDegree"
   ],
   "note": "every team size, interleaving and reduction tree; exact rational average"
  },
  {
   "property": "C28",
   "status": "proved",
   "theorems": [
    "SpMP.Props.C28_equals"
   ],
   "note": ""
  },
  {
   "property": "C29",
   "status": "partial",
   "theorems": [
    "SpMP.Props.C29_findLevels_partial",
    "SpMP.Props.C29_two_threads_partial",
    "SpMP.Props.C29_small_partial",
    "SpMP.Props.C29_levels_unique",
    "SpMP.Props.C29_queue_overflow_false"
   ],
   "note": "Every symmetric pattern, team size and interleaving of the atomic parallel search, as long as a thread's discovery queue cannot overflow (always for one or two threads, and for at most 64 rows). Missing: larger patterns on larger teams, where a thread may write past its share of the queue buffer (C29_queue_overflow_false: 64 threads, 71 rows)."
  },
  {
   "property": "C30",
   "status": "partial",
   "theorems": [
    "SpMP.Props.C30_task_partition_partial",
    "SpMP.Props.C30_in_memory_partial",
    "SpMP.Props.C30_default_cost",
    "SpMP.Props.C30_zero_cost_false",
    "SpMP.Props.C30_zero_cost_aggregate_ub"
   ],
   "note": "Every list of levels, team size, barrier and aggregation option; functional model of LevelSchedule.cpp:602-797, and C30_in_memory_partial for the memory-level model (PartMem.lean; every interleaving and race policy, allocated sizes, both permutation assertions). Needs positive row costs (always so for the default cost); with zero costs rows are lost or the shift writes out of bounds: shown false."
  },
  {
   "property": "C31",
   "status": "partial",
   "theorems": [
    "SpMP.Props.C31_task_graph",
    "SpMP.Props.C32_built_graph",
    "SpMP.Props.C31_in_memory",
    "SpMP.Props.C31_library_in_memory",
    "SpMP.Props.C31_repeated_entries_false",
    "SpMP.Props.C31_barrier_reduction_false"
   ],
   "note": "Every matrix meeting the documented preconditions (full diagonal, symmetric pattern, columns left of extptr are rows), every partition of its levels, with and without reduction, every order of the concurrent appends. C31_in_memory: memory-level model of all phases of constructTaskGraph_ including its load balancing; every interleaving is free of undefined behaviour and leaves parent lists with that guarantee, for rows without repeated columns (false otherwise: C31_repeated_entries_false). Reduction together with useBarrier is false (the lists of empty tasks have no room, overlap with the next list, and a needed edge is dropped: C31_barrier_reduction_false); parent counts are stored as short in the code, as integers in the model."
  },
  {
   "property": "C32",
   "status": "proved",
   "theorems": [
    "SpMP.Props.C32_reduction",
    "SpMP.Props.C32_built_graph"
   ],
   "note": "Every acyclic task graph; forward and backward order unchanged"
  },
  {
   "property": "C33",
   "status": "proved",
   "theorems": [
    "SpMP.Props.C33_library",
    "SpMP.Props.C33_C34_library_any_kernel",
    "SpMP.Props.C33_forward_p2p",
    "SpMP.Props.C33_any_kernel"
   ],
   "note": "Every schedule built by the (modelled) library for a matrix meeting the documented preconditions; sequentially consistent memory"
  },
  {
   "property": "C34",
   "status": "proved",
   "theorems": [
    "SpMP.Props.C34_library",
    "SpMP.Props.C33_C34_library_any_kernel",
    "SpMP.Props.C34_backward_p2p",
    "SpMP.Props.C34_any_kernel"
   ],
   "note": "as C33; equality with the storage-order reference loop needs exchangeable subtractions (exact arithmetic), the loop over reversed entries is matched exactly"
  },
  {
   "property": "C35",
   "status": "proved",
   "theorems": [
    "SpMP.Props.C35_library",
    "SpMP.Props.C35_no_deadlock"
   ],
   "note": "as C33; progress in every reachable state and termination of fair runs"
  },
  {
   "property": "C36",
   "status": "proved",
   "theorems": [
    "SpMP.Props.C36_library",
    "SpMP.Props.C36_barrier"
   ],
   "note": "every schedule built with useBarrier; barriers are phase boundaries (justified by C40/C41)"
  },
  {
   "property": "C37",
   "status": "partial",
   "theorems": [
    "SpMP.Props.C37_room_partial",
    "SpMP.Props.C37_overlap_false"
   ],
   "note": "False of the code: lists are placed by the lengths of other lists and overwrite each other (two independent rows, two threads). Partial: a list is intact when it fits the room reserved for it, and the last one always is."
  },
  {
   "property": "C38",
   "status": "proved",
   "theorems": [
    "SpMP.Props.C38_library",
    "SpMP.Props.C38_reordered",
    "SpMP.Props.C38_library_barrier",
    "SpMP.Props.C38_reordered_barrier"
   ],
   "note": "as C33; point-to-point and barriers, exact arithmetic (exchangeable subtractions)"
  },
  {
   "property": "C39",
   "status": "proved",
   "theorems": [
    "SpMP.Props.C39_parallel_ilu0",
    "SpMP.Props.C39_ref_base_one_ub"
   ],
   "note": "Every schedule built by the modelled library, sorted rows, base 0 or 1, every interleaving, no arithmetic law used. The sequential comparison routine itself reads rowptr[-1] with base 1 (shown), so it is matched for base 0."
  },
  {
   "property": "C40",
   "status": "proved",
   "theorems": [
    "SpMP.Props.C40_barrier_separates",
    "SpMP.Props.C40_one_episode_apart",
    "SpMP.Props.C40_mcrt_false"
   ],
   "note": "all core counts, threads per core, episode counts and interleavings, for lgNumCores = ceil(log2(numCores)); with USE_MCRT the rounding is wrong and the property is refuted"
  },
  {
   "property": "C41",
   "status": "proved",
   "theorems": [
    "SpMP.Props.C41_no_deadlock",
    "SpMP.Props.C41_not_stuck",
    "SpMP.Props.C41_fair_termination"
   ],
   "note": "progress from every reachable state, no access out of bounds, termination of every fair run"
  },
  {
   "property": "C42",
   "status": "partial",
   "theorems": [
    "SpMP.Props.C42_reduction_partial",
    "SpMP.Props.C42_one_core_partial",
    "SpMP.Props.C42_idempotent_partial",
    "SpMP.Props.C42_separates_partial",
    "SpMP.Props.C42_fair_partial",
    "SpMP.Props.C42_one_core_false",
    "SpMP.Props.C42_overlapping_episodes_false"
   ],
   "note": "False of the code for a single core (its value is combined with itself) and for episodes that overlap (value slots are not doubled as the flags are). For a single core the exact result is proved (the reduction combined with itself), hence idempotent operations such as max are right for every number of cores. Otherwise proved for two or more cores, any number of threads per core, any number of episodes separated from each other, every interleaving, any commutative monoid. The tables are those that init leaves (C65); LoadImba::wait is C66"
  },
  {
   "property": "C43",
   "status": "partial",
   "theorems": [
    "SpMP.Props.C43_components_partial",
    "SpMP.Props.C43_one_thread_partial",
    "SpMP.Props.C43_same_block_iff",
    "SpMP.Props.C43_lost_union_false",
    "SpMP.Props.C43_empty_false"
   ],
   "note": "Every team and interleaving: no undefined behaviour, termination, and a consistent description (smallest roots, sizes, starts, sorted nodes) of an equivalence contained in connectivity; exactly the components for one thread. False of the code for several threads: a plain write after a failed compare-and-swap loses a union (C43_lost_union_false). With no node to classify the function has undefined behaviour (C43_empty_false). With and without the bit vector, both bases."
  },
  {
   "property": "C44",
   "status": "partial",
   "theorems": [
    "SpMP.Props.C44_connected_partial",
    "SpMP.Props.C44_one_thread_partial",
    "SpMP.Props.C44_search_partial",
    "SpMP.Props.C44_numbering_unique_positions",
    "SpMP.Props.C44_one_by_one_false",
    "SpMP.Props.C44_duplicate_entry_false",
    "SpMP.Props.C44_lost_union_false"
   ],
   "note": "Every team and interleaving when all rows are connected to row 0; every symmetric pattern with at least two rows and no entry stored twice for one thread; both bases, any size threshold. The team search is proved for any source and team. False of the code: 1x1 with one thread writes outside an array (C44_one_by_one_false); a diagonal entry stored twice is taken for a pair of rows (C44_duplicate_entry_false); several components with several threads can return no permutation at all (C44_lost_union_false)."
  },
  {
   "property": "C45",
   "status": "partial",
   "theorems": [
    "SpMP.Props.C45_one_thread_partial",
    "SpMP.Props.C45_team_partial",
    "SpMP.Props.C45_lost_union_false",
    "SpMP.Props.C45_prefix_false",
    "SpMP.Props.C45_duplicate_entry_false",
    "SpMP.Props.C45_path_false"
   ],
   "note": "One thread: every symmetric pattern without an entry stored twice, both bases, whatever std::sort does with equal degrees; the matrix is restored. Components of PAR_THR rows or more are covered with and without pseudo-diameter source selection. Every team, distribution of iterations and interleaving from exact components on, when the size of a small component + team size <= PAR_THR. False of the code: several threads (a lost union sends a search out of its component; the last slice of the prefix sums is one element short for a path of PAR_THR-1 rows), a diagonal entry stored twice, a matrix that is one long path."
  },
  {
   "property": "C46",
   "status": "partial",
   "theorems": [
    "SpMP.Props.C46_room_partial",
    "SpMP.Props.C46_dense_row_false",
    "SpMP.Props.C46_one_by_one_false"
   ],
   "note": "Every matrix with fewer columns than rows, or with no full row, every team size and every interleaving. Missing and false: a full row with at least as many columns as rows (write past the degree sums), and 1x1 with one thread."
  },
  {
   "property": "C47",
   "status": "proved",
   "theorems": [
    "SpMP.Props.C47_linear",
    "SpMP.Props.C47_one_winner",
    "SpMP.Props.C47_testAndSet",
    "SpMP.Props.C47_constructor"
   ],
   "note": "Every number of threads, adaptive client programs and interleavings of byte accesses (sequentially consistent memory)."
  },
  {
   "property": "C48",
   "status": "partial",
   "theorems": [
    "SpMP.Props.C48_parMemset_false",
    "SpMP.Props.C48_parMemset_partial",
    "SpMP.Props.C48_parMemcpy_partial"
   ],
   "note": "false for n >= 2^31 (int arithmetic on a size_t count); proved for every n < 2^31"
  },
  {
   "property": "C49",
   "status": "proved",
   "theorems": [
    "SpMP.Props.C49_constructDiagPtr",
    "SpMP.Props.C49_computeInverseDiag",
    "SpMP.Props.C49_computeInverseDiag_again"
   ],
   "note": "base 0 and 1; stated over any One/Div structure, so also for floating point"
  },
  {
   "property": "C50",
   "status": "partial",
   "theorems": [
    "SpMP.Props.C50_banner_partial",
    "SpMP.Props.C50_banner_empty",
    "SpMP.Props.C50_banner_exact_false",
    "SpMP.Props.C50_long_word_false",
    "SpMP.Props.C50_format_parse",
    "SpMP.Props.C50_is_valid",
    "SpMP.Props.C50_size_partial",
    "SpMP.Props.C50_size_eof",
    "SpMP.Props.C50_size_hang_false",
    "SpMP.Props.C50_writers_report_false",
    "SpMP.Props.C50_writers_text_partial"
   ],
   "note": "Text-level model. False of the code: the first word need only begin with the banner and further words are ignored; words of 64 characters overflow a buffer; a size line that is not numeric can loop for ever; the writers always report failure. The rest is proved for every line, comment block and size."
  },
  {
   "property": "C51",
   "status": "partial",
   "theorems": [
    "SpMP.Props.C51_load_partial",
    "SpMP.Props.C51_reject",
    "SpMP.Props.C51_zero_columns_false"
   ],
   "note": "Every array text with at least one column; false of the code for zero columns (write before the vector). strtod is a parameter. A malformed size line can loop for ever (C50_size_hang_false)."
  },
  {
   "property": "C52",
   "status": "proved",
   "theorems": [
    "SpMP.Props.C52_waxpby"
   ],
   "note": "every branch and aliasing, over every commutative ring"
  },
  {
   "property": "C53",
   "status": "proved",
   "theorems": [
    "SpMP.Props.C53_ilu0_reproduces",
    "SpMP.Props.C53_parallel_factors"
   ],
   "note": "Any field, nonzero pivots"
  },
  {
   "property": "C54",
   "status": "partial",
   "theorems": [
    "SpMP.Props.C54_permuteColsInPlace_partial",
    "SpMP.Props.C54_base1_debug_false",
    "SpMP.Props.C54_novalues_false"
   ],
   "note": "False of the code for base 1 in debug builds (wrong assertion) and for pattern-only matrices without diagonal pointers. Proved otherwise, given a stored diagonal wherever diagonal pointers exist."
  },
  {
   "property": "C55",
   "status": "partial",
   "theorems": [
    "SpMP.Props.C55_computed_parents_partial",
    "SpMP.Props.C55_room_partial",
    "SpMP.Props.C55_overlap_false"
   ],
   "note": "Proved for the lists as computed (every pattern, partition, option, order of appends), and for the lists handed out wherever they are not overwritten. False of the code for overwritten lists (C37): two independent rows on two threads."
  },
  {
   "property": "C56",
   "status": "partial",
   "theorems": [
    "SpMP.Props.C56_component_partial",
    "SpMP.Props.C56_search_partial",
    "SpMP.Props.C56_pipeline_partial",
    "SpMP.Props.C45_path_false"
   ],
   "note": "A whole large component (marks, search, level sizes, placing with spin loops), for every team, distribution of iterations and interleaving: no undefined behaviour, deadlock-free, one result. Not covered because false of the code: a component that needs every row of the matrix as a level (prefix sums and write offsets are one element short)."
  },
  {
   "property": "C57",
   "status": "partial",
   "theorems": [
    "SpMP.Props.C57_select_partial",
    "SpMP.Props.C57_candidates_false"
   ],
   "note": "Every team, distribution of iterations and interleaving, when T times the last level of a search is at most the number of rows (always so for one thread). Otherwise false of the code: racing threads queue the last level several times and overflow the candidates."
  },
  {
   "property": "C58",
   "status": "partial",
   "theorems": [
    "SpMP.Props.C58_prefixSum",
    "SpMP.Props.C58_reorder",
    "SpMP.Props.C58_parMem",
    "SpMP.Props.C58_spmv",
    "SpMP.Props.C58_spmdm",
    "SpMP.Props.C58_waxpby",
    "SpMP.Props.C58_barrier_sweeps",
    "SpMP.Props.C58_p2p_sweeps",
    "SpMP.Props.C58_ilu0",
    "SpMP.Props.C58_base_conversion",
    "SpMP.Props.C58_copy",
    "SpMP.Props.C58_transpose_partial",
    "SpMP.Props.C58_permute_partial",
    "SpMP.Props.C58_permuteRows_partial",
    "SpMP.Props.C58_permuteColsInPlace",
    "SpMP.Props.C58_splitLU",
    "SpMP.Props.C58_laplacian",
    "SpMP.Props.C58_dcoo2csr",
    "SpMP.Props.C58_diag",
    "SpMP.Props.C58_isSymmetric_partial",
    "SpMP.Props.C58_hasZeroDiag_partial",
    "SpMP.Props.C58_bandwidth",
    "SpMP.Props.C58_findLevels_partial",
    "SpMP.Props.C58_isSymmetric_false",
    "SpMP.Props.C58_hasZeroDiag_false",
    "SpMP.Props.C58_transpose_false",
    "SpMP.Props.C58_permute_false"
   ],
   "note": "Race freedom in every reachable state of every interleaving for the functions listed; the theorems named _partial allow races on the one cell or counters they name, where the code does race. Not covered: the searches, union-find and spin loops, racy by design."
  },
  {
   "property": "C59",
   "status": "partial",
   "theorems": [
    "SpMP.Props.C59_write_partial",
    "SpMP.Props.C59_read_partial",
    "SpMP.Props.C59_round_trip_partial",
    "SpMP.Props.C59_unsymmetric_partial",
    "SpMP.Props.C59_coo_store_load_partial",
    "SpMP.Props.C59_write_integer",
    "SpMP.Props.C59_write_integer_false",
    "SpMP.Props.C59_read_integer_false",
    "SpMP.Props.C59_full_device_false",
    "SpMP.Props.C59_unsymmetric_short_false"
   ],
   "note": "Every coordinate header that is possible and not of integer type, every list of entries with int indices, comments and trailing text. Printing and reading doubles are parameters with the assumption that what is printed is read as one number. False of the code: integer headers, a full device, short files in mm_read_unsymmetric_sparse."
  },
  {
   "property": "C60",
   "status": "partial",
   "theorems": [
    "SpMP.Props.C60_dot",
    "SpMP.Props.C60_pcg_partial",
    "SpMP.Props.C60_converges_partial",
    "SpMP.Props.C60_error_partial",
    "SpMP.Props.C60_deterministic",
    "SpMP.Props.C60_exact_start_false",
    "SpMP.Props.C60_base1_false"
   ],
   "note": "pcg_symgs, dot, forwardSolveRef, backwardSolveRef and the scaling of U over exact arithmetic in any ordered field, for every team, sharing and order of the reductions: refinement of the textbook method, no division by zero, true residual, decrease of the energy norm, termination by the criterion within as many steps as there are rows. Needs a starting vector that is not the solution (0/0 otherwise) and a base-0 matrix (reads past the values of U otherwise): both shown. Floating point rounding is not modelled."
  },
  {
   "property": "C61",
   "status": "partial",
   "theorems": [
    "SpMP.Props.C61_preconditioner",
    "SpMP.Props.C61_pivots",
    "SpMP.Props.C61_pcg_ilu0_partial",
    "SpMP.Props.C61_converges_partial",
    "SpMP.Props.C61_deterministic",
    "SpMP.Props.C61_positive_definite_false"
   ],
   "note": "pcg_ilu0 with everything it calls over exact arithmetic in any ordered field. Symmetry and positive definiteness of the incomplete factors of a symmetric matrix with positive pivots; positivity of the pivots for (weakly) diagonally dominant matrices with non-positive entries off the diagonal; positive definiteness alone is not enough (Kershaw's matrix, shown). Same restrictions as C60: starting vector that is not the solution, base 0. Floating point rounding is not modelled."
  },
  {
   "property": "C62",
   "status": "partial",
   "theorems": [
    "SpMP.Props.C62_symgs_opt_partial",
    "SpMP.Props.C62_ilu0_opt_partial",
    "SpMP.Props.C62_symgs_same_partial",
    "SpMP.Props.C62_ilu0_same_partial",
    "SpMP.Props.C62_symgs_converges_partial",
    "SpMP.Props.C62_ilu0_converges_partial"
   ],
   "note": "pcg_symgs_opt and pcg_ilu0_opt with everything they call (permutation of the matrix and its factors, reordering of the vectors, point-to-point triangular solves and factorisation, inner products), over exact arithmetic in any ordered field, for every schedule of C30-C32. Missing: base 1 and matrices with external columns, a starting vector that is the solution (C60), floating point rounding; the benign race of permute on the last row pointer (C58) is an explicit hypothesis on the race policy."
  },
  {
   "property": "C63",
   "status": "partial",
   "theorems": [
    "SpMP.Props.C63_construct_partial",
    "SpMP.Props.C63_pointers_partial"
   ],
   "note": "Both public overloads (CSR object, bare arrays), with the diagonal pointers, the symmetry and partial sorting assertions of a debug build, level search, task partition and task graph composed as one script over memory; every matrix, team, cost function, base, options except reduction together with useBarrier (false: C31_barrier_reduction_false). Missing: teams on which a discovery queue may overflow (false in general: C29_queue_overflow_false); the fusion overload."
  },
  {
   "property": "C64",
   "status": "partial",
   "theorems": [
    "SpMP.Props.C64_release_partial",
    "SpMP.Props.C64_borrowed_partial",
    "SpMP.Props.C64_no_leak_partial",
    "SpMP.Props.C64_wrong_release_false",
    "SpMP.Props.C64_leak_false",
    "SpMP.Props.C64_full_false"
   ],
   "note": "Every history of the 29 calls of Verif/Own.lean. The full property is false of the code: eight histories release wrongly (extptr of an owning matrix, extptr kept across loadBin, foreign diagptr, copy assignment, copies of COO and LevelSchedule, two constructions in the pool, construction in the pool without reduction), ten lose arrays (results of transpose, permute and splitLU, Laplacian into a new matrix, alloc twice, rejected triplet files, schedules constructed twice or without reduction, fused schedules in the pool, diagonal pointers of a pooled matrix). Proved: releases and the caller's arrays for all histories without the former, completeness for all histories without the latter. Missing: allocator reuse of addresses, failed allocations, malformed files in the file constructor."
  },
  {
   "property": "C65",
   "status": "partial",
   "theorems": [
    "SpMP.Props.C65_barrier_init_partial",
    "SpMP.Props.C65_barrier_return_partial",
    "SpMP.Props.C65_reduce_init_partial",
    "SpMP.Props.C65_reduce_return_partial",
    "SpMP.Props.C65_many_cores_false",
    "SpMP.Props.C65_many_threads_false",
    "SpMP.Props.C65_loadimba_false"
   ],
   "note": "Both init, with their counting barriers, for every team and interleaving. False of the code: more than 128 threads per core and reducing barriers with pseudo cores numbered above 127 (both kept in int8_t), and the last synchronisation of LoadImba::init, which waits for nobody. Missing: calling init twice on one object."
  },
  {
   "property": "C66",
   "status": "partial",
   "theorems": [
    "SpMP.Props.C66_latest_partial",
    "SpMP.Props.C66_stats_partial",
    "SpMP.Props.C66_after_partial",
    "SpMP.Props.C66_print_partial",
    "SpMP.Props.C66_details_partial",
    "SpMP.Props.C66_reset_partial",
    "SpMP.Props.C66_overlapping_false",
    "SpMP.Props.C66_printed_false",
    "SpMP.Props.C66_unused_false"
   ],
   "note": "Every number of cores, episodes separated from each other, any number of them, every interleaving. False of the code: consecutive calls with only work between them can be charged the arrival of the next episode, and printLoadImbalance subtracts without a sign. The report of print: the summary line of a barrier shows the extremes and the rounded means of the waits if the totals fit 64 bits, the details every thread's entries, and after reset only later calls count; a barrier never used is reported with a smallest wait of 2^64 - 1. Missing: overlapping episodes, the decimal text of the numbers."
  },
  {
   "property": "C67",
   "status": "partial",
   "theorems": [
    "SpMP.Props.C67_counts_partial",
    "SpMP.Props.C67_short_counts_false"
   ],
   "note": "Exact if the matrix has at most 2^15 rows or the schedule at most 2^15 tasks, for every team, option and order of the concurrent appends. False of the code in general: a matrix with 131080 rows, two threads, default cost; with and without transitive reduction a task with more than 32767 parents gets a negative count and waits for nobody."
  },
  {
   "property": "C68",
   "status": "partial",
   "theorems": [
    "SpMP.Props.C68_grid_names",
    "SpMP.Props.C68_bin_names",
    "SpMP.Props.C68_file_names",
    "SpMP.Props.C68_grid_partial",
    "SpMP.Props.C68_bin_partial",
    "SpMP.Props.C68_text_general_partial",
    "SpMP.Props.C68_text_symmetric_partial",
    "SpMP.Props.C68_convert_partial",
    "SpMP.Props.C68_missing",
    "SpMP.Props.C68_rejected_false",
    "SpMP.Props.C68_skew_false",
    "SpMP.Props.C68_names_false",
    "SpMP.Props.C68_bin_base1_false"
   ],
   "note": "Which reader is chosen is characterised for every name; texts for every coordinate header (general, symmetric or forced symmetric; real, complex, integer or pattern), comments, sizes and entries, 1-based or (general, without padding) 0-based; binary files as storeBin writes them; the converter followed by the constructor. False of the code elsewhere: binary files into base 1 without full diagonal (C68_bin_base1_false), 0-based texts that are symmetric (C14) or padded (C15). False of the code: rejected texts (the answer of the loader is ignored), skew-symmetric and Hermitian headers (read as general), names that begin with a large number or are a number."
  },
  {
   "property": "C69",
   "status": "partial",
   "theorems": [
    "SpMP.Props.C69_simple_partition",
    "SpMP.Props.C69_simple_partition_only",
    "SpMP.Props.C69_prefix_partial",
    "SpMP.Props.C69_prefix_only",
    "SpMP.Props.C69_transpose_partial",
    "SpMP.Props.C69_transpose_only",
    "SpMP.Props.C69_transpose_false",
    "SpMP.Props.C69_laplacian_partial",
    "SpMP.Props.C69_laplacian_only",
    "SpMP.Props.C69_cube",
    "SpMP.Props.C69_schedule_buffers",
    "SpMP.Props.C69_schedule_buffers_only",
    "SpMP.Props.C69_rcm_buffers",
    "SpMP.Props.C69_bfs_buffers",
    "SpMP.Props.C69_components_buffers",
    "SpMP.Props.C69_spmv_partial",
    "SpMP.Props.C69_spmv_only",
    "SpMP.Props.C69_bandwidth_partial",
    "SpMP.Props.C69_bandwidth_only",
    "SpMP.Props.C69_spmdm_partial",
    "SpMP.Props.C69_spmdm_only",
    "SpMP.Props.C69_spmdm_false"
   ],
   "note": "False as stated: the bucket array of transpose has (n+1)*T elements and overflows for an empty row of 2^24 columns and 128 threads, and the product with a dense matrix cannot address operands of more than 2^31 elements. For the partition, the prefix sums, the generator, the work buffer of a schedule and the arrays of the reorderings the exact bounds are proved (sufficient and necessary), for transpose, the products and the bandwidth a sufficient and a necessary one (for the dense product the necessary one is for a team of one). Not checked: the values stored in counters and sums, increments of loop counters and of make1Based, the other functions."
  },
  {
   "property": "C70",
   "status": "partial",
   "theorems": [
    "SpMP.Props.C70_bfs_team_partial",
    "SpMP.Props.C70_one_thread_partial",
    "SpMP.Props.C70_main_partial",
    "SpMP.Props.C70_uninitialised_false"
   ],
   "note": "Breadth-first numbering by any team for matrices whose rows are all connected; every option and any number of components for one thread; then permute, bandwidth and product. Missing: the RCM options with several threads (C45). False of the code: several components with several threads (C44), and the driver multiplies with an array nobody has written."
  },
  {
   "property": "C71",
   "status": "partial",
   "theorems": [
    "SpMP.Props.C71_construct_partial",
    "SpMP.Props.C71_same_permutation",
    "SpMP.Props.C71_borrowed_p2p",
    "SpMP.Props.C71_borrowed_barrier",
    "SpMP.Props.C71_reordered_p2p",
    "SpMP.Props.C71_reordered_barrier"
   ],
   "note": "Proved for every matrix, team size, cost and option of the modelled construction and every interleaving; the solves on reordered systems in exact arithmetic (exchangeable subtractions). Missing, as in C63: barriers together with transitive reduction, and level searches whose discovery queues overflow."
  },
  {
   "property": "C72",
   "status": "partial",
   "theorems": [
    "SpMP.Props.C72_convert_partial",
    "SpMP.Props.C72_one_column_partial",
    "SpMP.Props.C72_columns_false",
    "SpMP.Props.C72_short_false"
   ],
   "note": "Every array text with at least as many numbers as rows: exactly the first numbers are written, all of them for one column, the same vector as C51. False of the code: several columns and complex arrays (the rest is dropped) and missing numbers (an uninitialised variable is stored)."
  },
  {
   "property": "C73",
   "status": "partial",
   "theorems": [
    "SpMP.Props.C73_reorder_partial",
    "SpMP.Props.C73_no_diagonal_false",
    "SpMP.Props.C73_vector_unset_false"
   ],
   "note": "The whole program for every team and interleaving, both bases, exact arithmetic, for matrices with fewer columns than rows or without a full row. Missing: a full row with at least as many columns as rows, and 1x1 with one thread (false, C46), matrices without rows or columns (false, C09). False of the code as well: a matrix read from a text with a row without diagonal entry (permute copies an inverse diagonal that was never set), and the vector of the program, which is never set."
  },
  {
   "property": "C74",
   "status": "partial",
   "theorems": [
    "SpMP.Props.C74_check_partial",
    "SpMP.Props.C74_stops",
    "SpMP.Props.C74_drivers_partial",
    "SpMP.Props.C74_nan_false",
    "SpMP.Props.C74_larger_false"
   ],
   "note": "Every vector of numbers, tolerance and limit; every sequence of checks of vectors of one length. Exact arithmetic: the rounding of the quotient is not modelled. False of the code: a result that is not a number is accepted, and so is any number where infinity is expected; a longer vector is compared with elements beyond the end of the reference."
  },
  {
   "property": "C75",
   "status": "partial",
   "theorems": [
    "SpMP.Props.C75_blocks_partial",
    "SpMP.Props.C75_free_partial",
    "SpMP.Props.C75_alloc_partial",
    "SpMP.Props.C75_pool_partial",
    "SpMP.Props.C75_finalize_partial",
    "SpMP.Props.C75_out_of_memory_false",
    "SpMP.Props.C75_overflow_false",
    "SpMP.Props.C75_reinitialize_false",
    "SpMP.Props.C75_finalised_false"
   ],
   "note": "Every history of requests up to 2^64 - 4 MB of which mmap or posix_memalign meets each, every order of freeing, every content. False of the code: when both fail the function writes to the address of MAP_FAILED instead of returning null; larger sizes wrap around; initialising a pool twice loses its first memory; a finalised pool keeps its size and answers requests."
  },
  {
   "property": "C76",
   "status": "partial",
   "theorems": [
    "SpMP.Props.C76_print_partial",
    "SpMP.Props.C76_equals_partial",
    "SpMP.Props.C76_isSymmetric_partial",
    "SpMP.Props.C76_nnz_base1_false",
    "SpMP.Props.C76_sym_base1_false",
    "SpMP.Props.C76_print_pattern_false"
   ],
   "note": "print for every matrix with values, equals for matrices counted from 0 or with equally many entries, isSymmetric for matrices counted from 0; the values of the messages, not the text printf makes of them. False of the code: for matrices counted from 1 the numbers of entries and the positions of asymmetries are one too large; print dereferences the null values of a matrix without values."
  },
  {
   "property": "C77",
   "status": "partial",
   "theorems": [
    "SpMP.Props.C77_barrier_partial",
    "SpMP.Props.C77_barrier_unused",
    "SpMP.Props.C77_reduce_partial",
    "SpMP.Props.C77_loadimba_partial",
    "SpMP.Props.C77_loadimba_leak_false",
    "SpMP.Props.C77_loadimba_unused_false",
    "SpMP.Props.C77_bad_alloc_false"
   ],
   "note": "Barrier and ReduceBarrier give back exactly their memory, every number of cores and threads, every interleaving of the allocations of init, every addresses. False of LoadImba: its destructor leaves one structure of every thread in use, and follows pointers never set if init was not called; a constructor that throws leaves the arrays it has in use. Missing: the sizes of the blocks, allocations of init that fail, whose result the code does not test, init called twice."
  },
  {
   "property": "C78",
   "status": "partial",
   "theorems": [
    "SpMP.Props.C78_first_partial",
    "SpMP.Props.C78_serial_partial",
    "SpMP.Props.C78_later_partial",
    "SpMP.Props.C78_no_race",
    "SpMP.Props.C78_size_partial",
    "SpMP.Props.C78_resize_false",
    "SpMP.Props.C78_loadimba_mic_false"
   ],
   "note": "Every number of threads and interleaving, inside and outside of a parallel region. False of the code: a team of another size gets the barrier made for the first one, and on the coprocessor the instrumented barrier of 6 threads is made for 4. Missing: deleteInstance while threads use the object, teams of different regions that run at the same time; a call of init is one event here (C65 models it)."
  },
  {
   "property": "C79",
   "status": "proved",
   "theorems": [
    "SpMP.Props.C79_median",
    "SpMP.Props.C79_no_runs_ub"
   ],
   "note": "Every linear order of times (no NaN), every sort that permutes into ascending order, every rounding of the quotient. Without a run the access is outside of the array. How the number is formatted is not modelled."
  },
  {
   "property": "C80",
   "status": "partial",
   "theorems": [
    "SpMP.Props.C80_program_partial",
    "SpMP.Props.C80_ilu_partial",
    "SpMP.Props.C80_symgs_opt_partial",
    "SpMP.Props.C80_ilu_opt_partial",
    "SpMP.Props.C80_matrix_name_ub"
   ],
   "note": "Every cube, team, sharing, interleaving, tolerance and limit; exact arithmetic. The four solvers of main, each after the generator; the two on the reordered system for any schedule built by C30 from the levels of C28. Missing: the four runs one after the other in one memory; the construction of the schedule is taken from C30, not run in the same memory. False of the code: with any argument of four characters or more the copied name is not terminated."
  },
  {
   "property": "C81",
   "status": "proved",
   "theorems": [
    "SpMP.Props.C81_flush",
    "SpMP.Props.C81_initialize",
    "SpMP.Props.C81_prepare",
    "SpMP.Props.C81_repetitions",
    "SpMP.Props.C81_buffer_unset_ub"
   ],
   "note": "Exact arithmetic over any commutative ring. C81_repetitions: any number of measured runs of the reference solver of trsv_test, any triangles in either base. C81_buffer_unset_ub: with every team and sharing, flushLlc on the unwritten buffer of the drivers reads memory nobody has written."
  }
 ]
}