{"id": "C01", "title": "Simple thread partition tiles the range", "statement": "In a team of T threads, the [begin,end) ranges that getSimpleThreadPartition hands to thread 0..T-1 for n items are inside [0,n], are ordered, do not overlap, and together contain every item exactly once; no thread gets more than ceil(n/T) items.", "quantifier": "every n >= 0, every team size T >= 1, every thread id", "why_tests_cant": "infinitely many (n,T) pairs, including T>n and n not divisible by T", "anchors": ["Utils.cpp:getSimpleThreadPartition"]}
{"id": "C02", "title": "Load-balanced partition tiles the rows", "statement": "For a non-decreasing prefix sum of per-row work, the ranges getLoadBalancedPartition hands to the threads are inside [0,n], ordered, do not overlap and cover every row exactly once; the work given to a thread is at most ceil(total/T) plus the cost of its last row.", "quantifier": "every prefix-sum array (any base value), every n, every team size, every thread id", "why_tests_cant": "unbounded inputs; rows with zero cost, one giant row, T>n are corner cases that interact", "anchors": ["Utils.cpp:getLoadBalancedPartition"]}
{"id": "C03", "title": "Team prefix sums are exclusive scans under every schedule", "statement": "When every thread of a team calls prefixSum (prefixSumMultiple) with its own value (vector), each thread gets back exactly the sum over all lower thread ids, the caller-visible total is the sum over all threads, and no interleaving of the threads' memory accesses reads unwritten or concurrently written memory.", "quantifier": "every team size, every input value per thread, every vector length, every interleaving", "why_tests_cant": "schedules cannot be enumerated by a test", "anchors": ["PrefixSum.cpp:prefixSum", "PrefixSum.cpp:prefixSumMultiple"]}
{"id": "C04", "title": "isPerm decides permutations", "statement": "isPerm(perm,n) returns true exactly when perm is a permutation of 0..n-1.", "quantifier": "every integer array of every length", "why_tests_cant": "infinite input domain", "anchors": ["Utils.cpp:isPerm", "Utils.hpp:isPerm"]}
{"id": "C05", "title": "Inverse permutation and vector reordering round-trip", "statement": "For a permutation perm, getInversePerm produces the inverse (isInversePerm accepts it, and only arrays that invert perm are accepted), reordering a vector by perm puts element i at perm[i], reordering by the inverse afterwards restores the vector, and gathering by the inverse permutation equals scattering by the permutation, for any schedule of the parallel loop.", "quantifier": "every permutation, every vector, every team size and schedule", "why_tests_cant": "all permutations of all sizes and all schedules", "anchors": ["Utils.cpp:getInversePerm", "Utils.cpp:isInversePerm", "Utils.cpp:reorderVector_", "Utils.cpp:reorderVectorOutOfPlace_"]}
{"id": "C06", "title": "Memory pool never hands out overlapping live blocks", "statement": "Starting from an initialised pool, after any sequence of allocate, allocateFront, setHead, setTail and deallocateAll calls that the pool accepts, all live blocks lie inside the pool, are pairwise disjoint and contain() recognises every byte of them; an allocation that does not fit is rejected rather than overlapping.", "quantifier": "every pool size, every alignment and every history of pool operations", "why_tests_cant": "histories are unbounded; wrap-around of the ring buffer needs specific sequences", "anchors": ["MemoryPool.cpp:allocate", "MemoryPool.cpp:allocateFront", "MemoryPool.cpp:setHead", "MemoryPool.cpp:setTail", "MemoryPool.cpp:contains"]}
{"id": "C07", "title": "Index-base conversion preserves the matrix and round-trips", "statement": "make1BasedIndexing and make0BasedIndexing change only the index base: the represented matrix (rows, columns, values, diagonal positions, external-column boundary) is the same, they are idempotent, and converting there and back restores every stored index.", "quantifier": "every CSR matrix with base 0 or 1, every schedule of the parallel loops", "why_tests_cant": "all matrices", "anchors": ["CSR.cpp:make0BasedIndexing", "CSR.cpp:make1BasedIndexing"]}
{"id": "C08", "title": "Copying a matrix yields an equal, independent matrix", "statement": "The copy constructor produces a matrix with the same dimensions, base, entries, diagonal data and external-column boundary as the source, stored in fresh memory, so that later writes to either do not affect the other.", "quantifier": "every CSR matrix and every later write", "why_tests_cant": "all matrices and write histories", "anchors": ["CSR.cpp:CSR::CSR(const CSR&)"]}
{"id": "C09", "title": "Transpose moves entry (i,j,v) to (j,i,v), for every team size and schedule", "statement": "transpose() returns a matrix with n rows and m columns whose stored entries are exactly the stored entries (i,j,v) of A turned into (j,i,v) with the same multiplicity, with the same base, and with every row ordered by column; no thread reads or writes outside the arrays or races with another thread.", "quantifier": "every well-formed CSR matrix (empty rows, duplicates, base 0/1), every team size, every interleaving", "why_tests_cant": "the three-stage parallel prefix sum behaves differently for each (n, threads) pair and schedule", "anchors": ["CSR.cpp:transpose"]}
{"id": "C10", "title": "Transposing twice sorts the rows and changes nothing else", "statement": "A.transpose()->transpose() has the same dimensions, base and, row by row, the same entries as A with each row stably sorted by column; in particular it equals A when A's rows are sorted.", "quantifier": "every well-formed CSR matrix and every team size for each of the two calls", "why_tests_cant": "all matrices", "anchors": ["CSR.cpp:transpose", "CSR.cpp:equals"]}
{"id": "C11", "title": "COO to CSR conversion keeps every entry exactly once", "statement": "dcoo2csr turns a coordinate list into a CSR matrix whose row r holds exactly the (column,value) pairs listed for row r with the same multiplicity, sorted by column when sorting is requested, with row pointers starting at 0 and ending at nnz and with diagptr pointing at a diagonal entry of every row that has one.", "quantifier": "every coordinate list with in-range 1-based indices, any order, any duplicates", "why_tests_cant": "all coordinate lists", "anchors": ["COO.cpp:coo2csr", "COO.cpp:dcoo2csr"]}
{"id": "C12", "title": "The companion quicksort sorts keys and carries values along", "statement": "The key/value sort used by the COO conversion terminates, leaves the key range in non-decreasing order, and permutes keys and values together so that the multiset of (key,value) pairs is unchanged; elements outside the range are untouched.", "quantifier": "every key and value array and every sub-range", "why_tests_cant": "all arrays including duplicates, sorted and reversed inputs", "anchors": ["COO.cpp:qsort"]}
{"id": "C13", "title": "Loading a general Matrix Market file yields exactly the listed entries", "statement": "loadMatrixMarket of a well-formed 'general' coordinate file returns true and a matrix of the stated size whose stored entries are exactly the listed lines (pattern files get value 1), for 1-based and 0-based files; malformed size/count returns false without producing a matrix or touching memory it does not own.", "quantifier": "every file content (header, entry lines, line count, declared base)", "why_tests_cant": "unbounded file contents, including malformed ones", "anchors": ["COO.cpp:loadMatrixMarket_", "COO.cpp:loadMatrixMarket", "mm_io.cpp:mm_read_mtx_crd_entry"]}
{"id": "C14", "title": "Loading a symmetric (or force_symmetric) file yields a symmetric pattern without inventing duplicates", "statement": "For a symmetric file or with force_symmetric, the loaded matrix contains every listed entry once, and for every listed off-diagonal entry (x,y) whose mirror (y,x) is not listed it contains the mirror with the same value exactly once; nothing else is added, so the pattern is symmetric.", "quantifier": "every well-formed file, both flags", "why_tests_cant": "all entry lists in all orders, including files listing both triangles", "anchors": ["COO.cpp:loadMatrixMarket_"]}
{"id": "C15", "title": "Padding appends only unit diagonal rows", "statement": "Loading with pad p rounds the dimensions up to multiples of p, keeps every original entry and adds exactly the entries (i,i,1) for the padded diagonal positions.", "quantifier": "every file and every pad value >= 1", "why_tests_cant": "all sizes modulo all pads", "anchors": ["COO.cpp:loadMatrixMarket_"]}
{"id": "C16", "title": "Binary store/load round-trips", "statement": "storeBin followed by loadBin (with either base) gives back the same dimensions, row structure, columns and values; storeBin leaves the in-memory matrix (including its base) unchanged whether or not the file can be opened.", "quantifier": "every CSR matrix, both bases, both outcomes of opening the file", "why_tests_cant": "all matrices; failure path", "anchors": ["CSR.cpp:storeBin", "CSR.cpp:loadBin"]}
{"id": "C17", "title": "Matrix Market store/load round-trips", "statement": "Writing a matrix with storeMatrixMarket and loading it back gives a matrix with the same size and the same entries, each row sorted by column.", "quantifier": "every CSR matrix with base 0 or 1", "why_tests_cant": "all matrices", "anchors": ["CSR.cpp:storeMatrixMarket", "COO.cpp:loadMatrixMarket"]}
{"id": "C18", "title": "permute relabels rows and columns and nothing else", "statement": "permute(columnPerm, rowInversePerm, sort) returns a matrix of the same size and base whose entries are (r', columnPerm[c], v) for the source entries (r, c, v) with rowInversePerm[r'] = r (external entries keep their column); inside a row the order is the source order, or by column if sort is requested, local part before external part; the diagonal pointer marks the relabelled diagonal entry, inverse diagonal and external pointer follow the row; the source is unchanged; every schedule, no out-of-bounds access. Consequently the permuted matrix times the permuted vector is the permuted product.", "quantifier": "every CSR matrix of either base, with or without external part, every pair of permutations (a null row permutation standing for the identity), sort on/off, with/without values, every team size and interleaving", "why_tests_cant": "all permutations of all matrices and schedules", "anchors": ["Permute.cpp:permuteMain_", "Permute.cpp:permuteRowptr", "Permute.cpp:permute"]}
{"id": "C19", "title": "permuteRows reorders whole rows", "statement": "permuteRows(inversePerm) returns a matrix whose row r is the source row inversePerm[r], unchanged and in the same order, with the same base.", "quantifier": "every CSR matrix, base 0 or 1, every permutation, every team size", "why_tests_cant": "all permutations of all matrices", "anchors": ["Permute.cpp:permuteRowsMain_", "Permute.cpp:permuteRows"]}
{"id": "C20", "title": "splitLU splits into strict triangles losslessly", "statement": "splitLU(A,L,U) gives L holding exactly the entries of A strictly below the diagonal and U exactly those strictly above (external columns go to U), each row in source order, both carrying A's inverse diagonal; A itself is unchanged; for every team size and schedule without out-of-bounds access.", "quantifier": "every square-local CSR matrix with optional external columns, base 0 or 1, every team size and interleaving", "why_tests_cant": "all matrices", "anchors": ["SymGS.cpp:splitLU"]}
{"id": "C21", "title": "getSymmetricNnzPattern returns the symmetric closure of the pattern", "statement": "getSymmetricNnzPattern returns true exactly when the local pattern of A is symmetric; otherwise it returns a sorted row structure holding (i,j) exactly when A stores (i,j) or (j,i), with diagonal and external pointers that point at the diagonal and at the first external column; the result is the same for every interleaving of the atomic counters.", "quantifier": "every CSR matrix with sorted duplicate-free rows, base 0 or 1, every team size and interleaving", "why_tests_cant": "fetch-and-add order differs per run", "anchors": ["SymGS.cpp:getSymmetricNnzPattern"]}
{"id": "C22", "title": "SpMV computes w = alpha*A*x + beta*y + gamma on every branch", "statement": "multiplyWithVector writes w[i] = alpha*sum_j A[i][j]*x[j] + beta*y[i] + gamma for every row, whichever specialised branch (alpha, beta, gamma special values, pattern-only matrices) is taken, including when w aliases x or y; over exact arithmetic; for every team size and schedule.", "quantifier": "every CSR matrix, vectors, scalars, aliasing choice, team size, interleaving", "why_tests_cant": "all scalars select different branches; aliasing", "anchors": ["SpMV.cpp:SpMV_", "CSR.hpp:multiplyWithVector"]}
{"id": "C23", "title": "Sparse times dense matrix equals column-by-column SpMV", "statement": "multiplyWithDenseMatrix writes W = alpha*A*X + beta*Y + gamma entrywise for dense operands with arbitrary row/column strides, so each column equals the SpMV of that column, for base 0 and 1.", "quantifier": "every CSR matrix, number of columns, strides, scalars", "why_tests_cant": "all shapes and strides", "anchors": ["SpMV.cpp:SpMDM_", "CSR.hpp:multiplyWithDenseMatrix"]}
{"id": "C24", "title": "The 27-point Laplacian generator produces the 27-point stencil matrix", "statement": "generate3D27PtLaplacian(nx,ny,nz) stores in row (ix,iy,iz) exactly one entry for every grid point within distance one in each coordinate: 26 on the diagonal and -1 elsewhere, sorted, with consistent row pointers, so that the matrix is symmetric.", "quantifier": "every grid size nx,ny,nz >= 1 and both bases", "why_tests_cant": "all grid sizes, degenerate dimensions", "anchors": ["Laplacian.cpp:generate3D27PtLaplacian"]}
{"id": "C25", "title": "isSymmetric decides structural and value symmetry", "statement": "isSymmetric(checkValues) returns true exactly when for every stored off-diagonal local entry (i,j) the entry (j,i) is stored (and carries the same value when values are checked).", "quantifier": "every CSR matrix, base 0 or 1, both flags", "why_tests_cant": "all matrices", "anchors": ["CSR.cpp:isSymmetric"]}
{"id": "C26", "title": "hasZeroDiag reports exactly the missing or zero diagonals", "statement": "hasZeroDiag returns true exactly when some row has no stored diagonal entry with a nonzero value.", "quantifier": "every CSR matrix, base 0 or 1, every team size", "why_tests_cant": "all matrices", "anchors": ["CSR.cpp:hasZeroDiag"]}
{"id": "C27", "title": "Bandwidth, width and degree metrics are the true maxima", "statement": "getBandwidth returns the largest |i-j| over stored entries, getMaxDegree the largest row length, and getAverageWidth the mean over rows of (max column - min column) as defined by the code, independent of schedule.", "quantifier": "every CSR matrix and every reduction order", "why_tests_cant": "all matrices", "anchors": ["CSR.cpp:getBandwidth", "CSR.cpp:getAverageWidth", "CSR.cpp:getMaxDegree"]}
{"id": "C28", "title": "equals accepts exactly identical matrices", "statement": "equals(B) returns true exactly when A and B have the same base, dimensions, row pointers, column indices and values.", "quantifier": "every pair of CSR matrices", "why_tests_cant": "all pairs", "anchors": ["CSR.cpp:equals"]}
{"id": "C29", "title": "Level construction is a valid, minimal level decomposition", "statement": "The level structure found for a symmetric pattern contains every row exactly once, every row's lower neighbours are in strictly earlier levels, and the level of a row is the length of the longest dependency chain ending in it (so the number of levels is minimal); independent of team size and schedule.", "quantifier": "every symmetric sparsity pattern with full diagonal, every team size and interleaving of the parallel level search", "why_tests_cant": "the discovery order inside a level depends on the schedule", "anchors": ["LevelSchedule.cpp:findLevels_", "LevelSchedule.cpp:constructTaskGraph"]}
{"id": "C30", "title": "Task partition covers every row exactly once, in thread-contiguous order", "statement": "After constructTaskGraph, taskBoundaries and threadBoundaries are monotone and tile [0,m) and [0,ntasks); threadContToOrigPerm and origToThreadContPerm are inverse permutations; every task lies inside one level and a thread's tasks are in increasing level order.", "quantifier": "every pattern, cost function, team size and option (barrier, vectorisation aggregation)", "why_tests_cant": "all inputs and team sizes", "anchors": ["LevelSchedule.cpp:findLevels_", "LevelSchedule.hpp:LevelSchedule"]}
{"id": "C31", "title": "The task graph captures every dependency", "statement": "For every row dependency j -> i (stored lower entry) whose rows are in different tasks, waiting for the listed forward parents and for the same thread's earlier tasks guarantees that j's task finished before i's task starts; symmetrically for the backward parents. Parents are acyclic with respect to task levels.", "quantifier": "every pattern, team size and option setting", "why_tests_cant": "all graphs", "anchors": ["LevelSchedule.cpp:constructTaskGraph_"]}
{"id": "C32", "title": "Transitive reduction preserves ordering", "statement": "Dropping a forward or backward parent edge during transitive reduction never loses an ordering: whenever task a had to precede task b before the reduction, it still does through the remaining edges and same-thread order.", "quantifier": "every task graph", "why_tests_cant": "all graphs", "anchors": ["LevelSchedule.cpp:constructTaskGraph_"]}
{"id": "C33", "title": "Forward point-to-point execution equals the sequential sweep under every interleaving", "statement": "Running a forward Gauss-Seidel-like loop with the schedule (wait on parents, execute the task's rows, notify) produces, for every interleaving, exactly the values of the sequential loop over rows 0..m-1, with no data race on the solution vector.", "quantifier": "every schedule object built by the library, every row kernel that reads only stored neighbours, every interleaving", "why_tests_cant": "interleavings are unbounded", "anchors": ["LevelSchedule.hpp:SPMP_LEVEL_SCHEDULE_WAIT", "LevelSchedule.hpp:SPMP_LEVEL_SCHEDULE_NOTIFY", "test/gs_test.cpp:forwardGS", "test/trsv_test.cpp:forwardSolve"]}
{"id": "C34", "title": "Backward point-to-point execution equals the sequential backward sweep under every interleaving", "statement": "Running a backward loop with the schedule's backward parents, tasks and rows in reverse order, produces for every interleaving exactly the values of the sequential loop over rows m-1..0.", "quantifier": "every schedule object built by the library, every row kernel that reads only stored neighbours, every interleaving", "why_tests_cant": "interleavings are unbounded", "anchors": ["LevelSchedule.hpp:SPMP_LEVEL_SCHEDULE_WAIT", "test/gs_test.cpp:backwardGS", "test/trsv_test.cpp:backwardSolve"]}
{"id": "C35", "title": "Point-to-point execution never deadlocks", "statement": "From every reachable state of a forward or backward point-to-point execution in which some task is unfinished, some thread can make progress; every fair execution finishes all tasks.", "quantifier": "every schedule built by the library, every reachable state", "why_tests_cant": "deadlock depends on schedule and graph", "anchors": ["LevelSchedule.hpp:SPMP_LEVEL_SCHEDULE_WAIT", "LevelSchedule.cpp:constructTaskGraph_"]}
{"id": "C36", "title": "Barrier-mode execution equals the sequential sweep", "statement": "With useBarrier, executing task k of every thread between two barriers gives the sequential forward (or, reversed, backward) sweep; all threads execute the same number of barriers.", "quantifier": "every pattern, team size and interleaving between barriers", "why_tests_cant": "interleavings are unbounded", "anchors": ["LevelSchedule.cpp:findLevels_", "test/gs_test.cpp:forwardGSWithBarrier", "test/trsv_test.cpp:forwardSolveWithBarrier"]}
{"id": "C37", "title": "Fused forward/backward schedules keep their parent lists intact", "statement": "With fusion enabled, the parent lists handed to the fused execution are exactly the ones computed for each task (no list is overwritten by another task's list).", "quantifier": "every pattern and team size", "why_tests_cant": "memory overlap shows up only for some graphs", "anchors": ["LevelSchedule.cpp:constructTaskGraph_"]}
{"id": "C38", "title": "Solving the reordered system equals reordering the solution", "statement": "Permuting the matrix and right-hand side with the schedule's permutations, running the sweep on the reordered matrix over the task ranges, and permuting back gives the same solution as the unpermuted sweep.", "quantifier": "every matrix and every schedule built by the library", "why_tests_cant": "all matrices", "anchors": ["test/gs_test.cpp:forwardGSWithReorderedMatrix", "test/trsv_test.cpp:forwardSolveWithReorderedMatrix", "Permute.cpp:permute"]}
{"id": "C39", "title": "Scheduled ILU(0) equals sequential ILU(0)", "statement": "The parallel ilu0 example driven by a LevelSchedule computes, for every interleaving, exactly the factors of the sequential row-by-row elimination.", "quantifier": "every matrix with symmetric pattern and every interleaving", "why_tests_cant": "interleavings are unbounded", "anchors": ["test/pcg.cpp:ilu0", "test/pcg.cpp:ilu0_ref"]}
{"id": "C40", "title": "The dissemination barrier separates episodes", "statement": "No thread returns from its k-th Barrier::wait before every thread has called its k-th wait, for any number of consecutive episodes, any number of cores and threads per core.", "quantifier": "every number of cores and threads per core, every episode count, every interleaving", "why_tests_cant": "re-use of flags across episodes is only unsafe in rare interleavings", "anchors": ["synk/barrier.cpp:Barrier::wait", "synk/barrier.cpp:Barrier::init", "synk/synk.cpp:Synk::Synk"]}
{"id": "C41", "title": "The dissemination barrier does not deadlock", "statement": "If every thread calls wait the same number of times, no reachable state is stuck before all calls have returned.", "quantifier": "every number of cores and threads per core, every reachable state", "why_tests_cant": "stuck states depend on interleaving", "anchors": ["synk/barrier.cpp:Barrier::wait"]}
{"id": "C42", "title": "The reducing barrier returns the reduction of all threads' values to every thread", "statement": "Each ReduceBarrier::wait returns, to every thread, the reduction (with an associative, commutative operation and its zero) of exactly the values all threads passed to that episode.", "quantifier": "every number of cores and threads, every episode count, every interleaving", "why_tests_cant": "value slots are reused across episodes", "anchors": ["synk/reduce.hpp:ReduceBarrier::wait", "synk/loadimba.cpp:LoadImba::wait"]}
{"id": "C43", "title": "Connected components are the graph's components", "statement": "findConnectedComponents assigns two rows of a symmetric pattern to the same component exactly when a path connects them; the component sizes, roots (smallest member) and the list of nodes sorted by component are consistent; for every interleaving of the union operations.", "quantifier": "every symmetric pattern, every team size and interleaving", "why_tests_cant": "lost unions need a specific interleaving", "anchors": ["reordering/ConnectedComponents.cpp:findConnectedComponents_"]}
{"id": "C44", "title": "BFS reordering is a permutation in breadth-first order", "statement": "getBFSPermutation returns perm and inversePerm that are inverse permutations of 0..m-1, and inside each component rows are numbered in non-decreasing distance from the component's source.", "quantifier": "every symmetric pattern, every team size", "why_tests_cant": "all graphs", "anchors": ["reordering/RCM.cpp:getBFSPermutation", "reordering/RCM.cpp:bfs_serial_", "reordering/RCM.cpp:bfs_"]}
{"id": "C45", "title": "RCM reordering is a permutation in reverse Cuthill-McKee order", "statement": "getRCMPermutation returns perm and inversePerm that are inverse permutations; reversed, the numbering of every component is a Cuthill-McKee order: breadth first, children in order of their parents and sorted by degree.", "quantifier": "every symmetric pattern", "why_tests_cant": "all graphs", "anchors": ["reordering/RCM.cpp:getRCMPermutation", "reordering/RCM.cpp:getMinDegreeNode"]}
{"id": "C46", "title": "Bipartite BFS reordering yields row and column permutations", "statement": "bfsBipartite returns row and column permutations with their inverses, numbering every row and every column exactly once, without writing outside its work arrays.", "quantifier": "every matrix and its transpose, every team size", "why_tests_cant": "all matrices", "anchors": ["reordering/BFSBipartite.cpp:bfsBipartite", "reordering/BFSBipartite.cpp:bfs"]}
{"id": "C47", "title": "Concurrent testAndSet has exactly one winner per element", "statement": "When any number of threads call testAndSet on the same element of a BitVector, exactly one of the calls that happen after the last clear returns true, and get returns the last state set, for every interleaving.", "quantifier": "every number of threads, elements and interleavings", "why_tests_cant": "races", "anchors": ["reordering/BitVector.hpp:BitVector"]}
{"id": "C48", "title": "parMemset and parMemcpy touch exactly the requested bytes", "statement": "parMemset (parMemcpy) called outside or inside a parallel region fills (copies) exactly bytes 0..n-1, each written by one thread of the team.", "quantifier": "every byte count, team size and schedule", "why_tests_cant": "all sizes modulo 64 and team sizes", "anchors": ["Utils.cpp:parMemset", "Utils.cpp:parMemcpy"]}
{"id": "C49", "title": "computeInverseDiag and constructDiagPtr find the diagonal", "statement": "For a matrix whose rows are sorted and contain the diagonal, constructDiagPtr points at the diagonal entry of each row and computeInverseDiag stores exactly the reciprocal of the stored diagonal value, for base 0 and 1.", "quantifier": "every matrix", "why_tests_cant": "all matrices", "anchors": ["CSR.cpp:computeInverseDiag", "CSR.cpp:constructDiagPtr"]}
{"id": "C50", "title": "Matrix Market banner and size parsing", "statement": "mm_read_banner accepts exactly the five-token headers with a known object, format, field and symmetry, case-insensitively; formatting the resulting type code and parsing it again gives the same code; mm_is_valid rejects exactly the documented impossible combinations; the writer functions report success exactly when the text was written.", "quantifier": "every header line", "why_tests_cant": "all header lines", "anchors": ["mm_io.cpp:mm_read_banner", "mm_io.cpp:mm_typecode_to_str", "mm_io.cpp:mm_is_valid", "mm_io.cpp:mm_write_banner", "mm_io.cpp:mm_write_mtx_crd_size"]}
{"id": "C51", "title": "Dense vector loading returns the file's numbers in order", "statement": "loadVectorMatrixMarket of a well-formed array file returns the vector with the stated dimensions and the values in file order; malformed files are reported without producing a vector.", "quantifier": "every file content", "why_tests_cant": "all file contents", "anchors": ["Vector.cpp:loadVectorMatrixMarket"]}
{"id": "C52", "title": "waxpby computes alpha*x + beta*y on every branch", "statement": "The PCG example's waxpby writes w = alpha*x + beta*y elementwise for every alpha and beta, including when w aliases x or y.", "quantifier": "every length, vectors, scalars, aliasing", "why_tests_cant": "branches selected by scalars", "anchors": ["test/pcg.cpp:waxpby"]}
{"id": "C53", "title": "ILU(0) factors reproduce the matrix on its pattern", "statement": "If no pivot vanishes, the factors left by ilu0 (unit lower factor, upper factor) multiply to the matrix at every stored position, in exact arithmetic, for every interleaving of the scheduled factorisation.", "quantifier": "every square part with full diagonal, symmetric pattern and sorted rows, every schedule the library builds for it, every interleaving", "why_tests_cant": "ranges over all matrices and interleavings; tests compare two runs of the same algorithm", "anchors": ["test/pcg.cpp:ilu0", "test/pcg.cpp:ilu0_ref"]}
{"id": "C54", "title": "permuteColsInPlace relabels columns in place", "statement": "permuteColsInPlace(perm) keeps the row pointers and the external part of each row and replaces every local column c by perm[c]. Without diagonal pointers each local part is then sorted by column; with diagonal pointers the diagonal entry keeps its position, the pointer marks it, and the entries before and after it are sorted by column. Values move with their column and nothing else changes.", "quantifier": "every CSR matrix of either base, with or without values, external part and diagonal pointers, every column permutation, every schedule, debug and release builds", "why_tests_cant": "all permutations of all matrices, bases and optional arrays", "anchors": ["Permute.cpp:permuteColsInPlace_", "Permute.cpp:CSR::permuteColsInPlace"]}
{"id": "C55", "title": "Parents of a fused SpMV task suffice", "statement": "With fusion enabled, once the backward Gauss-Seidel steps of the parents listed for an SpMV task have finished, every Gauss-Seidel task that owns a row whose value the SpMV task reads (any stored local column of any of its rows, its own row included) has finished its backward step.", "quantifier": "every symmetric pattern, partition into tasks, team size, reduction option and interleaving of the concurrent list appends", "why_tests_cant": "a missing edge shows up only for some graphs and only under some timings", "anchors": ["LevelSchedule.cpp:constructTaskGraph_", "LevelSchedule.hpp:FusedGSAndSpMVSchedule"]}
{"id": "C56", "title": "Large components: the pipelined reverse Cuthill-McKee numbering", "statement": "When getRCMPermutation numbers a connected component of PAR_THR rows or more, whose levels are placed concurrently by threads that spin on each other's progress, every thread finishes, and the component's rows get the positions of one reverse Cuthill-McKee order that depends only on the pattern, the source row and the order std::sort gives rows of equal degree, not on the number of threads or their timing.", "quantifier": "every pattern, component, source, number of threads and interleaving", "why_tests_cant": "a lost hand-over or a deadlock needs a particular interleaving of spinning threads", "anchors": ["RCM.cpp:getRCMPermutation", "RCM.cpp:bfs_", "RCM.cpp:prefixSumOfLevels"]}
{"id": "C57", "title": "Source selection for reverse Cuthill-McKee ends with a far row of the component", "statement": "When getRCMPermutation selects the source of a large connected component by pseudo diameter, the selection ends, accesses nothing outside its arrays, and returns a row of that component from which some row is at least as far away as any row is from a row of smallest degree in the component; only work arrays and the component's marks change.", "quantifier": "every symmetric pattern, component, number of threads, distribution of iterations and interleaving", "why_tests_cant": "termination of the restart loop and the races of the searches depend on the graph and the timing", "anchors": ["reordering/RCM.cpp:selectSourcesWithPseudoDiameter", "reordering/RCM.cpp:getMinDegreeNode", "reordering/RCM.cpp:bfs"]}
{"id": "C58", "title": "Parallel operations have no data races", "statement": "While a parallel operation runs, no two of its threads are ever about to access the same memory cell at the same time unless both accesses are reads or both are atomic, so the result does not depend on how the compiler and the hardware order plain memory accesses.", "quantifier": "every input that meets the operation's contract, number of threads, distribution of iterations and reachable state of every interleaving", "why_tests_cant": "a race shows only for some timings, compilers and machines; race detectors see only the executions they are given", "anchors": ["CSR.cpp:CSR::transpose", "CSR.cpp:CSR::permute", "CSR.cpp:CSR::multiplyWithVector", "CSR.cpp:CSR::isSymmetric", "CSR.cpp:CSR::hasZeroDiag", "LevelSchedule.cpp:findLevels_", "Utils.hpp:prefixSum"]}
{"id": "C59", "title": "Coordinate files round trip", "statement": "Writing a coordinate matrix to a Matrix Market file and reading the file back, with the library's file functions or by storing and loading a coordinate object, gives the same header, sizes, indices and (up to decimal printing) values in the same order; a file with fewer entries than it promises is reported as ended early; a successful return means that the whole matrix was written or read.", "quantifier": "every header, size, list of entries, comment lines and text after the entries", "why_tests_cant": "ranges over all files and all matrices; short files, integer headers and full devices are corners that tests do not visit", "anchors": ["mm_io.cpp:mm_write_mtx_crd", "mm_io.cpp:mm_read_mtx_crd", "mm_io.cpp:mm_read_mtx_crd_data", "mm_io.cpp:mm_read_unsymmetric_sparse", "COO.cpp:COO::storeMatrixMarket"]}
{"id": "C60", "title": "The preconditioned conjugate gradient solver solves symmetric positive definite systems", "statement": "For a symmetric positive definite matrix with its inverse diagonal, the solver with the symmetric Gauss-Seidel preconditioner performs the textbook method: it never divides by zero, the relative residual it reports is that of the vector it returns, it stops at the first step whose relative residual is below the tolerance or after the allowed number of iterations, the energy norm of the error decreases, and with as many iterations allowed as there are rows it returns a vector that meets the tolerance. The matrix and the right-hand side are unchanged, and the result does not depend on the number of threads.", "quantifier": "every symmetric positive definite matrix, right-hand side, starting vector, tolerance, iteration limit, number of threads, sharing of the inner products and interleaving (exact arithmetic)", "why_tests_cant": "ranges over all matrices and starting vectors, including ones that make a quotient 0/0, and over all teams and orders of the reductions", "anchors": ["test/pcg.cpp: pcg_symgs, dot, norm, waxpby, forwardSolveRef, backwardSolveRef", "SymGS.cpp: splitLU", "SpMV.cpp: CSR::multiplyWithVector"]}
{"id": "C61", "title": "The solver preconditioned by incomplete factors solves symmetric positive definite systems", "statement": "For a symmetric matrix with symmetric pattern, sorted rows and stored diagonal, whose incomplete factors have positive pivots, applying the factors is a symmetric positive definite operation; for a positive definite such matrix the solver with this preconditioner performs the textbook method: it never divides by zero, the relative residual it reports is that of the vector it returns, and with as many iterations allowed as there are rows it returns a vector that meets the tolerance. The pivots are positive for every matrix without positive off-diagonal entries whose row sums are not negative, provided each row with sum zero has a negative entry right of the diagonal. The matrix and the right-hand side are unchanged, and the result does not depend on the number of threads.", "quantifier": "every symmetric positive definite matrix with such factors, right-hand side, starting vector, tolerance, iteration limit, number of threads, sharing of the inner products and interleaving (exact arithmetic)", "why_tests_cant": "positivity of the pivots and symmetry of the preconditioner range over all matrices and patterns; there are positive definite matrices whose incomplete factors have negative pivots, which a test would have to hit", "anchors": ["test/pcg.cpp: pcg_ilu0, ilu0_ref, forwardSolveRef, backwardSolveRef, dot", "CSR.cpp: CSR::computeInverseDiag", "SymGS.cpp: splitLU"]}
{"id": "C62", "title": "The solvers on the reordered system give the answer of the reference solvers", "statement": "For a symmetric positive definite system and any schedule the library builds for its matrix, the solver that permutes matrix, factors and vectors into schedule order, runs its triangular solves by point-to-point synchronisation and permutes the solution back never deadlocks, never divides by zero and returns exactly what the reference solver returns on the same system: the same number of iterations, the same relative residual and the same vector in the original order, with the symmetric Gauss-Seidel preconditioner and with incomplete factors. The matrix and the right-hand side are unchanged.", "quantifier": "every symmetric positive definite matrix with symmetric pattern (with positive pivots for incomplete factors), right-hand side, starting vector, tolerance, iteration limit, schedule built for the matrix with or without barriers and transitive reduction, number of threads in either solver, sharing of the inner products and interleaving (exact arithmetic)", "why_tests_cant": "a wrong permutation or a missing dependency shows only for particular schedules and interleavings, and equality with the reference holds for all matrices only by an argument about permuted systems", "anchors": ["test/pcg.cpp: pcg_symgs_opt, pcg_ilu0_opt, forwardSolve, backwardSolve, ilu0", "Utils.cpp: reorderVectorOutOfPlaceWithInversePerm, getReorderVectorWithInversePerm", "CSR.cpp: CSR::permute", "LevelSchedule.cpp: LevelSchedule::constructTaskGraph"]}
{"id": "C63", "title": "A schedule can be built from any suitable matrix in memory", "statement": "Calling constructTaskGraph on a matrix whose rows are sorted and store their diagonal, with a symmetric pattern, zero- or one-based, with or without a trailing part of external columns, finishes without touching memory outside its arrays, reading an element nobody wrote or failing an assertion. Afterwards the schedule object holds the levels of the matrix, boundaries of tasks and threads that tile all rows, a permutation and its inverse, and parent lists under which the order of every dependency is guaranteed in forward and backward runs. The matrix is unchanged except that its diagonal pointers exist.", "quantifier": "every such matrix, cost function with positive costs, number of threads, option setting, split of the rows among the threads and interleaving", "why_tests_cant": "four parallel stages hand each other arrays whose sizes and contents depend on pattern, team size and interleaving", "anchors": ["LevelSchedule.cpp: LevelSchedule::constructTaskGraph, constructTaskGraph_, findLevels_, constructDiagPtr_", "LevelSchedule.hpp: LevelSchedule, CostFunction, PrefixSumCostFunction", "CSR.cpp: CSR::isSymmetric"]}
{"id": "C64", "title": "Arrays are released exactly once, by their owner", "statement": "Over every history of constructions, copies, loads, alloc/dealloc, transpositions, permutations, splits, schedule constructions and destructions of CSR, COO and LevelSchedule objects: the library never releases an array it did not allocate or has already released; arrays the caller lends to a matrix stay the caller's; two objects never hold the same array for release; and when all objects are gone every array the library allocated has been released.", "quantifier": "every sequence of API calls on any number of objects, in any order, including calls that fail and explicit destructor calls", "why_tests_cant": "which object answers for an array depends on the whole history (flags, nulls, pool membership); a wrong release or a leak shows only in particular orders", "anchors": ["CSR.hpp: CSR::ownData_, CSR::alloc, CSR::dealloc", "CSR.cpp: constructors, CSR::dealloc, CSR::transpose, CSR::loadBin, CSR::computeInverseDiag", "Permute.cpp: CSR::permuteRowptr", "SymGS.cpp: splitLU", "Laplacian.cpp: generate3D27PtLaplacian", "COO.cpp: COO::dealloc, loadMatrixMarket_", "LevelSchedule.cpp: LevelSchedule::~LevelSchedule, constructTaskGraph_, findLevels_", "gs_spmv_fused.cpp: FusedGSAndSpMVSchedule", "Utils.hpp: MALLOC, FREE"]}
{"id": "C65", "title": "Barrier objects are ready when init returns", "statement": "When all threads of a team call init on a Barrier or a ReduceBarrier (or LoadImba), then whatever the interleaving no thread uses the data of a core that has not been set up, init returns on every thread, and as soon as it has returned on one thread the whole object is set up for all threads: flags and senses have their initial values and every core (and pseudo core) is linked to the partner of each round.", "quantifier": "every number of cores and of threads per core, every interleaving of the calls of init", "why_tests_cant": "a missing synchronisation inside init shows only if one thread is much slower than the others; links matter for every team size", "anchors": ["synk/barrier.cpp: Barrier::init", "synk/reduce.hpp: ReduceBarrier::init, PseudoCore", "synk/loadimba.cpp: LoadImba::init", "synk/synk.cpp: Synk::Synk", "synk/atomic.h: atomic_dec_and_test"]}
{"id": "C66", "title": "Load imbalance statistics are the waiting times", "statement": "A thread that calls the instrumented barrier is charged, under the barrier number it names, the time from its own arrival to the latest arrival of the team in that episode: the count, total, smallest and largest entries of its statistics are those of these times, the barrier entry is the total of the times from the latest arrival to leaving, and the printed load imbalance is not affected by overflow. The printed summary of a barrier shows the smallest and largest of these times over threads and calls, their means over the threads and over threads and calls, and the number of calls; after a reset only later calls count.", "quantifier": "every number of cores and threads, every history of calls with every assignment of barrier numbers and arrival times, every interleaving", "why_tests_cant": "the value read depends on whether the fastest thread re-enters the barrier before the slowest has read its partner's slot", "anchors": ["synk/loadimba.cpp: LoadImba::wait, reset, print, printLoadImbalance", "synk/reduce.hpp: ReduceBarrier::wait"]}
{"id": "C67", "title": "Counts of parents are exact however many tasks there are", "statement": "The number of forward and backward parents that a constructed schedule gives for a task is the number of parents it was found to have, so that an execution that waits for the parents it is told of waits for all of them and never starts a row before the rows it depends on.", "quantifier": "every symmetric matrix of every size, every number of threads, with and without barriers and transitive reduction, every interleaving of the construction", "why_tests_cant": "the counts are kept in 16 bits; a task with 32768 parents needs a matrix with more than a hundred thousand rows of a particular shape, and then only some interleavings of the execution give a wrong answer", "anchors": ["LevelSchedule.hpp: nparentsForward, nparentsBackward", "LevelSchedule.cpp: constructTaskGraph_ (lines 850-868, 1542-1547, 1600-1645, 1676-1709)"]}
{"id": "C68", "title": "A matrix constructed from a file name is the one the file describes, also after conversion", "statement": "Constructing a matrix from a name gives: for a decimal number n the 27-point operator on the n x n x n grid; for a name ending in .bin the matrix stored in that file; for any other name the matrix the Matrix Market text describes (pattern entries mean 1, symmetric files imply the mirrored entries, sizes are padded as asked), with sorted rows, in the requested base. Converting a text with mtx2bin and constructing from the result gives the same matrix. A file that cannot be used is reported.", "quantifier": "every name, every text and binary file, every base, padding and symmetry option", "why_tests_cant": "names, headers, comments, sizes and entries are unbounded, and the choice of the reader depends on the characters of the name", "anchors": ["CSR.cpp: CSR::CSR(const char *, int, bool, int) (lines 101-127), loadBin, storeBin", "COO.cpp: loadMatrixMarket_", "mm_io.cpp: mm_read_banner, mm_read_mtx_crd_size, mm_read_mtx_array_size, mm_read_mtx_crd_entry", "test/mtx2bin.cpp: main"]}
{"id": "C69", "title": "32-bit ints are enough for the sizes the functions accept", "statement": "For every matrix and team whose dimensions, number of entries and number of threads are ints, the partitions, the prefix sums of vectors, the transpose, the products with vectors and dense matrices, the bandwidth, the 27-point generator, the buffers of the construction of a schedule and the arrays of the reorderings compute their indices and sizes without integer overflow, so that what is said of them elsewhere for unbounded integers holds of the compiled code.", "quantifier": "all sizes, thread counts and matrices within the range of a 32-bit int", "why_tests_cant": "the bounds are reached only by inputs of gigabytes and by products of sizes and thread counts; tests with small inputs never meet an overflow", "anchors": ["Utils.cpp: getSimpleThreadPartition, getLoadBalancedPartition", "PrefixSum.cpp: prefixSumMultiple", "CSR.cpp: CSR::transpose", "Laplacian.cpp: CSR::generate3D27PtLaplacian", "reordering/RCM.cpp: getRCMPermutation, bfsAuxData", "reordering/ConnectedComponents.cpp: findConnectedComponents", "LevelSchedule.cpp: LevelSchedule::findLevels_, constructTaskGraph (sizes of the buffers)", "SpMV.cpp: CSR::multiplyWithVector, CSR::multiplyWithDenseMatrix", "CSR.cpp: CSR::getBandwidth"]}
{"id": "C70", "title": "Reordering a matrix and using the result", "statement": "For a square matrix with symmetric pattern, computing a breadth-first or reverse Cuthill-McKee numbering, permuting the matrix with it, asking for the bandwidth and multiplying with a vector gives: a numbering of the promised kind; a matrix that is the original one with rows and columns renumbered; the largest distance between the new numbers of a row and of a column it stores; and a product that is the product of the original matrix with the vector read through the numbering. The original matrix and the vector are unchanged, so the steps can be repeated with the next numbering.", "quantifier": "all square matrices with symmetric pattern, vectors, options, team sizes and interleavings", "why_tests_cant": "the functions are composed through arrays that each assumes to be permutations and inverse of each other; whether that holds depends on the matrix, the components and the interleaving, and a run on one matrix shows one numbering", "anchors": ["test/reordering_test.cpp: main", "reordering/RCM.cpp: CSR::getRCMPermutation, CSR::getBFSPermutation", "CSR.cpp: CSR::permute, CSR::getBandwidth, CSR::multiplyWithVector"]}
{"id": "C71", "title": "Schedules of one matrix share their permutation", "statement": "Constructing schedules for the same matrix, with the same number of threads, aggregation option and row costs, gives the same levels, the same permutation of the rows and the same range of rows for each thread, whatever the barrier and transitive-reduction options and however the construction is interleaved. Therefore a matrix and vectors reordered with the permutation of one of them can be solved with the tasks of any other, by point-to-point synchronisation or by barriers, and the result is the reordered result of the sequential solve.", "quantifier": "all matrices with symmetric pattern, team sizes, costs, options and interleavings of the constructions and of the solves", "why_tests_cant": "the order in which the threads discover the rows of a level differs from run to run; that it does not reach the permutation, and that schedules with different tasks have the same permutation, must hold for every discovery order and every matrix", "anchors": ["LevelSchedule.cpp: findLevels_, constructTaskGraph", "test/trsv_test.cpp: main, forwardSolveWithBarrierAndReorderedMatrix, backwardSolveWithBarrierAndReorderedMatrix", "test/gs_test.cpp: main"]}
{"id": "C72", "title": "Converting a vector file keeps its numbers", "statement": "mtx2bin on the name of a Matrix Market array text writes one file that holds the number of rows and then the numbers of the text, in their order, the same vector that loadVectorMatrixMarket returns for the text; other files are unchanged. A text that does not hold the numbers its size line promises is reported and nothing undefined happens.", "quantifier": "all texts with an array header, comments, sizes, numbers and white space, and all trailing text", "why_tests_cant": "the converter and the loader parse the same text in different ways; that they agree on every header, size and spacing, and what happens when numbers are missing, is not visible on the files of a test directory", "anchors": ["test/mtx2bin.cpp: main", "mm_io.cpp: mm_read_banner, mm_read_mtx_array_size", "Vector.cpp: loadVectorMatrixMarket"]}
{"id": "C73", "title": "Reordering the rows and columns of a rectangular matrix and using the result", "statement": "For a matrix that need not be square, transposing it, computing the bipartite breadth-first numbering of its rows and columns, permuting the matrix with it and transposing the result gives: a permutation of the rows and one of the columns with their inverses; the matrix with rows and columns renumbered, and the transpose of that; bandwidths and average widths that are those of the matrix as numbered before and after; and products with the matrix and with its transpose that are those of the original matrix read through the two numberings. The original matrix is unchanged.", "quantifier": "all matrices with at least one row and column, vectors, team sizes, bases and interleavings", "why_tests_cant": "six functions are composed through arrays that each assumes to be permutations of the right length, rows and columns are easily exchanged without effect on square or symmetric examples, and the numbering depends on the interleaving", "anchors": ["test/BFSBipartite_test.cpp: main", "reordering/BFSBipartite.cpp: bfsBipartite", "CSR.cpp: CSR::transpose, CSR::permute, CSR::getBandwidth, CSR::getAverageWidth, CSR::multiplyWithVector"]}
{"id": "C74", "title": "Comparing a result with a reference", "statement": "Comparing a vector with an expected one returns true exactly when in every position the relative error is below the tolerance, or both numbers are smaller in magnitude than the limit below which numbers are ignored, or both are zero; the vectors are not changed; when compiled with assertions a disagreement stops the program. The check of the drivers takes the first vector it is given as the reference and accepts a later one exactly when it agrees with that to 1e-8.", "quantifier": "all vectors (also with infinities and values that are not a number), lengths, tolerances, limits and sequences of checks", "why_tests_cant": "every test of this library rests on this comparison: a comparison that accepts a wrong vector makes all of them pass, and which vectors it accepts is a statement about all vectors", "anchors": ["Utils.hpp: correctnessCheck", "test/test.hpp: correctnessCheck"]}
{"id": "C75", "title": "Memory obtained for pools is theirs, and is given back", "statement": "A block obtained with malloc_huge_pages is page aligned and has the requested number of bytes of memory that nobody else holds, whether it comes from mmap or from posix_memalign; when neither has memory the result is null. However blocks are obtained, written to and freed, free_huge_pages gives back exactly the memory of the block, in the way and with the length it was obtained, so that no memory is in use besides the blocks held. The blocks of a pool lie in such memory; finalising a pool gives it back, finalising it again has no effect, and a finalised pool hands out nothing.", "quantifier": "all sizes, all answers of the operating system and of the C library (addresses and failures), all contents written to the blocks, all orders of allocating and freeing", "why_tests_cant": "which addresses come back, which requests fail, and what is written next to the hidden header is not under the control of a test; a wrong length given to munmap is not reported", "anchors": ["Utils.hpp: malloc_huge_pages, free_huge_pages", "MemoryPool.cpp: initialize, finalize"]}
{"id": "C76", "title": "Diagnostic output tells the truth", "statement": "print() lists exactly the stored entries, row by row in their order, with rows and columns counted as the matrix counts them. equals(B, true) answers true without a message exactly for identical matrices; otherwise its message (base, dimensions, number of entries, or the place of a row pointer, column or value, with the two numbers) is true of the matrices and nothing differs before the place it names. isSymmetric(check, true) gives a message exactly when it answers false, and the message names an entry and either its missing partner or the partner's different value, rows and columns counted from 1. Nothing is changed.", "quantifier": "all matrices and pairs of matrices, both bases, with and without an external part", "why_tests_cant": "which difference is met first and how its position is counted depends on the matrices; a message with a position that is off by one is not noticed by a test that looks at the answer only", "anchors": ["CSR.cpp: CSR::print, CSR::equals, CSR::isSymmetric"]}
{"id": "C77", "title": "Destroying a barrier gives back exactly its memory", "statement": "When a barrier, a reducing barrier or an instrumented barrier has been constructed and initialised by its threads and is destroyed, every block of memory it has obtained is given back exactly once, none is used afterwards, and no other block is touched; the same holds if it is destroyed before initialisation or its construction fails.", "quantifier": "every number of cores and threads per core, every interleaving of the threads' allocations, every sequence of addresses the allocator returns, every heap before", "why_tests_cant": "leaks and uses after release go unnoticed until another thread's allocation reuses the block; the number of pseudo cores depends on the number of cores", "anchors": ["synk/barrier.cpp: Barrier::Barrier, init, ~Barrier", "synk/reduce.hpp: ReduceBarrier::ReduceBarrier, init, ~ReduceBarrier", "synk/loadimba.cpp: LoadImba::LoadImba, init, ~LoadImba"]}
{"id": "C78", "title": "The shared barrier is made once and everyone gets it", "statement": "When the threads of a team ask for the shared barrier and there is none, exactly one is constructed, for the size of the team, every thread initialises it exactly once, and every thread gets it, without a race on the pointer and without a thread waiting forever; while it exists every later team gets the same barrier, of the size of the team.", "quantifier": "every number of threads, every interleaving, every history of shared barriers made and deleted before, inside and outside of a parallel region", "why_tests_cant": "a second construction or a null pointer needs a thread to test the pointer in the window in which another stores it", "anchors": ["synk/barrier.cpp: Barrier::getInstance, initializeInstance, deleteInstance", "synk/loadimba.cpp: LoadImba::getInstance, initializeInstance"]}
{"id": "C79", "title": "The reported rates are those of a median run", "statement": "The two rates the drivers print for a series of measurements are both those of one run of the series, whose time is a median: at most half of the runs were faster and at most half were slower. The measurements themselves are kept, only reordered.", "quantifier": "every positive number of runs, every series of measured times without NaN, every amount of work, every correct sorting function and every rounding of the quotient", "why_tests_cant": "the times differ from run to run, so that no test fixes the series; a wrong element is only visible as a rate that is slightly off", "anchors": ["test/test.hpp: printEfficiency"]}
{"id": "C80", "title": "The solver program solves the system it generates", "statement": "Run with a number n (or the default), the conjugate gradient program generates the 27-point matrix of the n-cube, and solving for the right-hand side 1 ends without undefined behaviour; the relative residual it prints is that of the 27-point operator at the solution left in memory, and it is below the tolerance if as many iterations are allowed as there are points. Run with the name of a matrix it loads the matrix and its right-hand side.", "quantifier": "every size of the cube, number of threads, sharing of the inner products among them, interleaving, tolerance and iteration limit; every name", "why_tests_cant": "a test runs a few sizes and one interleaving, and the printed residual is computed by the program under test", "anchors": ["test/pcg.cpp: main, pcg_symgs", "Laplacian.cpp: generate3D27PtLaplacian", "CSR.cpp: CSR::CSR(const char *, ...)"]}
{"id": "C81", "title": "Every measured run starts from the same vectors", "statement": "Before each measured run the drivers call flushLlc and initializeX. initializeX(x, n) gives element i the value n - i, whatever the vector held before, and changes nothing else. flushLlc on a buffer whose elements have been written only reads it. Hence every run of every solver starts from the same contents of x and y, with the matrix and the right-hand side untouched, and however often the reference solves are repeated they end with the one solution of the two triangular systems. On a buffer nobody has written, which is what all drivers hand it, flushLlc reads indeterminate memory.", "quantifier": "every vector length, every contents left by the runs before, every number of threads, every sharing of the iterations among them, every order of combining the sums, every interleaving", "why_tests_cant": "a test sees one length, one team and one interleaving, and indeterminate memory usually looks like zeros", "anchors": ["test/test.hpp: flushLlc, initializeX, LLC_CAPACITY", "test/trsv_test.cpp: main", "test/gs_test.cpp: main", "test/reordering_test.cpp: main", "test/BFSBipartite_test.cpp: main"]}
