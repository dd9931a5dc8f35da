# SpMP in Lean 4 - design

`/repo` is IntelLabs/SpMP (C++/OpenMP) at a pinned commit. This directory holds a Lean 4 model of it and
machine-checked theorems about that model. `properties.jsonl` lists the properties (C01...), `MANIFEST.json`
maps each one to theorem names and a status, `seeded/LOG.jsonl` records the mutation experiments.

## 1. How the code is modelled

**Memory and programs.** C arrays live in a memory `Mem : (array, index) -> Option Val`; `none` means
"not allocated or never written". Thread code is a value of a small free monad `Prog` (`rd`, `wr`, atomic
`fadd`/`rmw`, `fail`, `pure`), so the model of a C loop nest is a Lean `do` block with the same reads and writes
in the same order. Undefined behaviour is a distinct outcome (`Stuck`), never "some value": reading an unwritten
or unallocated cell, writing outside the allocated size, a failing `assert`. Every theorem about a function
excludes it for all executions.

**Threads.** An OpenMP parallel region is a sequence of phases separated by barriers (`Script`); a phase is one
`Prog` per thread. The semantics of a phase is the set of *all* interleavings of the threads' single memory
accesses (`ParOk` in Verif/Prog.lean: no interleaving gets stuck, all end, and every end state satisfies the
postcondition). Rules derived from that definition and used in the proofs: disjoint footprints (`par_rule`), rely/guarantee
(`rg_rule`), logs of atomic accesses (`log_rule`), a cell to which everyone writes one value (`const_rule`),
buckets with atomic slot counters (`slot`/`bucket` rules). `#pragma omp parallel for` is a phase with one thread per
iteration, which covers every assignment of iterations to threads.
Code whose purpose is synchronisation (point-to-point waits, the barriers, the bit vector) is modelled as a
transition system over shared state (Verif/Team.lean) and proved with inductive invariants over all reachable states.

**Numbers.** Indices are unbounded `Int`/`Nat` (no 32-bit overflow, except in C06, C48, C67 and C69 where the property is about
it). Matrix values range over an arbitrary commutative ring/field or an opaque type: floating-point rounding is not
modelled, so numerical statements are about exact arithmetic. Where no algebraic law is needed (C33, C36, C39, C49) the
statement is for an arbitrary type with arbitrary operations and so covers floating point.

**Data races.** A state has a race if two threads are about to access one cell, not both reading and not both atomic
(`Race` in Verif/Prog.lean). `ParOk` takes a policy `[Races A]` saying on which cells races are tolerated; the rules of the previous paragraph
are proved for every policy their footprints allow, so one proof of a function gives its result (policy: everything tolerated) and its
race freedom (policy: nothing, or the listed cells). Verif/Spec/Race.lean defines race freedom on its own, as reachability, and
`Script.Ok.not_racy` connects the two.

**Sequentially consistent memory.** Interleavings of single accesses. For race-free phases (C58) this is what
C++11/OpenMP guarantees; for the `volatile` flag protocols (barrier, taskFinished), for the racy plain accesses of the
union-find and for the bit vector it is an assumption about the x86 compilation of the code.

**Counterexamples.** Where a property is false of the code, a theorem with suffix `_false` (or `_ub`) exhibits the input, and the
schedule where one is needed; the run is evaluated by the kernel (`decide +kernel`). Section 6 lists them.

## 2. Trusted base

* Lean 4.33.0's kernel, and the Mathlib modules imported by name.
* Axioms: `propext`, `Classical.choice`, `Quot.sound` and no others. Section 5 and AXIOMS.md list them per theorem.
* The reading of the C++ text: every definition of the model cites file and lines and says where it simplifies. Section 4 lists what
  is and is not modelled.
* Not modelled anywhere: machine integers (unless stated), floating point, performance, huge pages,
  `__MIC__` code paths, MKL, timers, printing for humans, `malloc` failure.

## 3. Properties: model and proof

| id | what is modelled | how it is proved |
|----|------------------|------------------|
| C01 | getSimpleThreadPartition | arithmetic; tiling of [0,n) |
| C02 | getLoadBalancedPartition with lower_bound | lower_bound by induction; tiling and balance bound |
| C03 | prefixSum, prefixSumMultiple as 3-phase team programs | phase ownership and loop invariants, all interleavings |
| C04 | isPerm (sort, unique, scan) | sorted-list lemmas; FALSE for out-of-range arrays, negation + partial |
| C05 | getInversePerm, isInversePerm, reorderVector* | ownership by permutation image, all interleavings |
| C06 | MemoryPool state machine (asserts on/off) | invariant over all operation histories |
| C07 | make0/1BasedIndexing | loop invariants; FALSE for extptr, negation + partial |
| C08 | copy constructor | FALSE for extptr, negation + partial |
| C09 | transpose (4 phases, transposed prefix sum) | counting-sort invariants, all team sizes and interleavings |
| C10 | transpose twice | corollary of C09 and a sorting lemma |
| C11 | coo2csr, dcoo2csr | loop invariants on counting sort |
| C12 | the quicksort of a row and its companion values | induction on the recursion; permutation of pairs, sortedness |
| C13-C15 | loadMatrixMarket_ on the values delivered by the header and entry readers | explicit array bounds; FALSE corners, negation + partial |
| C16 | storeBin/loadBin as lists of fields | round trip; FALSE on fopen failure for base 1 |
| C17 | storeMatrixMarket and the loader, records and text | round trip |
| C18 | permuteRowptr, permuteMain_, insertion sort | phase ownership, loop invariants; two FALSE corners |
| C19 | permuteRowsMain_ | base 0 proved; base 1 FALSE |
| C20 | splitLU | phase ownership, filter lemmas |
| C21 | getSymmetricNnzPattern with fetch-and-add | interleaving invariant and sort canonicalisation; base 1 FALSE |
| C22/C23 | SpMV_, SpMDM_ over a commutative ring | algebra per branch and phase ownership |
| C24 | generate3D27PtLaplacian | counts = stencil sizes; positive definite by writing the energy as a sum of squares over neighbouring points; FALSE for flat grids |
| C25-C28 | isSymmetric, hasZeroDiag, metrics, equals | decision procedures against specification |
| C29 | findLevels_, level search | queue and counter invariants; levels = longest paths |
| C30 | findLevels_, task partition | functional arrays; tiling of every level; memory model of every phase (PartMem), refinement of the functional model (PartMemProof, PartMemMain) |
| C31/C32 | constructTaskGraph_ without fusion, transitive reduction | list model with reachability (TaskGraph*); memory model of every phase (TgMem), rely-guarantee for the shared buckets (BkLocal, Tg*), result refines the list model |
| C33-C36, C38 | WAIT/NOTIFY execution as a transition system with per-access steps | invariant and confluence to the sequential sweep, composed with C29-C32 |
| C37 | fused parent buffers | FALSE, witness; partial with room |
| C39, C53 | ILU(0) of the solver example | as C33 with blocks of cells; elimination algebra over a field |
| C40/C41 | dissemination barrier, cores x threads | inductive invariant on episode/round counters; fair termination |
| C42 | reducing barrier | invariant of an episode for every number of cores; FALSE across episodes and for one core (witnesses; the exact result of one core is proved, and idempotent operations are right) |
| C43 | findConnectedComponents_ | rely/guarantee for the union phase, counting sort; FALSE for several threads (witness interleaving) |
| C44 | bfs_, bfs_serial_, getBFSPermutation | rely/guarantee for the expansion, distances; three FALSE corners |
| C45 | getRCMPermutation: components of fewer than PAR_THR rows (serial search, sums of levels, children sorted by degree, reversed placing), larger components (source selection, marks, parallel search, parallel sums, pipelined placing), base change | one thread: whole function from findComponents (C43); team: from exact components, disjoint slices, then an invariant over the large components; invariant of the placed prefix (list of Cuthill–McKee) |
| C46 | bfsBipartite | as C44 with two matrices; two FALSE corners |
| C47 | BitVector | transition system, linearisation |
| C48 | parMemset/parMemcpy | tiling, 32-bit arithmetic |
| C49 | computeInverseDiag, constructDiagPtr | loop invariants |
| C50 | mm_io header code over characters | case analysis, induction on the text; several FALSE corners |
| C51 | loadVectorMatrixMarket over characters | induction on the numbers; zero columns FALSE |
| C52 | waxpby | algebra per branch |
| C54 | permuteColsInPlace_ | insertion-sort lemmas; two FALSE corners |
| C55 | fused parent lists (computed lists, buffer) | covering lemmas for the three stages, induction on task levels; FALSE for overwritten lists |
| C56 | a large component (RCM.cpp:868-936): initializeBitVector, bfs with levels and racing marks (BfsLev*), prefixSumOfLevels (RcmSums), placing by threads with `while (r == write_offset[..]);` as a machine of control points, guards and code (Verif/SpinCore) | search: per-level rely/guarantee, queues may hold a row twice; sums: counts per thread; placing: generic rule for teams that own cells and publish progress (Verif/OwnTeam): rely/guarantee with ghost state and knowledge; well-founded descent for termination, lowest level never blocked for deadlock freedom |
| C57 | getMinDegreeNode, initializeBitVector, selectSourcesWithPseudoDiameter (RcmSelect) with the searches of C56 without levels and cut short by a width | minimum over threads; candidates stay rows of the component; number of levels grows with every restart, so the loop ends; FALSE when racing threads queue a large last level several times |
| C58 | the race policy of `ParOk` over the modelled functions that are scripts of phases, and the task loops with flags | the proofs of the results, instantiated with the policy that tolerates nothing; point-to-point sweeps and ILU: conflicting rows are ordered by the schedule, so the invariant of C33 excludes two of them running; FALSE for shared flags in isSymmetric and hasZeroDiag, the last row pointer in transpose (with diagonal pointers) and permute, counters in the level search |
| C59 | mm_write_mtx_crd, mm_read_mtx_crd, mm_read_mtx_crd_data, mm_read_unsymmetric_sparse over characters and arrays, COO::storeMatrixMarket (MMioCrd) | loop invariants on the text written and the text left to read; FALSE for integer headers, full devices and, in mm_read_unsymmetric_sparse, short files |
| C60 | pcg_symgs and all it calls as one script (Pcg); specification Spec/Pcg: inner products, SymGS preconditioner as an equation, textbook trace | wp of the solves; the run refines a trace that is extended step by step; algebra of the trace (PcgMath): self-adjoint preconditioner, orthogonality by induction, linear independence bounds the number of nonzero residuals; FALSE when started at the solution (0/0) and for base-1 matrices |
| C61 | pcg_ilu0 as one script (PcgIlu) from the functions of C39 and C60; specification Spec/PcgIlu: applying L U as two equations | product equations of C53 give by induction that the upper factor is the scaled transpose of the lower one (PcgIluMath), hence a sum of squares over the pivots; signs and row sums by induction over rows for the pivots; FALSE without positive pivots (Kershaw's matrix) |
| C62 | pcg_symgs_opt and pcg_ilu0_opt as scripts with a point-to-point phase per triangular solve (PcgOpt, constructor `p2p` of Script) | the solves are sweeps of C33 over the permuted triangles (PcgOptSolve); the textbook method commutes with a permutation of the system (PcgOptMath); composition of both with C39, C60, C61 and the theorem on permute (PcgOptRun); uniqueness of the run gives equality with the reference solvers |
| C63 | the public overloads of constructTaskGraph (BuildMem): diagonal pointers, assertions on the pattern, level search, partition, task graph as one script | composition of C25, C29, C30 in memory and C31 in memory through `Script.ok_bind`; the preconditions of each stage are derived from sortedness, full diagonal and symmetry alone |
| C64 | the MALLOC/FREE/pointer effects of every call that allocates, adopts or releases storage (Own); objects with pointer fields, `ownData_`, `useMemoryPool`; blocks with an owner | each call is a list of effects; two Boolean tables per object (pointer is null or holds its own live array; no live array attributed) are followed through the list, checked by evaluation and proved sound once; invariant over all histories |
| C65 | Barrier::init and ReduceBarrier::init as one thread automaton over the ring size (SynkInit), the counting barrier of LoadImba::init | invariant: state of the two counting barriers (open, being reset, being raised) with the number of threads waiting, and each core's tables as a function of its leader's program counter |
| C66 | LoadImba::wait, reset, print over the reducing barrier of C42 with max on uint64 (LoadImba) | reduction theorem of C42 at the monoid (max, 0), then induction over the episodes for the five entries; the report as a list of lines, the summary loop by induction over the threads |
| C67 | the `short` counts over the schedules of C30-C32 (ShortCnt); a family of matrices with the number of levels as parameter (AdjCsr, Ladder) | lists without repetition are no longer than the number of rows or tasks; for the family, the tasks and the edges between them are computed for every size |
| C68 | the file-name constructor and mtx2bin as compositions of the modelled readers, generator and storeBin, on a set of named files (FileCtor); atoi is scanf's %d; a set of texts given by header, comments, sizes and lines (Spec/FileCtor) | the names are characterised with the printing and scanning lemmas of C50; the texts are parsed by induction over their lines (CrdParse), then C13/C14/C11, C16 and C24 apply |
| C69 | checked versions of getSimpleThreadPartition, getLoadBalancedPartition, prefixSumMultiple, transpose, the Laplacian generator, the products of SpMV.cpp, getBandwidth and the buffer sizes of a schedule, in which every index and size computation is an int operation that is undefined on overflow (IntRange, PrefixInt, TransposeInt, LapInt, LevelInt, SpMVInt; RcmInt for the reorderings) | a simulation: if the checked program does the same accesses as the unchecked one on every memory that agrees with the input arrays, theorems about the unchecked function carry over (`Prog.Sim`, `Script.Ok.sim`); necessity: what a program returns when it returns (`Prog.Rets`) |
| C70 | main of test/reordering_test.cpp as the composition of the modelled permutation functions, permute, getBandwidth and multiplyWithVector (Reorder) | the theorems of C44, C45, permute (C18), C27 and the product are chained with a frame condition saying what may have changed; the specification of a renumbered matrix (Spec/Reorder) mentions no model definition |
| C71 | nothing new: two runs of the modelled construction (SamePerm); the reordered solves with barriers are `fwdPhase`/`bwdPhase` of the schedule without its permutation | a level decomposition is unique up to the order within levels, each level is sorted before it is split, and the positions of the rows in the result depend on neither the barrier option nor the arrays before; then the executions of C33-C38 with the permutation of the other schedule |
| C72 | the vector branch of main of test/mtx2bin.cpp (`convVec`, FileCtor.lean): banner, size line, the scanning loop into an array, the file as row count and list of numbers | loop invariant over the text that is left; the loader is C51 on the same text; witnesses by evaluation |
| C73 | main of test/BFSBipartite_test.cpp as one script (BipUse.lean): transpose, metrics, products, bfsBipartite, permute, transpose, metrics, products | composition of C09, C46, C18, C27 and C22 through frames; the facts on renumbered matrices and transposed products by reindexing sums; witnesses by evaluation |
| C74 | correctnessCheck and the static reference of test/test.hpp (CheckVec.lean); doubles are rationals, infinities and NaN (Spec/Compare.lean) | loop invariant, the condition on numbers by cases on a zero divisor; partial correctness (Wlp) for the assertion; induction over the calls; witnesses by evaluation |
| C75 | malloc_huge_pages, free_huge_pages, initialize and finalize of the pool (HugePages.lean) over the memory of the process as a list of regions and the word at each address (Spec/Heap.lean) | invariant over all histories: one header per region; composed with C06; witnesses by evaluation |
| C76 | print, and equals and isSymmetric with their messages as data (Report.lean); what a message says (Spec/Report.lean) | loop invariants over a state that is empty or a true message; witnesses by evaluation |
| C77 | constructors, allocations of init and destructors of Barrier, ReduceBarrier, LoadImba as lists of pointers over a heap of blocks (BarrierMem, Spec/Blocks) | invariant: the pointers lead to distinct new blocks and these are all that is new, under any interleaving; a destructor's list has no repetition and frees nothing before what is reached through it |
| C78 | getInstance and initializeInstance as a team machine with the two omp barriers and the master block (Singleton) | invariant on the positions of the threads; TeamOk by the invariant rule |
| C79 | printEfficiency of test/test.hpp (Efficiency); std::sort is any function that permutes into ascending order, the quotient any function | the sorted list is split at the element taken; counts of the smaller and of the larger elements |
| C80 | main of test/pcg.cpp: generator, right-hand side, start vector, pcg_symgs (PcgProgram), pcg_ilu0 (PcgProgramIlu), pcg_symgs_opt or pcg_ilu0_opt (PcgProgramOpt), in one memory; the name of the right-hand side with its buffer | C24 (positive definite) gives the hypotheses of C60 and C62, the row sums and the neighbour on the right those of C61_pivots; the matrix product is rewritten to the operator of the specification |
| C81 | flushLlc, initializeX and their use before each measured run, the repeated runs of the reference solver (Prepare) | ownership of the elements; the sum as in C60; uniqueness of the triangular solutions by induction over the rows; the failing run of the thread that has iteration 0 |

## 4. What is modelled and what is not

| file | modelled (module) | not modelled |
|------|-------------------|--------------|
| Utils.cpp | partitions (Partition, RowTeam), permutations and reorder (Perm), parMemset/parMemcpy (ParMem), correctnessCheck (CheckVec), malloc_huge_pages/free_huge_pages (HugePages) | getCPUFreq, other allocation helpers, timers |
| PrefixSum.cpp | all (PrefixSum, PrefixSum1) | |
| MemoryPool.cpp | all operations (Pool), initialize and finalize (HugePages) | HBW_ALLOC, the singleton, locks (there are none) |
| CSR.cpp | constructors from arrays and files (Base, Loader), the choice between the readers by the name (FileCtor), base conversion, storeMatrixMarket (StoreMM), storeBin/loadBin (BinFile), transpose (Transpose), isSymmetric/hasZeroDiag (CsrQuery), metrics (CsrMetrics), equals, diagonal (CsrDiag), print and messages (Report), alloc/dealloc (Own) | make0BasedIndexing on a shared object by several threads, the text printf makes of a number |
| COO.cpp | qsort (Qsort), dcoo2csr/coo2csr (Coo, SortRows), loadMatrixMarket_ (Loader, LoaderSym), storeMatrixMarket (MMioCrd) | files that cannot be opened; in storeMatrixMarket the handle that is never closed |
| mm_io.cpp | banner, typecode, size readers and writers, whole coordinate files (MMio*) | files that cannot be opened, stdin and stdout; negative sizes in mmParse; where a failed conversion leaves the file in mm_read_unsymmetric_sparse; strtod and printf of doubles are parameters |
| Vector.cpp | all (LoadVec) | |
| Permute.cpp | all (Permute*, InsSort) | |
| SpMV.cpp | all (SpMV, SpMDM) | MKL variant |
| SymGS.cpp | splitLU (SplitLU), getSymmetricNnzPattern (SymPat*) | in the latter: memory pool, debug assertions, pointer shift by the base |
| Laplacian.cpp | generate3D27PtLaplacian (Laplacian) | LOWER_TRIANGULAR |
| LevelSchedule.cpp | level search (Levels*), task partition (TaskPart*; in memory: PartMem*), task graph (TaskGraph*; in memory with its load balancing: TgMem, Tg*), fused buffers (Fused), the public overloads (BuildMem), `short` parent counts (ShortCnt), allocation and release (Own) | printing |
| reordering/ConnectedComponents.cpp | all (Components, Comp*) | end checks under NDEBUG; the row bound is read once; the bit vector is a function |
| reordering/RCM.cpp | BFS part (Bfs*); getRCMPermutation, getMinDegreeNode, selectSourcesWithPseudoDiameter (Rcm*, BfsLev*, Pipe*) | NDEBUG duplicate check, symmetry assertion, counters are handed between phases instead of stored |
| reordering/BFSBipartite.cpp | bfs, bfsBipartite (Bip*) | as for RCM.cpp, isPerm assertions; its unused findConnectedComponents and bfs_serial |
| reordering/BitVector.hpp | all (BitVector) | |
| synk/barrier.cpp | init (SynkInit*), wait (Barrier), constructor and destructor (BarrierMem), getInstance and initializeInstance (Singleton) | core/thread discovery from the hardware (synk.cpp, cpuid.h) |
| synk/reduce.hpp | init (SynkInit*), wait (Reduce*), constructor and destructor (BarrierMem) | |
| synk/loadimba.cpp | the last counting barrier of init (SynkInit), wait, initial values, reset, print, the numerator of printLoadImbalance (LoadImba) ; constructor, allocations of init and destructor (BarrierMem) | the decimal text |
| test/trsv_test.cpp, gs_test.cpp | sweeps, references, barrier and point-to-point executions, also on reordered matrices (Kernels, P2P*, SchedExec, BarrierExec), the measured runs of the reference solver (Prepare) | the rest of the drivers, error norms, MKL |
| test/pcg.cpp | ilu0, ilu0_ref, waxpby (Ilu*, CsrDiag), pcg_symgs, dot, norm, forwardSolveRef, backwardSolveRef (Pcg), pcg_ilu0 (PcgIlu), pcg_symgs_opt, pcg_ilu0_opt, forwardSolve, backwardSolve (PcgOpt), main with each of the four solvers (PcgProgram, PcgProgramIlu, PcgProgramOpt) | the rest of main; rounding; a division by zero is a failure of the model |
| gs_spmv_fused.cpp | all (Own) | |
| test/mtx2bin.cpp | conversion of matrices and of vectors (FileCtor) | a destination that cannot be opened |
| test/reordering_test.cpp | the reorderings and their use (Reorder) | reading the file (C68), timing, flushLlc, what is printed besides the bandwidths, the calls of MKL |
| test/BFSBipartite_test.cpp | all of main (BipUse) | reading the file (C68), storing the permuted matrix (C17), timing, flushLlc |
| test/test.hpp | correctnessCheck (CheckVec), printEfficiency (Efficiency), flushLlc, initializeX (Prepare) | the formatting of the rates, the file flushLlc writes to |

Simplifications shared by several modules: barriers between phases are taken as phase boundaries (C40/C41 prove that the
barrier separates); row bounds that nobody writes during a loop are read once instead of in every test; per-thread
counters that are only read after a barrier are handed on as results of the phase; std::sort on integers is its
specification (the sorted permutation), std::lower_bound/upper_bound are modelled as halving loops.

## 5. Axioms

`tools/axioms.py` asks Lean for the axioms of every theorem in the manifest and writes AXIOMS.md. Result: every theorem
depends on a subset of {`propext`, `Classical.choice`, `Quot.sound`}.

## 6. Where the code disagrees with the property

Each item is a theorem (suffix `_false` or `_ub`) unless marked "(reading)", which means found while reading and not formalised.

* C04: isPerm accepts duplicate-free arrays with values outside the range.
* C06: allocateFront of more than the pool wraps around; with NDEBUG a request that does not fit is handed out anyway.
* C07/C08: extptr is not shifted by the base conversion and not copied by the copy constructor.
* C09/C10: a matrix without columns is transposed to an object without row pointers.
* C13: a file with more lines than stated overflows the arrays; the CSR constructor ignores the loader's result (reading).
* C14/C15: 0-based symmetric files read uninitialised memory; padding of 0-based files is shifted; a symmetric file without entries
  writes out of bounds.
* C16: a 1-based matrix stays 0-based if the file cannot be opened; loading with base 1 and a row without diagonal reads an
  uninitialised diagptr.
* C17: values survive only up to the 16 printed digits (parameter `fmt`).
* C18: null row permutation in a debug build; sorting a matrix without values.
* C19, C21, C25, C26: base 1. C20: base 1 with extptr. C23: base 1 with row stride. C54: base 1 in debug builds, no values.
* C22: w == x with more columns than rows.
* C24: grids with some but not all dimensions 1.
* C29: the queue of a thread overflows (64 threads, 71 rows).
* C30: rows of cost zero are lost or shift out of bounds.
* C31: rows that store a column many times push the inverse lists out of their buffer; useBarrier with reduction and empty tasks has no room for the lists (reading); more than 32767 parents overflow a `short` (reading).
* C37, C55: parent lists of the fused schedule overwrite each other.
* C39: the sequential reference reads rowptr[-1] for base 1.
* C40: USE_MCRT rounds the number of rounds down.
* C42: one core counts its value twice; overlapping episodes lose or mix values.
* C43: a union is lost by a plain write after a failed compare-and-swap; no node to classify is undefined behaviour.
* C44: 1x1 with one thread; a diagonal stored twice; several components with several threads (from C43).
* C45: several threads: lost union (from C43); the last thread's slice of the prefix sums is one element short for a path of PAR_THR-1
  rows; a diagonal stored twice. Components of PAR_THR rows or more: a path of all rows puts prefixSum and write_offset one out of
  bounds (`C45_path_false`).
* C58: isSymmetric and hasZeroDiag share a plain flag; transpose with diagonal pointers and permute let several threads write the last row
  pointer (always one value). The level search reads its counters in a debug assertion while others update them atomically. Not
  covered by C58 because racy by design: union-find, the breadth-first searches, the bit vector, the spin loops of RCM (their results are
  proved for the interleaving semantics).
* C59: mm_read_mtx_crd on an integer file returns 0 and hands out uninitialised arrays; mm_write_mtx_crd refuses an integer header only
  after it has replaced the file by a header and a size line; it returns 0 when the device is full; mm_read_unsymmetric_sparse
  decrements uninitialised indices when the file is short.
* C60: pcg_symgs started at the exact solution computes 0/0 in its first step (`x` becomes NaN) instead of returning; on a matrix with 1-based indices the loop that scales U uses unshifted row pointers and reads and writes one element past the values of U.
* C61: for symmetric positive definite matrices in general the incomplete factors can have negative pivots (Kershaw's matrix: last pivot -5), so that pcg_ilu0 runs with a preconditioner that is not positive definite; nothing in the code checks the pivots.
* C62: base 0 and no external columns only (as `pcg.cpp` uses the solvers); permute's last row pointer is written by several threads (C58), so the theorems ask the race policy to tolerate it.
* C31/C63: with useBarrier and transitiveReduction (the default) together the reduction drops needed edges: tasks without rows get no room in the inverse adjacency buffer and their entries overwrite the next list (`C31_barrier_reduction_false`, six rows, three threads, default costs). Runs that use barriers do not look at the parents; point-to-point runs of such a schedule are unsafe.
* C64: eight call histories release a foreign or already released array, ten lose arrays (`C64_wrong_release_false`, `C64_leak_false`, listed there); e.g. every transposed, permuted or split matrix leaks its main arrays, because `new CSR()` leaves `ownData_` false, and a schedule built twice in the memory pool passes pool memory to `_mm_free` (LevelSchedule.cpp:734-735).
* C65: `PseudoCore::coreId` and `coreTids` are `int8_t`: ReduceBarrier::init with 129 to 255 cores reads `cores[-126]`, and 129 threads per core make `wait` index `threadSenses[-128]`; the last counting barrier of LoadImba::init tests `initState == 0`, which is never so after Barrier::init. `loadimba.cpp` also defines `Barrier::deleteInstance` instead of `LoadImba::deleteInstance` (reading).
* C66: two consecutive calls of LoadImba::wait overlap (the defect of C42), and a thread can be charged the time until the next episode; `printLoadImbalance` prints `(double)(tot - bar)` of unsigned numbers, about 2^64 whenever the threads are well balanced. `print` reports a smallest wait of 2^64 - 1 for a barrier never used. The destructor does not free the `ThreadLoadImba` structures (reading).
* C67: `nparentsForward` and `nparentsBackward` are arrays of `short`. `C67_short_counts_false` exhibits a symmetric matrix with 131080 rows (65540 levels of two rows; the last level depends on every other level) on which constructTaskGraph with two threads gives the last task a negative number of parents, with and without transitive reduction; executions then do not wait at all before that task. Only the counts are modelled there: the places in the parent buffers, which are sums of the counts, would also be wrong.
* C68: CSR::CSR(fileName, ...) ignores the result of the text loader (CSR.cpp:120), so that after a rejected text (here: an empty one) it goes on with sizes that nothing has set (`C68_rejected_false`). Only symmetric headers make the loader add mirrored entries; skew-symmetric and Hermitian files are loaded as general ones with half of the matrix missing (`C68_skew_false`). A name that begins with a number too large for an int is undefined behaviour in atoi, and a file whose name is a number is not read (`C68_names_false`). A binary file that cannot be opened leaves an object without sizes and without a sign of it (`C68_missing`). A binary file read into base 1 with a row that has no diagonal entry makes the constructor increment a diagonal pointer that nobody has set (`C68_bin_base1_false`).
* C69: transpose allocates and indexes `(n + 1)*nthreads` counters with an int; 2^24 columns and 128 threads overflow it whatever the number of entries (`C69_transpose_false`). The generator overflows for cubes of 431 points (`C69_cube`), the work buffer of a schedule at about 429 million rows (`C69_schedule_buffers_only`), the queues of the reorderings when rows times threads exceed 2^31 - 1 (`C69_rcm_buffers`: 34 million rows and 64 threads), and getSimpleThreadPartition when `n + nthreads` exceeds 2^31 - 1. multiplyWithDenseMatrix cannot address the elements of an operand with more than 2^31 of them: two rows and 2^30 + 1 columns (`C69_spmdm_false`).
* C70: the driver multiplies with `x`, which nobody has written (`C70_uninitialised_false`); with several threads and several components the numbering itself can be wrong (C44, C45).
* C72: mtx2bin converts as many numbers as there are rows, so the other columns of an array and half of a complex array are dropped (`C72_columns_false`); when numbers are missing it stores a variable that was never set (`C72_short_false`).
* C73: BFSBipartite_test multiplies with a vector that is never set (`C73_vector_unset_false`), and permutes matrices whose inverse diagonals are set only for rows with a diagonal entry (`C73_no_diagonal_false`).
* C74: the comparison accepts NaN for every expected number, and every number for an expected infinity (`C74_nan_false`); the drivers' reference is too short for a larger matrix checked later (`C74_larger_false`).
* C75: without memory malloc_huge_pages writes to MAP_FAILED (`C75_out_of_memory_false`); sizes near 2^64 wrap around (`C75_overflow_false`); a pool initialised twice leaks (`C75_reinitialize_false`); a finalised pool still answers requests (`C75_finalised_false`).
* C76: messages on matrices counted from 1 are off by one (`C76_nnz_base1_false`, `C76_sym_base1_false`); print needs values (`C76_print_pattern_false`).
* C77: `LoadImba::~LoadImba` frees the five arrays of every `ThreadLoadImba` but not the structure, and reads `limba[i]` although `init` may not have been called; `Barrier::Barrier` throws `bad_alloc` without giving back the arrays it has obtained.
* C78: `getInstance` returns the existing barrier to a team of any size; `LoadImba::getInstance` under `__MIC__` divides by 4 whatever the number of threads is (`Barrier::getInstance` does not).
* C80: with an argument of at least four characters main copies the name with `strncpy` and never terminates the copy, so that `string(buf2)` reads uninitialised memory (`C80_matrix_name_ub`).
* C81: the drivers allocate the buffer of flushLlc and never write it, so that every call reads uninitialised memory (`C81_buffer_unset_ub`).
* C63: the third assertion loop of LevelSchedule.cpp:489-491 runs from extptr[i] to rowptr[i] and so checks nothing (modelled as it is).
* C57: racing threads queue the nodes of the last level several times and overflow `candidates`.
* C46: a full row with at least as many columns as rows, and 1x1 with one thread, write past the degree sums.
* C48: counts of 2^31 or more.
* C50: banner prefix, further words, words of 64 characters, size lines that loop for ever, writers that always report failure.
* C51: zero columns write before the vector.

## 7. Seeded bugs

`seeded/run.py` copies lean/ to a scratch directory, applies one edit to the model at a time, rebuilds and records which theorems
fail. `seeded/LOG.jsonl` has one line per attempt.
