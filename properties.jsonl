{"id": "C01", "title": "MSA masked product is correct", "statement": "Calling the masked multiply with the MSA row algorithm (one-array or two-array accumulator), one-phase or two-phase, on well-formed CSR inputs A, B and mask M returns C such that an entry (i,j) is stored in C exactly when (i,j) is stored in M and some k has A(i,k) and B(k,j) both stored, and its value is the add-fold of mul(A(i,k),B(k,j)) taken in the storage order of row i of A. No law about mul or add is needed. No array is accessed out of bounds and no assertion fires on the way.", "quantifier": "all matrices A, B, M of all sizes with at least one row, well-formed and with no duplicate column inside a mask row (order inside rows arbitrary); all value types; all binary functions mul and add; all thread counts >= 1; all interleavings of the threads", "why_tests_cant": "a test fixes finitely many matrices, one operator pair and whatever interleavings happened; the claim is about every sparsity pattern, operator pair and schedule", "anchors": ["spgemm-blocks/msa/MSAAlgorithm.h: MSA1A, MSA2A, MSABase<false>", "spgemm-blocks/msa/MaskedSparseAccumulator1A.h", "spgemm-blocks/msa/MaskedSparseAccumulator2A.h", "spgemm-blocks/masked-spgemm.h: MaskedSpGEMM1p, MaskedSpGEMM2p"]}
{"id": "C02", "title": "MSA complement-masked product is correct", "statement": "With the complemented MSA row algorithms, C stores (i,j) exactly when (i,j) is not stored in M and some k has A(i,k) and B(k,j) both stored; its value is the add-fold of the products in A-row order. With the Sorted option every row of C is in strictly increasing column order; without it columns appear in order of first contribution.", "quantifier": "all well-formed A, B, M with at least one row and duplicate-free mask rows, all mul/add, all thread counts and interleavings, both values of the Sorted option", "why_tests_cant": "needs every pattern of overlap between the mask and the product, and the accumulator must come back clean after each of arbitrarily many rows", "anchors": ["spgemm-blocks/msa/MSAAlgorithm.h: MSABase<true>, MSA1A<true>, MSA2A<true>", "spgemm-blocks/msa/MaskedSparseAccumulator1A.h: gather, resetStates"]}
{"id": "C03", "title": "Hash masked product is correct", "statement": "The masked multiply with the hash row algorithm returns the same C as described in C01, and every probe of the hash table terminates.", "quantifier": "all well-formed A, B, M with at least one row and duplicate-free mask rows, all mul/add, all thread counts and interleavings", "why_tests_cant": "hash collisions, wrap-around clusters and table reuse between rows depend on the exact key sets; tests reach only a few collision patterns", "anchors": ["spgemm-blocks/hash/MaskedHashAlgorithm.h: MaskedHash", "spgemm-blocks/hash/HashAccumulator.h"]}
{"id": "C04", "title": "Hash complement-masked product is correct", "statement": "The masked multiply with the complemented hash row algorithm returns the C described in C02 for both values of Sorted, although gathered slots are emptied in the middle of probe clusters before the mask keys are erased.", "quantifier": "all well-formed A, B, M with at least one row and duplicate-free mask rows, all mul/add, all thread counts and interleavings, both Sorted options", "why_tests_cant": "correctness rests on an invariant about every probe path in the table at every moment; a counterexample would need a specific cluster shape", "anchors": ["spgemm-blocks/hash/MaskedHashAlgorithm.h: MaskedHashComplemented", "spgemm-blocks/hash/HashAccumulator.h: gatherList, erase"]}
{"id": "C05", "title": "MCA masked product is correct", "statement": "The masked multiply with the mask-compressed accumulator returns the C described in C01 when the rows of B and M are sorted by column without duplicates.", "quantifier": "all well-formed A, B, M with at least one row, rows of B and M strictly increasing, all mul/add, all thread counts and interleavings", "why_tests_cant": "the two-finger merge and the compressed indexing must be right for every interleaving of column ids", "anchors": ["spgemm-blocks/mca/MCAAlgorithm.h", "spgemm-blocks/mca/MaskCompressedAccumulator.h"]}
{"id": "C06", "title": "Heap masked product is correct for every inspection depth", "statement": "The masked multiply with the heap row algorithm returns the C described in C01 (value up to the order of summation) for each inspection parameter: none, one, any finite depth, and unbounded.", "quantifier": "all well-formed A, B, M with at least one row, rows of B and M strictly increasing, all mul, all associative and commutative add, all inspection depths (none, one, any finite depth d with nnz(M) + d below 2^64, unbounded; see C42 for larger d), all thread counts and interleavings", "why_tests_cant": "the multiway merge order depends on ties and heap shape; the skipping done by inspection must never drop a contribution for any pattern", "anchors": ["spgemm-blocks/heap/MaskedHeapAlgorithmInspect.h: MaskedHeap", "spgemm-blocks/heap/Heap.h"]}
{"id": "C07", "title": "Heap complement-masked product is correct", "statement": "The masked multiply with the complemented heap row algorithm returns the C described in C02 in sorted column order (value up to the order of summation).", "quantifier": "all well-formed A, B, M with at least one row, rows of B and M strictly increasing, all mul, all associative and commutative add, all thread counts and interleavings; builds without assertions for all such inputs, builds with assertions when each row with products has a non-empty mask row (see C38 for the rest)", "why_tests_cant": "same as C06, plus the switch-over once the mask row is exhausted", "anchors": ["spgemm-blocks/heap/MaskedHeapAlgorithmInspect.h: MaskedHeapComplemented"]}
{"id": "C08", "title": "Inner-product masked product is correct", "statement": "The inner-product multiply with A in CSR and B in CSC returns the C described in C01 when rows of A and columns of B are sorted without duplicates.", "quantifier": "all well-formed A (CSR), B (CSC), M with at least one row, rows of A and columns of B strictly increasing, all mul/add, all thread counts and interleavings, one-phase and two-phase", "why_tests_cant": "every merge pattern of a row with a column is a different case", "anchors": ["spgemm-blocks/inner/InnerAlgorithm.h", "spgemm-blocks/inner/MaskedInnerSpGEMM.h", "spgemm-blocks/masked-spgemm-inner.h"]}
{"id": "C09", "title": "Two-phase and one-phase agree", "statement": "For each row algorithm, the two-phase call produces exactly the same rows, columns, row pointers, column ids and values as the one-phase call on the same inputs.", "quantifier": "all inputs allowed for the row algorithm, all thread counts (possibly different in the two calls), all interleavings", "why_tests_cant": "the two drivers use different buffers, sizes and the symbolic result as the hash table bound; equality over all inputs needs a proof", "anchors": ["spgemm-blocks/masked-spgemm.h: MaskedSpGEMM1p, MaskedSpGEMM2p"]}
{"id": "C10", "title": "The result does not depend on thread count or interleaving", "statement": "Running a masked multiply with any number of threads, under any interleaving of the threads' shared-memory steps that respects the barriers, gives the same C.", "quantifier": "all inputs, all pairs of thread counts >= 1, all interleavings", "why_tests_cant": "the schedules are unbounded and not controllable from a test", "anchors": ["spgemm-blocks/masked-spgemm.h", "spgemm-blocks/common.h: distributeWork, setRowOffsets, copyValuesToC, initC"]}
{"id": "C11", "title": "Symbolic row counts are exact", "statement": "For each row algorithm the symbolic phase reports for every row exactly the number of entries that the numeric phase then writes, so the arrays of C are neither overrun nor left with unset entries.", "quantifier": "all rows of all well-formed inputs allowed for the algorithm", "why_tests_cant": "an off-by-one in a rare pattern corrupts memory silently", "anchors": ["spgemm-blocks/masked-spgemm.h: MaskedSpGEMM2p", "symbolicRow and numericRow of all row algorithms"]}
{"id": "C12", "title": "Column order of the output rows", "statement": "Masked (non-complemented) algorithms emit each row of C as a subsequence of the mask row, so sorted masks give sorted output; heap algorithms and Sorted complemented algorithms emit strictly increasing columns; no row of C has a duplicate column.", "quantifier": "all well-formed inputs, all rows", "why_tests_cant": "downstream algorithms (MCA, heap, inner) require sorted rows, for every possible input", "anchors": ["gather, gatherList and numericRow of all row algorithms"]}
{"id": "C13", "title": "Work distribution covers each row exactly once", "statement": "The per-thread row ranges computed from the cumulative work are consecutive intervals that start at 0, end at the number of rows and never overlap, so each row is processed by exactly one thread.", "quantifier": "all row counts, all work vectors, all thread counts >= 1", "why_tests_cant": "a gap or an overlap appears only for special work distributions (many zero rows, fewer rows than threads, total work below the thread count)", "anchors": ["spgemm-blocks/common.h: distributeWork"]}
{"id": "C14", "title": "Prefix sums are correct for every thread count", "statement": "The inclusive and exclusive scans write the exact prefix sums of the source, whatever the number of threads and interleaving.", "quantifier": "all arrays of length >= 1, all thread counts >= 1 (inclusive parallel: length >= number of threads), all interleavings", "why_tests_cant": "the block boundaries and barrier handling must be right for every length/thread combination", "anchors": ["spgemm-blocks/scan.h: inclusiveScan, exclusiveScan", "utility.h: scan, seq_scan, CumulativeSum"]}
{"id": "C15", "title": "The hash accumulator behaves as a finite set/map", "statement": "Any sequence of insert, find and erase operations on a hash accumulator gives the results of the same operations on a mathematical finite set (or map), as long as the number of live keys stays below the table size.", "quantifier": "all operation sequences, all keys, all table sizes that are powers of two", "why_tests_cant": "backward-shift deletion is correct only if an invariant on all clusters (including wrap-around) is kept by every operation in every history", "anchors": ["spgemm-blocks/hash/HashAccumulator.h: insert, find, erase, findIdx"]}
{"id": "C16", "title": "Hash table sizing keeps the load at or below one quarter", "statement": "The adjusted table size is a power of two, at least 16, at least four times the requested number of keys plus one, and monotone in the request; so a row's table never exceeds the capacity allocated for the largest row and always keeps an empty slot. On fixed-width integers this holds exactly while the scaled request does not overflow.", "quantifier": "all requested sizes; for the fixed-width statement all word widths", "why_tests_cant": "probe termination for every row depends on it; overflow only shows at sizes no test uses", "anchors": ["spgemm-blocks/hash/HashAccumulator.h: adjustSize, resize"]}
{"id": "C17", "title": "Buffer splitting hands out clean, disjoint, in-bounds memory", "statement": "Splitting a byte buffer into a dirty-object part and a clean-object part returns two disjoint ranges inside the buffer, the clean part is aligned, every byte of it is 0xFF, and the updated dirty size still bounds the bytes that may differ from 0xFF.", "quantifier": "all buffer sizes, object sizes, counts and dirty sizes that meet the size requirement", "why_tests_cant": "the branch depends on rounding of three sizes against each other", "anchors": ["spgemm-blocks/util.h: splitMemory, getCleanMemory, roundUp, roundDown"]}
{"id": "C18", "title": "Aligned allocation is aligned, in bounds and freed at the original address", "statement": "The aligned allocator returns an address that is a multiple of the alignment, with the requested bytes and the stored shift inside the block obtained from malloc, and the matching free passes exactly the malloc address to free.", "quantifier": "all sizes, all alignments >= 1, all addresses malloc may return", "why_tests_cant": "malloc addresses are not controllable in a test", "anchors": ["spgemm-blocks/util.h: mallocAligned, freeAligned"]}
{"id": "C19", "title": "Accumulators are clean again after every row", "statement": "After each symbolic or numeric row the accumulator is back in its initial state, so the result of a row does not depend on which rows the same thread processed before.", "quantifier": "all sequences of rows of all well-formed inputs", "why_tests_cant": "leaks between rows show only for particular successive rows", "anchors": ["spgemm-blocks/msa/MaskedSparseAccumulator1A.h: clear, resetStates", "spgemm-blocks/msa/MaskedSparseAccumulator2A.h", "spgemm-blocks/hash/HashAccumulator.h: resetStates, resetStatesList, gather", "spgemm-blocks/mca/MaskCompressedAccumulator.h: clearAll"]}
{"id": "C20", "title": "The output may be one of the inputs", "statement": "One-phase and generic two-phase calls may pass the same matrix object as output and as A, B or M and still return the product of the original contents.", "quantifier": "all inputs, all aliasing choices among C=A, C=B, C=M", "why_tests_cant": "reading a freed input in one interleaving is undefined behaviour that a test may not notice", "anchors": ["spgemm-blocks/common.h: initC", "spgemm-blocks/masked-spgemm.h", "test/same-in-out-test.cpp"]}
{"id": "C21", "title": "Converting CSC to CSR preserves the matrix", "statement": "Constructing a CSR matrix from a CSC matrix keeps exactly the same stored (row, column, value) triples with the same multiplicities, gives a well-formed matrix of the same shape, and lists every row in column order; the transposing constructor turns column j into row j unchanged.", "quantifier": "all well-formed CSC matrices, sorted or not, with or without repeated entries", "why_tests_cant": "counting-sort placement must be right for every nonzero pattern", "anchors": ["CSR.h: CSR(const CSC&)", "CSR.h: CSR(const CSC&, bool transpose)", "utility.h: CumulativeSum"]}
{"id": "C22", "title": "Key/value merge sort sorts stably", "statement": "The key/value merge sort returns a permutation of the key/value pairs with keys in non-decreasing order, pairs with equal keys staying in their original order.", "quantifier": "all arrays of length >= 1", "why_tests_cant": "for all inputs and lengths including odd splits", "anchors": ["utility.h: mergesort"]}
{"id": "C23", "title": "The output is a well-formed CSR matrix", "statement": "The row pointers of C start at 0, never decrease, end at nnz; the column and value arrays have length nnz; all column ids are below the column count; rows and cols equal those of A and B.", "quantifier": "all inputs allowed for the algorithm, all thread counts, all interleavings", "why_tests_cant": "every consumer indexes by these arrays without checks", "anchors": ["spgemm-blocks/common.h: initC, setRowOffsets, copyValuesToC"]}
{"id": "C24", "title": "Intersection keeps exactly the common entries", "statement": "The intersection of two sorted CSR matrices stores (i,j) exactly when both inputs do, with the combined value, and is well-formed.", "quantifier": "all well-formed sorted pairs of matrices of the same shape", "why_tests_cant": "merge cases are unbounded", "anchors": ["CSR.h: Intersect"]}
{"id": "C25", "title": "Index base conversion round-trips", "statement": "Converting a zero-based matrix to one-based and back restores it exactly, repeated conversions are idempotent, and conversion never changes the logical matrix.", "quantifier": "all well-formed matrices, all sequences of conversions", "why_tests_cant": "history property over arbitrary conversion sequences", "anchors": ["CSR.h: ConvertOneBased, ConvertZeroBased"]}
{"id": "C26", "title": "One-phase temporary buffers are never overrun", "statement": "The upper bound used for the per-thread output buffers, the sum over rows of min(flops, mask row length) (or flops for the complement), is never exceeded by what the numeric phase writes.", "quantifier": "all well-formed inputs, all row ranges, all row algorithms", "why_tests_cant": "an overrun is a heap corruption that need not crash a test", "anchors": ["spgemm-blocks/common.h: scanInputs", "spgemm-blocks/masked-spgemm.h: MaskedSpGEMM1p"]}
{"id": "C27", "title": "All masked algorithms agree", "statement": "On inputs that meet every algorithm's requirement, MSA, hash, MCA and inner-product return identical matrices (bit for bit, for any mul/add), and heap returns the same matrix when add is associative and commutative; the complemented algorithms with sorted output agree likewise.", "quantifier": "all well-formed sorted inputs, all mul/add as stated, all thread counts", "why_tests_cant": "agreement on samples does not give agreement everywhere", "anchors": ["spgemm-blocks/masked-spgemm.h"]}
{"id": "C28", "title": "Masked multiply equals the Hadamard-masked matrix product over a semiring", "statement": "If the values form a semiring and mul/add are its operations, then as dense matrices (absent entries read as 0) the result equals M's pattern applied entrywise to A times B, and its complement version equals the complement pattern applied entrywise to A times B.", "quantifier": "all semirings, all well-formed inputs", "why_tests_cant": "connects the data structure to the mathematical product for all sizes and value types", "anchors": ["spgemm-blocks/masked-spgemm.h"]}
{"id": "C29", "title": "Triangle counting counts triangles", "statement": "Summing the entries of the product of the strictly lower triangle with itself, masked by itself with the multiply-as-one operator, gives exactly the number of triangles of the graph, and relabelling the vertices does not change it.", "quantifier": "all finite simple undirected graphs, all vertex orders", "why_tests_cant": "a count over all graphs cannot be enumerated", "anchors": ["benchmarks/TriCntAllGrb.cpp: msp_tri_count_sandia_L", "tri_count.cpp"]}
{"id": "C30", "title": "k-truss iteration computes the k-truss", "statement": "The k-truss loop stops after finitely many rounds, and for k >= 3 what remains is the largest subgraph in which every edge lies in at least k-2 triangles of that subgraph.", "quantifier": "all finite simple undirected graphs, all k >= 3", "why_tests_cant": "a fixpoint property over iterations of unbounded number", "anchors": ["benchmarks/KTrussAllGrb.cpp: msp_ktruss"]}
{"id": "C31", "title": "Legacy masked kernels are correct", "statement": "The SPA kernel and the linear-probing hash kernels return C with an entry exactly where the mask and the product both have one; values are the add-folds in A-row order (SPA folds with the new product first).", "quantifier": "all well-formed inputs, also with repeated columns in mask rows, all mul/add, all thread counts", "why_tests_cant": "same as C01", "anchors": ["spa_mult.h: MaskedSPASpGEMM", "SPA.h", "mask_hash_mult.h: mxm_hash_mask, mxm_hash_mask_wobin", "mask_hash.h: map_lp"]}
{"id": "C32", "title": "Atomic transpose is correct for every interleaving", "statement": "Transposing CSR to CSC with atomic counters stores in each column exactly the (row, value) pairs of the matrix, for every order in which the atomic increments take effect.", "quantifier": "all well-formed matrices, all interleavings", "why_tests_cant": "the placement depends on the schedule", "anchors": ["util/transpose.h: csr2csc_atomic_nosort"]}
{"id": "C33", "title": "BIN row partition covers each row exactly once", "statement": "The row offsets computed for the legacy kernels start at 0, end at the row count and never decrease, and the bin of a row is the smallest power-of-two table that holds its intermediate products.", "quantifier": "all row counts >= 1, all intermediate product counts, all thread counts", "why_tests_cant": "all work vectors", "anchors": ["BIN.h: set_rows_offset, set_bin_id"]}
{"id": "C34", "title": "Unmasked hash SpGEMM is correct and its probes terminate", "statement": "The unmasked hash multiply returns exactly the entries of the product, even when a row's hash table becomes completely full.", "quantifier": "all well-formed inputs, all mul/add", "why_tests_cant": "a full table makes probing loop forever unless every probed key is present", "anchors": ["hash_mult_hw.h: hash_symbolic, hash_numeric"]}
{"id": "C35", "title": "The merge heap returns a minimal entry and loses nothing", "statement": "After building the heap, removing its root, or replacing the root by a larger entry and sinking it, the top is a smallest remaining entry and the multiset of entries is exactly as expected.", "quantifier": "all heap sizes, all keys including ties", "why_tests_cant": "replacing the root violates the documented precondition of the standard heap calls, so correctness depends on the algorithm for every shape", "anchors": ["spgemm-blocks/heap/Heap.h: make, pop, sinkRoot"]}
{"id": "C36", "title": "The driver is free of data races", "statement": "In every phase between barriers no thread writes a memory cell that another thread reads or writes.", "quantifier": "all inputs, all thread counts", "why_tests_cant": "race freedom is a statement about all interleavings", "anchors": ["spgemm-blocks/masked-spgemm.h", "spgemm-blocks/common.h: copyValuesToC"]}
{"id": "C37", "title": "Matrices with zero rows are handled", "statement": "A masked multiply of matrices with zero rows returns an empty matrix without touching memory it does not own.", "quantifier": "all thread counts, all column counts", "why_tests_cant": "out-of-bounds writes to a zero-size allocation do not fail visibly", "anchors": ["spgemm-blocks/scan.h: exclusiveScan"]}
{"id": "C38", "title": "Heap complement works on empty mask rows with assertions enabled", "statement": "A complement-masked heap multiply returns the plain product row when the mask row is empty, in builds with and without assertions.", "quantifier": "all inputs with some empty mask row", "why_tests_cant": "the build mode and the row pattern must coincide", "anchors": ["spgemm-blocks/heap/MaskedHeapAlgorithmInspect.h: MaskedHeapComplemented"]}
{"id": "C39", "title": "Per-row choice of algorithm gives the same result", "statement": "The poly-algorithm driver, which picks MSA or MCA per row, returns the same C as either algorithm alone.", "quantifier": "all inputs", "why_tests_cant": "depends on what the uninitialised row counters happen to contain", "anchors": ["spgemm-blocks/masked-spgemm-poly.h"]}
{"id": "C40", "title": "Two-phase inner product may write over its input", "statement": "The two-phase inner-product call may pass the same object as output and as A or M.", "quantifier": "all inputs", "why_tests_cant": "use after free may go unnoticed in a test", "anchors": ["spgemm-blocks/masked-spgemm-inner.h: MaskedSpGEMM2p", "spgemm-blocks/inner/MaskedInnerSpGEMM.h"]}
{"id": "C41", "title": "Mask rows with repeated columns", "statement": "A mask row that lists a column more than once gives the same result as the mask row with the repetition removed.", "quantifier": "all masks with repeated columns, all row algorithms without sortedness requirement", "why_tests_cant": "non-termination depends on hash positions", "anchors": ["spgemm-blocks/hash/MaskedHashAlgorithm.h", "spgemm-blocks/msa/MSAAlgorithm.h"]}
{"id": "C42", "title": "Heap inspection depths near the integer limit", "statement": "The heap multiply is safe and correct for every value of the inspection depth template parameter, including finite depths close to the largest size_t.", "quantifier": "all inspection depths, all well-formed sorted inputs", "why_tests_cant": "The failure needs a depth for which the sum of a mask position and the depth wraps around; tests use depths 0, 1 and unbounded, and only a proof over all depths exposes the boundary.", "anchors": ["spgemm-blocks/heap/MaskedHeapAlgorithmInspect.h: insertNext", "spgemm-blocks/heap/MaskedHeapAlgorithmInspect.h: initHeap"]}
{"id": "C43", "title": "Work counts of the rows are exact", "statement": "Before distributing the work, the driver counts for each row the products that will be formed (zero when an uncomplemented mask row is empty) and their total; both are exact, in whatever order the parallel loop executes its iterations, so no row with work is skipped and the total matches the per-row counts.", "quantifier": "all well-formed inputs with fitting shapes, all orders of the loop iterations, masks and complemented masks (unbounded integers)", "why_tests_cant": "Depends on all matrices and all loop orders; a wrong zero silently drops a row of the result.", "anchors": ["spgemm-blocks/common.h:calculateFlops", "spgemm-blocks/masked-spgemm.h:MaskedSpGEMM1p"]}
{"id": "C44", "title": "Work distribution is balanced", "statement": "With the ranges computed from the cumulative work, no thread gets more work than total/threads plus the work of the heaviest row plus the number of threads.", "quantifier": "all work vectors, all thread counts >= 1, all threads", "why_tests_cant": "A bound over all work vectors; a test sees only the skew of its own matrices.", "anchors": ["spgemm-blocks/common.h:distributeWork"]}
{"id": "C45", "title": "One scratch buffer serves both phases", "statement": "In a two-phase call the per-thread scratch buffer, whose initial bytes are arbitrary, gives the symbolic accumulator and afterwards the numeric accumulator a table that lies inside the buffer, is aligned, does not overlap the value array and reads as empty in every entry.", "quantifier": "all table sizes, entry sizes, buffer addresses with the required alignment, initial buffer contents, and all byte changes the symbolic phase makes to its own table that end with an empty table", "why_tests_cant": "the overlap of the two tables depends on entry sizes, table sizes and rounding; malloc tends to return zeroed pages in tests, which hides missing cleaning", "anchors": ["spgemm-blocks/util.h: splitMemory, getCleanMemory", "spgemm-blocks/masked-spgemm.h: MaskedSpGEMM2p", "setBuffer/releaseBuffer of the accumulators"]}
{"id": "C46", "title": "The aligned allocator's own bookkeeping is aligned", "statement": "The size_t that the aligned allocator stores below the returned pointer is stored at an address that is a multiple of 8.", "quantifier": "all alignments, all 16-byte aligned addresses malloc may return", "why_tests_cant": "x86 tolerates misaligned accesses, so tests pass although the access is undefined", "anchors": ["spgemm-blocks/util.h: mallocAligned, freeAligned", "spgemm-blocks/heap/Heap.h: getMemoryRequirement"]}
{"id": "C47", "title": "Building CSC from triples or edges keeps every entry", "statement": "Constructing a CSC matrix from a list of triples (or edges with unit values) stores exactly the given triples with their multiplicities, is well-formed, and orders every column by row id, whatever order the parallel column loop runs in and whatever correct sort is used.", "quantifier": "all lists of in-range triples, all orders of the parallel loop, all correct sorting functions", "why_tests_cant": "all inputs and all interleavings of the column loop", "anchors": ["CSC.h: CSC(Triple*, nnz, m, n)", "CSC.h: CSC(tuples, addop)", "CSC.h: CSC(ri, ci, val, nnz, m, n)", "CSC.h: CSC(edges, nnz, m, n)"]}
{"id": "C48", "title": "The prefix sum of utility.h is right and stays in bounds", "statement": "scan(in, out, N) stores in out[i] the sum of the first i source elements, for every team size and interleaving, and reads no element outside the source. The callers pass a source with N-1 elements.", "quantifier": "all source arrays, all N >= 1, all team sizes, all interleavings", "why_tests_cant": "the parallel branch is only taken for N >= 2^17 and its result depends on the schedule; the out-of-bounds read has no visible effect in most runs", "anchors": ["utility.h: seq_scan, scan", "CSR.h: Intersect", "BIN.h: set_rows_offset", "hash_mult_hw.h: hash_symbolic"]}
{"id": "C49", "title": "The work is split evenly between the threads", "statement": "Each thread gets consecutive rows. Leaving out the last row of its range, a thread has less than total/n units of work (at most the rounded-up average in the older partition), and the last thread has at most total/n + total%n units, so no thread gets more than about its share plus one row.", "quantifier": "all work vectors, all thread counts, all threads", "why_tests_cant": "the bound is about every distribution of the work; results do not depend on the split, so a bad one only shows as lost speed", "anchors": ["spgemm-blocks/common.h: distributeWork", "BIN.h: set_rows_offset"]}
{"id": "C50", "title": "Relabelling by degree yields an isomorphic graph with sorted degrees", "statement": "Relabelling the vertices of a graph by degree returns the adjacency matrix of an isomorphic graph whose vertices are numbered by non-increasing degree, and those of equal degree by falling old number; it reads and writes no array out of bounds and reads no unset label.", "quantifier": "all finite simple undirected graphs, all values, every sorting function that orders pairs decreasingly", "why_tests_cant": "ranges over all graphs and over the order in which equal degrees are placed", "anchors": ["grb_util.h: sort_by_degree"]}
{"id": "C51", "title": "The k-truss program accepts k = 2 and computes the 2-truss", "statement": "The program accepts every k >= 2. For k = 2 what remains is the 2-truss, that is, the largest subgraph in which every edge lies in at least 0 triangles, which is the whole graph.", "quantifier": "all finite simple undirected graphs, k = 2", "why_tests_cant": "the smallest accepted parameter is rarely run, and the output is a plausible subgraph", "anchors": ["benchmarks/KTrussAllGrb.cpp: msp_ktruss, main"]}
{"id": "C52", "title": "Batched betweenness centrality computes the betweenness centrality", "statement": "Given the adjacency matrix of a directed graph and a nonempty batch of sources, the betweenness program ends without error and its result vector holds, for every vertex v, the sum over the sources s and all vertices t different from v (s also different from v) of the fraction of the shortest paths from s to t that go through v. This holds for every choice of a complemented algorithm with sorted output for the forward phase and of a plain algorithm for the backward phase, one- or two-phase, where the output of each multiply overwrites one of its inputs.", "quantifier": "all finite directed graphs (loops allowed) with any stored values, all nonempty batches of sources (repetitions allowed), all pairs of algorithms with sorted output (the complemented heap compiled without assertions), all thread counts, all schedules of every round; arithmetic of any field of characteristic 0", "why_tests_cant": "correctness rests on an induction over the distance layers in two loops and on counting arguments over all shortest paths; tests compare a few graphs in floating point with another implementation", "anchors": ["benchmarks/BCAllGrb.cpp: msp_bc_internal", "CSR.h: get_grb_mat", "grb_util.h: avoid_iso"]}
{"id": "C53", "title": "The older inner-product kernel computes the masked product", "statement": "For every multiplication and addition, a call of the older inner-product kernel with matrices of fitting shapes (rows of A and columns of B sorted, mask without repeated columns) ends without touching memory out of bounds and stores in the output object, whatever it held before, exactly the entries of A times B at the mask positions, as a well-formed matrix.", "quantifier": "all matrices A (CSR), B (CSC) and M (CSR) of fitting shapes, all multiplications and additions, all thread counts, all interleavings of the threads, all previous states of the output object", "why_tests_cant": "the result must be independent of the interleaving, and the four ways in which the claim fails (additions without 0 as identity, more columns of A in use than B has, 2^17 rows, an output object in use) lie outside the shapes and semirings that are tried", "anchors": ["inner_mult.h: innerSpGEMM_nohash", "BIN.h: set_max_bin"]}
{"id": "C54", "title": "The older heap kernel computes the product", "statement": "For every multiplication and every associative and commutative addition, a call of the older heap kernel with matrices of fitting shapes stored by columns (row ids of A's columns increasing) ends without touching memory out of bounds and stores in the output exactly the entries of A times B that get at least one product, as a well-formed matrix whose columns are sorted.", "quantifier": "all matrices A and B in column storage of fitting shapes (columns of B in any order, repetitions allowed), all multiplications and associative commutative additions, all thread counts, all interleavings of the threads", "why_tests_cant": "the merge must be right for every number and length of the columns that meet in the heap, the output must be independent of the interleaving, and the failures (no columns, 2^17 - 1 or more columns) need sizes that are not tried", "anchors": ["heap_mult.h: get_flop, HeapSpGEMM", "HeapEntry.h: HeapEntry", "utility.h: scan"]}
{"id": "C55", "title": "Matrix variables behave like values", "statement": "In every program made of constructions, copies, assignments (also of a variable to itself), make_empty calls, element writes and destructions of matrix variables that is correct when variables are taken as values, no memory is read before it is set, after it was freed or out of bounds, nothing is freed twice, each variable reads as its value, a change of one variable never shows in another, and no memory is left when all variables are destroyed.", "quantifier": "all programs of any length over any number of matrix variables of the classes CSR and CSC, with any sizes and values", "why_tests_cant": "sharing and lifetime errors depend on the sequence of operations; there are infinitely many sequences, and freed memory usually still reads as its old contents", "anchors": ["CSR.h: CSR(), CSR(nnz, m, n), copy constructor, operator=, make_empty, destructor", "CSC.h: CSC(), CSC(nnz, m, n), copy constructor, operator=, make_empty, destructor"]}
{"id": "C56", "title": "Comparison of matrices", "statement": "Comparing two matrices with == reads only memory of the two, and yields true exactly if they have the same shape, the same stored positions and values that are equal up to the documented tolerance, also if one is zero-based and the other one-based. For integers and sorted rows this means that they are the same matrix.", "quantifier": "all pairs of well-formed matrix variables of all sizes in all program states, both index bases, all value comparisons", "why_tests_cant": "the comparison must agree with equality of the represented matrices for every pair, including empty ones whose arrays were never allocated", "anchors": ["CSR.h: operator==", "CSC.h: operator==", "utility.h: ErrorTolerantEqual"]}
{"id": "C57", "title": "Matrices of generated graphs", "statement": "Building a matrix (by rows or by columns) from a generated graph whose edges are sorted by their start ends without touching memory out of bounds and yields the weight matrix of the graph: entry (i, j) is present exactly if there is an edge from i to j and holds the sum of the weights of all edges from i to j. The matrix is well-formed with sorted rows (columns).", "quantifier": "all graphs with any number of vertices and edges, with parallel edges and loops, all weights and associative commutative additions, all sorting functions that meet the contract of std::sort", "why_tests_cant": "the merge of parallel edges works on runs of neighbours, so it has to be right for every pattern of runs; random generators never produce the graph without edges", "anchors": ["CSR.h: CSR(graph &)", "CSC.h: CSC(graph &)"]}
{"id": "C58", "title": "Sorting, shuffling and testing the order of entries", "statement": "Sorting the ids of a matrix and shuffling them end without touching memory out of bounds and only rearrange the entries inside each row (column), with values staying at their ids. After sorting every row is in column order, and sorting a shuffled matrix restores the original matrix if that was sorted. The printed sortedness flag is true exactly if no row has an id smaller than the one before it.", "quantifier": "all well-formed matrices of all sizes, all random number sequences, all sorting functions that meet the contract of std::sort, all orders of the parallel iterations", "why_tests_cant": "the random shuffle and the parallel order range over infinitely many cases; the failure (empty rows with a signed index type) is undefined behaviour that usually goes unnoticed", "anchors": ["CSR.h: sortIds, shuffleIds, Sorted", "CSC.h: shuffleIds, Sorted", "utility.h: my_is_sorted"]}
{"id": "C59", "title": "The bit map is a set of positions", "statement": "A bit map made for n positions and reset accepts every sequence of set_bit calls with positions below n. Afterwards get_bit is true exactly for the positions that were set. get_next_bit returns the smallest set position after the given one, and -1 if there is none.", "quantifier": "all sizes, all sequences of positions, all start positions inside the map", "why_tests_cant": "the search depends on the whole content of the map; the failure needs a map of more than 2^32 positions", "anchors": ["BitMap.h: BitMap, reset, set_bit, get_bit, get_next_bit"]}
{"id": "C60", "title": "Extracting a submatrix", "statement": "For a well-formed matrix with sorted columns and increasing lists of rows and columns inside it, each of SpRef, SpRef1 and SpRef2 returns the submatrix: its entry in row p and column q is the entry of the matrix in row ri[p] and column ci[q]. No function touches memory out of bounds, also not for indices that the bound checks let pass.", "quantifier": "all well-formed matrices, all increasing lists of rows and columns, all value types", "why_tests_cant": "the selections are unbounded; the functions return right results for selections of leading rows and columns, so tests on those pass", "anchors": ["CSC.h: SpRef, SpRef1, SpRef2, intersect", "BitMap.h"]}
{"id": "C61", "title": "Merging duplicate entries of a column matrix", "statement": "MergeDuplicates ends without touching memory out of bounds. Afterwards every column has one entry per row that had entries, whose value is the sum of their values, and the number of entries is updated.", "quantifier": "all well-formed matrices with sorted columns, all value types and additions, all orders of the parallel iterations", "why_tests_cant": "accessing elements of an empty vector is undefined behaviour that need not show", "anchors": ["CSC.h: MergeDuplicates", "utility.h: CumulativeSum"]}
{"id": "C62", "title": "Removing duplicate triples", "statement": "removeDuplicates rearranges the array so that the first d triples, where d is the return value, have increasing positions, all come from the given array, and cover all its positions. Random triples are generated within the given ranges, with no position twice.", "quantifier": "all arrays of triples, all sorting functions that meet the contract of std::sort, all random number sequences", "why_tests_cant": "the arrays are unbounded and the order of equal triples after std::sort is unspecified", "anchors": ["util/triple-util.h: removeDuplicates, generateRandomTriples"]}
{"id": "C63", "title": "Splitting a matrix into pieces by rows", "statement": "SplitTuples distributes the entries over the pieces so that each piece has exactly the entries of a contiguous block of rows and together they are the matrix. The matrix can be restored from the pieces.", "quantifier": "all well-formed matrices by columns and by rows, all numbers of pieces", "why_tests_cant": "the failures (division by zero, confused rows) depend on the ratio of sizes to pieces; tests with multiples pass", "anchors": ["SplitTuples.h: SplitTuples"]}
{"id": "C64", "title": "The outer-product kernel returns the product", "statement": "OuterSpGEMM of a matrix stored by columns and a matrix stored by rows returns their product: each row has exactly the columns with a contribution, in increasing order, each with the sum of its contributions. The result does not depend on the distribution of work, the interleaving of the threads or the memory that was there before.", "quantifier": "all well-formed matrices of fitting shapes, all numbers of threads and blocks, all buffer sizes, all interleavings, all sorting functions, every associative and commutative addition", "why_tests_cant": "threads append to shared blocks in any order, and the packed sort key goes wrong only for more than 4096 rows per block or more than 2^20 columns", "anchors": ["outer_mult.h: OuterSpGEMM, OuterSpGEMM_stage, do_static_symbolic, ExtractKey2, doMerge"]}
{"id": "C65", "title": "Reading a matrix from a text file", "statement": "ReadASCII builds exactly the matrix that a Matrix Market coordinate file describes: sizes, all entries with their values, and for symmetric and skew-symmetric files the mirror images. A file that cannot be read is reported.", "quantifier": "all coordinate files (any sizes, comments, numbers of entries), all value types, all orders of the parallel loop, all sorting functions", "why_tests_cant": "what is read depends on the wording of comments, line lengths, separators and symmetry; test files share the layout of a few sources", "anchors": ["IO.h: ReadASCII"]}
{"id": "C66", "title": "Reading triples from a text file", "statement": "ReadASCII_Triples returns the sizes and exactly the entries that a Matrix Market coordinate file describes, with mirror images for symmetric files, without the diagonal if this is wanted, and with the same random value for an entry and its mirror image if random values are wanted.", "quantifier": "all coordinate files, both options, all random sequences, all initial contents of the new arrays", "why_tests_cant": "the counting of entries combines symmetry, diagonal entries and removal; errors show for particular mixtures only", "anchors": ["IO.h: ReadASCII_Triples"]}
{"id": "C67", "title": "Constructing a matrix by rows from a text file", "statement": "CSR(filename) builds exactly the matrix that a Matrix Market coordinate file describes, with the mirror images for symmetric and skew-symmetric files. It returns or reports an error for every other file.", "quantifier": "all coordinate files, all value types and conversions of values", "why_tests_cant": "the outcome depends on words in comments, on counts that do not match and on blank lines; non-termination cannot be observed by a test", "anchors": ["CSR.h: CSR(string filename)"]}
{"id": "C68", "title": "Reading a matrix from a binary file", "statement": "ReadBinary builds exactly the matrix whose sizes, row indices, column indices and values a binary file contains. It reports missing and truncated files and leaves the matrix unchanged then.", "quantifier": "all binary files, all sizes of the integer and value types, all conversions of values, all orders of the parallel loop", "why_tests_cant": "truncation can occur at every byte and indices can have every value", "anchors": ["IO.h: ReadBinary", "CSC.h: CSC(IT*, IT*, NT*, IT, IT, IT)"]}
{"id": "C69", "title": "The triangle counting program prints the number of triangles", "statement": "tricnt-all, run on the file of a square matrix, reports the number of triangles of the undirected graph whose edges are the stored positions off the diagonal, whatever the order, repetition, symmetry and values of the entries, the multiplication algorithm, the number of threads and the schedule.", "quantifier": "all square matrices and all Matrix Market coordinate files of them, all algorithms without complement, one- and two-phase, all thread counts, schedules and distributions of the final sum, all semirings of values", "why_tests_cant": "unboundedly many graphs and storage orders; the result passes through relabelling, sorting, removal of duplicates, two conversions and a parallel multiplication and sum", "anchors": ["benchmarks/TriCntAll.cpp: preprocessInput, main", "benchmarks/benchmarks-util.h: run", "CSC.h: CSC(Triple*, IT, IT, IT)", "CSR.h: CSR(const CSC&), sumall"]}
{"id": "C70", "title": "The sum of the stored values", "statement": "sumall returns the sum of all stored values, independently of how the parallel loop is distributed over the threads.", "quantifier": "all well-formed matrices, all values, all distributions of the iterations over threads", "why_tests_cant": "all value types and all distributions of a parallel reduction", "anchors": ["CSR.h: sumall", "CSC.h: sumall"]}
{"id": "C71", "title": "Checksums tell different results apart", "statement": "The checksum of an array is the complement of the one's complement sum of its 16-bit words; results that differ are told apart by the printed number of entries, sum and checksum at least if only one word differs or if the same values are stored at other positions.", "quantifier": "all sequences of bytes, all pairs of results", "why_tests_cant": "the pairs of results with equal checksums are exactly what a test run does not show", "anchors": ["benchmarks/benchmarks-util.h: calculateChecksum, checksum, run"]}
{"id": "C72", "title": "The older row algorithms are interchangeable with the new ones", "statement": "A multiplication with the older MSA and heap classes (MSA1A_old, MSA2A_old, MaskedHeap_v0, v1, v2) gives the same outcome as with the classes that replaced them, the same matrix or the same failure, for every input; in particular it computes the masked product and the number of triangles.", "quantifier": "all matrices (well-formed or not), operations, thread counts and schedules, one- and two-phase", "why_tests_cant": "equality of two implementations on all inputs, including ill-formed ones, and all interleavings", "anchors": ["spgemm-blocks/msa/MSAAlgorithm_old.h: MSA1A_old, MSA2A_old", "spgemm-blocks/heap/MaskedHeapAlgorithm.h: MaskedHeap_v0, MaskedHeap_v1, MaskedHeap_v2", "benchmarks/TriCntAll.cpp: main"]}
{"id": "C73", "title": "Every kernel of the triangle counting program gives the same count", "statement": "tricnt-all reports the number of triangles also with the kernels outside the block drivers: the dense-accumulator kernel, the hash kernels with and without bins, the older inner-product kernel and the hash product followed by an intersection with the mask.", "quantifier": "all square matrices with stored entries and fewer than 2^17 - 1 rows, all multiplications that return the masked product with entries in any order, all thread counts, schedules and distributions of the sum", "why_tests_cant": "holds for any kernel with the stated contract and all graphs; the kernel that fails gives the right number on sparse graphs", "anchors": ["benchmarks/TriCntAll.cpp: HashIntersect, main", "benchmarks/benchmarks-util.h: run", "spa_mult.h: MaskedSPASpGEMM", "mask_hash_mult.h: mxm_hash_mask, mxm_hash_mask_wobin", "inner_mult.h: innerSpGEMM_nohash", "CSR.h: Intersect"]}
{"id": "C74", "title": "The masked heaps of the generic driver compute the masked product", "statement": "HeapSpGEMM<MaskedHeap_v0/v1/v2> returns exactly the entries of A*B at positions stored in the mask, each the sum of its products, with rows in mask order, without an access out of bounds and without a deadlock, for every number of threads and every interleaving.", "quantifier": "all matrices with at least one row and sorted rows of B and M, all associative and commutative additions, all thread counts and schedules (with 2^17 rows or more: default team not larger than the number of rows)", "why_tests_cant": "all matrices, additions and interleavings; the buffers are sized by an estimate that must be enough for every input", "anchors": ["heap_mult_generic.h: HeapSpGEMMImpl, getFlop, MaskedHeapBase, MaskedHeap_v0, MaskedHeap_v1, MaskedHeap_v2", "benchmarks/MaskedAllSpGEMM.cpp: main"]}
{"id": "C75", "title": "The mask compressed accumulators of the generic driver compute the masked product", "statement": "HeapSpGEMM<MCA_v1/v2/v3> returns the masked product for all matrices with sorted rows. (False: versions 1 and 2 take the first column of a row of B from A, all versions size their buffer by the number of products although values are put at mask positions, and versions 1 and 3 walk past empty mask rows. It holds under stated conditions that exclude these cases.)", "quantifier": "all matrices with at least one row and sorted rows of B and M, all operations, all thread counts and schedules", "why_tests_cant": "the failures depend on where in the mask row a hit is, on neighbouring arrays and on the split between threads; usual tests with A = B and dense products pass", "anchors": ["heap_mult_generic.h: MCABase, MCA_v1, MCA_v2, MCA_v3, HeapSpGEMMImpl", "benchmarks/MaskedAllSpGEMM.cpp: main"]}
{"id": "C76", "title": "The unmasked heaps of the generic driver compute the product", "statement": "HeapSpGEMM<BasicHeap> and HeapSpGEMM<HeapLinear<T>> (linear search below T entries, a heap above) return the product with sorted rows, for every threshold T, number of threads and interleaving.", "quantifier": "all matrices with at least one row, fitting shapes and sorted rows of B, all thresholds, all associative and commutative additions, all thread counts and schedules", "why_tests_cant": "all matrices, thresholds and interleavings; the switch between heap and linear search happens in the middle of a row", "anchors": ["heap_mult_generic.h: BasicHeap, HeapLinear, HeapBase, HeapSpGEMMImpl, HeapSpGEMM"]}
{"id": "C77", "title": "Masked products with an index type that holds the inputs", "statement": "If the sizes and numbers of entries of A, B and M fit into the (unsigned) index type, every row algorithm computes its (complemented) masked product, even if the number of scalar products exceeds the index type. (Holds for the masked calls, and for two-phase complemented calls whose result fits. False for one-phase complemented calls when the number of products wraps around: the buffer is too small; and for a row of A with a repeated column, whose count can wrap to 0.)", "quantifier": "all unsigned index widths, all row algorithms, one and two phases, all matrices that fit without repeated columns in the rows of A, all operations, thread counts and schedules", "why_tests_cant": "needs matrices with more than 2^32 products, and all splits of the wrapped work between threads", "anchors": ["spgemm-blocks/common.h: calculateFlops, distributeWork, scanInputs, initC, setRowOffsets", "spgemm-blocks/scan.h", "spgemm-blocks/masked-spgemm.h: MaskedSpGEMM1p, MaskedSpGEMM2p"]}
{"id": "C78", "title": "Inner products with an index type that holds the inputs", "statement": "If the sizes and numbers of entries of A, B and M fit into the (unsigned) index type, the inner-product calls compute the masked product. (Holds for the one-phase call. The two-phase call drops exactly the rows whose work is a multiple of the number of values of the index type.)", "quantifier": "all unsigned index widths, all sorted matrices that fit, all operations, thread counts and schedules", "why_tests_cant": "the work of a single row must reach 2^32", "anchors": ["spgemm-blocks/common.h: calculateWork, distributeWork", "spgemm-blocks/masked-spgemm-inner.h: MaskedSpGEMM1p, MaskedSpGEMM2p"]}
{"id": "C79", "title": "The benchmark for complemented masks reports the same, right numbers for every algorithm", "statement": "For a file that describes a square matrix with different positions, complement-masked-all prints in every round one line per algorithm of the mode, with the name of the file and of the algorithm; every line reports as number of entries the number of pairs joined by two edges but not by one, as sum the sum of the entries of the square at positions that are not stored, and all lines have the same checksum, sorted variants or not. (At least one call must be made; files that ReadASCII misreads are excluded.)", "quantifier": "all such files, semirings of values, modes, iteration counts, thread counts, schedules of every call, distributions of the final sum", "why_tests_cant": "the numbers depend on a whole pipeline of reading, converting and multiplying under every schedule; tests compare the lines for a few files", "anchors": ["benchmarks/ComplementMaskedSpGEMM.cpp: main", "benchmarks/benchmarks-util.h: run, checksum", "IO.h: ReadASCII", "CSR.h: CSR(CSC), sumall"]}
{"id": "C80", "title": "Names in the log", "statement": "Algorithms are shown in the log by their text without spaces and their number of phases; different templates never get the same name; files are shown by the last component of their path, for every path. (Violated by masked-all, which reads the byte before the path when it has no '/'.)", "quantifier": "all algorithm texts of the three forms used by the programs, all paths", "why_tests_cant": "infinitely many names and paths; a read one byte before a string goes unnoticed", "anchors": ["benchmarks/benchmarks-util.h: processAlgorithmName, removePrefix, removeSuffix, startsWith, getFileName", "benchmarks/MaskedAllSpGEMM.cpp: getFileName"]}
{"id": "C81", "title": "The inner-product calls are free of data races", "statement": "In every phase between barriers of a masked multiplication by inner products (second factor stored by columns) no thread writes a memory cell that another thread reads or writes; in particular the threads use disjoint parts of the shared buffers for column numbers and values.", "quantifier": "all inputs with sorted rows and columns, one-phase and two-phase call, all thread counts and interleavings", "why_tests_cant": "race freedom is a statement about all interleavings and all distributions of rows to threads", "anchors": ["spgemm-blocks/masked-spgemm-inner.h: MaskedSpGEMM1p, MaskedSpGEMM2p", "spgemm-blocks/inner/MaskedInnerSpGEMM.h", "spgemm-blocks/common.h: calculateWork, setRowOffsets, copyValuesToC"]}
{"id": "C82", "title": "What the benchmark for three matrices reports", "statement": "For three files with matrices A, B and a mask M of matching sizes, masked-all prints for each of its ten algorithms, in each round, twice the number of products of entries of A and B, the number of entries of the product at positions of M, and checksums of these entries that are the same for all algorithms, with the name of the first file in the log line. (Holds for files with the same positions in which every column with an entry is also a row with an entry, and for the first seven algorithms in the first round in general. Violated: the algorithms with mask compressed accumulators fail when a row gets products and the mask has no entry in it or after it; without a thread count the program dies at the first log line; with a path without '/' it reads before the path.)", "quantifier": "all files, all thread counts, all numbers of rounds and iterations, all schedules of every call, all semirings", "why_tests_cant": "ten algorithms, each with many threads and interleavings, on unboundedly many inputs; the failing inputs are those on which a benchmark is rarely run", "anchors": ["benchmarks/MaskedAllSpGEMM.cpp: main, run, checksum, getFileName", "inner_mult.h: get_flop", "heap_mult_generic.h: HeapSpGEMM"]}
{"id": "C83", "title": "Counts of operations", "statement": "Every get_flop function returns twice the number of pairs of an entry of A and an entry of B that are multiplied with each other, whatever the storage of the matrices and the order of the loops. (Violated by the functions for a matrix by columns and one by rows, which multiply in the index type: exactly if a product of a column length and a row length does not fit.)", "quantifier": "all matrices of matching sizes, all storage formats, all orders of the parallel loops, all widths of the index type", "why_tests_cant": "the overflow needs matrices with about 2^31 products in one column and row; the equality is over all matrices", "anchors": ["multiply.h: get_flop", "inner_mult.h: get_flop", "heap_mult.h: get_flop", "heap_mult_generic.h: getFlop", "outer_mult.h: getFlop"]}
{"id": "C84", "title": "The triangle counting program", "statement": "tricnt-all, in every mode, prints one line for every algorithm of the mode and every outer iteration, with the name of the algorithm, the name of the file, the number of threads, and as sum the number of triangles of the undirected graph of the file; the number of entries of the product and, for the same product, the checksums agree in all lines. (Violated for HashIntersect, whose sum is the number of edges in the order of the relabelling that close a triangle; in mode all1p, whose last algorithm uses unset memory if there is a triangle; for files without entries; and for graphs with 2^17 - 1 or more vertices in the modes with the older kernels.)", "quantifier": "all matrix files with lines of at most 255 characters, all modes, all counts of iterations and threads, all schedules", "why_tests_cant": "the graphs, the schedules and the numbers of threads are unbounded; the program itself only prints the numbers and checks nothing", "anchors": ["benchmarks/TriCntAll.cpp: main, preprocessInput, HashIntersect, RUN_CSR, RUN_CSR_CSC", "benchmarks/benchmarks-util.h: run, checksum"]}
{"id": "C85", "title": "The outer-product kernel with balanced blocks returns the product", "statement": "OuterSpGEMM of outer_mult2.h, which chooses blocks of rows and the columns of each thread by the number of products, returns the product of a matrix stored by columns and a matrix stored by rows: each row has exactly the columns with a contribution, in increasing order, each with the sum of its contributions. The columns given to the threads cover all columns once. The result does not depend on the interleaving of the threads or the memory that was there before, and is the same as that of the kernel with blocks of equal size.", "quantifier": "all well-formed matrices of fitting shapes, all numbers of threads and blocks, all buffer sizes, all interleavings, all sorting functions, every associative and commutative addition", "why_tests_cant": "the benchmarks use square matrices of moderate size, so that arrays of the wrong size and the key of 16 bits for row and column are not noticed; the boundaries of blocks and threads depend on all counts of products", "anchors": ["outer_mult2.h: OuterSpGEMM, OuterSpGEMM_stage, do_symbolic, ExtractKey2"]}
{"id": "C86", "title": "The statistics per row", "statement": "setRowData stores for every row the number of columns, the sizes of the rows of A and M, the number of products of the row, the number of those in columns of the mask, and the number of entries of the row of the masked product, whatever the number of threads and their interleaving. (Violated for the number of entries, which is the number of products under the mask: wrong exactly if a position of the mask gets two products. Violated if mask or products have columns that A does not have.)", "quantifier": "all well-formed matrices of fitting shapes, all numbers of threads, all interleavings", "why_tests_cant": "the numbers agree for matrices without two products in one position; matrices, threads and interleavings are unbounded", "anchors": ["benchmarks/TriCntAll.cpp: setRowData"]}
{"id": "C87", "title": "The table with the times per row", "statement": "printRowData prints, for every row, the statistics of the row and for every algorithm the mean of its fastest nsamples runs for that row, rounded down. (Violated exactly if the sum of these times reaches 2^31, because it is computed in int; with no samples the program divides by zero, with more samples than runs or with too few arrays it reads out of bounds.)", "quantifier": "all tables of times and statistics, all numbers of rows, runs, samples and algorithms", "why_tests_cant": "the overflow needs rows that take seconds (in nanoseconds); the tables are unbounded", "anchors": ["benchmarks/TriCntAll.cpp: printRowData"]}
{"id": "C88", "title": "Counting triangles in a matrix that is split into blocks", "statement": "For a square grid of block files, blocked_parallel_tc prints the number of operations of the whole matrix times itself, the number of entries of the masked product (twice, by two algorithms) and the sum of its values, which for a strictly lower triangular matrix of ones is the number of triangles of its graph; the numbers do not depend on the order of the iterations and the interleaving of threads. (Violated for the numbers of entries: a position is counted once for each block through which it gets products. Violated for blocks of different sizes if an entry has a column that another block does not have, and for blocks with 2^17 - 1 or more rows: no run prints the numbers.)", "quantifier": "all grids and blocks of all sizes, all integer values, all orders of the iterations, all interleavings", "why_tests_cant": "the overcount needs a position with products through two blocks; grids, blocks, orders and interleavings are unbounded", "anchors": ["sample/blocked_parallel_tc.cpp: main"]}
{"id": "C89", "title": "The generator of R-MAT graphs", "statement": "The R-MAT generator returns the requested number of edges between vertices of the graph, without edges from a vertex to itself, with weights in the requested range and ordered by their start; the matrix that is made of the result holds the sum of the weights of the edges of each position. Its counting sort is stable. The random numbers start from fixed seeds, so a graph with fewer edges is part of every larger one with the same number of vertices and the same probabilities. The probabilities stay positive with sum 1 when they are varied. This holds whatever the random numbers and the rounding of the probabilities are. (Violated for the variation of the probabilities: the second one grows where all four are to shrink by the same factor. Violated for one vertex: the generator never ends. Violated for vertices from 2^32: only the low 32 bits are sorted. Violated if heap sort is selected: for every number of edges from 2 there are edges for which it accesses the element after the last.)", "quantifier": "all numbers of vertices and edges, all random numbers, all arithmetics on the probabilities, all weight ranges", "why_tests_cant": "random numbers, rounding and sizes are unbounded; the order fails only with more than 2^32 vertices", "anchors": ["GTgraph/R-MAT/graph.c: graphGen, choosePartition, varyParams", "GTgraph/R-MAT/utils.c: countingSort, countsort_aux, heapSort, siftDown", "GTgraph/R-MAT/init.c: getParams, setGTgraphParams"]}
{"id": "C90", "title": "What the benchmark on random matrices prints", "statement": "The benchmark on random matrices prints, for each dimension and each choice of degrees in the given ranges (each value is twice the one before), one line with the dimension, the degrees and the number of products of the two matrices that are multiplied (modulo 2^32), where the positions of the entries are those of the random draws, or of the edges of the generated graph; with the option for equal sizes the degrees of both matrices grow together. All calls of the six algorithms for a line end without error if all threads get turns, and the program ends. (Violated if a least degree or dimension is 0, or with a power of 2 and a largest dimension from 2^31: it never ends. Violated with equal sizes and fewer degrees for the second matrix: it uses a matrix that does not exist. Violated if rows times degree is a multiple of 2^32: a triple that does not exist is read. Violated for R-MAT matrices of dimension 1: it never ends.)", "quantifier": "all ranges of dimensions and degrees, all random draws, all sorting functions, all orders of parallel loops, all schedules of the threads in all calls", "why_tests_cant": "sizes, random numbers and schedules are unbounded; the failures occur at numbers close to 2^31 or 2^32 or as missing termination", "anchors": ["benchmarks/HeatMap.cpp: main, createMatrices, createRMATMatrix, run", "spgemm-blocks/common.h: calculateFlops", "util/triple-util.h: generateRandomTriples"]}
{"id": "C91", "title": "The radix sort sorts by any key and keeps the order of equal elements", "statement": "radix_sort brings the elements of a range into the order of their keys (integers with or without sign, bool, char, float, double, pairs, tuples and arrays of these, nested in any way), elements with the same key keep their order, and its return value tells whether the result is in the range or in the buffer, which is determined by the type of the key; what is behind the used part of the buffer stays as it was, and the result does not depend on the buffer. counting_sort does so for keys of one byte into a target. linear_sort brings the elements into the order of their keys. The outer products with this sort return the product as in C64 and C85. (Violated for char keys with negative and other elements: the negative ones come last, with linear_sort only for more than 512 elements. Violated for pairs with -0.0 and 0.0 in the first component. Violated for counting_sort with keys from 256 on and for buffers that are too short: accesses out of bounds.)", "quantifier": "all key types (nested to any depth), all element types, all ranges of any length, all contents of the buffer", "why_tests_cant": "lengths, nesting and values are unbounded; the widths of the counters change at 2^8, 2^16 and 2^32 elements; a test with few elements of linear_sort never uses the radix sort", "anchors": ["radix_sort/radix_sort.hpp: radix_sort, linear_sort, counting_sort, detail::to_unsigned, detail::RadixSorter, detail::counting_sort_impl", "outer_mult.h: doRadixSort", "outer_mult2.h: doRadixSort"]}
{"id": "C92", "title": "The k-truss program prints the size of the truss for every algorithm and every number of threads", "statement": "Called with a Matrix Market file of a square matrix, a number k >= 2 and numbers of threads, the k-truss program prints the number of vertices and twice the number of edges of the graph of the file (loops and directions ignored); in mode flops it prints twice the number of walks of two steps, added up over the graphs at the start of each round of the computation; then, in each outer iteration, it prints for each algorithm of the mode, in a fixed order, and for each number of threads, a line with the file name, the name of the algorithm, the number of threads, twice the number of edges of the largest k-truss, and the number of rounds, which is the first round that removes nothing. The lines of all algorithms agree, no run of any schedule fails, and the program comes to its end if every thread gets enough turns. (Violated for k = 2: edges in no triangle are removed though the 2-truss is the whole graph. Violated in mode all1p for every graph with an edge: the last algorithm never returns. Violated in modes msa, hash, all from 2^17 - 1 vertices on. Violated without iterations: an unset number is used. The results of MaskedSPASpGEMM are handed to GraphBLAS as sorted, which they are not for any graph with a triangle.)", "quantifier": "all files that describe a square matrix of any size in lines of at most 255 characters, all k >= 2, all lists of thread counts, all modes and environments, all schedules, all contents of new memory", "why_tests_cant": "graphs, rounds and schedules are unbounded; a test can only compare the algorithms on some graphs", "anchors": ["benchmarks/KTrussAllGrb.cpp: main, grb_ktruss, msp_ktruss, ktruss_mult_ops", "grb_util.h: read_grb_mtx", "spgemm-blocks/common.h: calculateMultOps"]}
{"id": "C93", "title": "The GraphBLAS triangle counting program prints the number of triangles for every algorithm and every number of threads", "statement": "Called with a Matrix Market file of a square matrix and numbers of threads, the triangle counting program prints the number of vertices and twice the number of edges of the graph of the file (loops and directions ignored), then the number of vertices and of edges of its lower triangle after relabelling by degree, then as the number of operations twice the number of paths of two edges on which the degree rises (ties by number); then, in each outer iteration, for each algorithm of the mode, in a fixed order, and for each number of threads, a line with the file name, the name of the algorithm, the number of threads, the number of edges that close such a path, and the number of triangles. So the lines of all algorithms agree and none of the numbers depends on the relabelling's sort, on the threads or on the schedule. No run fails, and the program comes to its end if every thread gets enough turns. (Violated in modes inner, dot, msa, hash, all from 2^17 - 1 vertices on: an algorithm never returns. Violated without iterations: GraphBLAS lines show 0 triangles for every graph, the other algorithms end with an assertion.)", "quantifier": "all files that describe a square matrix of any size in lines of at most 255 characters, all lists of thread counts, all modes and environments, all schedules, all sorting functions, all semirings of values", "why_tests_cant": "graphs and schedules are unbounded; a test can only compare the algorithms on some graphs", "anchors": ["benchmarks/TriCntAllGrb.cpp: main, grb_tri_count_sandia_L, msp_tri_count_sandia_L", "grb_util.h: sort_by_degree, get_lowtri", "spgemm-blocks/common.h: calculateMultOps"]}
{"id": "C94", "title": "The betweenness centrality program prints the sum of the centralities for every algorithm and every number of threads", "statement": "Called with a Matrix Market file of a square matrix, a number of sources (below 1: a share of the vertices, rounded; otherwise the fractional part is dropped) and numbers of threads, the program reads the directed graph of the file without loops (both directions for symmetric files), prints the number of vertices and of arcs and the number of sources (at most the number of vertices; the sources are different vertices), and then, in each outer iteration, for each algorithm of the mode, in a fixed order, and for each number of threads, a line with the file name, the name of the algorithm, the number of threads and the sum of the betweenness centralities of all vertices for these sources. This is the number of vertices strictly inside a shortest path from a source to a vertex, added up over all such pairs, so the lines of all algorithms agree. No run fails, and the program comes to its end if every thread gets enough turns. (Violated in builds with assertions in the modes with the heap algorithm when an arc leads from a source to another vertex: the algorithm never returns. Violated without iterations: every line shows -1. Violated for negative numbers: all vertices become sources. Violated for shares of less than half a vertex: an assertion fails. Violated for files with the word symmetric in a comment: the graph is read as undirected.)", "quantifier": "all files that describe a square matrix with less than 2^31 rows in lines of at most 255 characters, all numbers of sources, all results of the shuffling, all lists of thread counts, all modes and environments, all schedules, all fields of characteristic 0", "why_tests_cant": "graphs, shuffles and schedules are unbounded; a test can only compare the algorithms on some graphs", "anchors": ["benchmarks/BCAllGrb.cpp: main, grb_bc, grb_bc_internal, msp_bc, msp_bc_internal", "grb_util.h: read_grb_mtx"]}
{"id": "C95", "title": "The program that writes matrices to files writes the patterns of its two input matrices, and reading the files gives them back", "statement": "Called with an input mode (text files, binary files, or generated random matrices) and two further arguments, the program writes two Matrix Market pattern files named after the arguments, the first with the positions of all entries of the first matrix by columns, the second with those of the second matrix by rows, with the right sizes and numbers of entries, prints these numbers, and ends. Reading such a file with the text reader of the library gives a matrix of the same size with entries at exactly the same positions and ones as values. (Violated for a first matrix with more rows than columns: out-of-bounds read. Violated for a first matrix with fewer rows than columns and an entry in the last columns: the file announces more entries than it has, and reading it fails. Violated for exactly three arguments, which are accepted: a null pointer is used. Violated in text mode if the first name has no stem before a point. Violated for missing or rejected binary files: files of matrices without rows are written and nothing is reported. Violated for generated matrices with one vertex (never ends) or without edges (out-of-bounds read).)", "quantifier": "all text files that describe a matrix in lines of at most 255 characters, all binary files in the format, all random numbers and probabilities, all sizes below 2^31, all file names, all orders of the parallel loops", "why_tests_cant": "files, sizes, names and random streams are unbounded; the sample programs have no tests, and their typical inputs are square", "anchors": ["sample/GenMatrices.cpp: main", "sample/sample_common.hpp: SetInputMatricesAsCSC", "IO.h: ReadASCII"]}
{"id": "C96", "title": "The sample programs for masked products of three files print the right number of entries for every kernel and number of threads", "statement": "Called with three Matrix Market files of matrices A, B and M of matching sizes, and possibly a number of threads, the sample program for inner products prints, for the default numbers of threads or the given one, the number of entries of the product A B at the positions of M; the sample program for the sparse accumulator prints twice the number of products of entries, ten values of the full product, the number of its entries under M, and the same number for each masked kernel. The sample program for triangle counting, called with one file of a square matrix and a number of threads, prints for each of its three kernels the number of entries of the square at the positions of the matrix. The programs then end. (Violated for full products with fewer than ten entries: out-of-bounds read. Violated in the program for inner products if A has an entry in a column that is at least the number of columns of B. Violated for 2^17 - 1 or more rows: no line for a kernel is printed and the program does not end. Violated in triangle counting for matrices that are not square. Violated for missing files: no message, and the program fails.)", "quantifier": "all text files that describe matrices without repeated positions in lines of at most 255 characters, all numbers of threads, all schedules of the threads and orders of the parallel loops", "why_tests_cant": "files, sizes, thread counts and schedules are unbounded; the programs have no tests and print only counts", "anchors": ["sample/InnerSpGEMM.cpp: main", "sample/MaskedSPASpGEMM.cpp: main", "sample/all_parallel_tc.cpp: main"]}
{"id": "C97", "title": "The sample programs for products of two matrices print the right numbers of operations and entries for every number of threads", "statement": "Called with a mode and two files (text or binary) of matrices of matching sizes, or the parameters of two matrices to generate, and possibly a number of threads, the sample programs for hash tables and heaps print twice the number of products of entries, and for each number of threads the number of entries of the product; the program for hash tables also prints the values of the first ten entries of the product by rows and columns. The sample program for masked products multiplies the first matrix with itself and prints for each number of threads ten values of entries of the square, and for both kernels the number of entries of the square at the positions of the matrix. The numbers do not depend on the random order in which the programs rearrange the rows, and the programs end. (Violated for matrices with an empty row, also in the second matrix of the masked program, which is never used: nothing is printed and the program does not end. Violated for products with fewer than ten entries: out-of-bounds read. Violated for 2^17 - 1 or more rows, or columns of the second matrix in the program for heaps: only the number of operations is printed. Violated for missing text files. The generator may not end, then nothing is printed.)", "quantifier": "all text files in lines of at most 255 characters and binary files that describe matrices, all scales up to 32 and numbers of edges, all numbers of threads, all random numbers, all schedules of the threads and orders of the parallel loops", "why_tests_cant": "files, sizes, thread counts, random numbers and schedules are unbounded; the programs have no tests and print only counts and ten values", "anchors": ["sample/HashSpGEMM.cpp: main", "sample/HeapSpGEMM.cpp: main", "sample/MaskedHashSpGEMM.cpp: main", "sample/sample_common.hpp: SetInputMatricesAsCSR, SetInputMatricesAsCSC"]}
{"id": "C98", "title": "The sample programs for outer products print the right numbers of operations, products and entries", "statement": "Called with a mode, two files (text or binary) of matrices of matching sizes or the parameters of two matrices to generate, a number of threads, a number of blocks and the size of the buffers, the two sample programs for outer products print twice the number of products of entries, this number, and the number of entries of the product; the second program also prints the numbers of entries of the two matrices and the number of rows. The numbers do not depend on the random order in which the programs rearrange the matrices, nor on the schedule, the number of blocks and the size of the buffers, and the programs end. (Violated if fewer than seven arguments are given, although the programs accept three: arguments that do not exist are read. Violated for matrices with an empty column in the first or an empty row in the second: nothing is printed. Violated for 2^17 - 1 or more rows, for numbers of blocks that are multiples of 2^16 and, in the second program, for a first matrix that is not square: only the number of operations is printed. Violated for missing text files. The generator may not end, then nothing is printed.)", "quantifier": "all text files in lines of at most 255 characters and binary files that describe matrices, all scales up to 32 and numbers of edges, all numbers of threads, blocks and sizes of buffers, all random numbers, all schedules of the threads and orders of the parallel loops", "why_tests_cant": "files, sizes, thread counts, random numbers and schedules are unbounded; the programs have no tests and print only counts", "anchors": ["sample/OuterSpGEMM.cpp: main", "sample/OuterSpGEMM2.cpp: main", "sample/sample_common.hpp: SetInputMatricesAsCSC"]}
{"id": "C99", "title": "The sample program that multiplies two halves at the same time prints the right numbers of entries, operations and products", "statement": "Called with a mode, two files (text or binary) of matrices of matching sizes or the parameters of two matrices to generate, a number of threads, a number of blocks and the size of the buffers, the program that multiplies the two halves of the first matrix at the same time prints the numbers of entries of the upper and the lower half, twice the number of products of entries, this number, and the number of entries of the product. The numbers do not depend on the random order in which the program rearranges the matrices, nor on the schedule, the number of threads each half gets, the number of blocks and the size of the buffers, and the program ends. (Violated if two rows of the lower part whose difference is a multiple of half the number of columns have entries of the product in the same column, for example for full square matrices of odd size: the printed number of entries is too small. Violated for first matrices with more columns than rows and an entry in a row from half the number of rows up to half the number of columns, for 2^18 - 2 or more rows, for numbers of blocks that are multiples of 2^16 and for fewer than seven arguments: only three lines are printed. Violated for less than two columns, empty columns in the first or empty rows in the second matrix, and missing text files: nothing is printed. The generator may not end, then nothing is printed.)", "quantifier": "all text files in lines of at most 255 characters and binary files that describe matrices, all scales up to 32 and numbers of edges, all numbers of threads, blocks and sizes of buffers, all random numbers, all schedules of the threads and orders of the parallel loops", "why_tests_cant": "files, sizes, thread counts, random numbers and schedules are unbounded; the program has no tests and prints only counts", "anchors": ["sample/NUMA-aware.cpp: main", "SplitTuples.h: SplitTuples", "outer_mult.h: OuterSpGEMM", "sample/sample_common.hpp: SetInputMatricesAsCSC"]}
{"id": "C100", "title": "The outer-product kernels that measure their parts return the product and print the number of products", "statement": "For a matrix stored by columns and a matrix stored by rows of matching sizes, each of the two kernels that measure their parts (with equal blocks of rows, with balanced blocks) leaves the product of the two matrices in its result after its five runs, and the number of products it prints is the number of products of an entry of column k of the first and an entry of row k of the second matrix, summed over k; neither depends on the schedule of the threads, on the number of blocks or on the size of the buffers. (Violated for 2^17 - 1 or more rows or blocks: no run returns. Violated for no blocks (division by zero), buffers without room, more than 4096 rows per block or 2^20 columns with the first kernel, more than 2^16 rows or columns with the second. The second kernel reads out of bounds if the first matrix has more rows than columns and leaves out products if it has more columns than rows.)", "quantifier": "all pairs of matrices with valid arrays, all numbers of threads and blocks, all sizes of buffers, all schedules of the threads and orders of the parallel loops in each of the five runs, all associative and commutative additions", "why_tests_cant": "sizes, thread counts and schedules are unbounded; the kernels have no tests", "anchors": ["outer_profile.h: OuterSpGEMM, OuterSpGEMM_stage, do_static_symbolic, doMerge", "outer_profile2.h: OuterSpGEMM, OuterSpGEMM_stage, do_symbolic"]}
{"id": "C101", "title": "The sample programs that measure the outer-product kernels print the right numbers of operations, products and entries", "statement": "Called with a mode, two files (text or binary) of matrices of matching sizes or the parameters of two matrices to generate, a number of threads, a number of blocks and the size of the buffers, each of the two measuring programs prints twice the number of products of entries, twice a total number of products, the numbers of entries of the two matrices and the number of rows of the first, and the numbers of products and of entries of the product. The numbers do not depend on the schedule, the number of blocks and the size of the buffers, and the program ends. (Violated by the first program whenever there is a product in a row from half the number of columns on: it reports only the upper part of the matrix. It divides by zero for less than two columns, and fails for an entry in a row from half the number of rows up to half the number of columns. Violated by the second program for matrices that are not square: with more rows than columns it reads out of bounds, with more columns than rows it leaves products out. Violated by both for missing arguments, no blocks, 2^17 - 1 or more rows or blocks, and missing text files. The generator may not end, then nothing is printed.)", "quantifier": "all text files in lines of at most 255 characters and binary files that describe matrices, all scales up to 32 and numbers of edges, all numbers of threads, blocks and sizes of buffers, all schedules of the threads and orders of the parallel loops", "why_tests_cant": "files, sizes, thread counts and schedules are unbounded; the programs have no tests and print only counts", "anchors": ["sample/ProfileOuterSpGEMM.cpp: main", "sample/ProfileOuterSpGEMM2.cpp: main", "outer_profile.h: OuterSpGEMM", "outer_profile2.h: OuterSpGEMM", "SplitTuples.h: SplitTuples", "sample/sample_common.hpp: SetInputMatricesAsCSC"]}
{"id": "C102", "title": "The older kernels are free of data races", "statement": "In no parallel region of a call of the unmasked hash multiply (HashSpGEMM, sorted and unsorted output), the sparse accumulator kernel (MaskedSPASpGEMM) and the two linear-probing hash kernels (mxm_hash_mask, mxm_hash_mask_wobin) do two threads access the same memory cell with one of them writing it, except for atomic additions. (Violated by mxm_hash_mask: in every call with two or more threads all threads write the variable for the number of threads. All its other regions are free of races.)", "quantifier": "all well-formed matrices of matching sizes (also masks with duplicate columns) with at least one and fewer than 2^17 - 1 rows, all operations, all numbers of threads, all distributions of loop iterations among the threads, all interleavings, also of calls that have not returned yet", "why_tests_cant": "A race shows up only in some interleavings and often not in the result; race detectors see only the executed inputs and schedules.", "anchors": ["BIN.h: BIN::set_intprod_num, set_rows_offset, set_bin_id, create_local_hash_table", "hash_mult_hw.h: HashSpGEMM, hash_symbolic_kernel, hash_numeric", "spa_mult.h: MaskedSPASpGEMM", "SPA.h: SPA::OutputReset", "mask_hash_mult.h: mxm_hash_mask, mxm_hash_mask_wobin", "mask_hash.h: map_lp::gather"]}
{"id": "C103", "title": "The older heap and inner-product kernels are free of data races", "statement": "In no parallel region of a call of the unmasked heap kernel (HeapSpGEMM) or the older inner-product kernel (innerSpGEMM_nohash) do two threads access the same memory cell with one of them writing it. (Violated by both: in every call with two or more threads that gets there, all threads write the variable for the number of threads. All other regions are free of races; in particular the threads of the inner-product kernel, which append their entries to parts of one array at positions counted at run time, never leave their parts.)", "quantifier": "all operations, all numbers of threads, all distributions of loop iterations among the threads, all interleavings, also of calls that have not returned yet; heap kernel: all well-formed matrices of matching sizes with sorted columns, with at least one and fewer than 2^17 - 1 columns; inner-product kernel: all well-formed masks, any two matrices (the regions of the prefix sums are not included)", "why_tests_cant": "A race shows up only in some interleavings and often not in the result; race detectors see only the executed inputs and schedules.", "anchors": ["heap_mult.h: get_flop, HeapSpGEMM", "inner_mult.h: innerSpGEMM_nohash", "BIN.h: BIN::set_max_bin"]}
{"id": "C104", "title": "The outer-product kernels and the prefix sum are free of data races", "statement": "In no parallel region of a call of one of the four versions of OuterSpGEMM, or of the parallel prefix sum (scan) that the older kernels use, do two threads access the same memory cell with one of them writing it. (Holds for the outer-product kernels, although all threads append their products to the same blocks: the ranges they reserve by atomic additions never overlap. Violated by the prefix sum: in every call for 2^17 or more numbers with two or more threads, all threads write the variable for the number of threads; its other regions are free of races.)", "quantifier": "outer-product kernels: all matrices, well-formed or not, all operations, all numbers of threads, all buffers of at least one product per block, all numbers of blocks below 2^17 - 1, all distributions of columns and loop iterations among the threads, all interleavings, also of calls that have not returned yet; prefix sum: all arrays, all lengths, all numbers of threads up to the length, all interleavings", "why_tests_cant": "A race shows up only in some interleavings and often not in the result; race detectors see only the executed inputs and schedules.", "anchors": ["outer_mult.h: OuterSpGEMM", "outer_mult2.h: OuterSpGEMM", "outer_profile.h: OuterSpGEMM_stage", "outer_profile2.h: OuterSpGEMM_stage", "utility.h: scan"]}
{"id": "C105", "title": "Sorting, conversion, intersection and transposition are free of data races", "statement": "In no parallel loop of sortIds, Intersect, the constructors of CSC from triples, tuples, arrays or edges, and csr2csc_atomic_nosort do two threads access the same memory cell with one of them writing it (atomic counters aside). In the transposition the threads write the entries of one column side by side: the position recorded with the atomic addition keeps them apart.", "quantifier": "sorting: all valid matrices; transposition: all valid matrices and all interleavings of the threads; intersection and constructors: all arguments, valid or not; any number of threads, all distributions of the iterations among the threads and all orders", "why_tests_cant": "A race shows up only in some interleavings and often not in the result; race detectors see only the executed inputs and schedules.", "anchors": ["CSR.h: CSR::sortIds", "CSR.h: Intersect", "CSC.h: CSC constructors", "util/transpose.h: csr2csc_atomic_nosort"]}
{"id": "C106", "title": "The generic heap driver is free of data races", "statement": "In no parallel region of a call of HeapSpGEMM<RowAlgorithm> (heap_mult_generic.h) do two threads access the same memory cell, one of them writing it, without a barrier in between.", "quantifier": "all row algorithms (the eight of the file and any other), all valid matrices, all semirings, any number of threads, all interleavings (also of calls that fail or have not yet returned)", "why_tests_cant": "Whether threads collide depends on how the work is split among them, and a race shows up only in some interleavings and often not in the result; race detectors see only the executed inputs and schedules.", "anchors": ["heap_mult_generic.h: HeapSpGEMMImpl", "heap_mult_generic.h: tmp::getFlop", "utility.h: scan"]}
