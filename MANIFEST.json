{
 "claims": [
  {
   "property": "C01",
   "status": "proved",
   "theorems": [
    "Verif.Props.C01_msa1A",
    "Verif.Props.C01_msa2A"
   ],
   "note": "Both accumulator layouts, one-phase and two-phase, all thread counts and schedules."
  },
  {
   "property": "C02",
   "status": "proved",
   "theorems": [
    "Verif.Props.C02_msa1A",
    "Verif.Props.C02_msa2A"
   ],
   "note": "Both accumulator layouts, Sorted on and off."
  },
  {
   "property": "C03",
   "status": "proved",
   "theorems": [
    "Verif.Props.C03_hash"
   ],
   "note": "one- and two-phase multiply, every schedule, thread count and operation"
  },
  {
   "property": "C04",
   "status": "proved",
   "theorems": [
    "Verif.Props.C04_hash"
   ],
   "note": "both complemented variants (sorted or not)"
  },
  {
   "property": "C05",
   "status": "proved",
   "theorems": [
    "Verif.Props.C05_mca"
   ],
   "note": "one- and two-phase multiply for sorted B and M, every schedule, thread count and operation"
  },
  {
   "property": "C06",
   "status": "proved",
   "theorems": [
    "Verif.Props.C06_heap",
    "Verif.Props.C06_needs_comm"
   ],
   "note": "heap row algorithm, all depths for which the position sum does not wrap, both drivers, every schedule; C06_needs_comm shows that commutativity is needed"
  },
  {
   "property": "C07",
   "status": "proved",
   "theorems": [
    "Verif.Props.C07_heapC",
    "Verif.Props.C07_heapC_asserts"
   ],
   "note": "complemented heap; builds with assertions need non-empty mask rows, see C38"
  },
  {
   "property": "C08",
   "status": "proved",
   "theorems": [
    "Verif.Props.C08_inner",
    "Verif.Props.C08_inner_csr"
   ],
   "note": "Both inner-product drivers, every schedule; also related to the CSR specification when the CSC matrix holds the same triples."
  },
  {
   "property": "C09",
   "status": "proved",
   "theorems": [
    "Verif.Props.C09_two_phase_eq_one_phase"
   ],
   "note": "All algorithms (generic row algorithms and inner product); thread counts of the two calls independent."
  },
  {
   "property": "C10",
   "status": "proved",
   "theorems": [
    "Verif.Props.C10_thread_independent",
    "Verif.Props.C10_runs_agree"
   ],
   "note": "One matrix is the result for all thread counts and schedules, for every algorithm and both drivers."
  },
  {
   "property": "C11",
   "status": "proved",
   "theorems": [
    "Verif.Props.C11_C19_rows",
    "Verif.Props.C11_inner"
   ],
   "note": "For any sequence of rows of a thread range, with the buffer sizes the driver computes; inner product separately."
  },
  {
   "property": "C12",
   "status": "proved",
   "theorems": [
    "Verif.Props.C12_column_order"
   ],
   "note": "All algorithms."
  },
  {
   "property": "C13",
   "status": "proved",
   "theorems": [
    "Verif.Props.C13_ranges",
    "Verif.Props.C13_each_row_once"
   ],
   "note": "Work vector, total and thread count arbitrary."
  },
  {
   "property": "C14",
   "status": "proved",
   "theorems": [
    "Verif.Props.C14_exclusive",
    "Verif.Props.C14_inclusive",
    "Verif.Props.C14_inclusive_parallel"
   ],
   "note": "Both scans, all thread counts (also more threads than elements), all schedules."
  },
  {
   "property": "C15",
   "status": "proved",
   "theorems": [
    "Verif.Props.C15_set",
    "Verif.Props.C15_map",
    "Verif.Props.C15_full_diverges"
   ],
   "note": "key-only accumulator against a set, value accumulator against a map; a full table makes a failing search diverge"
  },
  {
   "property": "C16",
   "status": "proved",
   "theorems": [
    "Verif.Props.C16_adjustSize",
    "Verif.Props.C16_least",
    "Verif.Props.C16_word",
    "Verif.Props.C16_word_diverges",
    "Verif.Props.C16_word64_fails",
    "Verif.Props.C16_hash_word"
   ],
   "note": "unbounded and fixed-width versions; the overflow cases are proved as defects"
  },
  {
   "property": "C17",
   "status": "proved",
   "theorems": [
    "Verif.Props.C17_split",
    "Verif.Props.C17_getClean"
   ],
   "note": "splitMemory and getCleanMemory on bytes with wrapping size_t arithmetic"
  },
  {
   "property": "C18",
   "status": "proved",
   "theorems": [
    "Verif.Props.C18_alloc"
   ],
   "note": "for every malloc address and alignment >= 1"
  },
  {
   "property": "C19",
   "status": "proved",
   "theorems": [
    "Verif.Props.C11_C19_rows"
   ],
   "note": "State is identical to the initial one; for hash tables every slot is empty again (stale values may stay behind empty keys)."
  },
  {
   "property": "C20",
   "status": "proved",
   "theorems": [
    "Verif.Props.C20_one_phase",
    "Verif.Props.C20_two_phase",
    "Verif.Props.C20_inner_one_phase"
   ],
   "note": "Store of matrix objects with references that may coincide; initC and the final move are modelled on the store."
  },
  {
   "property": "C21",
   "status": "proved",
   "theorems": [
    "Verif.Props.C21_csc_to_csr",
    "Verif.Props.C21_transposing"
   ],
   "note": "Conversion and transposing constructor."
  },
  {
   "property": "C22",
   "status": "proved",
   "theorems": [
    "Verif.Props.C22_sort"
   ],
   "note": "on the arrays of the code, whatever the temporaries hold"
  },
  {
   "property": "C23",
   "status": "proved",
   "theorems": [
    "Verif.Props.C23_well_formed"
   ],
   "note": "All algorithms; the zerobased flag of the result object keeps its old value."
  },
  {
   "property": "C24",
   "status": "partial",
   "theorems": [
    "Verif.Props.C24_intersect_partial",
    "Verif.Props.C24_intersect_violated",
    "Verif.Props.C24_mismatch"
   ],
   "note": "Proved for matrices with fewer than 2^17-1 rows, all team sizes and loop orders. For more rows the claim is false: the prefix sum reads past the end of the row counts (C24_intersect_violated)."
  },
  {
   "property": "C25",
   "status": "proved",
   "theorems": [
    "Verif.Props.C25_roundtrip",
    "Verif.Props.C25_history"
   ],
   "note": "Round trip and arbitrary sequences of conversions."
  },
  {
   "property": "C26",
   "status": "proved",
   "theorems": [
    "Verif.Props.C26_buffer_bound",
    "Verif.Props.C26_bound_value",
    "Verif.Props.C26_inner"
   ],
   "note": "All row algorithms and all row ranges; inner product separately."
  },
  {
   "property": "C27",
   "status": "proved",
   "theorems": [
    "Verif.Props.C27_algorithms_agree"
   ],
   "note": "Any two algorithms with the same mask mode; heap requires associative and commutative add."
  },
  {
   "property": "C28",
   "status": "proved",
   "theorems": [
    "Verif.Props.C28_hadamard"
   ],
   "note": "for every semiring, algorithm, phase, schedule; dense views as Mathlib matrices"
  },
  {
   "property": "C29",
   "status": "proved",
   "theorems": [
    "Verif.Props.C29_lower",
    "Verif.Props.C29_triangle_count",
    "Verif.Props.C29_relabel"
   ],
   "note": "lower triangle product; the whole program with relabelling; any relabelling leaves the count unchanged. GraphBLAS functions are modelled by their documented effect"
  },
  {
   "property": "C30",
   "status": "proved",
   "theorems": [
    "Verif.Props.C30_ktruss"
   ],
   "note": "termination within nnz+1 rounds, largest truss, values are the supports; all algorithms without complement, all schedules"
  },
  {
   "property": "C31",
   "status": "partial",
   "theorems": [
    "Verif.Props.C31_spa_partial",
    "Verif.Props.C31_hash_partial",
    "Verif.Props.C31_wobin_partial",
    "Verif.Props.C31_violated_spa",
    "Verif.Props.C31_violated_hash",
    "Verif.Props.C31_violated_wobin",
    "Verif.Props.C31_violated_spa_empty",
    "Verif.Props.C31_violated_hash_empty",
    "Verif.Props.C31_wobin_empty"
   ],
   "note": "Proved for matrices with fewer than 2^17-1 rows, also for masks with duplicate columns, for every schedule and every order of the parallel loops; every run returns the one matrix described by the specification or stops because a thread gets too few steps. For more rows the claim is false: the prefix sum all three kernels call reads past the end of its source, so no run returns a matrix (C31_violated_*). Signed overflow of key*scale_ in the hash function is not modelled. Without rows the first two kernels stop with a failed assertion (C31_violated_*_empty), the third returns the empty matrix (C31_wobin_empty)."
  },
  {
   "property": "C32",
   "status": "partial",
   "theorems": [
    "Verif.Props.C32_slack_partial",
    "Verif.Props.C32_violated"
   ],
   "note": "Violated: the loop over the counters always runs one step too far (C32_violated, for every matrix and interleaving). If the two cells it touches may be accessed, the result is right for every interleaving (C32_slack_partial)."
  },
  {
   "property": "C33",
   "status": "partial",
   "theorems": [
    "Verif.Props.C33_partition_partial",
    "Verif.Props.C33_violated"
   ],
   "note": "Proved for fewer than 2^17-1 rows; for more rows no run returns a partition (C33_violated), because the prefix sum reads past its source."
  },
  {
   "property": "C34",
   "status": "partial",
   "theorems": [
    "Verif.Props.C34_hash_partial",
    "Verif.Props.C34_violated",
    "Verif.Props.C34_violated_empty"
   ],
   "note": "Proved for at least one and fewer than 2^17-1 rows (the multiply uses the partition and prefix sum of C33/C48); violated for more rows and for no rows (failed assertion)."
  },
  {
   "property": "C35",
   "status": "proved",
   "theorems": [
    "Verif.Props.C35_heap"
   ],
   "note": "libstdc++ heap functions as called by Heap.h refine a multiset with minimal top, for every sequence of pops and root replacements"
  },
  {
   "property": "C36",
   "status": "partial",
   "theorems": [
    "Verif.Props.C36_free_partial",
    "Verif.Props.C36_balanced_partial",
    "Verif.Props.C36_violated",
    "Verif.Props.C36_returns",
    "Verif.Props.C36_faithful",
    "Verif.Props.C36_listed",
    "Verif.Props.C36_scan_listed",
    "Verif.Props.C36_stored"
   ],
   "note": "Violated: every returning call races when 2 <= rows < threads (all threads of the prefix sum write cell 0) or when a thread other than the last gets no rows (it reads a row pointer another thread writes); the stored values agree, so the result is unaffected in the interleaving model. Proved race-free in all other cases, for all kinds, both generic drivers, all schedules. The inner-product driver is in C81, the older kernels in C102 to C104, conversions in C105. Not covered: the poly driver. A piece's list is complete: what it changes is listed as written, and it depends on no cell not listed as read (C36_listed, C36_scan_listed). In a call that returns, the last regions list a store for every cell of the result (C36_stored)."
  },
  {
   "property": "C37",
   "status": "partial",
   "theorems": [
    "Verif.Props.C37_zero_rows_violated",
    "Verif.Props.C37_empty_partial"
   ],
   "note": "False as stated: every call on zero-row matrices writes out of bounds (C37_zero_rows_violated, all algorithms, thread counts and schedules). What holds is proved: with at least one row and an empty operand the result is the empty matrix."
  },
  {
   "property": "C38",
   "status": "partial",
   "theorems": [
    "Verif.Props.C38_ndebug_partial",
    "Verif.Props.C38_row_fails",
    "Verif.Props.C38_never",
    "Verif.Props.C38_assert_fails"
   ],
   "note": "the claim is false in builds with assertions: the assertion fails on every empty mask row (C38_row_fails), so that no call with products in a row with an empty mask row returns, with any number of threads under any schedule (C38_never, for all inputs; C38_assert_fails, a whole call). Proved for builds without assertions"
  },
  {
   "property": "C39",
   "status": "partial",
   "theorems": [
    "Verif.Props.C39_violated",
    "Verif.Props.C39_idle_partial",
    "Verif.Props.C39_choice_partial"
   ],
   "note": "Violated: with work in any row no execution returns a matrix, since rowNvals of computed rows is never written (C39_violated). Proved: the call without work (C39_idle_partial) and the choice per row inside the generic driver (C39_choice_partial)."
  },
  {
   "property": "C40",
   "status": "partial",
   "theorems": [
    "Verif.Props.C40_inner_two_phase_partial",
    "Verif.Props.C40_inner_two_phase_violated",
    "Verif.Props.C40_run"
   ],
   "note": "False when the output object is A or M: such a call never returns a matrix with an entry (C40_inner_two_phase_violated, C40_run). Holds when the output object is neither."
  },
  {
   "property": "C41",
   "status": "partial",
   "theorems": [
    "Verif.Props.C41_msa1A_ndebug_partial",
    "Verif.Props.C41_msa2A_ndebug_partial",
    "Verif.Props.C41_msaC_ndebug_partial",
    "Verif.Props.C41_hashC_one_phase_partial",
    "Verif.Props.C41_hash_diverges",
    "Verif.Props.C41_hashC_count_too_small",
    "Verif.Props.C41_hash_violated",
    "Verif.Props.C41_hashC_two_phase_violated",
    "Verif.Props.C41_msa_assertion"
   ],
   "note": "Holds for MSA (both accumulators, complement, one and two phases) compiled with NDEBUG and for the one-phase complemented hash call. False for the masked hash algorithm (any row with a repeated mask column never ends), for the two-phase complemented hash call (count too small, out-of-bounds write) and for MSA with assertions."
  },
  {
   "property": "C42",
   "status": "partial",
   "theorems": [
    "Verif.Props.C42_partial",
    "Verif.Props.C42_depth_wraps"
   ],
   "note": "the claim is false: depth 2^64-2 makes the search leave the mask array (C42_depth_wraps). Proved for depths 0, 1, unbounded, and all finite ones whose sum with the number of entries of the mask is below 2^64 (C42_partial)"
  },
  {
   "property": "C43",
   "status": "proved",
   "theorems": [
    "Verif.Props.C43_work_counts"
   ],
   "note": ""
  },
  {
   "property": "C44",
   "status": "proved",
   "theorems": [
    "Verif.Props.C44_balanced"
   ],
   "note": ""
  },
  {
   "property": "C45",
   "status": "proved",
   "theorems": [
    "Verif.Props.C45_setBuffer",
    "Verif.Props.C45_handover",
    "Verif.Props.C45_reads_empty"
   ],
   "note": "setBuffer of the symbolic and then of the numeric accumulator on one buffer"
  },
  {
   "property": "C46",
   "status": "partial",
   "theorems": [
    "Verif.Props.C46_header_partial",
    "Verif.Props.C46_header_misaligned"
   ],
   "note": "violated for alignments that are not multiples of 8 (C46_header_misaligned); holds for multiples of 8"
  },
  {
   "property": "C47",
   "status": "proved",
   "theorems": [
    "Verif.Props.C47_triples",
    "Verif.Props.C47_edges"
   ],
   "note": "Triples (the tuple and array constructors have the same text) and edges."
  },
  {
   "property": "C48",
   "status": "partial",
   "theorems": [
    "Verif.Props.C48_scan",
    "Verif.Props.C48_scan_callers_partial",
    "Verif.Props.C48_scan_callers_violated",
    "Verif.Props.C48_scan_callers_run"
   ],
   "note": "The scan itself is right when the source has N elements (C48_scan). All callers pass N-1 elements: right for N < 2^17, out of bounds in every run for N >= 2^17."
  },
  {
   "property": "C49",
   "status": "partial",
   "theorems": [
    "Verif.Props.C49_distributeWork",
    "Verif.Props.C49_bin_partial",
    "Verif.Props.C33_violated"
   ],
   "note": "distributeWork: proved without restriction. BIN partition: fewer than 2^17-1 rows; with more no run returns a partition (C33_violated)."
  },
  {
   "property": "C50",
   "status": "proved",
   "theorems": [
    "Verif.Props.C50_sort_by_degree"
   ],
   "note": "result graph is isomorphic through a permutation and degrees are non-increasing"
  },
  {
   "property": "C51",
   "status": "partial",
   "theorems": [
    "Verif.Props.C51_violated",
    "Verif.Props.C51_partial"
   ],
   "note": "violated: for k = 2 the program computes the 3-truss (C51_violated for every graph with an edge in no triangle); it is right exactly when every edge lies in a triangle"
  },
  {
   "property": "C52",
   "status": "proved",
   "theorems": [
    "Verif.Props.C52_betweenness",
    "Verif.Props.C52_heap_asserts"
   ],
   "note": "Brandes' recurrences are proved for the spec (sets of shortest paths); both loops by induction over layers; GraphBLAS operations by their documented effect; exact field arithmetic instead of float. C52_heap_asserts: with assertions the complemented heap algorithm works exactly if no arc leads from a source to another vertex"
  },
  {
   "property": "C53",
   "status": "partial",
   "theorems": [
    "Verif.Props.C53_inner_partial",
    "Verif.Props.C53_violated_zero",
    "Verif.Props.C53_violated_shape",
    "Verif.Props.C53_violated_rows",
    "Verif.Props.C53_violated_reuse",
    "Verif.Props.C53_violated_empty"
   ],
   "note": "The claim is false in five ways, each proved for a class of inputs: sums start with 0 (wrong for min-plus), the partition reads column pointers of B at columns of A, 2^17 - 1 or more rows, no rows (failed assertion), and an output with nnz > 0 gets a wrong nnz. C53_inner_partial proves it for all other inputs, for every schedule."
  },
  {
   "property": "C54",
   "status": "partial",
   "theorems": [
    "Verif.Props.C54_heap_partial",
    "Verif.Props.C54_violated_cols",
    "Verif.Props.C54_violated_empty"
   ],
   "note": "Proved for 0 < B.cols < 2^17 - 1. Violated for B without columns (writes colStart[0] of an empty array) and for 2^17 - 1 or more columns (the second prefix sum reads past the end of col_nz)."
  },
  {
   "property": "C55",
   "status": "partial",
   "theorems": [
    "Verif.Props.C55_csc",
    "Verif.Props.C55_csr_partial",
    "Verif.Props.C55_violated_unset",
    "Verif.Props.C55_violated_freed"
   ],
   "note": "Full for CSC. For CSR proved if every constructed matrix has at least one column; otherwise assignment leaves the row pointers unset or dangling, shown with concrete programs."
  },
  {
   "property": "C56",
   "status": "partial",
   "theorems": [
    "Verif.Props.C56_equality_partial",
    "Verif.Props.C56_exact_partial",
    "Verif.Props.C56_symm_partial",
    "Verif.Props.C56_tolerance",
    "Verif.Props.C56_not_transitive",
    "Verif.Props.C56_violated_default",
    "Verif.Props.C56_violated_emptied"
   ],
   "note": "Missing: matrices with 0 rows (CSC: columns), where the comparison reads an unset or freed pointer (proved). CSC has no index base flag, so there the bases must agree. The tolerance is stated over exact rationals."
  },
  {
   "property": "C57",
   "status": "partial",
   "theorems": [
    "Verif.Props.C57_csr_partial",
    "Verif.Props.C57_csc_partial",
    "Verif.Props.C57_violated_no_edges",
    "Verif.Props.C57_unsorted"
   ],
   "note": "Missing: graphs without edges, for which the constructors read the first edge out of bounds (proved). Edges not sorted by start are outside the documented assumption; a concrete graph shows that parallel edges then stay apart."
  },
  {
   "property": "C58",
   "status": "partial",
   "theorems": [
    "Verif.Props.C58_sort",
    "Verif.Props.C58_test",
    "Verif.Props.C58_test_csc",
    "Verif.Props.C58_shuffle_partial",
    "Verif.Props.C58_shuffle_csc_partial",
    "Verif.Props.C58_restore_partial",
    "Verif.Props.C58_violated_empty_row"
   ],
   "note": "Sorting and the test are full. Shuffling: missing are matrices with an empty row (column) for a signed index type, where the random distribution is constructed with bounds 0 and -1 (proved)."
  },
  {
   "property": "C59",
   "status": "partial",
   "theorems": [
    "Verif.Props.C59_set",
    "Verif.Props.C59_next_partial",
    "Verif.Props.C59_none",
    "Verif.Props.C59_violated_far",
    "Verif.Props.C59_violated_witness",
    "Verif.Props.C59_unset"
   ],
   "note": "Membership is proved in full. The search is proved for maps of at most 2^32 positions and refuted beyond, since the code masks with a 32-bit constant."
  },
  {
   "property": "C60",
   "status": "partial",
   "theorems": [
    "Verif.Props.C60_spRef_partial",
    "Verif.Props.C60_spRef_repeats_partial",
    "Verif.Props.C60_spRef_iff",
    "Verif.Props.C60_violated_empty",
    "Verif.Props.C60_violated_bound",
    "Verif.Props.C60_spRef1_partial",
    "Verif.Props.C60_violated_bitmap",
    "Verif.Props.C60_spRef2_partial",
    "Verif.Props.C60_spRef2_prefix_partial",
    "Verif.Props.C60_violated_witness"
   ],
   "note": "All functions select the right entries where they succeed. The full claim is refuted: rows keep their old numbers (exact condition in C60_spRef_iff), empty selections fail an assertion, the bound check is off by one, the bit map of SpRef1 and the buffer of SpRef2 are too small."
  },
  {
   "property": "C61",
   "status": "partial",
   "theorems": [
    "Verif.Props.C61_violated",
    "Verif.Props.C61_partial"
   ],
   "note": "Refuted for every matrix with at least one column: the vectors that collect the columns are never sized. Only matrices without columns remain."
  },
  {
   "property": "C62",
   "status": "partial",
   "theorems": [
    "Verif.Props.C62_partial",
    "Verif.Props.C62_random_partial",
    "Verif.Props.C62_violated"
   ],
   "note": "Proved for at least one triple; for none the return value is 1."
  },
  {
   "property": "C63",
   "status": "partial",
   "theorems": [
    "Verif.Props.C63_columns_partial",
    "Verif.Props.C63_violated_divzero",
    "Verif.Props.C63_rows_partial",
    "Verif.Props.C63_violated_rows"
   ],
   "note": "By columns: proved if there are at least as many rows as pieces, division by zero otherwise. By rows: exact contents proved; rows cannot be restored whenever there are more rows than pieces times piece size."
  },
  {
   "property": "C64",
   "status": "partial",
   "theorems": [
    "Verif.Props.C64_partial",
    "Verif.Props.C64_unique",
    "Verif.Props.C64_violated_rows",
    "Verif.Props.C64_violated_blocks",
    "Verif.Props.C64_violated_columns",
    "Verif.Props.C64_violated_empty",
    "Verif.Props.C64_violated_width"
   ],
   "note": "Proved for up to 2^17-2 rows, 4096 rows per block and 2^20 columns, positive numbers of blocks and buffer sizes. Outside of these the code violates the claim: C64_violated_rows (no run returns), C64_violated_blocks and C64_violated_columns (wrong result in every run), C64_violated_empty (division by zero), C64_violated_width (out of bounds)."
  },
  {
   "property": "C65",
   "status": "partial",
   "theorems": [
    "Verif.Props.C65_partial",
    "Verif.Props.C65_violated_skew",
    "Verif.Props.C65_violated_comment",
    "Verif.Props.C65_violated_long",
    "Verif.Props.C65_violated_missing",
    "Verif.Props.C65_violated_decimal",
    "Verif.Props.C65_violated_spaces",
    "Verif.Props.C65_violated_truncated",
    "Verif.Props.C65_violated_short"
   ],
   "note": "Proved for files with lines up to 255 characters, integer values, single spaces, not skew-symmetric, 'symmetric' only in the banner. The full claim is refuted: skew-symmetric files, comments with 'symmetric', long comments, missing and truncated files, decimal values, double spaces."
  },
  {
   "property": "C66",
   "status": "partial",
   "theorems": [
    "Verif.Props.C66_partial",
    "Verif.Props.C66_violated_skew",
    "Verif.Props.C66_violated_comment",
    "Verif.Props.C66_violated_missing",
    "Verif.Props.C66_violated_header"
   ],
   "note": "Proved for files as in C65, for both options. Counterexamples: skew-symmetric files, general files with the word symmetric in a comment (also with entries outside the matrix as the result), missing files, and all files for which the header code, which is that of ReadASCII, finds no sizes."
  },
  {
   "property": "C67",
   "status": "partial",
   "theorems": [
    "Verif.Props.C67_partial",
    "Verif.Props.C67_violated_skew",
    "Verif.Props.C67_violated_comment",
    "Verif.Props.C67_violated_comments",
    "Verif.Props.C67_violated_empty",
    "Verif.Props.C67_violated_count"
   ],
   "note": "Proved for files with lines up to 254 characters, not skew-symmetric, 'general' in no comment of a symmetric file, exactly the announced entries. The full claim is refuted: skew-symmetric files, comments with 'general', files with only comments (no termination), empty files, wrong counts, blank lines."
  },
  {
   "property": "C68",
   "status": "partial",
   "theorems": [
    "Verif.Props.C68_partial",
    "Verif.Props.C68_truncated",
    "Verif.Props.C68_missing",
    "Verif.Props.C68_violated_empty",
    "Verif.Props.C68_violated_header",
    "Verif.Props.C68_violated_index"
   ],
   "note": "Proved for matrices with an entry; truncated after the sizes and missing files are reported. The full claim is refuted: files without entries are rejected, files that end within the sizes use unset variables, indices are not checked."
  },
  {
   "property": "C69",
   "status": "partial",
   "theorems": [
    "Verif.Props.C69_triangle_count_partial",
    "Verif.Props.C69_program_partial",
    "Verif.Props.C69_violated_empty"
   ],
   "note": "Proved for all matrices and files with at least one entry (lines of at most 255 characters). The full claim is refuted: for a matrix without entries the program reads a triple past the end of an empty array."
  },
  {
   "property": "C70",
   "status": "partial",
   "theorems": [
    "Verif.Props.C70_same_type_partial",
    "Verif.Props.C70_integers_partial",
    "Verif.Props.C70_violated_floor",
    "Verif.Props.C70_violated_fraction",
    "Verif.Props.C70_violated_threads"
   ],
   "note": "Proved if values and indices are of one type, and for floating-point values that are integers. The full claim is refuted: the sum is kept in the index type, so that fractional parts are dropped at every addition, and the result then depends on the distribution over threads."
  },
  {
   "property": "C71",
   "status": "partial",
   "theorems": [
    "Verif.Props.C71_value",
    "Verif.Props.C71_equal_iff",
    "Verif.Props.C71_one_word_partial",
    "Verif.Props.C71_violated_word",
    "Verif.Props.C71_violated_order"
   ],
   "note": "The value of the checksum and the exact condition for equal checksums are proved. The full claim is refuted: a word 0 that becomes 65535 and values in a different order are not seen."
  },
  {
   "property": "C72",
   "status": "proved",
   "theorems": [
    "Verif.Props.C72_same_outcome",
    "Verif.Props.C72_product",
    "Verif.Props.C72_triangle_count"
   ],
   "note": "The transcriptions of the older classes are equal to those of the newer ones as row algorithms, so every call has the same outcome."
  },
  {
   "property": "C73",
   "status": "partial",
   "theorems": [
    "Verif.Props.C73_any_kernel_partial",
    "Verif.Props.counts_spa",
    "Verif.Props.counts_hash",
    "Verif.Props.counts_wobin",
    "Verif.Props.counts_inner",
    "Verif.Props.C73_positions_partial",
    "Verif.Props.C73_violated_values",
    "Verif.Props.C73_violated_count"
   ],
   "note": "Proved for the dense, hash and inner-product kernels below 2^17 - 1 rows (the kernels fail beyond, C48). HashIntersect returns the values of the mask instead of the product, so it counts edges with a path instead of triangles: refuted for all inputs where a product differs from the mask and for all graphs with more triangles than entries."
  },
  {
   "property": "C74",
   "status": "proved",
   "theorems": [
    "Verif.Props.C74_masked_heaps",
    "Verif.Props.C74_violated_no_rows"
   ],
   "note": "All three versions, with safety and termination under fair schedules. Matrices without rows: no run returns (C74_violated_no_rows), excluded in the quantifier."
  },
  {
   "property": "C75",
   "status": "partial",
   "theorems": [
    "Verif.Props.C75_mca_partial",
    "Verif.Props.C75_violated_key",
    "Verif.Props.C75_violated_empty",
    "Verif.Props.C75_violated_room",
    "Verif.Props.C75_violated_column"
   ],
   "note": "The claim is false for every version; proved where columns, positions and mask rows are as stated in McaInputs. Missing: nothing more can hold for rows that do not fit, except when unused room of earlier rows happens to be enough."
  },
  {
   "property": "C76",
   "status": "proved",
   "theorems": [
    "Verif.Props.C76_plain_heaps"
   ],
   "note": "BasicHeap is the case threshold = 0."
  },
  {
   "property": "C77",
   "status": "partial",
   "theorems": [
    "Verif.Props.C77_masked",
    "Verif.Props.C77_complement_two_phase",
    "Verif.Props.C77_complement_one_phase_partial",
    "Verif.Props.C77_violated",
    "Verif.Props.C77_violated_family",
    "Verif.Props.C77_violated_repeated"
   ],
   "note": "Full for masked calls (no repeated columns in a row of A) and two-phase complemented calls; one-phase complemented calls need fewer than W products, otherwise violated; repeated columns violate too."
  },
  {
   "property": "C78",
   "status": "partial",
   "theorems": [
    "Verif.Props.C78_one_phase",
    "Verif.Props.C78_two_phase_rows",
    "Verif.Props.C78_two_phase_iff",
    "Verif.Props.C78_two_phase_partial",
    "Verif.Props.C78_violated"
   ],
   "note": "Full for the one-phase call; the two-phase call is characterised exactly (rows, iff) and violated when the work of a row is a multiple of W."
  },
  {
   "property": "C79",
   "status": "partial",
   "theorems": [
    "Verif.Props.C79_partial",
    "Verif.Props.C79_violated_empty",
    "Verif.Props.C79_no_calls"
   ],
   "note": "All files of the claim with n > 0. For n = 0 it is violated: the first call writes outside an array (C79_violated_empty). C79_no_calls says what is printed without calls."
  },
  {
   "property": "C80",
   "status": "partial",
   "theorems": [
    "Verif.Props.C80_names",
    "Verif.Props.C80_distinct",
    "Verif.Props.C80_file",
    "Verif.Props.C80_file_masked_partial",
    "Verif.Props.C80_violated"
   ],
   "note": "Algorithm names and the file names of benchmarks-util.h hold fully; the file name of masked-all only for paths with a '/' (C80_file_masked_partial), C80_violated: every path without one is read out of bounds."
  },
  {
   "property": "C81",
   "status": "partial",
   "theorems": [
    "Verif.Props.C81_free_partial",
    "Verif.Props.C81_balanced_partial",
    "Verif.Props.C81_violated",
    "Verif.Props.C81_returns",
    "Verif.Props.C81_faithful",
    "Verif.Props.C81_listed",
    "Verif.Props.C36_listed",
    "Verif.Props.C81_stored"
   ],
   "note": "Violated in the same two cases as C36 (fewer rows than threads; a thread other than the last without rows), for every call that returns. Otherwise free of races, for every schedule; in particular if no row has more than the n-th part of the work. A piece's list is complete: what it changes is listed as written, and it depends on no cell not listed as read (C81_listed, C36_listed). In a call that returns, the last regions list a store for every cell of the result (C81_stored)."
  },
  {
   "property": "C82",
   "status": "partial",
   "theorems": [
    "Verif.Props.C82_same_positions",
    "Verif.Props.C82_seven_partial",
    "Verif.Props.C82_violated_mca",
    "Verif.Props.C82_violated_default",
    "Verif.Props.C82_violated_path"
   ],
   "note": "All ten algorithms for files with the same positions; the first seven for all files; three families of violations."
  },
  {
   "property": "C83",
   "status": "partial",
   "theorems": [
    "Verif.Props.C83_rows",
    "Verif.Props.C83_rows_parallel",
    "Verif.Props.C83_columns",
    "Verif.Props.C83_mixed_iff",
    "Verif.Props.C83_mixed_partial",
    "Verif.Props.C83_violated"
   ],
   "note": "Rows, rows in parallel and columns: proved. Mixed storage: right exactly if no product overflows the index type; a family of violations."
  },
  {
   "property": "C84",
   "status": "partial",
   "theorems": [
    "Verif.Props.C84_partial",
    "Verif.Props.C84_violated_all1p",
    "Verif.Props.C84_violated_intersect",
    "Verif.Props.C84_violated_empty",
    "Verif.Props.C84_violated_rows"
   ],
   "note": "All modes except all1p, all files with an entry, all algorithms except HashIntersect (for which the printed sum is shown to be the number of entries of the product); fewer than 2^17 - 1 vertices in the modes with older kernels. The four exceptions are refuted: a family of violations for each."
  },
  {
   "property": "C85",
   "status": "partial",
   "theorems": [
    "Verif.Props.C85_partial",
    "Verif.Props.C85_agrees",
    "Verif.Props.C85_violated_shape",
    "Verif.Props.C85_violated_rows",
    "Verif.Props.C85_violated_key",
    "Verif.Props.C85_violated_columns",
    "Verif.Props.C85_violated_empty",
    "Verif.Props.C85_violated_width"
   ],
   "note": "Proved for square matrices with 1 to 2^16 rows, up to 2^16 columns of the result, positive numbers of threads, of blocks (below 2^16) and buffer sizes. Outside of these the code violates the claim: C85_violated_shape (out of bounds if A is not square), C85_violated_rows (no run returns), C85_violated_key and C85_violated_columns (wrong result in every run), C85_violated_empty (no rows, blocks or threads), C85_violated_width (out of bounds)."
  },
  {
   "property": "C86",
   "status": "partial",
   "theorems": [
    "Verif.Props.C86_partial",
    "Verif.Props.C86_violated_entries",
    "Verif.Props.C86_violated_columns"
   ],
   "note": "All arrays but the last are proved for all threads and interleavings; the number of entries is violated, with the exact condition; no run returns if a row has columns that A lacks. The nested parallel loop is executed by every thread, as without nested parallelism."
  },
  {
   "property": "C87",
   "status": "partial",
   "theorems": [
    "Verif.Props.C87_partial",
    "Verif.Props.C87_violated_sum",
    "Verif.Props.C87_violated_samples",
    "Verif.Props.C87_violated_short"
   ],
   "note": "Exact condition for the means (sums below 2^31); failures for no samples, too many samples, too few arrays."
  },
  {
   "property": "C88",
   "status": "partial",
   "theorems": [
    "Verif.Props.C88_partial",
    "Verif.Props.C88_triangles_partial",
    "Verif.Props.C88_violated_nnz",
    "Verif.Props.C88_violated_shape",
    "Verif.Props.C88_violated_rows",
    "Verif.Props.C88_grid",
    "Verif.Props.C88_violated_empty"
   ],
   "note": "Proved: operations and sum (triangles) of the whole matrix for blocks with at least one and fewer than 2^17-1 rows whose columns exist in every column of the grid; the exact condition under which the numbers of entries are those of the whole matrix; no run prints totals for the three excluded cases; a grid that is not square stops with a message. Missing: values that are not integers, files with symmetric patterns read as in C65 only as far as FileOf allows."
  },
  {
   "property": "C89",
   "status": "partial",
   "theorems": [
    "Verif.Props.C89_partial",
    "Verif.Props.C89_ends",
    "Verif.Props.C89_sort_partial",
    "Verif.Props.C89_nested",
    "Verif.Props.C89_matrix_partial",
    "Verif.Props.C89_vary",
    "Verif.Props.C89_violated_one_vertex",
    "Verif.Props.C89_violated_large",
    "Verif.Props.C89_violated_heapsort",
    "Verif.Props.C89_violated_vary"
   ],
   "note": "Proved for up to 2^32 vertices with the default sort: every run that ends returns the requested graph, and it ends if attempts to make an edge between different vertices never run out; graphs of the same size are nested; the probabilities stay positive with sum 1. Proved as violated: one vertex (never ends), keys from 2^32 (not sorted), heap sort (out of bounds), variation of the second probability (always grows)."
  },
  {
   "property": "C90",
   "status": "partial",
   "theorems": [
    "Verif.Props.C90_partial",
    "Verif.Props.C90_rmat_partial",
    "Verif.Props.C90_loop_ends",
    "Verif.Props.C90_nested",
    "Verif.Props.C90_default_rows",
    "Verif.Props.C90_violated_degree",
    "Verif.Props.C90_violated_dimension",
    "Verif.Props.C90_violated_same",
    "Verif.Props.C90_violated_entries",
    "Verif.Props.C90_violated_rmat_one"
   ],
   "note": "Proved for positive least values, largest values below 2^31, dimension times degree below 2^32, and for R-MAT dimensions that are powers of 2: all printed lines, in all fair runs (in others a prefix). Proved as violated: degrees or dimensions from 0, dimensions from 2^31, equal sizes with fewer degrees for the second matrix, rows times degree a multiple of 2^32, R-MAT with dimension 1."
  },
  {
   "property": "C91",
   "status": "partial",
   "theorems": [
    "Verif.Props.C91_partial",
    "Verif.Props.C91_unique",
    "Verif.Props.C91_counting",
    "Verif.Props.C91_linear_partial",
    "Verif.Props.C91_violated_char",
    "Verif.Props.C91_violated_linear",
    "Verif.Props.C91_violated_zero",
    "Verif.Props.C91_violated_counting",
    "Verif.Props.C91_violated_buffer",
    "Verif.Props.C91_sorts",
    "Verif.Props.C91_inplace",
    "Verif.Props.C91_outer",
    "Verif.Props.C91_outer2"
   ],
   "note": "Proved for all key types whose char components are not negative and whose floating-point components are neither -0.0 nor NaN (a partial order), and buffers as long as the range. Outside of these the code violates the claim: C91_violated_char, C91_violated_linear (result not in order), C91_violated_zero (pairs not in order), C91_violated_counting and C91_violated_buffer (out of bounds). C91_outer and C91_outer2 are C64_partial and C85_partial without an assumption on the sort."
  },
  {
   "property": "C92",
   "status": "partial",
   "theorems": [
    "Verif.Props.C92_partial",
    "Verif.Props.C92_violated_all1p",
    "Verif.Props.C92_violated_rows",
    "Verif.Props.C92_violated_iters",
    "Verif.Props.C92_violated_two",
    "Verif.Props.C92_violated_sorted"
   ],
   "note": "C92_partial: every run prints exactly the stated lines or is cut short by a thread without turns; complete for fair schedules. For all modes but all1p, for k = 2 with the size of the 3-truss, modes msa/hash/all below 2^17-1 vertices. The other cases are violated and proved so for all files (C92_violated_*). C92_violated_sorted: the rows of MaskedSPASpGEMM are never all sorted if there is a triangle. GraphBLAS itself is modelled by its documented effect."
  },
  {
   "property": "C93",
   "status": "partial",
   "theorems": [
    "Verif.Props.C93_partial",
    "Verif.Props.C93_violated_rows",
    "Verif.Props.C93_violated_iters"
   ],
   "note": "C93_partial: every run prints exactly the stated lines or is cut short by a thread without turns; complete for fair schedules. For all modes with at least one call (also only warm-up calls, which reuse the object of the result), modes inner/dot/msa/hash/all below 2^17-1 vertices. Above that, and without any calls, the claim is violated and proved so for all files (C93_violated_*). GraphBLAS itself is modelled by its documented effect."
  },
  {
   "property": "C94",
   "status": "partial",
   "theorems": [
    "Verif.Props.C94_partial",
    "Verif.Props.C94_sources",
    "Verif.Props.C94_sum",
    "Verif.Props.C94_violated_heap",
    "Verif.Props.C94_violated_iters",
    "Verif.Props.C94_violated_negative",
    "Verif.Props.C94_violated_zero",
    "Verif.Props.C94_violated_comment"
   ],
   "note": "proved for every file without a misleading comment, at least one call, and, in builds with assertions in the modes with the heap algorithm, sources without arcs to other vertices (C94_partial, C94_sum, C94_sources). False otherwise: C94_violated_heap (exactly the other case: the program never ends), C94_violated_iters (-1 for every graph), C94_violated_negative, C94_violated_zero, C94_violated_comment. Exact field arithmetic instead of float; GraphBLAS by its documented effect. Missing: counts from 2^31 on (conversion to int)"
  },
  {
   "property": "C95",
   "status": "partial",
   "theorems": [
    "Verif.Props.C95_left_partial",
    "Verif.Props.C95_right",
    "Verif.Props.C95_roundtrip_left_partial",
    "Verif.Props.C95_roundtrip_right",
    "Verif.Props.C95_text_partial",
    "Verif.Props.C95_binary_partial",
    "Verif.Props.C95_gen_partial",
    "Verif.Props.C95_violated_tall",
    "Verif.Props.C95_violated_wide",
    "Verif.Props.C95_violated_args",
    "Verif.Props.C95_violated_name",
    "Verif.Props.C95_violated_binary",
    "Verif.Props.C95_violated_scale",
    "Verif.Props.C95_violated_factor"
   ],
   "note": "proved for a square first matrix, four arguments, and (text mode) a first name with a stem: C95_text_partial, C95_binary_partial, C95_gen_partial (or the generator does not end), reading back C95_roundtrip_left_partial and C95_roundtrip_right (any shape). False otherwise: C95_violated_tall, C95_violated_wide, C95_violated_args, C95_violated_name, C95_violated_binary, C95_violated_scale, C95_violated_factor"
  },
  {
   "property": "C96",
   "status": "partial",
   "theorems": [
    "Verif.Props.C96_inner_partial",
    "Verif.Props.C96_spa_partial",
    "Verif.Props.C96_tc_partial",
    "Verif.Props.C96_usage",
    "Verif.Props.C96_violated_short",
    "Verif.Props.C96_violated_inner",
    "Verif.Props.C96_violated_rows",
    "Verif.Props.C96_violated_square",
    "Verif.Props.C96_violated_missing"
   ],
   "note": "proved for the files of the property, ten or more entries of the full product (sparse accumulator), no column of A from the number of columns of B on (inner products), square matrix (triangle counting), and fewer than 2^17 - 1 rows: C96_inner_partial, C96_spa_partial, C96_tc_partial. False otherwise: C96_violated_short, C96_violated_inner, C96_violated_rows, C96_violated_square, C96_violated_missing. Too few arguments: C96_usage"
  },
  {
   "property": "C97",
   "status": "partial",
   "theorems": [
    "Verif.Props.C97_hash_partial",
    "Verif.Props.C97_heap_partial",
    "Verif.Props.C97_masked_partial",
    "Verif.Props.C97_generated",
    "Verif.Props.C97_usage",
    "Verif.Props.C97_violated_empty_row",
    "Verif.Props.C97_violated_short",
    "Verif.Props.C97_violated_rows",
    "Verif.Props.C97_violated_missing"
   ],
   "note": "proved for input (files or generated) without empty rows (hash tables, masked) and without repeated positions in the first (heaps), ten or more entries (hash tables, masked), and between 1 and 2^17 - 2 rows (columns): C97_hash_partial, C97_heap_partial, C97_masked_partial. False otherwise: C97_violated_empty_row, C97_violated_short, C97_violated_rows, C97_violated_missing. Generated matrices are such input or the generator does not end: C97_generated. Too few arguments: C97_usage"
  },
  {
   "property": "C98",
   "status": "partial",
   "theorems": [
    "Verif.Props.C98_outer_partial",
    "Verif.Props.C98_outer2_partial",
    "Verif.Props.C98_generated",
    "Verif.Props.C98_usage",
    "Verif.Props.C98_violated_arguments",
    "Verif.Props.C98_violated_empty",
    "Verif.Props.C98_violated_rows",
    "Verif.Props.C98_violated_blocks",
    "Verif.Props.C98_violated_shape",
    "Verif.Props.C98_violated_missing",
    "Verif.Props.C98_violated_missing_second",
    "Verif.Props.C98_violated_missing_both",
    "Verif.Props.C98_violated_wide_columns",
    "Verif.Props.C98_violated_wide_columns2"
   ],
   "note": "proved for input (files or generated) without empty columns in the first and empty rows in the second, 1 to 2^16 - 1 blocks, buffers of 1 to 2^16 - 1 products, fewer than 2^31 products per column, and fewer than 2^17 - 1 rows, at most 4096 per block, and at most 2^20 columns (first program), square first matrix and at most 2^16 rows and columns (second program): C98_outer_partial, C98_outer2_partial. False otherwise: C98_violated_arguments, C98_violated_empty, C98_violated_rows, C98_violated_blocks, C98_violated_shape, C98_violated_missing. Generated matrices are such input or the generator does not end: C98_generated. Missing binary files: the theorems with missing_second and missing_both; 2^20 + 1 columns: a wrong number of entries is printed (C98_violated_wide_columns), and for 2^16 + 1 columns by the second program (C98_violated_wide_columns2); these two are single inputs"
  },
  {
   "property": "C99",
   "status": "partial",
   "theorems": [
    "Verif.Props.C99_partial",
    "Verif.Props.C99_halves",
    "Verif.Props.C99_violated_folded",
    "Verif.Props.C99_violated_wide",
    "Verif.Props.C99_violated_rows",
    "Verif.Props.C99_violated_blocks",
    "Verif.Props.C99_violated_columns",
    "Verif.Props.C99_violated_empty",
    "Verif.Props.C99_violated_arguments",
    "Verif.Props.C99_violated_missing",
    "Verif.Props.C99_generated",
    "Verif.Props.C99_usage",
    "Verif.Props.C99_violated_missing_second",
    "Verif.Props.C99_violated_missing_both",
    "Verif.Props.C99_violated_wide_columns"
   ],
   "note": "Proved for first matrices with an even number m of rows and m or m + 1 columns (C99_partial); C99_halves says what is printed in general. The other cases are violations, see the theorems; larger blocks than 4096 rows are left open; for more than 2^20 columns there is an input with a wrong number of entries (C99_violated_wide_columns). Missing binary files: the theorems with missing_second and missing_both"
  },
  {
   "property": "C100",
   "status": "partial",
   "theorems": [
    "Verif.Props.C100_partial",
    "Verif.Props.C100_balanced_partial",
    "Verif.Props.C100_wide",
    "Verif.Props.C100_violated_rows",
    "Verif.Props.C100_violated_empty",
    "Verif.Props.C100_violated_blocks",
    "Verif.Props.C100_violated_columns",
    "Verif.Props.C100_violated_key",
    "Verif.Props.C100_violated_columns2",
    "Verif.Props.C100_violated_tall",
    "Verif.Props.C100_violated_wide",
    "Verif.Props.C100_violated_width"
   ],
   "note": "Proved for both kernels under the stated size limits; outside of them the violations are proved. Unbounded integers apart from the keys and the conversion of the block to uint16_t; times left out. C100_wide: with more columns than rows the second kernel returns the product of the square parts."
  },
  {
   "property": "C101",
   "status": "partial",
   "theorems": [
    "Verif.Props.C101_upper",
    "Verif.Props.C101_partial",
    "Verif.Props.C101_balanced_partial",
    "Verif.Props.C101_wide",
    "Verif.Props.C101_violated_half",
    "Verif.Props.C101_violated_left_out",
    "Verif.Props.C101_violated_arguments",
    "Verif.Props.C101_violated_rows",
    "Verif.Props.C101_violated_blocks",
    "Verif.Props.C101_violated_tall",
    "Verif.Props.C101_violated_columns",
    "Verif.Props.C101_violated_wide",
    "Verif.Props.C101_violated_missing",
    "Verif.Props.C101_generated",
    "Verif.Props.C101_usage",
    "Verif.Props.C101_violated_missing_second",
    "Verif.Props.C101_violated_missing_both",
    "Verif.Props.C101_violated_wide_columns",
    "Verif.Props.C101_violated_wide_columns2"
   ],
   "note": "First program: C101_upper says what is printed, which is the right numbers if all products are in the first k/2 rows (C101_partial) and too small ones otherwise (C101_violated_half). Second program: proved for square first matrices (C101_balanced_partial); C101_wide says what is printed if there are more columns than rows. Bounds: fewer than 2^17 - 1 rows and blocks, at most 4096 rows per block and 2^20 columns (first), at most 2^16 rows and columns (second), fewer than 2^31 products per column. The other cases are violations, see the theorems; larger blocks are left open; for more columns there are inputs with a wrong number of entries (C101_violated_wide_columns, C101_violated_wide_columns2). Missing binary files: the theorems with missing_second and missing_both"
  },
  {
   "property": "C102",
   "status": "partial",
   "theorems": [
    "Verif.Props.C102_hash_partial",
    "Verif.Props.C102_spa_partial",
    "Verif.Props.C102_wobin_partial",
    "Verif.Props.C102_mask_partial",
    "Verif.Props.C102_violated_mask",
    "Verif.Props.C102_faithful",
    "Verif.Props.C102_listed",
    "Verif.Props.C102_stored"
   ],
   "note": "Proved for fewer than 2^17 - 1 rows (beyond, the prefix sum reads out of bounds, C31/C34) for HashSpGEMM, MaskedSPASpGEMM and mxm_hash_mask_wobin. In mxm_hash_mask exactly the first region is racy, in every call with two or more threads (C102_mask_partial, C102_violated_mask). C102_faithful: the programs whose accesses are listed run like the rows of the modelled kernels. A piece's list is complete: what it changes is listed as written, and it depends on no cell not listed as read (C102_listed). In a call that returns, the last region lists the stores of the result (C102_stored)."
  },
  {
   "property": "C103",
   "status": "partial",
   "theorems": [
    "Verif.Props.C103_faithful",
    "Verif.Props.C103_heap_partial",
    "Verif.Props.C103_violated_heap",
    "Verif.Props.C103_inner_partial",
    "Verif.Props.C103_violated_inner",
    "Verif.Props.C102_listed",
    "Verif.Props.C103_listed",
    "Verif.Props.C103_heap_stored",
    "Verif.Props.C103_inner_stored"
   ],
   "note": "False as stated for calls with two or more threads: the region that finds out the number of threads is racy in both kernels (C103_violated_heap, C103_violated_inner). Proved: every other region is free of races. The parallel parts of the prefix sum of utility.h are in C104. A piece's list is complete: what it changes is listed as written, and it depends on no cell not listed as read (C102_listed, C103_listed). In calls that return, the last region of the heap kernel lists the stores of the result (C103_heap_stored), that of the inner-product kernel the stores to the counters of all rows with entries (C103_inner_stored)."
  },
  {
   "property": "C104",
   "status": "partial",
   "theorems": [
    "Verif.Props.C104_faithful",
    "Verif.Props.C104_outer",
    "Verif.Props.C104_outer2",
    "Verif.Props.C104_profile",
    "Verif.Props.C104_profile2",
    "Verif.Props.C104_regions",
    "Verif.Props.C104_regions2",
    "Verif.Props.C104_profile_regions",
    "Verif.Props.C104_profile2_regions",
    "Verif.Props.C104_products_writes",
    "Verif.Props.C104_scan_partial",
    "Verif.Props.C104_scan_writes",
    "Verif.Props.C104_scan_writes2",
    "Verif.Props.C104_violated_scan"
   ],
   "note": "Proved for the four outer-product kernels; the prefix sum violates it (C104_violated_scan), its other regions are free (C104_scan_partial). Loops that store one pointer per iteration and reductions are not listed. C104_regions, C104_regions2, C104_profile_regions and C104_profile2_regions: a call that returns has gone through the listed regions, and the writes of all entries of the result are listed; C104_products_writes, C104_scan_writes and C104_scan_writes2: what the other regions change is listed as written."
  },
  {
   "property": "C105",
   "status": "proved",
   "theorems": [
    "Verif.Props.C105_sort",
    "Verif.Props.C105_intersect",
    "Verif.Props.C105_triples",
    "Verif.Props.C105_edges",
    "Verif.Props.C105_transpose",
    "Verif.Props.C105_sort_faithful",
    "Verif.Props.C105_intersect_faithful",
    "Verif.Props.C105_triples_faithful",
    "Verif.Props.C105_edges_faithful",
    "Verif.Props.C105_transpose_faithful",
    "Verif.Props.C105_sort_regions",
    "Verif.Props.C105_intersect_regions",
    "Verif.Props.C105_triples_regions",
    "Verif.Props.C105_edges_regions",
    "Verif.Props.C105_transpose_regions",
    "Verif.Props.C105_sort_writes",
    "Verif.Props.C105_intersect_writes",
    "Verif.Props.C105_triples_writes",
    "Verif.Props.C105_edges_writes",
    "Verif.Props.C105_transpose_writes",
    "Verif.Props.C105_sort_needs_valid"
   ],
   "note": "All parallel loops of these functions; the theorems ending in _faithful show that the listed accesses are those of the modelled functions, those ending in _regions write the lists out for calls that return (all loops, all iterations, the thread that runs each), those ending in _writes show that whatever the calls change is listed as written. For the transposition the read past the end of the counters (C32) is let through, since no run gets to the second loop otherwise."
  },
  {
   "property": "C106",
   "status": "partial",
   "theorems": [
    "Verif.Props.C106_free_partial",
    "Verif.Props.C106_violated",
    "Verif.Props.C106_exact",
    "Verif.Props.C106_violated_threads",
    "Verif.Props.C106_returns",
    "Verif.Props.C106_faithful",
    "Verif.Props.C106_scan_partial",
    "Verif.Props.C36_listed",
    "Verif.Props.C106_stored"
   ],
   "note": "Violated if a thread other than the last one gets no row: it reads the row pointer of its (empty) range while another thread writes it; C106_violated holds for every call that returns, C106_violated_threads for more than rows + 1 threads, C106_returns shows such calls exist. Otherwise all regions are free of races (C106_free_partial), also in calls that fail; C106_exact is the exact condition for calls that return. All of this for an arbitrary row algorithm. The prefix sum races for 2^17 or more rows (C106_scan_partial, C104). C106_faithful ties the listed accesses to the model. A piece's list is complete: what it changes is listed as written, and it depends on no cell not listed as read (C36_listed). In a call that returns, the last regions list a store for every cell of the result (C106_stored)."
  }
 ]
}