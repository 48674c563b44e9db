# Formal model of MaskedSpGEMM: design

The subject is the C++ code in `/repo` (PASSIONLab/MaskedSpGEMM). It is read as text only. The model is a Lean 4
development in `lean/Verif`; `properties.jsonl` has the statements, `MANIFEST.json` the theorems per statement.

## 1. Trusted base

* Lean 4.33.0's kernel, and Mathlib as installed (definitions and proved lemmas).
* Axioms: every theorem listed in `MANIFEST.json` depends at most on `propext`, `Classical.choice` and `Quot.sound`.
  There are no project axioms, no `sorry`, no `native_decide`, no `bv_decide`.
* The reading of the C++ text into Lean. Each model definition carries the file and line numbers it models and says what
  is simplified.
* The specification files `Verif/Spec*.lean`, `Verif/Kinds.lean`, `Verif/Run.lean` (the vocabulary of the theorems).

## 2. Modelling conventions

* **Outcomes.** `Res α = Except Err α` with distinct errors: `oob` (access outside an array), `uninit` (use of memory
  never written), `assertion` (an `assert` that is false), `diverge` (a loop that never ends), `divzero` (division
  by zero), `freed` (use of a freed object). A theorem that a call returns `.ok x` also says: none of these happens on the way.
* **Asserts** are modelled as enabled; a run that succeeds with asserts is the same run with `NDEBUG`. Where the build
  mode matters it is a parameter (`heapC ndebug`, C38) or there is a second definition (the `…Nd` functions of
  `Model/Msa`, C41).
* **Arrays** are lists with checked reads `rd` and writes `wr`; memory obtained without initialisation is a list of
  `Option`, read by `Scan.rdu`/`use`, which fails with `uninit`.
* **Integers** are unbounded naturals, except in statements about overflow (C16, C17, C42, C77, C78) and in byte-level code
  (C45). So all other results assume that no index or count exceeds the range of its type. In particular the signed product
  `key * scale_` of `map_lp` is taken not to overflow. C77 and C78 cover the drivers of spgemm-blocks with an unsigned index type
  of any width, with sums modulo the number `W` of its values. (With a signed type the same overflows are undefined behaviour.)
* **Values** and the operators `mul`, `add` are arbitrary; algebraic laws are hypotheses of the theorems that need them
  (associativity and commutativity for the heap, a semiring for C28-C30). Floating-point rounding is therefore covered
  wherever no law is assumed.
* **Probe loops** of hash tables get as many steps as the table has slots. A probe that has visited all slots without
  stopping repeats forever, so running out of steps is exactly non-termination and yields `diverge`.
* **Unbounded loops** of applications (k-truss) take a `fuel`; running out is `diverge`. The theorems give the result for
  every `fuel` above an explicit bound.
* **OpenMP, generic drivers and scans.** A parallel region is a set of threads with local states; one step of one thread
  does at most one write to shared memory. A schedule is an arbitrary list of thread numbers; a barrier ends a phase. A
  call returns `.ok none` when the schedule ends before all threads are done. Sequential consistency is assumed for the
  steps. C36 lists the accesses themselves and says exactly when this is justified. The runtime is assumed to deliver
  the requested number of threads.
* **OpenMP, `parallel for`** with iterations on disjoint data (or atomics): the iterations run in an arbitrary order
  given as a permutation. `Model/RaceConv` lists the accesses of the loops that sort, convert, intersect and transpose, and C105 proves
  that the iterations do not interfere.
* **OpenMP, older kernels** (`Model/Blocks`): threads interleave arbitrarily, one row is one step. A row only touches
  thread-local tables and cells of that row; `Model/RaceOld`, `Model/RaceHeap` and `Model/RaceDot` list the accesses; C102
  and C103 prove this. The outer-product kernels reserve cells by an atomic addition and fill them in one step; `Model/RaceOuter` lists
  their accesses and those of the prefix sum of `utility.h`, and C104 proves that the threads fill different cells.
* **References that may coincide** (`Model/Alias`): matrices are objects of a store, the call gets references; freeing
  marks the object and a later read gives `freed`.
* **Access traces** (`Model/Race`): the steps of the drivers as programs of single loads and stores. `Lemmas/Race` proves
  that running such a program is the step of `Model/Driver`, so the traces belong to the modelled code
  (`C36_faithful`, `C81_faithful`, `C106_faithful`; `Model/RaceInner`, `Model/RaceGen`).
* **Library functions.** `std::sort`, `std::lower_bound`, `std::accumulate`, `std::copy`, `memset`, `malloc` are modelled
  by their documented effect; sorting functions are parameters with only the documented guarantee (`SortsBy`,
  `SortsGreater`). The heap functions of libstdc++ are modelled as the algorithms of `bits/stl_heap.h`, because the code
  calls them outside their documented precondition. GraphBLAS functions (`select`, `build`, `reduce`, `transpose`) are
  modelled by their documented effect (build: for tuples without repeated positions).

## 3. Code coverage

| Code | Model |
|------|-------|
| `spgemm-blocks/masked-spgemm.h` | `Driver`, `Alias`, `Race`, `Width` (limited index type) |
| `spgemm-blocks/common.h`, `scan.h`, `util.h` | `Common`, `Scan`, `Memory`, `Width` |
| `spgemm-blocks/masked-spgemm-inner.h`, `inner/*` | `Inner`, `Alias`, `Width`, `RaceInner` |
| `spgemm-blocks/masked-spgemm-poly.h` | `Poly` |
| `spgemm-blocks/msa/*` | `Msa`, `MsaAlg`, `Nest`, `OldAlg` |
| `spgemm-blocks/hash/*` | `Hash`, `HashOps` (operation sequences), `Memory` (buffers) |
| `spgemm-blocks/mca/*` | `Mca` |
| `spgemm-blocks/heap/Heap.h`, `MaskedHeapAlgorithmInspect.h`, `MaskedHeapAlgorithm.h` | `StlHeap`, `HeapAlg`, `HeapOps`, `OldAlg` |
| `CSR.h`: index base, `CSR(CSC)`, `CSR(CSC, transpose)`, `Intersect`, `make_empty` | `Convert`, `Intersect`, `Alias`, `RaceConv` |
| `CSR.h`, `CSC.h`: constructors with sizes, copy, `operator=`, `make_empty`, destructor, `operator==`; `ErrorTolerantEqual` | `MatObj`, `MatEq` |
| `CSR.h`, `CSC.h`: `sortIds`, `shuffleIds`, `Sorted`; `utility.h` `my_is_sorted` | `Reorder`, `RaceConv` |
| `CSR.h`, `CSC.h`: constructors from a graph | `GraphCtor` |
| `CSC.h`: constructors from triples, edges, tuples, arrays | `Convert`, `RaceConv` |
| `utility.h`: `CumulativeSum`, `scan`, `mergesort`, `cpu_sorting_key_value` | `Convert`, `UtilScan`, `Sort` |
| `BIN.h`, `hash_mult_hw.h`, `SPA.h`, `spa_mult.h`, `mask_hash.h`, `mask_hash_mult.h` | `Bin`, `HashMult`, `Spa`, `LpMult`, `TwoPass`, `Blocks`, `RaceOld` |
| `inner_mult.h`: `innerSpGEMM_nohash` | `Dot`, `RaceDot` |
| `outer_mult.h`: `OuterSpGEMM` and what it calls; the radix sort is a parameter in `C64` and is put in by `C91_outer` | `Outer`, `RaceOuter` |
| `outer_mult2.h`: `OuterSpGEMM` and what it calls; the radix sort is a parameter in `C85` and is put in by `C91_outer2` | `Outer2`, `RaceOuter` |
| `radix_sort/radix_sort.hpp` (all key types of its tests: integers, `bool`, `char`, `float`, `double`, pairs, tuples, arrays; not `to_radix_sort_key` of user types, and the detection of the types by templates) | `RadixSort` |
| `heap_mult.h`: `get_flop`, `HeapSpGEMM`; `HeapEntry.h` | `HeapMult`, `StlHeap`, `RaceHeap` |
| `heap_mult_generic.h` | `HeapGen`, `OldAlg`, `RaceGen` |
| `util/transpose.h` | `Transpose`, `RaceConv` |
| `BitMap.h` (without copying and `set_bit_atomic`) | `BitMap` |
| `CSC.h`: `SpRef`, `SpRef1`, `SpRef2`, `intersect` | `SubRef` |
| `IO.h`: `ReadASCII`, `ReadASCII_Triples`, `ReadBinary`; `CSR.h` `CSR(filename)`; the library functions they call (`get`, `unget`, `getline`, `fgets`, `fread`, `atoi`, `strchr`, `strstr`, extraction from streams); `atof` is a parameter | `ReadIO`, `ReadCsr`, `ReadBin` |
| `benchmarks/TriCntAll.cpp`: `setRowData`, `printRowData` (not called by `main`) | `RowData` |
| `benchmarks/TriCntAll.cpp`: `preprocessInput`, `HashIntersect`, `main`; `benchmarks/benchmarks-util.h`: `run` (without timing and output), `calculateChecksum`, `checksum`; `sumall` of `CSR.h`, `CSC.h` | `TriCnt`, `TriMain`, `HashIntersect`, `Checksum`, `SumAll` |
| `sample/blocked_parallel_tc.cpp`: `main` up to the printed totals (without timing) | `BlockedTc` |
| `benchmarks/ComplementMaskedSpGEMM.cpp`: `main` (without timing, `get_flop`, layout); `benchmarks/benchmarks-util.h`: `run`, names; `benchmarks/MaskedAllSpGEMM.cpp`: `getFileName` | `BenchRun` |
| `benchmarks/MaskedAllSpGEMM.cpp`: `main`, `run`, `checksum` (without timing, layout, `Sorted()` calls whose results are not used) | `MaskedAll` |
| `get_flop`/`getFlop` of `multiply.h`, `inner_mult.h`, `heap_mult.h`, `heap_mult_generic.h`, `outer_mult.h` | `Flops` |
| `SplitTuples.h`, `util/triple-util.h`, `CSC.h` `MergeDuplicates` | `Tuples` |
| `benchmarks/TriCntAllGrb.cpp`, `KTrussAllGrb.cpp`, `grb_util.h` (`sort_by_degree`, `get_lowtri`, `convert_to_csc`) | `Graph` |
| `benchmarks/KTrussAllGrb.cpp`: `main`, `grb_ktruss`, `msp_ktruss`, `ktruss_mult_ops` (without timing and layout); `grb_util.h` `read_grb_mtx`; `spgemm-blocks/common.h` `calculateMultOps`. GraphBLAS calls by their documented effect; iso-valued matrices and the `jumbled` flag are not modelled | `GrbBase`, `KTrussMain` |
| `benchmarks/TriCntAllGrb.cpp`: `main`, `grb_tri_count_sandia_L`, `msp_tri_count_sandia_L` (without timing, layout and the summaries of lines 292 and 297) | `TriGrbMain` |
| `benchmarks/BCAllGrb.cpp` (`msp_bc_internal`, the loops of `grb_bc_internal`), `CSR.h` `get_grb_mat`, `grb_util.h` `avoid_iso` | `Bc` |
| `benchmarks/BCAllGrb.cpp`: `main`, `grb_bc`, `msp_bc` (without timing and layout); `random_shuffle` and the product of a `float` and a `double` are parameters | `BcMain` |
| `benchmarks/HeatMap.cpp` (without reading the arguments, timing, layout) | `HeatMap`, `Rmat`, `Tuples`, `GraphCtor`, `Width` |
| `GTgraph/R-MAT`: `graph.c` (without the branch that writes to a file), `getParams`, `setGTgraphParams` of `init.c`, the sorts of `utils.c`; random streams and arithmetic on probabilities are parameters | `Rmat` |
| `sample/sample_common.hpp`: `SetInputMatricesAsCSC` (without `GenRMAT_Par` and messages); `sample/GenMatrices.cpp`: `main` | `GenMat` |
| `sample/InnerSpGEMM.cpp`, `MaskedSPASpGEMM.cpp`, `all_parallel_tc.cpp`, `HashSpGEMM.cpp`, `HeapSpGEMM.cpp`, `MaskedHashSpGEMM.cpp`: `main` (without timing, headlines, rates) | `SampleMain` |
| `sample/OuterSpGEMM.cpp`, `sample/OuterSpGEMM2.cpp`: `main` (without timing, rates, `Sorted`) | `OuterMain` |
| `sample/NUMA-aware.cpp`: `main` (without timing, rates, `Sorted`) | `NumaMain` |
| `outer_profile.h`, `outer_profile2.h`: `OuterSpGEMM`, `OuterSpGEMM_stage`, `do_static_symbolic`/`do_symbolic`, `ExtractKey`, `ExtractKey2`, `doMerge` (without times) | `OuterProfile`, `RaceOuter` |
| `sample/ProfileOuterSpGEMM.cpp`, `sample/ProfileOuterSpGEMM2.cpp`: `main` (without times, rates, `Sorted`) | `ProfileMain` |

Not modelled: `spgemm-blocks/masked-spgemm-prof.h` (see below), the MKL wrappers of `multiply.h`,
`tri_count.cpp`, the other benchmark
mains; third-party code (the rest of GTgraph, PaRMAT, GraphBLAS, pdqsort, timsort, vergesort), MKL wrappers, timing,
logging, machine performance, memory exhaustion.

## 4. Properties: what is modelled and how it is proved

| Id | Model | Proof |
|----|-------|-------|
| C01 | `numericRow`/`symbolicRow` of MSA1A, MSA2A on accumulator arrays, drivers 1p/2p | prefix invariant: entry j holds the fold of the products seen so far; driver theorem lifts rows to C |
| C02 | complemented variants, `gather<Sorted>` | same, with the dirty-index list as first-touch order |
| C03 | hash table as slot array, linear probing, gather in mask order | open-addressing invariant (each key reachable from its home through full slots) |
| C04 | complemented variant | invariant: probe paths of mask keys contain only mask keys |
| C05 | two-finger merge over array indices | merge lemma on strictly sorted lists |
| C06 | heap of (key, run, loc), `initHeap`, `insertNext` for all Inspect values | multiset of pending products; min-first order; associativity and commutativity; a witness shows commutativity is needed |
| C07 | complemented heap | same |
| C08 | inner product by merge of row and column | merge lemma; `C08_inner_csr` relates it to the CSR specification |
| C09 | both drivers | both equal the same specification matrix |
| C10 | schedules as lists of thread numbers | Owicki-Gries style invariants per thread, non-interference by disjoint ranges |
| C11, C19 | symbolic and numeric row functions run on a list of rows | count equals length of the expected row; state restored |
| C12 | as C01 - C08 | read off the expected rows |
| C13 | `distributeWork` with `lower_bound` | monotonicity of lower_bound on the prefix sums |
| C14 | sequential and parallel scans | per-thread invariants |
| C15 | `insert`/`find`/`erase` on slot arrays | refinement to finite sets and maps, invariant preserved by backward shift |
| C16 | `adjustSize` over naturals and over fixed width (`std::ratio<2,8>` is 1/4) | loop invariants; the 32-bit endless loop and the 64-bit load violation are proved |
| C17 | `splitMemory` on byte arrays with wrapping arithmetic | arithmetic |
| C18 | `mallocAligned`/`freeAligned` on addresses | arithmetic |
| C20 | store of matrix objects with freed flag | the last read of an input precedes the free |
| C21 | CSC to CSR counting placement | per-row invariant |
| C22 | `mergesort` on arrays with arbitrary temporaries | induction |
| C23 | drivers | from the driver theorem |
| C24 | `Intersect` | merge lemma; violated from 2^17-1 rows on (C48) |
| C25 | conversions | direct |
| C26 | `scanInputs` bound | length of expected row <= min(flops, mask) |
| C27 | all | equal specification matrices |
| C28 | results read as Mathlib `Matrix` (`SpecDense`) | sums over products grouped by key |
| C29 | relabel, lower triangle, multiply, reduce; graphs are Mathlib `SimpleGraph (Fin n)` (`SpecGraph`) | entries of the product are common lower neighbours; bijection of ordered triples with 3-cliques |
| C30 | k-truss loop | every round is the trimming operator; its fixpoint is the largest truss; induction on the number of entries |
| C31 | SPA, map_lp kernels | as C01, C03, in the two-pass frame; violated from 2^17-1 rows on, and for no rows except without bins |
| C32 | atomic transpose, arbitrary order of the iterations | placement invariant; violated by the loop bound for every matrix |
| C33 | BIN | lower_bound; violated from 2^17-1 rows on |
| C34 | hash_mult_hw | probing with possibly full table; violated from 2^17-1 rows on and for no rows |
| C35 | libstdc++ heap algorithms | heap-shape invariants |
| C36 | access traces of scans and generic drivers | traces contained in per-thread footprints that are disjoint; races exhibited otherwise. Inner-product drivers: C81; older kernels: C102, C103, C104; conversions: C105; generic heap driver: C106; poly not covered. The lists are complete (`Props/Listed.lean`): whatever a piece changes is listed as written, and its result and its list depend on no cell that is not listed as read; the same for C81, C102, C103, C106. If a call returns, its last two regions list a store for every cell of the result (`C36_stored`, `C81_stored`, `C106_stored`; for the older kernels `C102_stored`, `C103_heap_stored` and `C103_inner_stored` say it of the cells whose content is not the initial one) |
| C37 | drivers on zero rows | `exclusiveScan` writes `dst[0]` of an empty array: violated; empty operands with rows > 0 are fine |
| C38 | complemented heap with and without asserts | assertion fails on each empty mask row: violated with asserts; no call with products in such a row returns |
| C39 | poly driver | `rowNvals` of computed rows is never written: violated; the per-row choice itself is right |
| C40 | two-phase inner driver on a store | `initC` frees A or M before the numeric phase: violated |
| C41 | MSA and hash with duplicate mask columns | result of the deduplicated mask where it holds; divergence and overrun where not |
| C42 | heap depth with 64-bit wrap | witness for the wrap; the other depths by C06 |
| C43 | `calculateFlops`, `calculateWork`, `scanInputs` | sums |
| C44, C49 | `distributeWork`, BIN | arithmetic on lower bounds |
| C45 | `setBuffer`/`releaseBuffer` of both phases on bytes | composition of C17 |
| C46 | header store of `mallocAligned` | arithmetic; violated for alignments that are no multiple of 8 |
| C47 | CSC constructors | placement invariant, arbitrary loop order and sort |
| C48 | `utility.h` `scan` | per-thread invariant; callers pass one element too few: violated from N = 2^17 on |
| C50 | `sort_by_degree` | the sorted pairs define a permutation; the order of the new numbers is the order of the pairs, so it is unique |
| C51 | k-truss for k = 2 | `GxB_GE_THUNK` with 0 drops nothing stored, but the multiply already dropped edges in no triangle: violated |
| C52 | betweenness centrality: both loops, aliased multiplies, GraphBLAS operations by effect; field arithmetic | spec counts sets of shortest paths (`SpecBc`); number of walks of length k; paths through v = prefixes times suffixes; Brandes' recurrence; layer invariants for both loops |
| C53 | older inner-product kernel: two parallel regions, compaction | per-thread write cursors, disjoint ranges (`blocks_own`); violated in five ways |
| C54 | older heap kernel: partition, per-thread heaps and output arrays, copy | heap invariant of C05 through a map of the entries; threads own disjoint columns (`blocks_own_loc`); violated for 0 and for 2^17 - 1 or more columns |
| C55 | heap of blocks, objects with pointers, programs of statements | refinement to variables that hold values; invariant: blocks have one owner each; violated for CSR with 0 columns |
| C56 | `==` on objects in that heap; value comparison as parameter, over integers and rationals | arrays equal iff stored entries equal (positions determine the row pointers); violated for 0 rows |
| C57 | grouping by start, sort (parameter), merge of neighbours, placement by counting | the groups form one sorted rearrangement of the edges; snoc induction on the merge; violated for graphs without edges |
| C58 | `sortIds`, `shuffleIds`, `Sorted` on the three arrays; random numbers are any function | loop rule for steps that change one row each; exchange is a permutation; violated for empty rows and signed ids |
| C59 | words as numbers below 2^64, unset until `reset` | bits of words (`Nat.testBit`), induction over the word scan; violated beyond 2^32 positions |
| C60 | counting and filling pass; linear merge of a column with the row list, by fuel; bit map from C59 | merge = filter for increasing lists; result as `ofCols`; exact condition for correctness; violated in five ways |
| C61 | both parallel loops in any order, vectors of vectors | violated for all matrices with a column: first access of an empty vector |
| C62 | in-place loop over the sorted array; sort as parameter | invariant: the first `dst` triples are the part read so far without duplicates; violated for 0 triples |
| C63 | the two constructors; division by zero is an outcome | pieces are filters by row block; violated: division by zero, rows confused |
| C64 | one interleaving of steps per product / copy of a buffer; counters of the blocks updated atomically; the sort is any that sorts by keys of 32 bits; 32-bit sort key | global invariant: per block, stored + buffered + outstanding products are a permutation of all products; violated for 2^17 - 1 rows, more than 4096 rows per block, more than 2^20 columns, 0 blocks or buffer size 0 |
| C65 | files as lists of characters; stream state with `eofbit`, `failbit`; lines cut at 255 characters | parser of each line = what the line stands for (`Numeral`, `EntryLine`); loop invariant: `cnz` + 2 * (lines left) bounds; then C47; violated in seven ways |
| C66 | same loop with removal of the diagonal and random values | same invariant, parametric in both options; counterexamples as families of files (`C66_violated_*`) |
| C67 | `fgets` into a buffer, `sscanf`, `atof` as parameter; the two passes (count, place) | placement lemmas as for the conversions; violated in five ways, one is non-termination |
| C68 | files as lists of bytes, `fread` in whole items; unset variables after short reads | bytes of numbers and back (little endian); then C47; violated by empty matrices, short headers, unchecked indices |
| C69 | the program from the text of the file to the number: reader (C65), counts, relabelling, triples, removal of duplicates, constructor (C47), conversion (C21), multiplication (C01 etc.), parallel sum | loop invariants for the array of triples; the result is the lower triangle of a relabelled graph (as in C29); values are 1, so that the masked product counts paths; violated by matrices without entries |
| C70 | parallel reduction: a list of iterations per thread, private sums of the index type | the fold of each thread and the fold over threads are sums; a rearrangement does not change them; violated by fractional values (rational numbers, truncation at every step) |
| C71 | 32-bit arithmetic on bytes with masks | the register is `(S - 1) mod 65535 + 1` for the sum `S` of the words so far; violated by 0 / 65535 and by permuted values |
| C72 | the older MSA and heap classes, transcribed separately from the newer ones | the row algorithms are equal as functions, loop by loop, by induction on fuel |
| C73 | the counting program with the multiplication as a parameter; `HashIntersect` as composition of the hash product and `Intersect` | any matrix with the entries of the masked product has the same sum (rows are permutations of each other); `HashIntersect` returns mask values, violated by any other product value and by graphs with more triangles than entries |
| C74 | driver `HeapSpGEMMImpl` with buffers of the estimated size, one row per step; heap rows on arrays | a row contract (size, auxiliary memory, row) is enough for the driver (invariant per thread, two phases); the heap loops on buffers refine the list loops of C06/C72 |
| C75 | the three search loops, flags, compression in place | two-finger merge lemma of C08 for versions 1 and 3, separate induction for version 2; violations: first key outside of `A.colids`, empty last mask rows, one-row matrices with a late hit (all: no run returns), and a family where versions 1 and 2 store the wrong column |
| C76 | `HeapLinear<T>` for all `T`; `BasicHeap` is `T = 0` | the array is a permutation of a sorted list; smallest element by linear search or heap; same invariant as C54 |
| C77 | all drivers of C08 with sums of the index type modulo `W` | the loop invariants of C08 modulo `W`; sizes of masked calls are bounded by the mask, row counts by `B` (no repeated columns in a row of `A`); a wrapped total only moves the split between threads. Violated for one-phase complement calls when the number of products wraps: the buffer is too small (universal statement for one thread, family, 32-bit instance) |
| C78 | both inner-product drivers with sums modulo `W` | simulation of the unbounded preparation; one-phase right always, two-phase: exact result (rows whose work is a multiple of `W` are dropped), equivalence, family of violations with a 32-bit instance |
| C79 | the whole program: reading, conversion, all calls (warm-up, timed, rounds), printed numbers | the object after any number of calls is the product (C08 for all complemented kinds); number of entries by counting positions, sum through C28, checksums through the order-independence of C71 |
| C80 | the string functions, on lists of characters | prefix and suffix removal; `rfind` by induction; the C loop reads before the string for every path without `/` |
| C81 | access traces of the inner-product drivers | as C36; the shared buffers are cut at the row pointers of the mask, rows are never longer than mask rows |
| C82 | `main` of masked-all as a sequence of parts that print and may fail, with a schedule for every call | the theorems on reading, conversion and the seven kernels; all lines depend on the entries of the product only up to order; sequences of parts |
| C83 | the loops, with the products of lengths reduced to the index type | sums over rows or columns equal the number of pairs; a sum of remainders equals the sum iff nothing wraps |
| C84 | `main` of tricnt-all after the reader: relabelling, both formats, the count of operations, and per outer iteration the algorithms of the mode, each with its own schedule | the theorems of C69 and C73 on the square and on the kernels; all kernels agree up to the order in a row, so sums and checksums agree; sequences of parts as in C82 |
| C85 | as C64, with the blocks and the columns of the threads from `do_symbolic` | invariant of the loop over rows: block number times (average + 1) is at most the number of products so far, so all block and thread numbers are in bounds; then as C64; violated if `A` is not square or empty, for more than 2^16 rows or columns, without threads, blocks or buffers |
| C86 | `setRowData`: `n` threads that all go over all rows (the inner parallel loop is nested), each with its own accumulator, one store per step | invariant: each thread's accumulator has its default state between rows, and every stored value is the right one; so the threads agree, whatever the order; violated for the number of entries, and for columns that `A` does not have |
| C87 | `printRowData`: the fields of the lines; sums in `int`, division in `size_t`, conversion back to `long` | sums modulo 2^32 equal the sum modulo 2^32; the sorted list is unique; exact condition for the printed mean |
| C88 | `main` of `blocked_parallel_tc`: reading the blocks, the collapsed loop in any order with one record of counts per iteration, the seven calls of an iteration on the models of C24, C31, C33, C53, C58, C65, C70, C83, the totals | sums over blocks equal sums over the whole matrix; positions with the block of their middle as a set; ordered triples `j < k < i` for triangles |
| C89 | `graphGen`: the walk through the matrix, the loop over the edges (fuel counts attempts), weights as exact rationals that are truncated; counting sort with its three passes, histograms and offsets; heap sort with its `bottom` | for any arithmetic and any streams: vertices stay in range by induction on the step; each pass is a stable sort by a digit, three passes are a stable sort by 32 bits; with C57 for the matrix |
| C90 | `HeatMap`: the loops over dimensions and degrees with 32-bit numbers, the making of the matrices with sorting functions and random draws as parameters, `calculateFlops`, the calls of the six algorithms with 32-bit indices | the printed number is the number of pairs of positions that meet, from C62/C47 (draws) or C89/C57 (R-MAT) and the sums of C77; each call by C77/C78 in all fair schedules; one `K` for all calls |
| C91 | counting passes over arrays whose elements are moved out (a moved-from element is unset); counters of 8, 16, 32 bits by the number of elements; keys as codes of 1 to 8 bytes; nested keys by the last component first | each pass is the stable distribution by a digit; passes compose to the lexicographic order of the codes; codes have the order of the keys; the place by the parity of the passes; violated for negative `char`s, -0 in pairs, `counting_sort` keys of 256 or more, short buffers |
| C92 | `main` of the k-truss program: the reader, the count of operations, per outer iteration the algorithms of the mode with each number of threads; the loop with fuel (running out is `diverge`) and a schedule for each multiplication | each round is `peel` (delete edges in fewer than k-2 triangles), whatever the order in the rows; induction on the number of entries; the number of rounds is unique, so the lines agree; sequences of parts as in C82 |
| C93 | `main` of the triangle counting program with GraphBLAS: the reader, relabelling by degree, lower triangle, count of operations, per outer iteration the algorithms of the mode with each number of threads | the new numbers have the order of the pairs (degree, number), so counts over the relabelled triangle are counts of paths of rising degree in the graph of the file; number of entries and sum of the masked square do not depend on the order in the rows; what GraphBLAS takes over ends at the last row pointer, so that an object that is used again by warm-up calls does no harm; sequences of parts as in C82 |
| C94 | `main` of the betweenness centrality program: the reader, the number of sources, the shuffled vertices, per outer iteration the algorithms of the mode with each number of threads | the loops of C52 for any multiplication that is right, so also for GraphBLAS; a shortest path meets no vertex twice, so summed over all vertices the shares of the paths give the number of inner vertices; with assertions the mask of the first round is empty in the row of a vertex that is not a source (C38); sequences of parts as in C82 |
| C95 | `main` of the program that writes matrices to files, the input of the sample programs (text, binary, generated), the text of both files character by character | the text is a Matrix Market file for the positions; read back with C65; entries of the inputs from C65, C68, C89 and C57; a file with too few entries is read to its end and then fails, by induction on the entries |
| C96 | `main` of three sample programs with kernels for masked products: the reader, the count of operations, for each number of threads the calls of a kernel; the full product, its first ten values, sorting and intersection | reader C65, count C83, kernels as in C82, `HashSpGEMM` C34, intersection C24; sequences of parts as in C82; the entries of a product are unique up to order, so counts do not depend on the kernel |
| C97 | `main` of three sample programs for products: input of C95 as files or generated, `shuffleIds` with arbitrary random numbers (C58), the count of operations, for each number of threads the calls | reading C65/C68, generated graphs C89, C95, conversion C21, shuffle C58 keeps the entries of the rows, so the entries as a set; kernels C34, C54, C31; the sorted output is the list by rows and columns, which is unique, so the ten values are determined |
| C98 | `main` of the two sample programs for outer products: input of C95 as files or generated, second matrix by rows, `shuffleIds` of the columns and rows with arbitrary random numbers (C58), the count of operations (C83), sixteen calls with the arguments 5 to 7 as numbers of two bytes | reading C65/C68, generated graphs C89, C95, conversion C21, shuffles C58 keep the entries, kernels with the radix sort of C91; the sums of products over the pairs of entries do not depend on the order, so the entries of the result are those of the product; the turns of a thread are bounded by the number of all products; missing binary files (`Props/MissingBin.lean`): the matrix stays 0 by 0, the count of operations reads behind the row pointers of the second, or reports 0 if both are missing; `2^20 + 1` columns (`Props/WideCols.lean`), `2^16 + 1` columns for the second program (`Props/WideCols2.lean`): the matrices after the shuffles are determined by their entries, the kernel is evaluated on them |
| C99 | `main` of `NUMA-aware.cpp`: input of C95, both matrices by rows, the first split in two with `SplitTuples` (C63) and stored again by columns (C47), the other copies shuffled (C58), the count of operations (C83), sixteen pairs of calls of the outer-product kernel with arbitrary numbers of threads | as C98 for each half; an entry of the product goes to a place (half, row modulo `k / 2`, column), the number of places is the printed number, places are different exactly if no two rows of the lower half with entries in the same column are folded; a row number out of range stays in the sorted and merged block and makes the copy loop fail; missing binary files (`Props/MissingBin.lean`): the matrix stays 0 by 0, the count of operations reads behind the row pointers of the second, or reports 0 if both are missing; `2^20 + 1` columns (`Props/WideCols3.lean`) as in C98 |
| C100 | the two measuring kernels: block counts with the conversion to `uint16_t`, the region of C64, sorting and merging in two separate loops with the 64-bit key, five runs, the printed number | a stage equals the kernel of C64 (C85) together with the number of products: the loops on blocks are descriptions by prefixes, the 64-bit key is injective for columns below 2^32, the counts of the blocks add up to the number of products; the five runs by induction; violations by transfer from C64 and C85, and directly where the kernels differ; for more columns than rows (`C100_wide`), the arrays of the square part are prefixes of the whole arrays, so every run on the square part that succeeds is also a run on the whole |
| C101 | both `main`s: input of C95, for the first the split of C99 without shuffling, the count of operations (C83), two calls of a measuring kernel (C100) | as C98 for each call; products and entries of a part of the rows (columns) compared with those of the whole; a row number out of range as in C99, through the two separate loops for sorting and merging; missing binary files (`Props/MissingBin.lean`): the matrix stays 0 by 0, the count of operations reads behind the row pointers of the second, or reports 0 if both are missing; `2^20 + 1` or `2^16 + 1` columns (`Props/WideCols3.lean`, `Props/WideCols2.lean`) as in C98 |
| C102 | access traces of the partition (C33) and of the kernels of C31 and C34, region by region, for any assignment of iterations to threads | a program of loads and stores runs like the row of the kernel (`C102_faithful`); a first pass only touches the cell of its row; a second pass stores at or after the start of its row, and as the row also succeeds in arrays that end with it, not after its end |
| C103 | access traces of the older heap and inner-product kernels (C54, C53), region by region | programs of loads and stores as in C102. Heap kernel: a column only touches its cell of `colEnd`, the last region only the segment of its column. Inner-product kernel: weakest preconditions with the invariant that `th_nnz[t]` has not passed the mask entries thread `t` has looked at |
| C104 | access traces of the four outer-product kernels (C64, C85, C100) and of `scan`, region by region | programs of loads and stores as in C102. First region: every access of a step lies between the counter of the block before and after the step, so steps never meet. Last region: invariant that block `b` holds only rows of block `b`, and segments by prefix sums are disjoint. `scan`: the cells of a thread are its chunk and its partial sum |
| C105 | access traces of the parallel loops of `sortIds`, `Intersect`, the `CSC` constructors and `csr2csc_atomic_nosort`; not `MergeDuplicates`, no call of which returns (C61) | programs of loads and stores as in C104; iterations own segments between pointers that do not decrease (valid matrix, or sums of counts); transposition: the number a pair gets from the atomic counter is its rank in its column, so the target cells differ; lists written out for calls that return; operations that change a cell list a write of it |
| C106 | access traces of the loop that counts products and of the two parts of the main region of `HeapSpGEMM<RowAlgorithm>`; its prefix sum by C104 | as C36, but for an arbitrary row algorithm, right or wrong: the assertions only speak of steps that succeed; footprints of the threads are disjoint if every thread but the last has a row; otherwise every call that returns has a race |

Where a property is violated the manifest has a theorem `…_violated` (or a descriptive name) proving the negation, mostly
for every input of a class rather than for one witness, and a `…_partial` theorem for what holds.

## 5. Defects found

1. C16: 32-bit `adjustSize` loops forever for requests of 2^29 or more; 64-bit load bound violated at 2^62.
2. C31, C33, C34, C24, C48, C53, C54: prefix sum of `utility.h` reads past its source for 2^17 or more elements.
3. C32: `csr2csc_atomic_nosort` loops to `i <= n` over arrays of `n` (+1) cells.
4. C36, C81: races (all on equal values) when there are fewer rows than threads or threads without rows.
5. C37: zero-row matrices make `exclusiveScan` write out of bounds.
6. C38: assertion in the complemented heap fails on empty mask rows.
7. C39: the poly driver uses uninitialised row counts; both accumulators also share one buffer (not modelled).
8. C40: two-phase inner product with C aliasing A or M uses freed memory.
9. C41: hash kernels diverge or overrun on duplicate mask columns.
10. C42: heap depth 2^64-2 wraps. 11. C46: misaligned header store. 12. C51: k = 2 gives the 3-truss.
13. C53: `innerSpGEMM_nohash` starts sums with 0, reads `colptr` of B at columns of A, adds to the old `nnz` of the output.
14. C54: `HeapSpGEMM` writes `colStart[0]` and reads `colEnd[cols - 1]` also if `B` has no columns.
15. C55: `CSR::operator=` tests `rhs.cols` instead of `rhs.rows`: the target keeps a freed or unset `rowptr`.
16. C56: `operator==` reads `rowptr[0]` (`colptr[0]`) of matrices without rows (columns), which have no such array.
17. C57: the graph constructors read the first edge of a graph without edges.
18. C58: `shuffleIds` constructs a distribution with bounds 0 and -1 for every empty row (column).
19. C59: `get_next_bit` masks the position with the 32-bit constant 0xffffffc0: wrong answers beyond position 2^32.
20. C60: `SpRef*` do not renumber rows, reject empty results, let index `cols` pass; `SpRef1` sizes its bit map by the number of
    rows selected; `SpRef2` writes at offsets of `A` into a buffer for the selected columns only.
21. C61: `MergeDuplicates` writes into vectors that were never sized.
22. C62: `removeDuplicates` returns 1 for an empty array.
23. C63: `SplitTuples` divides by zero for fewer rows (columns) than pieces; the row version takes the piece size from the columns
    and gives different rows of the last piece the same number.
24. C64: the sort key of `OuterSpGEMM` has 12 bits for the row within its block and 20 bits for the column; above that entries
    end up in wrong rows. No run returns with 2^17 - 1 rows or more (see item 2).

25. C65, C66: the readers take skew-symmetric files for symmetric ones, search for "symmetric" in all comments, stop at lines of more
    than 255 characters, cut decimal values to integers, need single spaces, and use unset sizes if the file does not exist.
26. C67: `CSR(filename)` searches for "general" in all comments, loops forever on files with comments only, writes past its arrays
    if there are more entries than announced.
27. C68: `ReadBinary` rejects matrices without entries, uses unset sizes for files that are too short, checks no index.
28. C69: for a matrix without entries `preprocessInput` takes one triple from an array of length 0. (For a matrix with diagonal entries
    only it builds a matrix with an entry (0, 0, 0), which does not change the count.)
29. C70: `sumall` adds in the index type: fractional parts of floating-point values are lost at every step, and the result depends on the
    number of threads.
30. C71: what the benchmark programs print does not tell results apart that store the same values in another order.
31. C73: `HashIntersect` keeps the values of the mask instead of those of the product. In the triangle counting program it reports the
    number of edges closed by at least one path instead of the number of triangles (3 instead of 4 for the complete graph on 4 vertices).
32. C75: `MCA_v1` and `MCA_v2` read the first column of a row of `B` from `A.colids`. All versions put values at the position of their
    column in the mask row, but have room for as many values as there are products only: the triangle 2, 3, 4 with the edges 4-0 and
    4-1 makes them write outside of the buffer when `L * L` is masked by `L`. Versions 1 and 3 walk past the end of empty mask rows.
33. C74-C76: `HeapSpGEMMImpl` writes `rowStart[0]` also if there are no rows. (Not modelled: `threadsNvals` is never freed.)
34. C77: one-phase calls with the complement of the mask size their buffer by the number of products in the index type: if it wraps
    around, the threads write outside of it. With a repeated column in a row of `A` the count of a row can wrap to 0; the row is dropped.
35. C78: the two-phase inner-product call drops rows whose work is a multiple of the number of values of the index type. With
    `uint32_t`: a row of 2^15 entries by a matrix with 2^16 columns of 2^15 entries.
36. C80: `getFileName` of `MaskedAllSpGEMM.cpp` tests `path[len]` before `len >= 0` and reads `path[-1]` for every path without `/`.
37. C82: masked-all without a thread count never sets `fileName` and prints a null pointer at the first log line. Its algorithms with mask
    compressed accumulators fail on masks without entries from some row on that gets products. The names in its log are shifted:
    `MaskedBasicHeap_v1` to `_v3` are the row algorithms `MaskedHeap_v0` to `_v2`.
38. C83: `get_flop(CSC, CSR)` and `getFlop` of `outer_mult.h` multiply the lengths of a column and a row in the index type.
39. C84: in mode `all1p` tricnt-all ends with `MaskedSpGEMM1p` on `(CSR, CSR, CSR)`, the driver of C39 that uses unset row counts for rows with work,
    so the program is undefined for every graph with a triangle. `HashIntersect` prints the number of entries of the product in place of the number of triangles,
    always wrong if there are more triangles than entries in the file. For files without entries the program reads outside of an array (28).
    With `2^17 - 1` or more vertices the first algorithm of every mode with an older kernel fails, so nothing is printed.
40. C85: `do_symbolic` of `outer_mult2.h` allocates `flops_by_iters` by the number of rows but indexes it by columns, and distributes row
    numbers to the threads, which use them as columns. So `OuterSpGEMM` accesses memory out of bounds unless `A` is square. The sort key has
    16 bits each for row and column.
41. C86: `setRowData` stores the number of products under the mask (`currRowNflops`) as number of entries (`rowNvals`), wrong exactly if a
    position of the mask gets two products. Its accumulator has `A.cols` positions but is indexed by the columns of `B` and `M`. Its loop over
    rows is a parallel loop inside of a parallel region: every thread writes all rows, a data race (with equal values) for two or more threads.
42. C87: `printRowData` adds times of type `long` from an initial `0` of type `int`; the printed mean is wrong exactly if the sum is `2^31` or
    more. With no samples it divides by zero, with more samples than runs it reads behind the times.
43. C88: the numbers of entries that `blocked_parallel_tc` prints are sums over the blocks in the middle, so positions with products through two
    blocks are counted twice. With blocks of different sizes the inner product reads out of bounds (C53). The debug line
    `Thread %d on (%d,%d,%d)` gets its arguments in the order `i, j, k, thread` (not modelled).
44. C89: `graphGen` for one vertex (scale 0) rejects every edge and never ends. `countingSort` sorts `long` keys by their low 32 bits only.
    `heapSort` is called with `siftDown(…, i, n)`, whose `bottom` is the last index, so for `n` of two or more it can access the element `n`.
    In `varyParams` both branches for `b` add (graph.c:196-199), so `b` grows against the other probabilities.
45. C90: in `HeatMap` the loops that double a number with 32 bits never end if it starts with 0, or at a power of 2 with a bound of `2^31` or more. With
    `--sameAB` and fewer degrees for `B` than for `A` a matrix behind the last is used. If the number of rows times the degree is a multiple of `2^32` the first of no
    triples is read (C62). R-MAT matrices of dimension 1 are never made (C89). `--maxRowsA` is by default the largest degree of `A`, so `A` and the
    mask have at most so many rows. All matrices of one size are made from the same seed: the mask is a subset of `A`, or equal to it, or contains it.
46. C91: `radix_sort.hpp` converts `char` to `unsigned char` without regard to its sign, so negative `char`s come after the others; `linear_sort` with up to
    512 elements uses `std::sort`, so its order depends on the number of elements. `-0.0` and `0.0` are equal but have different codes, so in pairs the second
    component is not used between them. `counting_sort` has 256 counters and accesses them out of bounds for larger keys. `doRadixSort` ignores where the result is;
    for keys of 4 bytes it is in the range itself.
47. C92: `GxB_GE_THUNK` with `k - 2 = 0` keeps all entries of the product, but an edge in no triangle has no entry in it, so for `k = 2` the program prints the 3-truss.
    In mode `all1p` the last algorithm is the driver of C39, which never returns if the graph has an edge. `nnz_last` and `nsteps` are unset without iterations.
    `get_grb_mat` passes every result as not jumbled; the rows of `MaskedSPASpGEMM` are in the order of the first touch, which is not sorted for any graph with a triangle.
48. C93: in `TriCntAllGrb` the modes `inner` and `dot` start with `innerSpGEMM_nohash`, which never returns from `2^17 - 1` rows on (C53); `msa`, `hash`, `all` as in C84. Without
    iterations `grb_tri_count_sandia_L` prints the empty matrix it made, and `msp_tri_count_sandia_L` hands an object without rows to GraphBLAS, which fails the check of the dimensions.
49. C94: in `BCAllGrb` (built with assertions) the first round of `MaskedHeap` with the complemented mask fails as soon as an arc leads from a source to another vertex (C38), so the modes
    `heap`, `all` and `benchmark` (without `DISABLE_HEAP`) do not end. Without iterations `sol` keeps -1. `s > n` compares an `int` with an unsigned number, so a negative number of
    sources becomes all vertices. A share below half a vertex fails the assertion of `main`.
50. C95: `GenMatrices.cpp` has the number of rows as bound of the loop over the columns of the left matrix, so it reads out of bounds for tall matrices and leaves out entries of wide ones
    (the file announces more entries than it has and cannot be read back). The usage check accepts three arguments, but the fourth one is used. The result of `ReadBinary` is ignored:
    missing files become 0 times 0 matrices. In text mode `v1[v1.size() - 2]` is out of bounds if the first name has no point. `graphGen` starts its random streams anew for the second
    matrix, with the probabilities left over from the last edge of the first one. A scale of 0 never ends, a factor of 0 reads the first edge of none.
51. C96: `MaskedSPASpGEMM.cpp` prints the first ten values of the product without asking how many there are. `InnerSpGEMM.cpp` fails for matching sizes if the first matrix has an
    entry in a column from the number of columns of the second on (C53). None of the programs notices a missing file, `all_parallel_tc` also not that the matrix is not square.
52. C97: `HashSpGEMM.cpp` and `MaskedHashSpGEMM.cpp` shuffle the rows of both matrices, which fails for every matrix with an empty row (C58); the masked program never uses the second
    matrix but needs it to be without empty rows. Both print ten values without asking how many there are.
53. C98: `OuterSpGEMM.cpp` and `OuterSpGEMM2.cpp` accept three arguments but read the sixth and seventh without asking whether they exist. Both shuffle the columns of the first and the
    rows of the second matrix, which fails if one of them is empty (C58). The number of blocks has two bytes: multiples of 65536 give a division by zero.
54. C99: `NUMA-aware.cpp` splits the first matrix in two with `SplitTuples` for matrices stored by rows, which takes the size of a piece from the number of columns (finding on C63). The rows
    of the second half are reduced modulo this size, and both halves get `rows / 2` rows. So rows are folded onto each other and the printed number of entries is too small, for
    example for every full square matrix of odd size from 3 on; a first matrix with more columns than rows and an entry in a row from `rows / 2` up to `columns / 2` makes the kernel leave its arrays; one with less than two columns leads to a division by
    zero. The fifth argument (number of threads) is not used, the sixth and seventh are read without asking whether they exist, the sum of the times starts from a variable
    that is not set (NUMA-aware.cpp:87, 159), and the two sections write the static variables of `outer_mult.h` without synchronisation.
55. C100: `do_symbolic` of `outer_profile2.h` is called with the number of rows as the end of the loop on columns (line 295). A matrix with more rows than columns leads to reads
    out of bounds; with more columns than rows the products of the last columns are silently left out, in the result and in the printed number. The kernels do not reduce the
    number of blocks modulo 2^16 as `outer_mult.h` does, so 2^17 - 1 and more blocks reach the prefix sum, which then fails as for many rows. The result of the first four
    runs is never freed.
56. C101: `ProfileOuterSpGEMM.cpp` counts the operations of, and reports the result of, the upper part of the first matrix only (lines 87-91, 137, 161), which is cut at half the number of
    columns; the call for the whole matrix (line 126) only prints its total. The fifth argument is printed as the number of threads but not used (line 95 is a comment). The program
    divides by zero for less than two columns and fails for some matrices with more columns than rows. `ProfileOuterSpGEMM2.cpp` prints totals that are too small for first matrices
    with more columns than rows and reads out of bounds for more rows than columns (finding 55). Both read the sixth and seventh argument without asking whether they exist.
57. C102, C103: `mxm_hash_mask` finds out the number of threads by letting every thread write the same variable (mask_hash_mult.h:50-54), a data race (on equal values) in every call
    with two or more threads. `HeapSpGEMM` (heap_mult.h:49-53) and `innerSpGEMM_nohash` (inner_mult.h:79-83) have the same region. All other
    regions of the three are free of races.
58. C104: `scan` of `utility.h` has the same region (185-186) for 2^17 or more numbers, hence a data race in every such call with two or more threads. All regions of the four versions of
    `OuterSpGEMM` are free of races.
59. C106: `HeapSpGEMM<RowAlgorithm>` reads `C.rowptr[rowBegin]` in every thread (heap_mult_generic.h:802-803), also in one without rows, where another thread writes that cell (796, 799)
    without a barrier in between: a data race in every call that returns in which a thread other than the last one gets no row, as in the newer drivers (C36). The thread copies nothing, so
    the value does not matter. All other regions are free of races, except that of `scan` (finding 58).
60. C31, C34, C53, C88: the constructor of `BIN` asserts that there are rows (BIN.h:42), so that `MaskedSPASpGEMM`, `mxm_hash_mask`, `HashSpGEMM`, `innerSpGEMM_nohash` and
    `blocked_parallel_tc` fail on matrices (blocks) without rows, which the readers and constructors accept; `mxm_hash_mask_wobin` returns the empty matrix.
61. C79: `complement-masked-all` on the file of a matrix without rows writes outside an array in the first call (C37).
62. C98, C99, C101: a missing binary file is not noticed; without the second one the count of the operations reads behind the row pointers, without both the programs report 0 operations.
63. C98: with columns from 2^20 on, `OuterSpGEMM` stores equal positions twice and prints a wrong number of entries, since the key for sorting does not tell them from positions in other rows.
64. C98, C99, C101: the same holds for `NUMA-aware` and `ProfileOuterSpGEMM`, and with columns from 2^16 on for `OuterSpGEMM2` and `ProfileOuterSpGEMM2`.

Read but not modelled: `MaskedSpGEMM1p_prof` (`spgemm-blocks/masked-spgemm-prof.h`) is never called, does not fit the signatures of the kernels it calls, and never
stores the number of entries of a computed row. `CSC(tuples, addop)` never uses `addop`; `cpu_sorting_key_value` with N = 0 underflows.

## 6. Mutation tests

`seeded/LOG.jsonl` has one line per attempt. The edit is made to the model in a scratch copy and everything is rebuilt.
`theorems_failed` lists the claimed theorems that depend (through any chain of declarations) on a declaration that no
longer compiles (a declaration is matched by its file and its name; lines of earlier rounds that were matched by the last part of the name
only, and so listed too many theorems, have been recomputed). An empty list means that the edit went through; the line then says whether the edit preserves the
behaviour or which theorem was tightened. A failure shows that the proof uses the edited behaviour. It does not show by
itself that the statement became false: some behaviour-preserving edits broke a proof script too, and their lines say so.

## 7. Layout

* `Verif/Base.lean` - outcomes, checked arrays, loops. `Verif/Csr.lean` - matrices.
* `Verif/Spec*.lean` - specifications: `Spec` (products, masks), `SpecCsc`, `SpecConv` (conversions), `SpecLegacy`,
  `SpecDense` (C28), `SpecGraph` (C29, C30, C50), `SpecBc` (C52), `SpecTri` (C69, C70), `SpecChecksum` (C71), `SpecBench` (C79, C80), `SpecMaskedAll` (C82, C83), `SpecTriMain` (C84), `SpecBlocked` (C88), `SpecRmat` (C89), `SpecHeatMap` (C90), `SpecRadix` (C91), `SpecTruss` (C92), `SpecTriGrb` (C93), `SpecBcMain` (C94), `SpecGenMat` (C95), `SpecSample` (C96, C97, C98, C99, C101). `Verif/Run.lean` - schedules and results of calls. `Verif/Kinds.lean` -
  all algorithms in one type. `HashOps`, `HeapOps` - operation sequences.
* `Verif/Model/*.lean` - models of the code.
* `Verif/Lemmas/*.lean` - helper lemmas.
* `Verif/Props/*.lean` - the property theorems and their non-vacuity examples.
