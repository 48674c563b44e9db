import Verif.Model.TriMain
import Verif.Model.Graph
import Verif.Lemmas.Masked

/-!
# What the two programs with GraphBLAS share

Models `read_grb_mtx` of `/repo/grb_util.h` 744-783, `calculateMultOps` of `/repo/spgemm-blocks/common.h` 23-43, and the calls
of the multiplications with an operator that returns 1, as in `/repo/benchmarks/KTrussAllGrb.cpp` and
`/repo/benchmarks/TriCntAllGrb.cpp`.

Simplifications. As in `Verif.Model.Graph`: the GraphBLAS functions are third-party code and are modelled by their documented effect.
Whether GraphBLAS stores all values of a matrix once (an "iso-valued" matrix, which the constructors of `CSR` and `CSC` refuse) is not
modelled. Values are integers without overflow: the numbers that are counted are at most the number of vertices.
-/

namespace Verif.Model.Grb

open Verif.Spec

variable {V : Type}

/-! ## Reading -/

/-- `GrB_Matrix_build` with an operator for repeated positions, grb_util.h:439: entry `(i, j)` is made of all tuples with this position -/
def build (dup : V → V → V) (rows cols : Nat) (ts : List (Nat × Nat × V)) : CSR V :=
  ofRows rows cols true fun i => (List.range cols).filterMap fun j =>
    match ts.filter fun t => decide (t.1 = i ∧ t.2.1 = j) with
    | [] => none
    | t :: ts => some (j, ts.foldl (fun x t => dup x t.2.2) t.2.2)

/-- The entry at a position -/
def entry (A : CSR V) (i j : Nat) : Option V := (A.row i).lookup j

/-- `GrB_Matrix_eWiseAdd_Semiring` of a square matrix and its transpose, grb_util.h:776-778: the entries of both; `op` where both have one -/
def addTransposed (op : V → V → V) (A : CSR V) : CSR V :=
  ofRows A.rows A.cols true fun i => (List.range A.cols).filterMap fun j =>
    match entry A i j, entry A j i with
    | some x, some y => some (j, op x y)
    | some x, none => some (j, x)
    | none, some y => some (j, y)
    | none, none => none

/-- `read_grb_mtx` with all three options set, grb_util.h:744-783. The result of `GrB_Matrix_eWiseAdd_Semiring` is not checked: if the
dimensions differ, it does nothing. -/
def read (fresh : Nat → Int × Int × V) (ofInt : Int → V) (rnd : Nat → V) (min plus : V → V → V) (file : Option (List Char)) : Res (CSR V) := do
  let x ← ReadIO.readTriples fresh ofInt true rnd true file
  let x ← ReadIO.toNats x
  let A := build min x.1.1 x.1.2 x.2
  .ok (if A.rows = A.cols then addTransposed plus A else A)

/-! ## Counting operations -/

/-- The body of the loop of `calculateMultOps`, common.h:32-39: the number for row `i` -/
def opsRow (A B : CSR V) (i : Nat) : Res Nat := do
  let b ← rd A.rowptr i
  let e ← rd A.rowptr (i + 1)
  forRange b e 0 fun j nopsRow => do
    let inner ← rd A.colids j
    let hi ← rd B.rowptr (inner + 1)
    let lo ← rd B.rowptr inner
    .ok (nopsRow + (hi - lo))

/-- `calculateMultOps`, common.h:23-43. The iterations of the parallel loop run in the order `order`; the sum is a reduction. -/
def multOps (A B : CSR V) (order : List Nat) : Res Nat :=
  order.foldlM (fun nops i => do
    let x ← opsRow A B i
    .ok (nops + x)) 0

/-! ## The multiplications -/

/-- The function that is passed -/
inductive Ker where
  | nohash
  | lib (a : Algo) (two : Bool)
  | msa1Old (two : Bool)
  | msa2Old (two : Bool)
  | heapOld (v : Old.Ver) (two : Bool)
  | spa
  | wobin
  | hash
  | poly
  deriving DecidableEq

/-! ## The algorithms of the modes: their texts in the source, and the functions -/

/-- KTrussAllGrb.cpp:491-504, TriCntAllGrb.cpp:356-369, with the suffixes `-1P`, `-2P` of the macros -/
def msaAlgs : List (List Char × Ker) :=
  [("MaskedSPASpGEMM".toList, .spa),
   ("MSA2A_old-1P".toList, .msa2Old false),
   ("MSA2A_old-2P".toList, .msa2Old true),
   ("(MaskedSpGEMM1p<MSA2A<false, false>::Impl>)".toList, .lib (.gen .msa2) false),
   ("(MaskedSpGEMM2p<MSA2A<false, false>::Impl>)".toList, .lib (.gen .msa2) true),
   ("MSA1A_old-1P".toList, .msa1Old false),
   ("MSA1A_old-2P".toList, .msa1Old true),
   ("(MaskedSpGEMM1p<MSA1A<false, false>::Impl>)".toList, .lib (.gen .msa1) false),
   ("(MaskedSpGEMM2p<MSA1A<false, false>::Impl>)".toList, .lib (.gen .msa1) true)]

/-- KTrussAllGrb.cpp:506-512, TriCntAllGrb.cpp:371-377 -/
def hashAlgs : List (List Char × Ker) :=
  [("mxm_hash_mask_wobin".toList, .wobin),
   ("mxm_hash_mask".toList, .hash),
   ("(MaskedSpGEMM1p<MaskedHash<false, false>::Impl>)".toList, .lib (.gen .hash) false),
   ("(MaskedSpGEMM2p<MaskedHash<false, false>::Impl>)".toList, .lib (.gen .hash) true)]

/-- KTrussAllGrb.cpp:514-537, TriCntAllGrb.cpp:379-402 -/
def heapAlgs : List (List Char × Ker) :=
  [("MaskedHeap_v0-1P".toList, .heapOld .v0 false),
   ("MaskedHeap_v0-2P".toList, .heapOld .v0 true),
   ("(MaskedSpGEMM1p<MaskedHeap<false, true, 0>::Impl>)".toList, .lib (.gen (.heap 0)) false),
   ("(MaskedSpGEMM2p<MaskedHeap<false, true, 0>::Impl>)".toList, .lib (.gen (.heap 0)) true),
   ("MaskedHeap_v1-1P".toList, .heapOld .v1 false),
   ("MaskedHeap_v1-2P".toList, .heapOld .v1 true),
   ("(MaskedSpGEMM1p<MaskedHeap<false, true, 1>::Impl>)".toList, .lib (.gen (.heap 1)) false),
   ("(MaskedSpGEMM2p<MaskedHeap<false, true, 1>::Impl>)".toList, .lib (.gen (.heap 1)) true),
   ("(MaskedSpGEMM1p<MaskedHeap<false, true, 8>::Impl>)".toList, .lib (.gen (.heap 8)) false),
   ("(MaskedSpGEMM2p<MaskedHeap<false, true, 8>::Impl>)".toList, .lib (.gen (.heap 8)) true),
   ("(MaskedSpGEMM1p<MaskedHeap<false, true, 64>::Impl>)".toList, .lib (.gen (.heap 64)) false),
   ("(MaskedSpGEMM2p<MaskedHeap<false, true, 64>::Impl>)".toList, .lib (.gen (.heap 64)) true),
   ("(MaskedSpGEMM1p<MaskedHeap<false, true, 512>::Impl>)".toList, .lib (.gen (.heap 512)) false),
   ("(MaskedSpGEMM2p<MaskedHeap<false, true, 512>::Impl>)".toList, .lib (.gen (.heap 512)) true),
   ("MaskedHeap_v2-1P".toList, .heapOld .v2 false),
   ("MaskedHeap_v2-2P".toList, .heapOld .v2 true),
   ("(MaskedSpGEMM1p<MaskedHeap<false, true, MaskedHeapDot>::Impl>)".toList, .lib (.gen (.heap (2 ^ 64 - 1))) false),
   ("(MaskedSpGEMM2p<MaskedHeap<false, true, MaskedHeapDot>::Impl>)".toList, .lib (.gen (.heap (2 ^ 64 - 1))) true)]

/-- KTrussAllGrb.cpp:539-549 without the last call, TriCntAllGrb.cpp:404-413 -/
def all1pAlgs : List (List Char × Ker) :=
  [("MaskedSpGEMM1p<MaskedInner>".toList, .lib .inner false),
   ("(MaskedSpGEMM1p<MaskedHeap<false, true, 1>::Impl>)".toList, .lib (.gen (.heap 1)) false),
   ("(MaskedSpGEMM1p<MaskedHeap<false, true, MaskedHeapDot>::Impl>)".toList, .lib (.gen (.heap (2 ^ 64 - 1))) false),
   ("(MaskedSpGEMM1p<MaskedHash<false, false>::Impl>)".toList, .lib (.gen .hash) false),
   ("(MaskedSpGEMM1p<MSA1A<false, false>::Impl>)".toList, .lib (.gen .msa1) false),
   ("(MaskedSpGEMM1p<MSA2A<false, false>::Impl>)".toList, .lib (.gen .msa2) false),
   ("(MaskedSpGEMM1p<MCA<false, false>::Impl>)".toList, .lib (.gen .mca) false)]

/-- KTrussAllGrb.cpp:551-560, TriCntAllGrb.cpp:415-424 -/
def all2pAlgs : List (List Char × Ker) :=
  [("MaskedSpGEMM2p<MaskedInner>".toList, .lib .inner true),
   ("(MaskedSpGEMM2p<MaskedHeap<false, true, 1>::Impl>)".toList, .lib (.gen (.heap 1)) true),
   ("(MaskedSpGEMM2p<MaskedHeap<false, true, MaskedHeapDot>::Impl>)".toList, .lib (.gen (.heap (2 ^ 64 - 1))) true),
   ("(MaskedSpGEMM2p<MaskedHash<false, false>::Impl>)".toList, .lib (.gen .hash) true),
   ("(MaskedSpGEMM2p<MSA1A<false, false>::Impl>)".toList, .lib (.gen .msa1) true),
   ("(MaskedSpGEMM2p<MSA2A<false, false>::Impl>)".toList, .lib (.gen .msa2) true),
   ("(MaskedSpGEMM2p<MCA<false, false>::Impl>)".toList, .lib (.gen .mca) true)]

/-- Part of KTrussAllGrb.cpp:562-582, TriCntAllGrb.cpp:426-440 -/
def benchHeap1 : List (List Char × Ker) :=
  [("(MaskedSpGEMM1p<MaskedHeap<false, true, 1>::Impl>)".toList, .lib (.gen (.heap 1)) false),
   ("(MaskedSpGEMM1p<MaskedHeap<false, true, MaskedHeapDot>::Impl>)".toList, .lib (.gen (.heap (2 ^ 64 - 1))) false)]

/-- Part of KTrussAllGrb.cpp:562-582, TriCntAllGrb.cpp:426-440 -/
def bench1 : List (List Char × Ker) :=
  [("(MaskedSpGEMM1p<MaskedHash<false, false>::Impl>)".toList, .lib (.gen .hash) false),
   ("(MaskedSpGEMM1p<MSA2A<false, false>::Impl>)".toList, .lib (.gen .msa2) false),
   ("(MaskedSpGEMM1p<MCA<false, false>::Impl>)".toList, .lib (.gen .mca) false),
   ("MaskedSpGEMM1p<MaskedInner>".toList, .lib .inner false)]

/-- Part of KTrussAllGrb.cpp:562-582, TriCntAllGrb.cpp:426-440 -/
def benchHeap2 : List (List Char × Ker) :=
  [("(MaskedSpGEMM2p<MaskedHeap<false, true, 1>::Impl>)".toList, .lib (.gen (.heap 1)) true),
   ("(MaskedSpGEMM2p<MaskedHeap<false, true, MaskedHeapDot>::Impl>)".toList, .lib (.gen (.heap (2 ^ 64 - 1))) true)]

/-- Part of KTrussAllGrb.cpp:562-582, TriCntAllGrb.cpp:426-440 -/
def bench2 : List (List Char × Ker) :=
  [("(MaskedSpGEMM2p<MaskedHash<false, false>::Impl>)".toList, .lib (.gen .hash) true),
   ("(MaskedSpGEMM2p<MSA2A<false, false>::Impl>)".toList, .lib (.gen .msa2) true),
   ("(MaskedSpGEMM2p<MCA<false, false>::Impl>)".toList, .lib (.gen .mca) true),
   ("MaskedSpGEMM2p<MaskedInner>".toList, .lib .inner true)]

/-- KTrussAllGrb.cpp:562-582, and TriCntAllGrb.cpp:426-440 with `disableHeap = false` -/
def benchAlgs (disableHeap : Bool) : List (List Char × Ker) :=
  (if disableHeap then [] else benchHeap1) ++ bench1 ++ (if disableHeap then [] else benchHeap2) ++ bench2

/-! ## Calls -/

section
variable [Zero V] [One V] [Add V]

/-- `MaskedSpGEMM1p` or `MaskedSpGEMM2p` for the row algorithm `alg`, KTrussAllGrb.cpp:361-362, TriCntAllGrb.cpp:210-211 -/
def driver (alg : RowAlg V) (two : Bool) (X : CSR V) (zb : Bool) (tnum dflt : Nat) (s : Scheds) : Res (Option (CSR V)) :=
  if two then spgemm2p alg (fun _ _ => 1) (fun x y => x + y) X X X zb tnum dflt s
  else spgemm1p alg (fun _ _ => 1) (fun x y => x + y) X X X zb tnum dflt s

/-- `f(X, X, C, X, f_one, plus, tnum)`, or with `Xc` (the matrix by columns) as the second argument, KTrussAllGrb.cpp:219-223,
TriCntAllGrb.cpp:165-169. `dflt` is the default number of threads; `C` is the object for the result. -/
def Ker.call (k : Ker) (X : CSR V) (Xc : CSC V) (tnum dflt : Nat) (C : CSR V) (s : MaskedAll.Sch) : Res (Option (CSR V)) :=
  match k with
  | .nohash => Dot.innerNohash (fun _ _ => 1) (fun x y => x + y) 0 X Xc X tnum dflt C.nnz s.dot
  | .lib a two => a.call two (fun _ _ => 1) (fun x y => x + y) X X Xc X C.zerobased tnum dflt s.gen
  | .msa1Old two => driver Old.msa1 two X C.zerobased tnum dflt s.gen
  | .msa2Old two => driver Old.msa2 two X C.zerobased tnum dflt s.gen
  | .heapOld v two => driver (Old.heap v) two X C.zerobased tnum dflt s.gen
  | .spa => Spa.spaSpGEMM (fun _ _ => 1) (fun x y => x + y) X X X 0 tnum dflt s.two
  | .wobin => LpMult.hashMaskWobin (fun _ _ => 1) (fun x y => x + y) X X X 0 dflt s.order1 s.s1 s.s2 s.order2
  | .hash => LpMult.hashMask (fun _ _ => 1) (fun x y => x + y) X X X 0 tnum dflt s.two
  | .poly => Poly.spgemm1p (fun _ _ => 1) (fun x y => x + y) X X X C.zerobased tnum dflt s.gen

/-- `GrB_mxm` with the semiring `plus_pair` and a structural mask, KTrussAllGrb.cpp:89, TriCntAllGrb.cpp:80: the entries of the product of `X`
with itself at the positions of `X`. The method in the descriptor has no effect on the result. -/
def mxm (X : CSR V) : CSR V :=
  ofRows X.rows X.cols true fun i => (X.row i).filterMap fun e =>
    (dot (fun _ _ => 1) (fun x y => x + y) X X i e.1).map fun v => (e.1, v)

end

/-- `get_grb_mat`, CSR.h:790-830: GraphBLAS takes over the arrays. How many entries there are it finds from the last row pointer; room
behind them does not belong to the matrix. -/
def pack (C : CSR V) : CSR V :=
  { C with nnz := C.ptr C.rows, colids := C.colids.take (C.ptr C.rows), values := C.values.take (C.ptr C.rows) }

end Verif.Model.Grb
