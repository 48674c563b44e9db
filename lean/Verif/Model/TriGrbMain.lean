import Verif.Model.GrbBase

/-!
# The triangle counting program with GraphBLAS

Models `/repo/benchmarks/TriCntAllGrb.cpp`: `grb_tri_count_sandia_L` (41-108), `msp_tri_count_sandia_L` (112-204), the macros and `main`
(207-448).

Simplifications. As in `Verif.Model.GrbBase`. The conversions between `GrB_Matrix` and `CSR`/`CSC` move the arrays; of those of `L` only the
check of the dimensions is modelled; GraphBLAS is told that the rows are sorted (CSR.h:808), and the operations that follow (sum, number of entries) do not
depend on it. For the calls with two matrices by rows the second constructor (line 140) finds an empty matrix; what it makes is not used. Both
matrices are given back at the end of a call (lines 200-203), so that all calls see the same ones. Timing, the header, the lines about GraphBLAS
threads, the mode, the number of iterations and the summaries of lines 292 and 297 are left out.
-/

namespace Verif.Model.TriGrb

open Verif.Spec Verif.Model.Bench
open Verif.Model.Grb (Ker)
open Verif.Model.MaskedAll (Sch)

/-- The algorithms that are run: GraphBLAS itself (`grb_tri_count_sandia_L`), or a multiplication of the library (`msp_tri_count_sandia_L`) -/
inductive Method where
  | grb
  | msp (k : Ker)
  deriving DecidableEq

/-- What is printed: the lines about the two matrices (286, 290) and the operations (302), a line of the log (95-104, 186-195) -/
inductive Event (V : Type) where
  | graph (n nnz : Nat)
  | lower (n nnz : Nat)
  | flop (flop : Nat)
  | log (file name : List Char) (threads nnz : Nat) (sum : V)
  deriving DecidableEq

/-- Lines 321-345: "GxB_AxB_" and "-sorted" around the names of the methods -/
def grbAlgs : List (List Char × Method) :=
  [("GxB_AxB_DEFAULT-sorted".toList, .grb),
   ("GxB_AxB_DOT-TRANSPOSE-sorted".toList, .grb),
   ("GxB_AxB_DOT-sorted".toList, .grb),
   ("GxB_AxB_SAXPY-sorted".toList, .grb),
   ("GxB_AxB_GUSTAVSON-sorted".toList, .grb),
   ("GxB_AxB_HASH-sorted".toList, .grb)]

/-- Lines 347-354 -/
def innerAlgs : List (List Char × Ker) :=
  [("(innerSpGEMM_nohash<false, false>)".toList, .nohash),
   ("MaskedSpGEMM1pInnerProduct".toList, .lib .inner false),
   ("MaskedSpGEMM2pInnerProduct".toList, .lib .inner true),
   ("MaskedSpGEMM1p<MaskedInner>".toList, .lib .inner false),
   ("MaskedSpGEMM2p<MaskedInner>".toList, .lib .inner true)]

def msp (l : List (List Char × Ker)) : List (List Char × Method) := l.map fun a => (a.1, .msp a.2)

/-- The algorithms of a round of `main`, lines 314-441 -/
def algs (mode : List Char) : List (List Char × Method) :=
  (if mode = "grb".toList ∨ mode = "all".toList ∨ mode = "benchmark".toList then grbAlgs else []) ++
  msp ((if mode = "inner".toList ∨ mode = "dot".toList ∨ mode = "all".toList then innerAlgs else []) ++
    (if mode = "msa".toList ∨ mode = "all".toList then Grb.msaAlgs else []) ++
    (if mode = "hash".toList ∨ mode = "all".toList then Grb.hashAlgs else []) ++
    (if mode = "heap".toList ∨ mode = "all".toList then Grb.heapAlgs else []) ++
    (if mode = "all1p".toList then Grb.all1pAlgs else []) ++
    (if mode = "all2p".toList then Grb.all2pAlgs else []) ++
    (if mode = "benchmark".toList then Grb.benchAlgs false else []))

variable {V : Type}

/-- What the program finds when it runs: the contents of new memory, the random numbers, the conversion of the numbers in the file, `min` of
GraphBLAS, `std::sort` with `std::greater` on pairs -/
structure Sys (V : Type) where
  fresh : Nat → Int × Int × V
  rnd : Nat → V
  ofInt : Int → V
  min : V → V → V
  sortf : List (Nat × Nat) → List (Nat × Nat)

/-- The order of the iterations in `calculateMultOps`; the schedules of the multiplications, for the number of the round of `main`, of the
algorithm, of the thread count, of the call -/
structure Plan where
  flopOrd : List Nat
  sch : Nat → Nat → Nat → Nat → Sch

variable [Zero V] [One V] [Add V]

/-- The matrix after the calls with `tnum` threads: lines 67-88 and 146-180. `omp_set_num_threads(tnum)` makes `tnum` the default number of
threads. Without any call GraphBLAS has an empty matrix; the object of the library has no rows, which line 180 does not accept. -/
def Method.result (m : Method) (e : Env) (L : CSR V) (Lc : CSC V) (tnum : Nat) (sch : Nat → Sch) : Res (Option (CSR V)) :=
  match m with
  | .grb => .ok (some (if e.warmupIters + e.innerIters = 0 then ofRows L.rows L.rows true fun _ => [] else Grb.mxm L))
  | .msp k => do
    let r ← runCalls (k.call L Lc tnum tnum) ((List.range e.warmupIters).map sch) ((List.range e.innerIters).map fun i => sch (e.warmupIters + i))
    match r with
    | none => .ok none
    | some C => do
      check (decide (C.rows = L.rows ∧ C.cols = L.rows))
      .ok (some (Grb.pack C))

/-- `grb_tri_count_sandia_L` and `msp_tri_count_sandia_L` for one number of threads -/
def runThreads (e : Env) (file : List Char) (L : CSR V) (Lc : CSC V) (a : List Char × Method) (tnum : Nat) (sch : Nat → Sch) : Out (Event V) :=
  match a.2.result e L Lc tnum sch with
  | .error x => ⟨[], .error x⟩
  | .ok none => ⟨[], .ok none⟩
  | .ok (some C) =>
    match processName a.1 with
    | .error x => ⟨[], .error x⟩
    | .ok name => ⟨[.log (getFileName file) name tnum C.nnz (Graph.reduce C)], .ok (some ())⟩

/-- The calls for all numbers of threads, lines 63, 144 -/
def runAlg (e : Env) (file : List Char) (L : CSR V) (Lc : CSC V) (tnums : List Nat) (a : List Char × Method) (sch : Nat → Nat → Sch) : Out (Event V) :=
  seqAll (tnums.zipIdx.map fun t => runThreads e file L Lc a t.1 (sch t.2))

/-- A round of the loop of `main`, lines 314-441 -/
def round (e : Env) (file : List Char) (L : CSR V) (Lc : CSC V) (tnums : List Nat) (sch : Nat → Nat → Nat → Sch) : Out (Event V) :=
  seqAll ((algs e.modeStr).zipIdx.map fun a => runAlg e file L Lc tnums a.1 (sch a.2))

/-- Lines 224-240: the numbers of threads -/
def threads (args : List Nat) : List Nat := if args = [] then [1, 2, 4, 8, 16, 32, 64] else args

/-- `main`, lines 217-448, with a file and numbers of threads. The environment (lines 267-279) is that of the other programs. The file name is cut
at the last `/` twice (line 244 and in the functions above). -/
def main (y : Sys V) (p : Plan) (e : Env) (path : List Char) (file : Option (List Char)) (args : List Nat) : Out (Event V) :=
  match Grb.read y.fresh y.ofInt y.rnd y.min (fun x y => x + y) file with
  | .error x => ⟨[], .error x⟩
  | .ok A =>
    match Graph.sortByDegree y.sortf A with
    | .error x => ⟨[], .error x⟩
    | .ok A =>
      let L := Graph.lowTri A
      let Lc := Graph.toCsc L
      Out.seq ⟨[.graph A.rows A.nnz, .lower L.rows L.nnz], .ok (some ())⟩ <|
      match Grb.multOps L L p.flopOrd with
      | .error x => ⟨[], .error x⟩
      | .ok ops =>
        Out.seq ⟨[.flop (ops * 2)], .ok (some ())⟩ <|
        seqAll ((List.range e.outerIters).map fun r => round e (getFileName path) L Lc (threads args) (p.sch r))

end Verif.Model.TriGrb
