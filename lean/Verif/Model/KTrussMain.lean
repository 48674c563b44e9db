import Verif.Model.GrbBase

/-!
# The k-truss program

Models `/repo/benchmarks/KTrussAllGrb.cpp`: `grb_ktruss` (41-146), `msp_ktruss` (150-287), `ktruss_mult_ops` (289-355), the macros and `main`
(359-590).

Simplifications. As in `Verif.Model.GrbBase`. The conversions between `GrB_Matrix` and `CSR`/`CSC` move the arrays, and only their check of the
dimensions is modelled; GraphBLAS is told that the rows are sorted (CSR.h:808), and the operations that follow (selection by value, number of
entries) do not depend on it. Timing, the header, the lines about GraphBLAS threads, the mode and the number of iterations are left out.
-/

namespace Verif.Model.KTruss

open Verif.Spec Verif.Model.Bench
open Verif.Model.Grb (Ker)
open Verif.Model.MaskedAll (Sch)

section
variable {V σ : Type}

/-- The loop that stands three times in the file, 78-107, 192-246 and 321-351. `mult` is the multiplication, `ops` what is added up in each round
(only in `ktruss_mult_ops`), `ge` the test `>= k-2`; round number `step` is executed with schedule `sch step`. The loop has no bound of its own,
`fuel` bounds the number of rounds and running out of it is the outcome `diverge`. The result: the matrix, the number of rounds, the sum. -/
def loop (mult : CSR V → σ → Res (Option (CSR V))) (ops : Nat → CSR V → Res Nat) (ge : V → Bool) (sch : Nat → σ) :
    Nat → CSR V → Nat → Nat → Nat → Res (Option (CSR V × Nat × Nat))
  | 0, _, _, _, _ => .error .diverge
  | fuel + 1, T, last, step, acc => do
    let o ← ops step T
    let r ← mult T (sch step)
    match r with
    | none => .ok none
    | some C => do
      check (decide (C.rows = T.rows ∧ C.cols = T.rows))
      let C := Graph.select (fun _ _ v => ge v) C
      if last = C.nnz then .ok (some (C, step, acc + o))
      else loop mult ops ge sch fuel C C.nnz (step + 1) (acc + o)

/-- Runs for each element of the list; the result of the last one is kept. -/
def lastOf {α : Type} (f : Nat → Res (Option α)) : List Nat → Option α → Res (Option (Option α))
  | [], x => .ok (some x)
  | i :: is, _ => do
    let r ← f i
    match r with
    | none => .ok none
    | some y => lastOf f is (some y)

end

/-- The algorithms that are run: GraphBLAS itself (`grb_ktruss`), or a multiplication of the library (`msp_ktruss`) -/
inductive Method where
  | grb
  | msp (k : Ker)
  deriving DecidableEq

/-- The multiplication in a round: line 89, or lines 203-224. `C` is the new matrix of lines 200-201. -/
def Method.mult (m : Method) (tnum dflt : Nat) (T : CSR Int) (s : Sch) : Res (Option (CSR Int)) :=
  match m with
  | .grb => .ok (some (Grb.mxm T))
  | .msp k => k.call T (Graph.toCsc T) tnum dflt (ofRows T.rows T.rows true fun _ => []) s

/-- What is printed: the line about the matrix (439), the line of mode `flops` (445), a line of the log (129-140, 270-281) -/
inductive Event where
  | graph (n nnz : Nat)
  | flops (file : List Char) (flop : Nat)
  | log (file name : List Char) (threads nnz steps : Nat)
  deriving DecidableEq

/-- The calls of `grb_ktruss`, lines 462-489: "GxB_AxB_" and "-sorted" around the names of the methods -/
def grbAlgs : List (List Char × Method) :=
  [("GxB_AxB_DEFAULT-sorted".toList, .grb),
   ("GxB_AxB_DOT-TRANSPOSE-sorted".toList, .grb),
   ("GxB_AxB_SAXPY-sorted".toList, .grb),
   ("GxB_AxB_GUSTAVSON-sorted".toList, .grb),
   ("GxB_AxB_HASH-sorted".toList, .grb)]

def msp (l : List (List Char × Ker)) : List (List Char × Method) := l.map fun a => (a.1, .msp a.2)

/-- The algorithms of a round of `main`, lines 462-582 -/
def algs (mode : List Char) (disableHeap : Bool) : List (List Char × Method) :=
  (if mode = "grb".toList ∨ mode = "all".toList ∨ mode = "benchmark".toList then grbAlgs else []) ++
  msp ((if mode = "msa".toList ∨ mode = "all".toList then Grb.msaAlgs else []) ++
    (if mode = "hash".toList ∨ mode = "all".toList then Grb.hashAlgs else []) ++
    (if mode = "heap".toList ∨ mode = "all".toList then Grb.heapAlgs else []) ++
    (if mode = "all1p".toList then Grb.all1pAlgs ++ [("MaskedSpGEMM1p".toList, .poly)] else []) ++
    (if mode = "all2p".toList then Grb.all2pAlgs else []) ++
    (if mode = "benchmark".toList then Grb.benchAlgs disableHeap else []))

/-- What the program finds when it runs: the contents of new memory, the random numbers, the default number of threads, a bound for the rounds
of the loops -/
structure Sys where
  fresh : Nat → Int × Int × Int
  rnd : Nat → Int
  dflt : Nat
  fuel : Nat

/-- The orders and schedules in `ktruss_mult_ops`, for each round; the schedules of the multiplications, for the number of the round of
`main`, of the algorithm, of the thread count, of the repetition, and of the round of the loop -/
structure Plan where
  flopOrd : Nat → List Nat
  flopSch : Nat → Sch
  sch : Nat → Nat → Nat → Nat → Nat → Sch

/-- The test `GxB_GE_THUNK`, lines 62, 176, 312: `(uint64_t)k-2` is `k - 2` for `k >= 2` -/
def ge (k v : Int) : Bool := decide (k - 2 ≤ v)

/-- `ktruss_mult_ops` for `MaskedSpGEMM1p<MSA2A<false, false>::Impl>`, lines 289-355 -/
def countOps (y : Sys) (p : Plan) (k : Int) (A : CSR Int) : Res (Option Nat) := do
  let r ← loop ((Method.msp (.lib (.gen .msa2) false)).mult y.dflt y.dflt) (fun step T => Grb.multOps T T (p.flopOrd step)) (ge k) p.flopSch
    y.fuel A A.nnz 1 0
  .ok (r.map fun x => x.2.2)

/-- `grb_ktruss` and `msp_ktruss` for one number of threads: `nnz_last` and `nsteps` are not set if there are no iterations. -/
def runThreads (y : Sys) (e : Env) (file : List Char) (k : Int) (A : CSR Int) (a : List Char × Method) (tnum : Nat) (sch : Nat → Nat → Sch) :
    Out Event :=
  match lastOf (fun i => loop (a.2.mult tnum y.dflt) (fun _ _ => .ok 0) (ge k) (sch i) y.fuel A A.nnz 1 0)
      (List.range (e.warmupIters + e.innerIters)) none with
  | .error x => ⟨[], .error x⟩
  | .ok none => ⟨[], .ok none⟩
  | .ok (some none) => ⟨[], .error .uninit⟩
  | .ok (some (some r)) =>
    match processName a.1 with
    | .error x => ⟨[], .error x⟩
    | .ok name => ⟨[.log (getFileName file) name tnum r.1.nnz r.2.1], .ok (some ())⟩

/-- The calls for all numbers of threads, lines 65, 179 -/
def runAlg (y : Sys) (e : Env) (file : List Char) (k : Int) (A : CSR Int) (tnums : List Nat) (a : List Char × Method)
    (sch : Nat → Nat → Nat → Sch) : Out Event :=
  seqAll (tnums.zipIdx.map fun t => runThreads y e file k A a t.1 (sch t.2))

/-- A round of the loop of `main`, lines 460-583 -/
def round (y : Sys) (e : Env) (disableHeap : Bool) (file : List Char) (k : Int) (A : CSR Int) (tnums : List Nat)
    (sch : Nat → Nat → Nat → Nat → Sch) : Out Event :=
  seqAll ((algs e.modeStr disableHeap).zipIdx.map fun a => runAlg y e file k A tnums a.1 (sch a.2))

/-- Lines 382-393: the numbers of threads -/
def threads (args : List Nat) : List Nat := if args = [] then [1, 2, 4, 8, 16, 32, 64] else args

/-- `main`, lines 367-590, with a file, the number `k` and numbers of threads. The environment (lines 419-427) is that of the other programs, and
DISABLE_HEAP. The file name is cut at the last `/` twice (line 397 and in the functions above). -/
def main (y : Sys) (p : Plan) (e : Env) (disableHeap : Bool) (path : List Char) (file : Option (List Char)) (k : Int) (args : List Nat) : Out Event :=
  if k < 2 then ⟨[], .error .assertion⟩ else
  match Grb.read y.fresh id y.rnd min (fun x y => x + y) file with
  | .error x => ⟨[], .error x⟩
  | .ok A =>
    Out.seq ⟨[.graph A.rows A.nnz], .ok (some ())⟩ <|
    match countOps y p k A with
    | .error x => ⟨[], .error x⟩
    | .ok none => ⟨[], .ok none⟩
    | .ok (some ops) =>
      Out.seq ⟨if e.modeStr = "flops".toList then [.flops (getFileName path) (ops * 2)] else [], .ok (some ())⟩ <|
      seqAll ((List.range e.outerIters).map fun r => round y e disableHeap (getFileName path) k A (threads args) (p.sch r))

end Verif.Model.KTruss
