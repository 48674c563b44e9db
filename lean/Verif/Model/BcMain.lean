import Verif.Model.Bc
import Verif.Model.GrbBase
import Verif.Model.KTrussMain
import Mathlib.Algebra.Order.Field.Rat

/-!
# The betweenness centrality program

Models `/repo/benchmarks/BCAllGrb.cpp`: `grb_bc` (228-292), `msp_bc` (458-538), the macros and `main` (540-722); the computation itself is in
`Verif.Model.Bc`.

Simplifications. As in `Verif.Model.Bc` and `Verif.Model.GrbBase`. The value of `atof(argv[2])` is a rational number. `A` is taken apart and put
back in each call, so that all calls see the same matrix. Timing, the header, the line of `read_grb_mtx`, the lines about GraphBLAS threads, the
mode and the number of iterations are left out.
-/

namespace Verif.Model.BcMain

open Verif.Spec Verif.Model.Bench Verif.Model.Bc

/-- The algorithms that are run: GraphBLAS itself (`grb_bc`), or two multiplications of the library (`msp_bc`) -/
inductive Method where
  | grb
  | msp (fplain fcmpl : Callee)

/-- What is printed: the lines 618 and 631, a line of the log (274-285, 519-530) -/
inductive Event (V : Type) where
  | graph (n nnz : Nat)
  | sources (s : Nat)
  | log (file name : List Char) (threads : Nat) (sol : V)
  deriving DecidableEq

/-- Lines 649-665: "GxB_AxB_" in front of the names of the methods -/
def grbAlgs : List (List Char × Method) :=
  [("GxB_AxB_DEFAULT".toList, .grb),
   ("GxB_AxB_DOT-TRANSPOSE".toList, .grb),
   ("GxB_AxB_SAXPY".toList, .grb),
   ("GxB_AxB_GUSTAVSON".toList, .grb),
   ("GxB_AxB_HASH".toList, .grb)]

/-- Lines 668-671, 694-697, 704-707. The name is the text of the first argument of the macro. `ndebug`: assertions are compiled out. -/
def heap1 (ndebug : Bool) : List Char × Method := ("(MaskedSpGEMM1p<MaskedHeap<false, true, 0>::Impl>)".toList, .msp ⟨.heap 0, false⟩ ⟨.heapC ndebug, false⟩)
def heap2 (ndebug : Bool) : List Char × Method := ("(MaskedSpGEMM2p<MaskedHeap<false, true, 0>::Impl>)".toList, .msp ⟨.heap 0, true⟩ ⟨.heapC ndebug, true⟩)

/-- Lines 675-678, 699-700, 708-709 -/
def hash1 : List Char × Method := ("(MaskedSpGEMM1p<MaskedHash<false, false>::Impl>)".toList, .msp ⟨.hash, false⟩ ⟨.hashC true, false⟩)
def hash2 : List Char × Method := ("(MaskedSpGEMM2p<MaskedHash<false, false>::Impl>)".toList, .msp ⟨.hash, true⟩ ⟨.hashC true, true⟩)

/-- Lines 682-685 -/
def msa11 : List Char × Method := ("(MaskedSpGEMM1p<MSA1A<false, false>::Impl>)".toList, .msp ⟨.msa1, false⟩ ⟨.msa1C true, false⟩)
def msa12 : List Char × Method := ("(MaskedSpGEMM2p<MSA1A<false, false>::Impl>)".toList, .msp ⟨.msa1, true⟩ ⟨.msa1C true, true⟩)

/-- Lines 687-690, 701-702, 710-711 -/
def msa21 : List Char × Method := ("(MaskedSpGEMM1p<MSA2A<false, false>::Impl>)".toList, .msp ⟨.msa2, false⟩ ⟨.msa2C true, false⟩)
def msa22 : List Char × Method := ("(MaskedSpGEMM2p<MSA2A<false, false>::Impl>)".toList, .msp ⟨.msa2, true⟩ ⟨.msa2C true, true⟩)

/-- The algorithms of a round of `main`, lines 649-712 -/
def algs (ndebug : Bool) (mode : List Char) (disableHeap : Bool) : List (List Char × Method) :=
  (if mode = "grb".toList ∨ mode = "all".toList ∨ mode = "benchmark".toList then grbAlgs else []) ++
  (if mode = "heap".toList ∨ mode = "all".toList then [heap1 ndebug, heap2 ndebug] else []) ++
  (if mode = "hash".toList ∨ mode = "all".toList then [hash1, hash2] else []) ++
  (if mode = "msa".toList ∨ mode = "all".toList then [msa11, msa12, msa21, msa22] else []) ++
  (if mode = "benchmark".toList then
    (if disableHeap then [] else [heap1 ndebug]) ++ [hash1, msa21] ++ (if disableHeap then [] else [heap2 ndebug]) ++ [hash2, msa22] else [])

/-- What the program finds when it runs: the contents of new memory, the random numbers for the values, the conversion of the numbers in the
file, `min` of GraphBLAS, the product of a `float` and a `double`, the result of converting a number that is too large for `int`,
`random_shuffle`, a bound for the rounds of the loops -/
structure Sys (V : Type) where
  fresh : Nat → Int × Int × V
  rnd : Nat → V
  ofInt : Int → V
  min : V → V → V
  mul : Nat → Rat → Rat
  wide : Rat → Int
  shuffle : List Nat → List Nat
  fuel : Nat

/-- The schedules of the multiplications, for the number of the round of `main`, of the algorithm, of the thread count, of the call, and of the
round of the loop; for the two loops -/
structure Plan where
  sigma : Nat → Nat → Nat → Nat → Nat → Scheds
  delta : Nat → Nat → Nat → Nat → Nat → Scheds

variable {V : Type}

/-- `read_grb_mtx` without `symmetricize`, grb_util.h:744-783, called in line 595 -/
def read (y : Sys V) (file : Option (List Char)) : Res (CSR V) := do
  let x ← ReadIO.readTriples y.fresh y.ofInt true y.rnd true file
  let x ← ReadIO.toNats x
  .ok (Grb.build y.min x.1.1 x.1.2 x.2)

/-- `round`: to the nearest integer, halves away from 0 -/
def nearest (q : Rat) : Int := if q < 0 then (q - 1 / 2).ceil else (q + 1 / 2).floor

/-- Conversion to `int`: the fractional part is dropped. -/
def toInt (y : Sys V) (q : Rat) : Int :=
  let z := if q < 0 then q.ceil else q.floor
  if -2 ^ 31 ≤ z ∧ z < 2 ^ 31 then z else y.wide q

/-- Lines 620-624: the number of sources. In line 621 `s` is converted to the unsigned type of `n`, a negative number is larger than `n` then.
In line 623 `n` is converted to `int`. -/
def sources (y : Sys V) (x : Rat) (n : Nat) : Int :=
  let s := if x < 1 then toInt y (nearest (y.mul n x) : Rat) else toInt y x
  if s < 0 ∨ (n : Int) < s then (n : Int).bmod (2 ^ 32) else s

variable [Field V] [DecidableEq V]

/-- `GrB_mxm` with the semiring `plus_second` and a structural mask or its complement, lines 138 and 186 with the descriptors of lines 99-111 -/
def grbMul (compl : Bool) (A B M : CSR V) (_ : Scheds) : Res (Option (CSR V)) :=
  .ok (some (ofEntries A.rows B.cols fun i j =>
    if (Bc.entry M i j).isNone = compl then dot (fun _ y => y) (fun x y => x + y) A B i j else none))

/-- `grb_bc_internal` or `msp_bc_internal`; their assertion is implied by the one in `main`. `omp_set_num_threads(tnum)` makes `tnum` the default
number of threads. -/
def Method.run (m : Method) (y : Sys V) (A : CSR V) (srcs : List Nat) (tnum : Nat) (sch sch' : Nat → Scheds) : Res (Option (List (Option V))) :=
  match m with
  | .grb => bcWith (grbMul false) (grbMul true) A srcs sch sch' y.fuel
  | .msp fp fc => bcWith (multPack fp tnum tnum) (multPack fc tnum tnum) A srcs sch sch' y.fuel

/-- `grb_bc` and `msp_bc` for one number of threads. The vector of the last call is added up. Without calls there is no vector, and `sol` keeps
its value -1 (262-269, 507-514). -/
def runThreads (y : Sys V) (e : Env) (file : List Char) (A : CSR V) (srcs : List Nat) (a : List Char × Method) (tnum : Nat) (sch sch' : Nat → Nat → Scheds) :
    Out (Event V) :=
  match KTruss.lastOf (fun i => a.2.run y A srcs tnum (sch i) (sch' i)) (List.range (e.warmupIters + e.innerIters)) none with
  | .error x => ⟨[], .error x⟩
  | .ok none => ⟨[], .ok none⟩
  | .ok (some d) =>
    match processName a.1 with
    | .error x => ⟨[], .error x⟩
    | .ok name => ⟨[.log (getFileName file) name tnum (match d with | none => -1 | some d => (d.filterMap id).sum)], .ok (some ())⟩

/-- The calls for all numbers of threads, lines 247, 489 -/
def runAlg (y : Sys V) (e : Env) (file : List Char) (A : CSR V) (srcs : List Nat) (tnums : List Nat) (a : List Char × Method)
    (sch sch' : Nat → Nat → Nat → Scheds) : Out (Event V) :=
  seqAll (tnums.zipIdx.map fun t => runThreads y e file A srcs a t.1 (sch t.2) (sch' t.2))

/-- A round of the loop of `main`, lines 647-713 -/
def round (y : Sys V) (ndebug : Bool) (e : Env) (disableHeap : Bool) (file : List Char) (A : CSR V) (srcs : List Nat) (tnums : List Nat)
    (sch sch' : Nat → Nat → Nat → Nat → Scheds) : Out (Event V) :=
  seqAll ((algs ndebug e.modeStr disableHeap).zipIdx.map fun a => runAlg y e file A srcs tnums a.1 (sch a.2) (sch' a.2))

/-- Lines 556-573: the numbers of threads -/
def threads (args : List Nat) : List Nat := if args = [] then [1, 2, 4, 8, 16, 32, 64] else args

/-- `main`, lines 547-722, with a file, the number `x` and numbers of threads. The environment (lines 597-610) is that of the other programs, and
DISABLE_HEAP. The file name is cut at the last `/` twice (line 576 and in the functions above). -/
def main (y : Sys V) (p : Plan) (ndebug : Bool) (e : Env) (disableHeap : Bool) (path : List Char) (file : Option (List Char)) (x : Rat) (args : List Nat) :
    Out (Event V) :=
  match read y file with
  | .error z => ⟨[], .error z⟩
  | .ok A =>
    Out.seq ⟨[.graph A.rows A.nnz], .ok (some ())⟩ <|
    let s := sources y x A.rows
    if ndebug = false ∧ ¬(0 < s ∧ s ≤ A.rows) then ⟨[], .error .assertion⟩ else
    let srcs := (y.shuffle (List.range A.rows)).take s.toNat
    Out.seq ⟨[.sources srcs.length], .ok (some ())⟩ <|
    seqAll ((List.range e.outerIters).map fun r =>
      round y ndebug e disableHeap (getFileName path) A srcs (threads args) (p.sigma r) (p.delta r))

end Verif.Model.BcMain
