import Verif.Model.Rmat
import Verif.Model.GraphCtor
import Verif.Model.Tuples
import Verif.Model.Width
import Verif.Model.BenchRun

/-!
# The benchmark on random matrices

Models `/repo/benchmarks/HeatMap.cpp`. Indices have 32 bits (`Index_t`), values 64 bits (`Value_t`).

Simplifications. The head line, the output with `--verbose` and the times are left out: a line of the output is the list of the numbers before the
times. The arguments are given as numbers (not as text); the number of threads is positive. For R-MAT matrices degrees and numbers of edges have no bound
(`int` and `long` there, and `Index_t` in the constructor of `CSC`).
-/

namespace Verif.Model.HeatMap

open Bench (Out seqAll repeatCall makeEmpty newObj)

/-- `Value_t`, HeatMap.cpp:121 -/
abbrev Val := UInt64

/-- The values of `--matrixType`, HeatMap.cpp:126 -/
inductive Source where
  | er
  | rmat
  | other
  deriving DecidableEq

/-- The arguments, HeatMap.cpp:123-144 -/
structure Args where
  witer : Nat
  niter : Nat
  nthreads : Nat
  source : Source
  dimMin : Nat
  dimMax : Nat
  dAMin : Nat
  dAMax : Nat
  dBMin : Nat
  dBMax : Nat
  dMMin : Nat
  dMMax : Nat
  maxRows : Option Nat
  sameAB : Bool

/-- `maxRowsA`, HeatMap.cpp:142: the default is `dAMax`. -/
def Args.maxRowsA (a : Args) : Nat := a.maxRows.getD a.dAMax

/-- What the program uses: `std::sort` of triples, of pairs and of edges; the numbers that the random generator of `generateRandomTriples` returns for a
number of rows and columns (it starts anew in each call); the R-MAT generator; the number of threads if none is given; a bound on the iterations of loops that
may not end -/
structure Env (F : Type) where
  sortT : List (Nat × Nat × Val) → List (Nat × Nat × Val)
  sortC : List (Nat × Val) → List (Nat × Val)
  sortE : List ((Nat × Nat) × Val) → List ((Nat × Nat) × Val)
  rnd : Nat → Nat → Nat → Nat × Nat
  ar : Rmat.Arith F
  par : Rmat.Par F
  st : Rmat.Streams F
  dflt : Nat
  fuel : Nat

/-- The orders of parallel loops: over the columns of matrix `i` of `A` (0), `B` (1), `M` (2), and in `calculateFlops` -/
structure Orders where
  cols : Nat → Nat → Nat → List Nat
  flops : Nat → Nat → Nat → Nat → List Nat

/-- The schedules of the multiplications: dimension, numbers of the three matrices, number of the algorithm, number of the call -/
abbrev Calls := Nat → Nat → Nat → Nat → Nat → Nat → Scheds

/-- `for (IT x = lo; x <= hi; x *= 2)`, HeatMap.cpp:74, 79: the values of `x`, at most `fuel` -/
def doublings (hi : Nat) : Nat → Nat → Res (List Nat)
  | 0, _ => .error .diverge
  | fuel + 1, x =>
    if x ≤ hi then do
      let r ← doublings hi fuel (x * 2 % 2 ^ 32)
      .ok (x :: r)
    else .ok []

/-- `for (IT dim = 1; dim < nrows; dim *= 2) { ++scale; }`, HeatMap.cpp:92, with at most `fuel` iterations -/
def scaleLoop (nrows : Nat) : Nat → Nat → Nat → Res Nat
  | 0, _, _ => .error .diverge
  | fuel + 1, dim, scale => if dim < nrows then scaleLoop nrows fuel (dim * 2 % 2 ^ 32) (scale + 1) else .ok scale

variable {F : Type}

/-- HeatMap.cpp:82-88. The constructor reads as many triples as `generateRandomTriples` returns. -/
def erMatrix (env : Env F) (order : List Nat) (nrows ncols deg : Nat) : Res (CSC Val) := do
  let r ← Tuples.randomTriples env.sortT 1 (fun i => (env.rnd nrows ncols i).1) (fun i => (env.rnd nrows ncols i).2) (nrows * deg % 2 ^ 32)
  if r.2 ≤ r.1.length then Conv.cscOfTriples env.sortC order 0 (r.1.take r.2) nrows ncols else .error .oob

/-- `createRMATMatrix`, HeatMap.cpp:17-31, and its call, HeatMap.cpp:90-95 -/
def rmatMatrix (env : Env F) (nrows deg : Nat) : Res (CSC Val) := do
  let scale ← scaleLoop nrows env.fuel 1 0
  let G ← Rmat.rmat env.ar env.par env.st scale deg env.fuel
  Conv.cscOfGraph (fun x y => x + y) env.sortE 0 (2 ^ scale) (G.map fun e => (e.1, e.2.1, UInt64.ofNat e.2.2.toNat))

/-- The `switch`, HeatMap.cpp:81-96 -/
def matrix (env : Env F) (source : Source) (order : List Nat) (nrows ncols deg : Nat) : Res (CSC Val) :=
  if source = .rmat then rmatMatrix env nrows deg else erMatrix env order nrows ncols deg

/-- A matrix by columns and by rows, with its degree -/
abbrev Mat := CSC Val × CSR Val × Nat

/-- `createMatrices`, HeatMap.cpp:69-103 -/
def create (env : Env F) (source : Source) (orders : Nat → List Nat) (nrows ncols degMin degMax : Nat) : Res (List Mat) := do
  let degs ← doublings degMax env.fuel degMin
  degs.zipIdx.mapM fun x => do
    let c ← matrix env source (orders x.2) nrows ncols x.1
    let r ← Conv.csrOfCsc 0 c
    .ok (c, r, x.1)

/-- The rows of `A` and `M`, HeatMap.cpp:199-205 -/
def Args.rowsA (a : Args) (dim : Nat) : Nat := if a.source = .rmat then dim else min a.maxRowsA dim

/-- HeatMap.cpp:198-206 -/
def createAll (env : Env F) (a : Args) (ord : Orders) (dim : Nat) : Res (List Mat × List Mat × List Mat) :=
  if a.source = .other then .ok ([], [], [])
  else do
    let As ← create env a.source (ord.cols dim 0) (a.rowsA dim) dim a.dAMin a.dAMax
    let Bs ← create env a.source (ord.cols dim 1) dim dim a.dBMin a.dBMax
    let Ms ← create env a.source (ord.cols dim 2) (a.rowsA dim) dim a.dMMin a.dMMax
    .ok (As, Bs, Ms)

/-- `calculateFlops(A, B, flopsPerRow, nthreads)`, common.h:46-62. The array has `dimMax` elements (HeatMap.cpp:164). -/
def flops (dimMax : Nat) (A B : CSR Val) (order : List Nat) : Res Nat := do
  let s ← order.foldlM (fun (s : List (Option Nat) × Nat) i => do
    let f ← Wid.flopsRow (2 ^ 32) A B i
    let fpr ← wr s.1 i (some f)
    .ok (fpr, (s.2 + f) % 2 ^ 32)) (List.replicate dimMax none, 0)
  .ok s.2

/-- The algorithms, HeatMap.cpp:166-189 in the order of their use: `none` is the inner product. `MaskedHeapDot` is the largest `size_t`. -/
def algs : List (Option Spec.Kind) := [none, some .hash, some .msa2, some .mca, some (.heap 1), some (.heap (2 ^ 64 - 1))]

/-- A call with 32-bit indices -/
def call (env : Env F) (nthreads : Nat) (A : CSR Val) (Bc : CSC Val) (B M : CSR Val) (zb : Bool) : Option Spec.Kind → Scheds → Res (Option (CSR Val))
  | none => Wid.Inner.spgemm1p (2 ^ 32) (fun x y => x * y) (fun x y => x + y) A Bc M zb nthreads env.dflt
  | some k => Wid.spgemm1p (2 ^ 32) k.alg (fun x y => x * y) (fun x y => x + y) A B M zb nthreads env.dflt

/-- `run`, HeatMap.cpp:33-62: all calls are for an object after `make_empty`. -/
def run (env : Env F) (a : Args) (A : CSR Val) (Bc : CSC Val) (B M : CSR Val) (alg : Option Spec.Kind) (sch : Nat → Scheds) : Res (Option Unit) := do
  let r ← repeatCall (fun C => call env a.nthreads A Bc B M (makeEmpty C).zerobased alg) ((List.range (a.witer + a.niter)).map sch) newObj
  .ok (r.map fun _ => ())

/-- HeatMap.cpp:213-234: one line -/
def cell (env : Env F) (a : Args) (ord : Orders) (dim : Nat) (As Bs Ms : List Mat) (calls : Calls) (iA iB iM : Nat) : Out (List Nat) :=
  match (do
    let A ← rd As iA
    let B ← rd Bs iB
    let M ← rd Ms iM
    let f ← flops a.dimMax A.2.1 B.2.1 (ord.flops dim iA iB iM)
    .ok (A, B, M, f) : Res (Mat × Mat × Mat × Nat)) with
  | .error e => ⟨[], .error e⟩
  | .ok (A, B, M, f) =>
    (⟨[(if a.sameAB then [dim, A.2.2] else [dim, A.2.2, B.2.2]) ++ [M.2.2, f]], .ok (some ())⟩ : Out (List Nat)).seq
      (seqAll (algs.zipIdx.map fun x => ⟨[], run env a A.2.1 B.1 B.2.1 M.2.1 x.1 (calls dim iA iB iM x.2)⟩))

/-- The values of `idxB` for a value of `idxA`, HeatMap.cpp:209-210, 236 -/
def indicesB (sameAB : Bool) (nB iA : Nat) : List Nat := if sameAB then (if 0 < nB then [iA] else []) else List.range nB

/-- The body of the loop over the dimensions, HeatMap.cpp:195-244 -/
def dimBody (env : Env F) (a : Args) (ord : Orders) (calls : Calls) (dim : Nat) : Out (List Nat) :=
  match createAll env a ord dim with
  | .error e => ⟨[], .error e⟩
  | .ok (As, Bs, Ms) => seqAll ((List.range As.length).map fun iA => seqAll ((indicesB a.sameAB Bs.length iA).map fun iB =>
      seqAll ((List.range Ms.length).map fun iM => cell env a ord dim As Bs Ms calls iA iB iM)))

/-- `for (Index_t dim = dimensionMin; dim <= dimensionMax; dim *= 2)`, HeatMap.cpp:194, with at most `fuel` iterations -/
def dimLoop {E : Type} (body : Nat → Out E) (hi : Nat) : Nat → Nat → Out E
  | 0, _ => ⟨[], .error .diverge⟩
  | fuel + 1, dim => if dim ≤ hi then (body dim).seq (dimLoop body hi fuel (dim * 2 % 2 ^ 32)) else ⟨[], .ok (some ())⟩

/-- `main`, HeatMap.cpp:118-248 -/
def main (env : Env F) (a : Args) (ord : Orders) (calls : Calls) : Out (List Nat) :=
  dimLoop (dimBody env a ord calls) a.dimMax env.fuel a.dimMin

end Verif.Model.HeatMap
