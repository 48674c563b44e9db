import Verif.Model.BenchRun
import Verif.Model.Spa
import Verif.Model.LpMult
import Verif.Model.Flops
import Verif.Model.HeapGen

/-!
# The benchmark for three matrices

Models `run` and `main` of `/repo/benchmarks/MaskedAllSpGEMM.cpp`. The functions for checksums and file names there
(lines 32-75) have the same text as those of `Verif.Model.Checksum` (without the row pointers) and `Verif.Model.Bench.cFileName`.

Simplifications. Times, rates, the compression ratio, the names of the types and the text with the usage are left out. The number of
threads and the numbers of iterations are numbers, not text. The calls of `Sorted()` (lines 173-183), whose results are
not used, and the release of memory at the end are left out. The product in `checksum` of the number of entries and their size is
the length of the arrays.
-/

namespace Verif.Model.MaskedAll

open Verif.Model.Bench (Out seqAll)

variable {V : Type}

/-- The function passed to `run` -/
inductive Ker where
  | spa
  | inner
  | hash
  | wobin
  | heap (v : Old.Ver)
  | mca (v : Gen.MVer)
  deriving DecidableEq

/-- The schedules of a call, whichever function is called -/
structure Sch where
  two : TwoPassSched
  dot : Dot.Sched
  order1 : List Nat
  s1 : List Nat
  s2 : List Nat
  order2 : List Nat
  gen : Scheds

/-- A call of the function with `tnum` threads, where `tnum` is also the default number of threads (line 93). `C` is the object for the
result. -/
def Ker.call [Zero V] [Add V] [Mul V] (k : Ker) (A B M : CSR V) (Bc : CSC V) (tnum : Nat) (C : CSR V) (s : Sch) : Res (Option (CSR V)) :=
  match k with
  | .spa => Spa.spaSpGEMM (fun x y => x * y) (fun x y => x + y) A B M 0 tnum tnum s.two
  | .inner => Dot.innerNohash (fun x y => x * y) (fun x y => x + y) 0 A Bc M tnum tnum C.nnz s.dot
  | .hash => LpMult.hashMask (fun x y => x * y) (fun x y => x + y) A B M 0 tnum tnum s.two
  | .wobin => LpMult.hashMaskWobin (fun x y => x * y) (fun x y => x + y) A B M 0 tnum s.order1 s.s1 s.s2 s.order2
  | .heap v => Gen.heapSpGEMM (Gen.masked v) (fun x y => x * y) (fun x y => x + y) 0 A B M C.zerobased tnum tnum s.gen
  | .mca v => Gen.heapSpGEMM (Gen.mca v) (fun x y => x * y) (fun x y => x + y) 0 A B M C.zerobased tnum tnum s.gen

/-- What is printed: lines 89-90, lines 115-120, and lines 122-123 -/
inductive Event where
  | total (flop : Nat)
  | result (name : List Char) (threads nnz : Nat) (check : Nat × Nat)
  | log (file name : List Char) (threads nnz : Nat) (check : Nat × Nat)
  deriving DecidableEq

/-- `checksum`, lines 58-69, for an index type of 4 bytes (`int`, line 132) -/
def checksum (enc : V → List UInt8) (C : CSR V) : Nat × Nat :=
  (Checksum.calculateChecksum (C.values.flatMap enc), Checksum.calculateChecksum (C.colids.flatMap (Spec.bytesLE 4)))

/-- The calls of `f` in `run`, lines 95-110: one before the others if `niters` is not 1, and `C.make_empty()` before each of the others -/
def calls (f : CSR V → Sch → Res (Option (CSR V))) (niters : Nat) (sch : Nat → Sch) : Res (Option (CSR V)) := do
  let r ← Bench.repeatCall f (if niters ≠ 1 then [sch 0] else []) Bench.newObj
  match r with
  | none => .ok none
  | some C => Bench.repeatCall (fun C => f (Bench.makeEmpty C)) ((List.range niters).map fun i => sch (i + 1)) C

/-- `run` for one number of threads, lines 93-126. `fileName` is a null pointer (`none`) if it was not set (line 77); it must not be printed. -/
def runOne (enc : V → List UInt8) (fileName : Option (List Char)) (name : List Char) (f : CSR V → Sch → Res (Option (CSR V)))
    (niters : Nat) (sch : Nat → Sch) (tnum : Nat) : Out Event :=
  match calls f niters sch with
  | .error e => ⟨[], .error e⟩
  | .ok none => ⟨[], .ok none⟩
  | .ok (some C) =>
    match fileName with
    | none => ⟨[.result name tnum C.nnz (checksum enc C)], .error .oob⟩
    | some file => ⟨[.result name tnum C.nnz (checksum enc C), .log file name tnum C.nnz (checksum enc C)], .ok (some ())⟩

/-- `run`, lines 79-128: call `i` with the `j`-th number of threads has the schedule `sch j i`. -/
def run (enc : V → List UInt8) (fileName : Option (List Char)) (name : List Char) (f : Nat → CSR V → Sch → Res (Option (CSR V)))
    (niters : Nat) (tnums : List Nat) (nfop : Nat) (sch : Nat → Nat → Sch) : Out Event :=
  seqAll (⟨[.total nfop], .ok (some ())⟩ :: tnums.zipIdx.map fun t => runOne enc fileName name (f t.1) niters (sch t.2) t.1)

/-- The calls of `run`, lines 195-204 -/
def kernels : List (List Char × Ker) :=
  [("MaskedSPASpGEMM CSR".toList, .spa), ("innerSpGEMM_nohash<false-false> CSR/CSC".toList, .inner), ("mxm_hash_mask CSR".toList, .hash),
    ("mxm_hash_mask_wobin CSR".toList, .wobin), ("HeapSpGEMM<rowAlg::MaskedBasicHeap_v1> CSR".toList, .heap .v0),
    ("HeapSpGEMM<rowAlg::MaskedBasicHeap_v2> CSR".toList, .heap .v1), ("HeapSpGEMM<rowAlg::MaskedBasicHeap_v3> CSR".toList, .heap .v2),
    ("HeapSpGEMM<rowAlg::MCA_v1> CSR".toList, .mca .v1), ("HeapSpGEMM<rowAlg::MCA_v2> CSR".toList, .mca .v2),
    ("HeapSpGEMM<rowAlg::MCA_v3> CSR".toList, .mca .v3)]

/-- The arguments and the environment: the path of the first file, the contents of the three files, the number of threads if it is
given, and the variables `OUTER_ITERS` and `INNER_ITERS` (lines 185-186). -/
structure Args where
  path : List Char
  fileA : Option (List Char)
  fileB : Option (List Char)
  fileM : Option (List Char)
  threads : Option Nat
  outer : Option Nat := none
  inner : Option Nat := none

/-- The numbers of threads, lines 147 and 152 -/
def Args.tnums (a : Args) : List Nat :=
  match a.threads with
  | none => [4, 8, 16, 32, 64]
  | some t => [t]

/-- How the loops outside of the multiplications run: the orders of the iterations in the constructors of the matrices that are read and
in `get_flop` -/
structure Orders where
  readA : List Nat
  readB : List Nat
  readM : List Nat
  flop : List Nat

/-- What `main` needs for the runs -/
structure Inputs (V : Type) where
  fileName : Option (List Char)
  A : CSR V
  B : CSR V
  Bc : CSC V
  M : CSR V
  flop : Nat

variable [Zero V] [Add V] [Mul V]

/-- `main` up to line 192 -/
def setup (ofInt : Int → V) (sortf : List (Nat × V) → List (Nat × V)) (o : Orders) (a : Args) : Res (Inputs V) := do
  let fileName ← match a.threads with
    | none => .ok none
    | some _ => (Bench.cFileName a.path).map some
  let Ac ← ReadIO.readASCII sortf o.readA ofInt a.fileA
  let A ← Conv.csrOfCsc 0 Ac
  let _ ← Conv.csrOfCscT 0 Ac true
  let Bc ← ReadIO.readASCII sortf o.readB ofInt a.fileB
  let B ← Conv.csrOfCsc 0 Bc
  let _ ← Conv.csrOfCscT 0 Bc true
  let Mc ← ReadIO.readASCII sortf o.readM ofInt a.fileM
  let M ← Conv.csrOfCsc 0 Mc
  let _ ← Conv.csrOfCscT 0 Mc true
  let flop ← Flops.cscCsc Ac Bc o.flop
  .ok { fileName := fileName, A := A, B := B, Bc := Bc, M := M, flop := flop }

/-- The loop of `main`, lines 193-206. `sch (r, k, j, i)`: round, number of the algorithm, number in `tnums`, call -/
def rounds (enc : V → List UInt8) (x : Inputs V) (tnums : List Nat) (outer inner : Nat) (sch : Nat × Nat × Nat × Nat → Sch) : Out Event :=
  seqAll ((List.range outer).flatMap fun r => kernels.zipIdx.map fun k =>
    run enc x.fileName k.1.1 (k.1.2.call x.A x.B x.M x.Bc) inner tnums x.flop fun j i => sch (r, k.2, j, i))

/-- `main`, lines 130-219, called with three files -/
def main (ofInt : Int → V) (enc : V → List UInt8) (sortf : List (Nat × V) → List (Nat × V)) (o : Orders) (a : Args)
    (sch : Nat × Nat × Nat × Nat → Sch) : Out Event :=
  match setup ofInt sortf o a with
  | .error e => ⟨[], .error e⟩
  | .ok x => rounds enc x a.tnums (a.outer.getD 1) (a.inner.getD 1) sch

end Verif.Model.MaskedAll
