import Verif.Model.MaskedAll
import Verif.Model.TriCnt
import Verif.Model.OldAlg
import Verif.Model.Poly
import Verif.Model.HashIntersect

/-!
# The triangle counting program without GraphBLAS, with its modes

Models the macros and `main` of `/repo/benchmarks/TriCntAll.cpp` 253-380. `preprocessInput` is `Verif.Model.TriCnt.preprocess`, `run` is
`Verif.Model.Bench.run`, and the multiplications are those of the other models.

Simplifications. As in `Verif.Model.Bench`. The lines with the number of iterations and about the mode (289, 292) are left out.
-/

namespace Verif.Model.TriMain

open Verif.Spec Verif.Model.Bench

variable {V : Type}

/-- The function passed to `run` -/
inductive Ker where
  | nohash
  | lib (a : Algo) (two : Bool)
  | msa1Old (two : Bool)
  | msa2Old (two : Bool)
  | heapOld (v : Old.Ver) (two : Bool)
  | spa
  | wobin
  | hash
  | intersect
  | poly
  deriving DecidableEq

/-- The schedules of a call, whichever function is called -/
structure Sch extends MaskedAll.Sch where
  isect : HashIntersect.Sched

section
variable [Zero V] [Add V] [Mul V]

/-- `MaskedSpGEMM1p` or `MaskedSpGEMM2p` for the row algorithm `alg`, lines 255-256 -/
def driver (alg : RowAlg V) (two : Bool) (X : CSR V) (zb : Bool) (tnum : Nat) (s : Scheds) : Res (Option (CSR V)) :=
  if two then spgemm2p alg (fun x y => x * y) (fun x y => x + y) X X X zb tnum tnum s
  else spgemm1p alg (fun x y => x * y) (fun x y => x + y) X X X zb tnum tnum s

/-- A call of the function with `tnum` threads, where `tnum` is also the default number of threads (benchmarks-util.h:116). `X` is `A_csr`,
`Xc` is `A_csc`, `C` the object for the result. -/
def Ker.call (sortf : List (Nat × V) → List (Nat × V)) (k : Ker) (X : CSR V) (Xc : CSC V) (tnum : Nat) (C : CSR V) (s : Sch) :
    Res (Option (CSR V)) :=
  match k with
  | .nohash => Dot.innerNohash (fun x y => x * y) (fun x y => x + y) 0 X Xc X tnum tnum C.nnz s.dot
  | .lib a two => a.call two (fun x y => x * y) (fun x y => x + y) X X Xc X C.zerobased tnum tnum s.gen
  | .msa1Old two => driver Old.msa1 two X C.zerobased tnum s.gen
  | .msa2Old two => driver Old.msa2 two X C.zerobased tnum s.gen
  | .heapOld v two => driver (Old.heap v) two X C.zerobased tnum s.gen
  | .spa => Spa.spaSpGEMM (fun x y => x * y) (fun x y => x + y) X X X 0 tnum tnum s.two
  | .wobin => LpMult.hashMaskWobin (fun x y => x * y) (fun x y => x + y) X X X 0 tnum s.order1 s.s1 s.s2 s.order2
  | .hash => LpMult.hashMask (fun x y => x * y) (fun x y => x + y) X X X 0 tnum tnum s.two
  | .intersect => HashIntersect.hashIntersect sortf (fun x y => x * y) (fun x y => x + y) X X X 0 tnum tnum s.isect
  | .poly => Poly.spgemm1p (fun x y => x * y) (fun x y => x + y) X X X C.zerobased tnum tnum s.gen

end

/-- The calls of `run` in a round, lines 297-373: the text of the algorithm, with the suffix of lines 255-256, and the function -/
def algs (mode : List Char) : List (List Char × Ker) :=
  (if mode = "inner".toList ∨ mode = "dot".toList ∨ mode = "all".toList then
    [("(innerSpGEMM_nohash<false, false>)".toList, .nohash),
     ("MaskedSpGEMM1pInnerProduct".toList, .lib .inner false),
     ("MaskedSpGEMM2pInnerProduct".toList, .lib .inner true),
     ("MaskedSpGEMM1p<MaskedInner>".toList, .lib .inner false),
     ("MaskedSpGEMM2p<MaskedInner>".toList, .lib .inner true)] else []) ++
  (if mode = "msa".toList ∨ mode = "all".toList then
    [("MaskedSPASpGEMM".toList, .spa),
     ("MSA2A_old-1P".toList, .msa2Old false),
     ("MSA2A_old-2P".toList, .msa2Old true),
     ("(MaskedSpGEMM1p<MSA2A<false, false>::Impl>)".toList, .lib (.gen .msa2) false),
     ("(MaskedSpGEMM2p<MSA2A<false, false>::Impl>)".toList, .lib (.gen .msa2) true),
     ("MSA1A_old-1P".toList, .msa1Old false),
     ("MSA1A_old-2P".toList, .msa1Old true),
     ("(MaskedSpGEMM1p<MSA1A<false, false>::Impl>)".toList, .lib (.gen .msa1) false),
     ("(MaskedSpGEMM2p<MSA1A<false, false>::Impl>)".toList, .lib (.gen .msa1) true)] else []) ++
  (if mode = "hash".toList ∨ mode = "all".toList then
    [("mxm_hash_mask_wobin".toList, .wobin),
     ("mxm_hash_mask".toList, .hash),
     ("(MaskedSpGEMM1p<MaskedHash<false, false>::Impl>)".toList, .lib (.gen .hash) false),
     ("(MaskedSpGEMM2p<MaskedHash<false, false>::Impl>)".toList, .lib (.gen .hash) true)] else []) ++
  (if mode = "heap".toList ∨ mode = "all".toList then
    [("MaskedHeap_v0-1P".toList, .heapOld .v0 false),
     ("MaskedHeap_v0-2P".toList, .heapOld .v0 true),
     ("(MaskedSpGEMM1p<MaskedHeap<false, true, 0>::Impl>)".toList, .lib (.gen (.heap 0)) false),
     ("(MaskedSpGEMM2p<MaskedHeap<false, true, 0>::Impl>)".toList, .lib (.gen (.heap 0)) true),
     ("MaskedHeap_v1-1P".toList, .heapOld .v1 false),
     ("MaskedHeap_v1-2P".toList, .heapOld .v1 true),
     ("(MaskedSpGEMM1p<MaskedHeap<false, true, 1>::Impl>)".toList, .lib (.gen (.heap 1)) false),
     ("(MaskedSpGEMM2p<MaskedHeap<false, true, 1>::Impl>)".toList, .lib (.gen (.heap 1)) true),
     ("(MaskedSpGEMM1p<MaskedHeap<false, true, 8>::Impl>)".toList, .lib (.gen (.heap 8)) false),
     ("(MaskedSpGEMM2p<MaskedHeap<false, true, 8>::Impl>)".toList, .lib (.gen (.heap 8)) true),
     ("(MaskedSpGEMM1p<MaskedHeap<false, true, 64>::Impl>)".toList, .lib (.gen (.heap 64)) false),
     ("(MaskedSpGEMM2p<MaskedHeap<false, true, 64>::Impl>)".toList, .lib (.gen (.heap 64)) true),
     ("(MaskedSpGEMM1p<MaskedHeap<false, true, 512>::Impl>)".toList, .lib (.gen (.heap 512)) false),
     ("(MaskedSpGEMM2p<MaskedHeap<false, true, 512>::Impl>)".toList, .lib (.gen (.heap 512)) true),
     ("MaskedHeap_v2-1P".toList, .heapOld .v2 false),
     ("MaskedHeap_v2-2P".toList, .heapOld .v2 true),
     ("(MaskedSpGEMM1p<MaskedHeap<false, true, MaskedHeapDot>::Impl>)".toList, .lib (.gen (.heap (2 ^ 64 - 1))) false),
     ("(MaskedSpGEMM2p<MaskedHeap<false, true, MaskedHeapDot>::Impl>)".toList, .lib (.gen (.heap (2 ^ 64 - 1))) true)] else []) ++
  (if mode = "intersect".toList ∨ mode = "all".toList then [("HashIntersect".toList, .intersect)] else []) ++
  (if mode = "all1p".toList then
    [("MaskedSpGEMM1p<MaskedInner>".toList, .lib .inner false),
     ("(MaskedSpGEMM1p<MaskedHeap<false, true, 1>::Impl>)".toList, .lib (.gen (.heap 1)) false),
     ("(MaskedSpGEMM1p<MaskedHeap<false, true, MaskedHeapDot>::Impl>)".toList, .lib (.gen (.heap (2 ^ 64 - 1))) false),
     ("(MaskedSpGEMM1p<MaskedHash<false, false>::Impl>)".toList, .lib (.gen .hash) false),
     ("(MaskedSpGEMM1p<MSA1A<false, false>::Impl>)".toList, .lib (.gen .msa1) false),
     ("(MaskedSpGEMM1p<MSA2A<false, false>::Impl>)".toList, .lib (.gen .msa2) false),
     ("(MaskedSpGEMM1p<MCA<false, false>::Impl>)".toList, .lib (.gen .mca) false),
     ("MaskedSpGEMM1p".toList, .poly)] else []) ++
  (if mode = "all2p".toList then
    [("MaskedSpGEMM2p<MaskedInner>".toList, .lib .inner true),
     ("(MaskedSpGEMM2p<MaskedHeap<false, true, 1>::Impl>)".toList, .lib (.gen (.heap 1)) true),
     ("(MaskedSpGEMM2p<MaskedHeap<false, true, MaskedHeapDot>::Impl>)".toList, .lib (.gen (.heap (2 ^ 64 - 1))) true),
     ("(MaskedSpGEMM2p<MaskedHash<false, false>::Impl>)".toList, .lib (.gen .hash) true),
     ("(MaskedSpGEMM2p<MSA1A<false, false>::Impl>)".toList, .lib (.gen .msa1) true),
     ("(MaskedSpGEMM2p<MSA2A<false, false>::Impl>)".toList, .lib (.gen .msa2) true),
     ("(MaskedSpGEMM2p<MCA<false, false>::Impl>)".toList, .lib (.gen .mca) true)] else [])

/-- A call of `run` as a part of the program -/
def part (r : Res (Option (Line V))) : Out (Line V) :=
  match r with
  | .error e => ⟨[], .error e⟩
  | .ok none => ⟨[], .ok none⟩
  | .ok (some l) => ⟨[l], .ok (some ())⟩

/-- How the loops outside of the multiplications run: the sorting functions, the orders of the iterations in the constructors of the matrix
that is read and of the one that is made of it and in `get_flop`, and the distribution of the loop in `sumall` -/
structure Orders (V : Type) where
  sortf : List (Nat × V) → List (Nat × V)
  sortP : List (Nat × Nat) → List (Nat × Nat)
  sortT : List (Nat × Nat × V) → List (Nat × Nat × V)
  read : List Nat
  make : List Nat
  flop : List Nat
  parts : Nat → List (List Nat)

variable [Zero V] [One V] [Add V] [Mul V]

/-- `main` up to line 294: the matrix by columns and by rows. The count of operations is only used for the rate. -/
def setup (ofInt : Int → V) (o : Orders V) (file : Option (List Char)) : Res (CSC V × CSR V) := do
  let A ← ReadIO.readASCII o.sortf o.read ofInt file
  let L ← TriCnt.preprocess o.sortP o.sortT o.sortf o.make 0 1 A
  let X ← Conv.csrOfCsc 0 L
  let _ ← Flops.cscCsc L L o.flop
  .ok (L, X)

/-- The call of `run` for an algorithm: `sch k` is the schedule of call `k`. -/
def runAlg (enc : V → List UInt8) (o : Orders V) (e : Env) (path : List Char) (tnum : Nat) (L : CSC V) (X : CSR V) (a : List Char × Ker)
    (sch : Nat → Sch) : Out (Line V) :=
  part (Bench.run enc path a.1 (a.2.call o.sortf X L tnum) ((List.range e.warmupIters).map sch)
    ((List.range e.innerIters).map fun k => sch (e.warmupIters + k)) tnum o.parts)

/-- A round of the loop of `main`, lines 297-373 -/
def round (enc : V → List UInt8) (o : Orders V) (e : Env) (path : List Char) (tnum : Nat) (L : CSC V) (X : CSR V) (sch : Nat × Nat → Sch) :
    Out (Line V) :=
  seqAll ((algs e.modeStr).zipIdx.map fun a => runAlg enc o e path tnum L X a.1 fun k => sch (a.2, k))

/-- `main`, lines 262-380, called with a file and a number of threads: the lines of the log and how the program ends. The environment
(lines 283-286) is the same as in the program for complemented masks. The file name is cut at the last `/` twice (line 275 and in
`run`). `sch (r, i, k)` is the schedule of call `k` of algorithm `i` in round `r`. -/
def main (ofInt : Int → V) (enc : V → List UInt8) (o : Orders V) (e : Env) (path : List Char) (file : Option (List Char)) (tnum : Nat)
    (sch : Nat × Nat × Nat → Sch) : Out (Line V) :=
  match setup ofInt o file with
  | .error x => ⟨[], .error x⟩
  | .ok (L, X) => seqAll ((List.range e.outerIters).map fun r => round enc o e (getFileName path) tnum L X fun i => sch (r, i))

end Verif.Model.TriMain
