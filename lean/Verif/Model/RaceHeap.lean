import Verif.Model.RaceOld
import Verif.Model.HeapMult

/-!
# Memory accesses of the older heap kernel

The parallel regions of `HeapSpGEMM` (`/repo/heap_mult.h`) as programs of loads and stores, see `Verif.Model.RaceOld`. In the main
region the threads share `colEnd`; `LocalRowIdsofC[tid]`, `LocalValuesofC[tid]` and `mergeheap` are arrays of one thread, and
`colStart`, `colPerThread`, `threadHeapSize` and the pointers to the local arrays are only read. The additions to `flop` are in a
critical section (heap_mult.h:29) and not listed. The last region (212-217) frees arrays of the thread itself and is left out.
-/

namespace Verif.Model.RaceHeap
open RaceOld
open HeapMult (Entry Loc Sched)
open Heap (popHeap pushHeap)

variable {V : Type}

/-- Iteration `i` of `get_flop`, heap_mult.h:20-26 -/
def flopProg (A B : CSC V) (i : Nat) : Prog V Unit := do
  let locmax ← priv (HeapMult.flopCol A B i)
  put i locmax

/-- Iteration `k + 1` of the loop heap_mult.h:74-77 -/
def endProg (colStart : List Nat) (k : Nat) : Prog V Unit := do
  let x ← priv (rd colStart (k + 1))
  put (k + 1) x

/-- Thread `t` of the region heap_mult.h:79-84 -/
def perProg (colStart : List Nat) (cols per t : Nat) : Prog V Unit := do
  let e ← priv (lowerBound (colStart.map some) cols (per * (t + 1)))
  put (t + 1) e

/-- Thread `t` of the region heap_mult.h:91-100. The cells `LocalRowIdsofC[tid]` and `LocalValuesofC[tid]` of two arrays are
written; one is listed. -/
def allocProg (maxnnzc colPer : List Nat) (t : Nat) : Prog V Unit := do
  let lo ← priv (rd colPer t)
  let hi ← priv (rd colPer (t + 1))
  let s ← priv (forRange lo hi 0 fun i s => do
    let x ← rd maxnnzc i
    .ok (s + x))
  put t s

/-- Thread `t` of the region heap_mult.h:108-119 -/
def sizeProg (B : CSC V) (colPer : List Nat) (t : Nat) : Prog V Unit := do
  let lo ← priv (rd colPer t)
  let hi ← priv (rd colPer (t + 1))
  let m ← priv (forRange lo hi 0 fun i m => do
    let e ← rd B.colptr (i + 1)
    let b ← rd B.colptr i
    .ok (if e - b > m then e - b else m))
  put t m

/-- `HeapMult.store`, heap_mult.h:147-154, on the arrays of the thread. The code reads `colEnd[i]` up to three times more; one
load is listed. -/
def storeProg (add : V → V → V) (colStart : List Nat) (first i key : Nat) (value : V) (l : List Nat × List V) :
    Prog V (List Nat × List V) := do
  let e ← get i
  let s ← priv (rd colStart i)
  let f ← priv (rd colStart first)
  let same ← priv (if e > s then do
      let c ← rd l.1 (e - f - 1)
      .ok (c == key)
    else .ok false)
  if same then do
    let v ← priv (rd l.2 (e - f - 1))
    let values ← priv (wr l.2 (e - f - 1) (add value v))
    return (l.1, values)
  else do
    let values ← priv (wr l.2 (e - f) value)
    let rowids ← priv (wr l.1 (e - f) key)
    put i (e + 1)
    return (rowids, values)

/-- `HeapMult.colLoop`, heap_mult.h:142-170 -/
def loopProg (mul add : V → V → V) (A B : CSC V) (colStart : List Nat) (first i : Nat) :
    (fuel : Nat) → List (Entry V) → List Nat × List V → Prog V (List Nat × List V)
  | 0, _, _ => priv (.error .diverge)
  | fuel + 1, es, l =>
    if es.isEmpty then return l
    else do
      let es ← priv (popHeap es)
      let e ← priv (rd es (es.length - 1))
      let l ← storeProg add colStart first i e.key e.loc.2 l
      let inner ← priv (rd B.rowids e.runr)
      let hi ← priv (rd A.colptr (inner + 1))
      let lo ← priv (rd A.colptr inner)
      if hi - lo > e.loc.1 then do
        let x ← priv (rd A.values (lo + e.loc.1))
        let y ← priv (rd B.values e.runr)
        let key ← priv (rd A.rowids (lo + e.loc.1))
        let es ← priv (wr es (es.length - 1) ⟨key, e.runr, (e.loc.1 + 1, mul x y)⟩)
        let es ← priv (pushHeap es)
        loopProg mul add A B colStart first i fuel es l
      else loopProg mul add A B colStart first i fuel es.dropLast l

/-- `HeapMult.column`, heap_mult.h:127-171 -/
def columnProg (mul add : V → V → V) (A B : CSC V) (colStart : List Nat) (i : Nat) (l : Loc V) : Prog V (Loc V) := do
  let es ← priv (HeapMult.initHeap mul A B l.cap i)
  let o ← loopProg mul add A B colStart l.first i (HeapMult.turns A B i) es (l.rowids, l.values)
  return { l with rowids := o.1, values := o.2 }

/-- Iteration `i` of the loop heap_mult.h:189-192 -/
def nzProg (colStart colEnd : List Nat) (i : Nat) : Prog V Unit := do
  let e ← priv (rd colEnd i)
  let s ← priv (rd colStart i)
  put i (e - s)

/-- `HeapMult.copyCol`, heap_mult.h:203-206 -/
def copyProg (colStart colEnd colptr : List Nat) (i : Nat) (l : Loc V) : Prog V (Loc V) := do
  let s ← priv (rd colStart i)
  let e ← priv (rd colEnd i)
  let f ← priv (rd colStart l.first)
  let p ← priv (rd colptr i)
  loop 0 (e - s) () fun k _ => do
    let x ← priv (rd l.rowids (s - f + k))
    put (p + k) x
  loop 0 (e - s) () fun k _ => do
    let x ← priv (rd l.values (s - f + k))
    putV (p + k) x
  return l

/-- The regions of `HeapSpGEMM`, heap_mult.h:46-222, after the first one (compare `HeapMult.heapSpGEMM`). `w1`, `w2` and `w3` tell
which thread executes an iteration, `alloc` and `sizes` are orders of the threads. -/
def heapTraces (mul add : V → V → V) (zero : V) (A B : CSC V) (n : Nat) (w1 w2 w3 : Nat → Nat) (alloc sizes : List Nat)
    (sch : Sched) : List (List (Nat × Access)) :=
  loopTrace w1 (flopProg A B) sch.flop (List.replicate B.cols 0, []) ::
  match HeapMult.getFlop A B sch.flop (List.replicate B.cols 0) with
  | .error _ => []
  | .ok (maxnnzc, flops) =>
    match done (UtilScan.scan maxnnzc B.cols (List.replicate B.cols 0) n sch.s1 sch.s2) with
    | none => []
    | some colStart =>
      loopTrace w2 (endProg (V := V) colStart) sch.ends (List.replicate B.cols 0, []) ::
      loopTrace id (perProg (V := V) colStart B.cols (flops / n)) sch.threads (List.replicate (n + 1) 0, []) ::
      match done (HeapMult.plan A B n sch) with
      | none => []
      | some (maxnnzc, colStart, colEnd, colPer) =>
        loopTrace id (allocProg (V := V) maxnnzc colPer) alloc (List.replicate n 0, []) ::
        loopTrace id (sizeProg B colPer) sizes (List.replicate n 0, []) ::
        blockTrace n colPer (fun _ lo hi => HeapMult.start zero B maxnnzc lo hi) (columnProg mul add A B colStart) sch.main
          (colEnd, []) ::
        match done (blocks n colPer (fun _ lo hi => HeapMult.start zero B maxnnzc lo hi)
          (HeapMult.column mul add A B colStart) sch.main colEnd) with
        | none => []
        | some (colEnd, ls) =>
          loopTrace w3 (nzProg (V := V) colStart colEnd) sch.nz (List.replicate B.cols 0, []) ::
          match sch.nz.foldlM (fun colNz i => do
            let e ← rd colEnd i
            let s ← rd colStart i
            wr colNz i (e - s) : List Nat → Nat → Res (List Nat)) (List.replicate B.cols 0) with
          | .error _ => []
          | .ok colNz =>
            match done (UtilScan.scan colNz (B.cols + 1) (List.replicate (B.cols + 1) 0) n sch.s3 sch.s4) with
            | none => []
            | some colptr =>
              match rd colptr B.cols with
              | .error _ => []
              | .ok nnz => [blockTrace n colPer (fun t _ _ => rd ls t) (copyProg colStart colEnd colptr) sch.copy
                  (List.replicate nnz 0, List.replicate nnz zero)]

/-- All regions of `HeapSpGEMM`, heap_mult.h:46-222; the first one is heap_mult.h:49-53. -/
def allTraces (mul add : V → V → V) (zero : V) (A B : CSC V) (n : Nat) (w1 w2 w3 : Nat → Nat) (team alloc sizes : List Nat)
    (sch : Sched) : List (List (Nat × Access)) :=
  teamTrace V n team :: heapTraces mul add zero A B n w1 w2 w3 alloc sizes sch

end Verif.Model.RaceHeap
