import Verif.Model.Bin
import Verif.Model.Dot
import Verif.Model.StlHeap

/-!
# The older heap kernel

Models `HeapSpGEMM` of `/repo/heap_mult.h`: the product (no mask) of matrices stored by columns. Every parallel region runs
with `n` threads. The arrays come from `my_malloc`, which fills them with zeros. Integers are unbounded.
-/

namespace Verif.Model.HeapMult

open Heap (EntOf makeHeap popHeap pushHeap)

variable {V : Type}

/-- Body of the loop of `get_flop`, heap_mult.h:20-26: the number of products of column `i`. -/
def flopCol (A B : CSC V) (i : Nat) : Res Nat := do
  let lo ← rd B.colptr i
  let hi ← rd B.colptr (i + 1)
  forRange lo hi 0 fun j locmax => do
    let inner ← rd B.rowids j
    let e ← rd A.colptr (inner + 1)
    let b ← rd A.colptr inner
    .ok (locmax + (e - b))

/-- `get_flop`, heap_mult.h:12-35, iterations in the order `order`. The array `maxnnzc` and the total. The total is doubled at
the end of the function and halved by the caller. The sums of the threads are added to the total at the end there; here each
column is added at once. -/
def getFlop (A B : CSC V) (order : List Nat) (maxnnzc : List Nat) : Res (List Nat × Nat) :=
  order.foldlM (fun (maxnnzc, flop) i => do
    let locmax ← flopCol A B i
    let maxnnzc ← wr maxnnzc i locmax
    .ok (maxnnzc, flop + locmax)) (maxnnzc, 0)

/-- `HeapEntry<IT, NT>`, `/repo/HeapEntry.h` lines 4-20: `loc` and `value` are the two parts of the position. -/
abbrev Entry (V : Type) := EntOf (Nat × V)

/-- Write to `mergeheap[k++]` of a heap of `cap` entries that has `k` entries. -/
def append (cap : Nat) (es : List (Entry V)) (e : Entry V) : Res (List (Entry V)) :=
  if es.length < cap then .ok (es ++ [e]) else .error .oob

/-- The initial heap of column `i`, heap_mult.h:128-140. -/
def initHeap (mul : V → V → V) (A B : CSC V) (cap i : Nat) : Res (List (Entry V)) := do
  let lo ← rd B.colptr i
  let hi ← rd B.colptr (i + 1)
  let es ← forRange lo hi [] fun j es => do
    let inner ← rd B.rowids j
    let e ← rd A.colptr (inner + 1)
    let b ← rd A.colptr inner
    if e - b > 0 then do
      let x ← rd A.values b
      let y ← rd B.values j
      let key ← rd A.rowids b
      append cap es ⟨key, j, (1, mul x y)⟩
    else .ok es
  makeHeap es

/-- What a thread writes while it works on its columns: the shared array `colEnd` and its arrays `LocalRowIdsofC[tid]` and
`LocalValuesofC[tid]`. -/
structure Out (V : Type) where
  colEnd : List Nat
  rowids : List Nat
  values : List V

/-- heap_mult.h:147-154. `first` is `colPerThread[thisThread]`. -/
def store (add : V → V → V) (colStart : List Nat) (first i key : Nat) (value : V) (o : Out V) : Res (Out V) := do
  let e ← rd o.colEnd i
  let s ← rd colStart i
  let f ← rd colStart first
  let same ← if e > s then do
      let c ← rd o.rowids (e - f - 1)
      .ok (c == key)
    else .ok false
  if same then do
    let v ← rd o.values (e - f - 1)
    let values ← wr o.values (e - f - 1) (add value v)
    .ok { o with values := values }
  else do
    let values ← wr o.values (e - f) value
    let rowids ← wr o.rowids (e - f) key
    let colEnd ← wr o.colEnd i (e + 1)
    .ok { colEnd := colEnd, rowids := rowids, values := values }

/-- The loop heap_mult.h:142-170; `es` are the first `hsize` cells of `mergeheap`. Every turn uses up a product, so the number of
turns is bounded by the number of products of the column. -/
def colLoop (mul add : V → V → V) (A B : CSC V) (colStart : List Nat) (first i : Nat) :
    (fuel : Nat) → List (Entry V) → Out V → Res (Out V)
  | 0, _, _ => .error .diverge
  | fuel + 1, es, o =>
    if es.isEmpty then .ok o
    else do
      let es ← popHeap es
      let e ← rd es (es.length - 1)
      let o ← store add colStart first i e.key e.loc.2 o
      let inner ← rd B.rowids e.runr
      let hi ← rd A.colptr (inner + 1)
      let lo ← rd A.colptr inner
      if hi - lo > e.loc.1 then do
        let x ← rd A.values (lo + e.loc.1)
        let y ← rd B.values e.runr
        let key ← rd A.rowids (lo + e.loc.1)
        let es ← wr es (es.length - 1) ⟨key, e.runr, (e.loc.1 + 1, mul x y)⟩
        let es ← pushHeap es
        colLoop mul add A B colStart first i fuel es o
      else colLoop mul add A B colStart first i fuel es.dropLast o

/-- Number of products of a column. -/
def turns (A B : CSC V) (i : Nat) : Nat := ((B.col i).map fun kb => (A.col kb.1).length).sum + 1

/-- State of a thread: its first column, the size of its heap, its output arrays. -/
structure Loc (V : Type) where
  first : Nat
  cap : Nat
  rowids : List Nat
  values : List V

/-- What thread `t` with the columns from `lo` to `hi` allocates, heap_mult.h:91-100, 108-119 and 125. In the code these are
three parallel regions; a thread only reads arrays that nobody writes and writes cells of its own. -/
def start (zero : V) (B : CSC V) (maxnnzc : List Nat) (lo hi : Nat) : Res (Loc V) := do
  let localsum ← forRange lo hi 0 fun i s => do
    let x ← rd maxnnzc i
    .ok (s + x)
  let localmax ← forRange lo hi 0 fun i m => do
    let e ← rd B.colptr (i + 1)
    let b ← rd B.colptr i
    .ok (if e - b > m then e - b else m)
  .ok { first := lo, cap := localmax, rowids := List.replicate localsum 0, values := List.replicate localsum zero }

/-- Body of the loop over the columns, heap_mult.h:127-171 -/
def column (mul add : V → V → V) (A B : CSC V) (colStart : List Nat) (i : Nat) (colEnd : List Nat) (l : Loc V) :
    Res (List Nat × Loc V) := do
  let es ← initHeap mul A B l.cap i
  let o ← colLoop mul add A B colStart l.first i (turns A B i) es ⟨colEnd, l.rowids, l.values⟩
  .ok (o.colEnd, { l with rowids := o.rowids, values := o.values })

/-- Body of the last loop over the columns, heap_mult.h:203-206 -/
def copyCol (colStart colEnd colptr : List Nat) (i : Nat) (out : List Nat × List V) (l : Loc V) :
    Res ((List Nat × List V) × Loc V) := do
  let s ← rd colStart i
  let e ← rd colEnd i
  let f ← rd colStart l.first
  let p ← rd colptr i
  let rowids ← Dot.memcpy out.1 p l.rowids (s - f) (e - s)
  let values ← Dot.memcpy out.2 p l.values (s - f) (e - s)
  .ok ((rowids, values), l)

/-- Schedules of a call: orders of the iterations of the loops, schedules of the prefix sums and of the regions -/
structure Sched where
  flop : List Nat
  s1 : List Nat
  s2 : List Nat
  ends : List Nat
  threads : List Nat
  main : List Nat
  nz : List Nat
  s3 : List Nat
  s4 : List Nat
  copy : List Nat

/-- The first part, heap_mult.h:56-85: `maxnnzc`, `colStart`, `colEnd` and `colPerThread`. `none`: the schedule is too short. -/
def plan (A B : CSC V) (n : Nat) (sch : Sched) : Res (Option (List Nat × List Nat × List Nat × List Nat)) := do
  let (maxnnzc, flops) ← getFlop A B sch.flop (List.replicate B.cols 0)
  let colPer ← wr (List.replicate (n + 1) 0) 0 0
  let colStart ← wr (List.replicate B.cols 0) 0 0
  let colEnd ← wr (List.replicate B.cols 0) 0 0
  let r ← UtilScan.scan maxnnzc B.cols colStart n sch.s1 sch.s2
  match r with
  | none => .ok none
  | some colStart => do
    let colEnd ← sch.ends.foldlM (fun colEnd k => do
      let x ← rd colStart (k + 1)
      wr colEnd (k + 1) x) colEnd
    let colPer ← sch.threads.foldlM (fun colPer t => do
      let e ← lowerBound (colStart.map some) B.cols (flops / n * (t + 1))
      wr colPer (t + 1) e) colPer
    let colPer ← wr colPer n B.cols
    .ok (some (maxnnzc, colStart, colEnd, colPer))

/-- The last part, heap_mult.h:182-207: `C` from the arrays of the threads. -/
def finish (zero : V) (A B : CSC V) (n : Nat) (colStart colEnd colPer : List Nat) (ls : List (Loc V)) (sch : Sched) :
    Res (Option (CSC V)) := do
  let colptr ← wr (List.replicate (B.cols + 1) 0) 0 0
  let colNz ← sch.nz.foldlM (fun colNz i => do
    let e ← rd colEnd i
    let s ← rd colStart i
    wr colNz i (e - s)) (List.replicate B.cols 0)
  let r ← UtilScan.scan colNz (B.cols + 1) colptr n sch.s3 sch.s4
  match r with
  | none => .ok none
  | some colptr => do
    let nnz ← rd colptr B.cols
    let r ← blocks n colPer (fun t _ _ => rd ls t) (copyCol colStart colEnd colptr) sch.copy
      (List.replicate nnz 0, List.replicate nnz zero)
    match r with
    | none => .ok none
    | some ((rowids, values), _) =>
      .ok (some { rows := A.rows, cols := B.cols, nnz := nnz, colptr := colptr, rowids := rowids, values := values })

/-- `HeapSpGEMM`, heap_mult.h:46-222, with `n` threads. `zero` is `NT()`. The sum `size` (88) is not used. If `C` has entries its
old arrays are not freed (177-179), which is not modelled. `none`: the schedule is too short. -/
def heapSpGEMM (mul add : V → V → V) (zero : V) (A B : CSC V) (n : Nat) (sch : Sched) : Res (Option (CSC V)) := do
  let r ← plan A B n sch
  match r with
  | none => .ok none
  | some (maxnnzc, colStart, colEnd, colPer) => do
    let _ ← rd colEnd (B.cols - 1)
    let _ ← rd maxnnzc (B.cols - 1)
    let r ← blocks n colPer (fun _ lo hi => start zero B maxnnzc lo hi) (column mul add A B colStart) sch.main colEnd
    match r with
    | none => .ok none
    | some (colEnd, ls) => finish zero A B n colStart colEnd colPer ls sch

end Verif.Model.HeapMult
