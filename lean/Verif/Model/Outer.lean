import Verif.Model.Tuples
import Verif.Model.UtilScan
import Verif.Model.Dot

/-!
# The outer-product kernel

Models `/repo/outer_mult.h` (called OM below): `OuterSpGEMM` with `do_static_symbolic`, `doRadixSort`, `doMerge` and
`ExtractKey2`. The product (no mask) of a matrix stored by columns and a matrix stored by rows. The numbers `nblockers`
and `nblockchars` are below 2^16, so that their conversions to `uint16_t` keep them. Apart from the sort key all integers are
unbounded. The radix sort is a parameter; `Props/C91` puts in its model.
-/

namespace Verif.Model.Outer

open Tuples (div)

variable {V : Type}

/-- `nrows_per_blocker`, OM:222 -/
def perBlock (rows nb : Nat) : Res Nat := if rows ≤ nb * 64 then .ok 64 else div (rows + nb - 1) nb

/-- `ExtractKey2`, OM:130-141: 32-bit arithmetic, the column is not negative. -/
def key (npb : Nat) (t : Nat × Nat × V) : Nat := (t.1 % npb) <<< 20 % 2 ^ 32 ||| t.2.1 % 2 ^ 32

/-- The body of the loop OM:57-62 -/
def flopEntry (A : CSC V) (npb rownnz j : Nat) (flops : List Nat) : Res (List Nat) := do
  let r ← rd A.rowids j
  let b ← div r npb
  let x ← rd flops b
  wr flops b (x + rownnz)

/-- One column of `do_static_symbolic`, OM:54-63. The reduction adds up private copies of the array; here there is one. -/
def flopCol (A : CSC V) (B : CSR V) (npb : Nat) (flops : List Nat) (i : Nat) : Res (List Nat) := do
  let hi ← rd B.rowptr (i + 1)
  let lo ← rd B.rowptr i
  let b ← rd A.colptr i
  let e ← rd A.colptr (i + 1)
  forRange b e flops (flopEntry A npb (hi - lo))

/-- The shared data of the first parallel region: `global_blockers`, whose arrays come from `operator new` and are
not set, and `global_blocker_counters`. -/
structure Glob (V : Type) where
  blk : List (List (Option (Nat × Nat × V)))
  cnt : List Nat

/-- The data of one thread: the pairs of positions in `A` and `B` whose products are still to be formed, the next block of the
final copy, `local_blockers[thread_id]` and `local_blocker_counters[thread_id]`. -/
structure Loc (V : Type) where
  work : List (Nat × Nat)
  next : Nat
  buf : List (Option (Nat × Nat × V))
  cnt : List Nat

/-- The pairs of positions that the loops OM:257, 261 and 268 go through, for the columns `cs` of a thread -/
def pairs (A : CSC V) (B : CSR V) (cs : List Nat) : Res (List (Nat × Nat)) :=
  cs.foldlM (fun w idx => do
    let b ← rd A.colptr idx
    let e ← rd A.colptr (idx + 1)
    forRange b e w fun j w => do
      let lo ← rd B.rowptr idx
      let hi ← rd B.rowptr (idx + 1)
      forRange lo hi w fun k w => .ok (w ++ [(j, k)])) []

/-- `memcpy(global_blockers[b] + __sync_fetch_and_add(&global_blocker_counters[b], len), local_blockers + b * block_width, len)`,
OM:285-289 and 306-310. The two parts of this step are not separated: the range of cells that the thread reserves is touched by no
other thread. -/
def flush (width b len : Nat) (buf : List (Option (Nat × Nat × V))) (g : Glob V) : Res (Glob V) := do
  let p ← rd g.cnt b
  let cnt ← wr g.cnt b (p + len)
  let dst ← rd g.blk b
  let dst ← Dot.memcpy dst p buf (b * width) len
  let blk ← wr g.blk b dst
  .ok { blk := blk, cnt := cnt }

/-- The end of a turn of the innermost loop, OM:274-291, with `c` products in the buffer of block `b` -/
def after (width b c : Nat) (l : Loc V) (g : Glob V) : Res (Glob V × Loc V) :=
  if c = width then do
    let g ← flush width b width l.buf g
    let cnt ← wr l.cnt b 0
    .ok (g, { l with cnt := cnt })
  else do
    let cnt ← wr l.cnt b c
    .ok (g, { l with cnt := cnt })

/-- One turn of the innermost loop, OM:263-291. The counter of the block is stored after each turn instead of after the
loop (OM:293); only this thread uses it. `blk` gives the block of a row. -/
def product (mul : V → V → V) (A : CSC V) (B : CSR V) (blk : Nat → Res Nat) (width j k : Nat) (l : Loc V) (g : Glob V) : Res (Glob V × Loc V) := do
  let r ← rd A.rowids j
  let b ← blk r
  let c ← rd l.cnt b
  let col ← rd B.colids k
  let x ← rd A.values j
  let y ← rd B.values k
  let buf ← wr l.buf (b * width + c) (some (r, col, mul x y))
  after width b (c + 1) { l with buf := buf } g

/-- One step of a thread in the first region, OM:250-313: start, one product, or the final copy of one block. -/
def step (mul : V → V → V) (A : CSC V) (B : CSR V) (blk : Nat → Res Nat) (nb width : Nat) (asg : Nat → List Nat) (t : Nat) (g : Glob V) :
    Option (Loc V) → Res (Glob V × Option (Loc V))
  | none => do
    let w ← pairs A B (asg t)
    .ok (g, some { work := w, next := 0, buf := List.replicate (nb * width) none, cnt := List.replicate nb 0 })
  | some l =>
    match l.work with
    | (j, k) :: w => do
      let (g, l) ← product mul A B blk width j k { l with work := w } g
      .ok (g, some l)
    | [] => do
      let c ← rd l.cnt l.next
      let g ← flush width l.next c l.buf g
      .ok (g, some { l with next := l.next + 1 })

/-- The thread has left the region. -/
def fin (nb : Nat) : Option (Loc V) → Bool
  | none => false
  | some l => l.work.isEmpty && decide (nb ≤ l.next)

/-- The body of the loop of `doMerge`, OM:183-196. The state is the array and `i`. -/
def mergeStep (add : V → V → V) (j : Nat) (s : List (Nat × Nat × V) × Nat) : Res (List (Nat × Nat × V) × Nat) := do
  let x ← rd s.1 s.2
  let y ← rd s.1 j
  if x.2.1 = y.2.1 ∧ x.1 = y.1 then do
    let a ← wr s.1 s.2 (x.1, x.2.1, add x.2.2 y.2.2)
    .ok (a, s.2)
  else do
    let a ← wr s.1 (s.2 + 1) y
    .ok (a, s.2 + 1)

/-- `doMerge`, OM:175-198: the array and the return value. -/
def doMerge (add : V → V → V) (vec : List (Nat × Nat × V)) (length : Nat) : Res (List (Nat × Nat × V) × Nat) :=
  if length = 0 then .ok (vec, 0)
  else do
    let s ← forRange 1 length (vec, 0) (mergeStep add)
    .ok (s.1, s.2 + 1)

/-- The first `n` elements of an array, all of which have to be set -/
def prefixOf {α : Type} (a : List (Option α)) (n : Nat) : Res (List α) :=
  if a.length < n then .error .oob else (a.take n).mapM use

/-- The body of the second parallel loop, OM:328-332: sort and merge block `b`. `sortf` is `radix_sort`, `key` the sort key. Of the block only the sorted part
is kept. The state is the sorted blocks and `nnz_per_row_blocker`. -/
def sortBlock (add : V → V → V) (sortf : (Nat × Nat × V → Nat) → List (Nat × Nat × V) → List (Nat × Nat × V)) (key : Nat × Nat × V → Nat)
    (g : Glob V) (s : List (List (Nat × Nat × V)) × List Nat) (b : Nat) : Res (List (List (Nat × Nat × V)) × List Nat) := do
  let len ← rd g.cnt b
  let a ← rd g.blk b
  let vec ← prefixOf a len
  let m ← doMerge add (sortf key vec) len
  let vecs ← wr s.1 b m.1
  let x ← rd s.2 b
  let nnz ← wr s.2 b (x + m.2)
  .ok (vecs, nnz)

/-- The arrays that the third parallel loop fills: `nnz_by_row`, `C.colids`, `C.values`. The last two come from `operator new`. -/
structure Out (V : Type) where
  byRow : List Nat
  colids : List (Option Nat)
  values : List (Option V)

/-- The body of the loop OM:359-367 -/
def copyEntry (base : Nat) (vec : List (Nat × Nat × V)) (i : Nat) (o : Out V) : Res (Out V) := do
  let t ← rd vec i
  let x ← rd o.byRow t.1
  let byRow ← wr o.byRow t.1 (x + 1)
  let colids ← wr o.colids (base + i) (some t.2.1)
  let values ← wr o.values (base + i) (some t.2.2)
  .ok { byRow := byRow, colids := colids, values := values }

/-- The body of the third parallel loop, OM:356-367 -/
def copyBlock (cum nnz : List Nat) (vecs : List (List (Nat × Nat × V))) (o : Out V) (b : Nat) : Res (Out V) := do
  let base ← rd cum b
  let vec ← rd vecs b
  let n ← rd nnz b
  forRange 0 n o (copyEntry base vec)

/-- What is not determined by the program: the distribution of the columns over the threads, the interleaving of the first region, the
orders of the other parallel loops, the schedules of the prefix sums. -/
structure Sched where
  flop : List Nat
  asg : Nat → List Nat
  main : List Nat
  sort : List Nat
  s1 : List Nat
  s2 : List Nat
  copy : List Nat
  s3 : List Nat
  s4 : List Nat

/-- The last part, OM:336-371. `mem` is what the fresh array `C.rowptr` happens to hold. -/
def finish (A : CSC V) (B : CSR V) (n nb : Nat) (mem : List Nat) (s : List (List (Nat × Nat × V)) × List Nat) (sch : Sched) :
    Res (Option (CSR V)) := do
  let r ← UtilScan.scan s.2 (nb + 1) (List.replicate (nb + 1) 0) n sch.s1 sch.s2
  match r with
  | none => .ok none
  | some cum => do
    let total ← rd cum nb
    let rowptr ← wr mem 0 0
    let o ← sch.copy.foldlM (copyBlock cum s.2 s.1)
      { byRow := List.replicate A.rows 0, colids := List.replicate total none, values := List.replicate total none }
    let r ← UtilScan.scan o.byRow (A.rows + 1) rowptr n sch.s3 sch.s4
    match r with
    | none => .ok none
    | some rowptr => do
      let colids ← o.colids.mapM use
      let values ← o.values.mapM use
      .ok (some
        { rows := A.rows, cols := B.cols, nnz := total, rowptr := rowptr, colids := colids, values := values, zerobased := true })

/-- `OuterSpGEMM`, OM:213-406, with `n` threads, `nb` blocks and buffers for `width` products per block. The maximum OM:239 is taken of
a non-empty range. What `C` held before is left out: its arrays are not freed if it has entries, which is a leak. The flag
`zerobased` of `C`, which is not set, is taken as true (the value of a new object). `none`: the schedule is too short. -/
def outerSpGEMM (mul add : V → V → V) (sortf : (Nat × Nat × V → Nat) → List (Nat × Nat × V) → List (Nat × Nat × V))
    (A : CSC V) (B : CSR V) (n nb width : Nat) (mem : List Nat) (sch : Sched) : Res (Option (CSR V)) := do
  let npb ← perBlock A.rows nb
  let flops ← sch.flop.foldlM (flopCol A B npb) (List.replicate nb 0)
  let _ ← rd flops 0
  let r ← phase n (step mul A B (fun r => div r npb) nb width sch.asg) (fin nb) sch.main
    { blk := flops.map fun f => List.replicate f none, cnt := List.replicate nb 0 } (fun _ => none)
  match r with
  | none => .ok none
  | some (g, _) => do
    let s ← sch.sort.foldlM (sortBlock add sortf (key npb) g) (List.replicate nb [], List.replicate nb 0)
    finish A B n nb mem s sch

end Verif.Model.Outer
