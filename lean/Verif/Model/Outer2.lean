import Verif.Model.Outer

/-!
# The outer-product kernel with balanced blocks

Models `/repo/outer_mult2.h` (called OM2 below): `OuterSpGEMM`, `OuterSpGEMM_stage`, `do_symbolic`, `ExtractKey2`. Blocks of rows and the
columns of the threads are chosen by the number of products. `doMerge`, the copies to and from the local buffers and the last part are
the same as in `outer_mult.h`, so the definitions of `Verif.Model.Outer` are used for them.

Simplifications. As in `Verif.Model.Outer`; the sums in `double` (OM2:50-53, 85-99) are sums of integers and are taken as exact.
-/

namespace Verif.Model.Outer2

open Tuples (div)

variable {V : Type}

/-- `ExtractKey2`, OM2:126-136: 32-bit arithmetic, row and column are not negative. -/
def key (t : Nat × Nat × V) : Nat := t.1 <<< 16 % 2 ^ 32 ||| t.2.1 % 2 ^ 32

/-- The body of the loop OM2:66-69 -/
def flopEntry (A : CSC V) (rownnz j : Nat) (byRows : List Nat) : Res (List Nat) := do
  let r ← rd A.rowids j
  let x ← rd byRows r
  wr byRows r (x + rownnz)

/-- The body of the loop OM2:62-70. The state is `flops_by_iters` and `flops_by_rows`. -/
def flopCol (A : CSC V) (B : CSR V) (i : Nat) (s : List Nat × List Nat) : Res (List Nat × List Nat) := do
  let hi ← rd B.rowptr (i + 1)
  let lo ← rd B.rowptr i
  let e ← rd A.colptr (i + 1)
  let b ← rd A.colptr i
  let iters ← wr s.1 i ((hi - lo) * (e - b))
  let byRows ← forRange b e s.2 (flopEntry A (hi - lo))
  .ok (iters, byRows)

/-- The variables of the second part of `do_symbolic`: `cur_blocker_volumn`, `cur_thread_volumn`, `cur_blocker_id`, `cur_thread_id`,
`rows_to_blockers` (from `operator new`), `flops_by_row_blockers`, `blocker_row_count`, `thread_rows_offset`. -/
structure Sym where
  bvol : Nat
  tvol : Nat
  bid : Nat
  tid : Nat
  blk : List (Option Nat)
  flops : List Nat
  count : List Nat
  off : List Nat

/-- The end of the block, OM2:90-94 -/
def closeBlock (avgB : Nat) (s : Sym) : Sym := if s.bvol > avgB then { s with bid := s.bid + 1, bvol := 0 } else s

/-- The end of the columns of a thread, OM2:95-100 -/
def closeThread (avgT i : Nat) (s : Sym) : Res Sym :=
  if s.tvol > avgT then do
    let off ← wr s.off s.tid i
    .ok { s with off := off, tid := s.tid + 1, tvol := 0 }
  else .ok s

/-- The body of the loop OM2:83-101 -/
def symRow (byRows iters : List Nat) (avgB avgT i : Nat) (s : Sym) : Res Sym := do
  let f ← rd byRows i
  let it ← rd iters i
  let flops ← wr s.flops s.bid (s.bvol + f)
  let c ← rd s.count s.bid
  let count ← wr s.count s.bid (c + 1)
  let blk ← wr s.blk i (some s.bid)
  closeThread avgT i (closeBlock avgB { s with bvol := s.bvol + f, tvol := s.tvol + it, flops := flops, count := count, blk := blk })

/-- `do_symbolic`, OM2:45-105, for all columns: `rows_to_blockers`, `flops_by_row_blockers` and `thread_rows_offset`. The sum of OM2:71-73 is
parallel; integers are added, so the order does not matter. -/
def symbolic (A : CSC V) (B : CSR V) (n nb : Nat) : Res (List (Option Nat) × List Nat × List Nat) := do
  let fr ← forRange 0 A.cols (List.replicate A.rows 0, List.replicate A.rows 0) (flopCol A B)
  let total ← forRange 0 A.rows 0 fun i t => do
    let x ← rd fr.2 i
    .ok (t + x)
  let avgB ← div total nb
  let avgT ← div total n
  let blk ← wr (List.replicate A.rows none) 0 (some 0)
  let off ← wr (List.replicate (n + 1) 0) 0 0
  let s ← forRange 0 A.rows { bvol := 0, tvol := 0, bid := 0, tid := 1, blk := blk, flops := List.replicate nb 0, count := List.replicate nb 0, off := off }
    (symRow fr.2 fr.1 avgB avgT)
  let off ← wr s.off s.tid A.rows
  .ok (s.blk, s.flops, off)

/-- `rows_to_blockers[rowid]`, OM2:269 -/
def blockOf (blk : List (Option Nat)) (r : Nat) : Res Nat := do
  let x ← rd blk r
  use x

/-- The indices of the loop OM2:262 of thread `t` -/
def colsOf (off : List Nat) (t : Nat) : List Nat := List.range' (off.getD t 0) (off.getD (t + 1) 0 - off.getD t 0)

/-- What is not determined by the program: the interleaving of the first region, the orders of the other parallel loops, the schedules of
the prefix sums. -/
structure Sched where
  main : List Nat
  sort : List Nat
  s1 : List Nat
  s2 : List Nat
  copy : List Nat
  s3 : List Nat
  s4 : List Nat

def Sched.last (s : Sched) : Outer.Sched :=
  { flop := [], asg := fun _ => [], main := s.main, sort := s.sort, s1 := s.s1, s2 := s.s2, copy := s.copy, s3 := s.s3, s4 := s.s4 }

/-- `OuterSpGEMM`, OM2:209-397, with `n` threads, `nb` blocks and buffers for `width` products per block. The array `thread_rows_offset` has
`n + 1` elements, so its elements are read within bounds by all threads (OM2:259-260). See `Outer.outerSpGEMM` for the object `C`. -/
def outerSpGEMM (mul add : V → V → V) (sortf : (Nat × Nat × V → Nat) → List (Nat × Nat × V) → List (Nat × Nat × V))
    (A : CSC V) (B : CSR V) (n nb width : Nat) (mem : List Nat) (sch : Sched) : Res (Option (CSR V)) := do
  let sym ← symbolic A B n nb
  let _ ← rd sym.2.1 0
  let r ← phase n (Outer.step mul A B (blockOf sym.1) nb width (colsOf sym.2.2)) (Outer.fin nb) sch.main
    { blk := sym.2.1.map fun f => List.replicate f none, cnt := List.replicate nb 0 } (fun _ => none)
  match r with
  | none => .ok none
  | some (g, _) => do
    let s ← sch.sort.foldlM (Outer.sortBlock add sortf key g) (List.replicate nb [], List.replicate nb 0)
    Outer.finish A B n nb mem s sch.last

end Verif.Model.Outer2
