import Verif.Model.Outer2

/-!
# The outer-product kernels that measure their parts

Models `OuterSpGEMM`, `OuterSpGEMM_stage`, `do_static_symbolic`, `ExtractKey`, `ExtractKey2` and `doMerge` of `/repo/outer_profile.h` (called OP below) and
`OuterSpGEMM`, `OuterSpGEMM_stage` and `do_symbolic` of `/repo/outer_profile2.h` (called OP2 below). They run the stage five times and print the number of
products. The first parallel region and the last part are the same as in `outer_mult.h`, so the definitions of `Verif.Model.Outer` are used for them.

Simplifications. As in `Verif.Model.Outer` and `Verif.Model.Outer2`. The numbers of blocks and of products in a buffer are of the index type here, so they are
not converted to `uint16_t`. The times and what is computed from them are left out.
-/

namespace Verif.Model.Profile

open Tuples (div)
open Outer (Glob)

variable {V : Type}

/-- `ExtractKey`, OP:130-139, OP2:159-168: row and column in one number of 64 bits -/
def fullKey (t : Nat × Nat × V) : Nat := t.1 <<< 32 ||| t.2.1 % 2 ^ 32

/-- The body of the loop of `doMerge`, OP:207-220, OP2:236-249. The state is the array and `i`. -/
def mergeStep (add : V → V → V) (j : Nat) (s : List (Nat × Nat × V) × Nat) : Res (List (Nat × Nat × V) × Nat) := do
  let x ← rd s.1 s.2
  let y ← rd s.1 j
  if fullKey x = fullKey y then do
    let a ← wr s.1 s.2 (x.1, x.2.1, add x.2.2 y.2.2)
    .ok (a, s.2)
  else do
    let a ← wr s.1 (s.2 + 1) y
    .ok (a, s.2 + 1)

/-- `doMerge`, OP:198-222, OP2:227-251: the array and the return value. -/
def doMerge (add : V → V → V) (vec : List (Nat × Nat × V)) (length : Nat) : Res (List (Nat × Nat × V) × Nat) :=
  if length = 0 then .ok (vec, 0)
  else do
    let s ← forRange 1 length (vec, 0) (mergeStep add)
    .ok (s.1, s.2 + 1)

/-- The body of the loop OP:70-74. The block is converted to `uint16_t`. -/
def flopEntry (A : CSC V) (npb rownnz j : Nat) (flops : List Nat) : Res (List Nat) := do
  let r ← rd A.rowids j
  let b ← div r npb
  let x ← rd flops (b % 2 ^ 16)
  wr flops (b % 2 ^ 16) (x + rownnz)

/-- One column of `do_static_symbolic`, OP:67-75. The reduction adds up private copies of the array; here there is one. -/
def flopCol (A : CSC V) (B : CSR V) (npb : Nat) (flops : List Nat) (i : Nat) : Res (List Nat) := do
  let hi ← rd B.rowptr (i + 1)
  let lo ← rd B.rowptr i
  let b ← rd A.colptr i
  let e ← rd A.colptr (i + 1)
  forRange b e flops (flopEntry A npb (hi - lo))

/-- The sum OP:76-79 -/
def total (flops : List Nat) (nb : Nat) : Res Nat :=
  forRange 0 nb 0 fun i t => do
    let x ← rd flops i
    .ok (t + x)

/-- What is not determined by the program: as for `Outer.outerSpGEMM`, the field `sort` is the order of the loop OP:379; the order of the loop OP:391 -/
structure Sched where
  base : Outer.Sched
  merge : List Nat

/-- The body of the loop OP:379-384, OP2:411-416: sort block `b`. Of the block only the sorted part is kept. -/
def sortOne (sortf : (Nat × Nat × V → Nat) → List (Nat × Nat × V) → List (Nat × Nat × V)) (key : Nat × Nat × V → Nat)
    (g : Glob V) (vecs : List (List (Nat × Nat × V))) (b : Nat) : Res (List (List (Nat × Nat × V))) := do
  let len ← rd g.cnt b
  let a ← rd g.blk b
  let vec ← Outer.prefixOf a len
  wr vecs b (sortf key vec)

/-- The body of the loop OP:391-392, OP2:423-424. The state is the blocks and `nnz_per_row_blocker`. -/
def mergeOne (add : V → V → V) (g : Glob V) (s : List (List (Nat × Nat × V)) × List Nat) (b : Nat) : Res (List (List (Nat × Nat × V)) × List Nat) := do
  let vec ← rd s.1 b
  let len ← rd g.cnt b
  let m ← doMerge add vec len
  let vecs ← wr s.1 b m.1
  let x ← rd s.2 b
  let nnz ← wr s.2 b (x + m.2)
  .ok (vecs, nnz)

/-- The two loops OP:375-392, OP2:407-424 -/
def sortMerge (add : V → V → V) (sortf : (Nat × Nat × V → Nat) → List (Nat × Nat × V) → List (Nat × Nat × V)) (key : Nat × Nat × V → Nat) (nb : Nat)
    (sort merge : List Nat) (g : Glob V) : Res (List (List (Nat × Nat × V)) × List Nat) := do
  let vecs ← sort.foldlM (sortOne sortf key g) (List.replicate nb [])
  merge.foldlM (mergeOne add g) (vecs, List.replicate nb 0)

/-- `OuterSpGEMM_stage`, OP:237-452, with `n` threads, `nb` blocks and buffers for `width` products per block: the result and the number of products. The
sort key is the one of `outer_mult.h`; the shift is of an `int` (OP:146), which is converted to `uint32_t`. See `Outer.outerSpGEMM` for the object `C`. `none`: the schedule is too short. -/
def stage (mul add : V → V → V) (sortf : (Nat × Nat × V → Nat) → List (Nat × Nat × V) → List (Nat × Nat × V))
    (A : CSC V) (B : CSR V) (n nb width : Nat) (mem : List Nat) (sch : Sched) : Res (Option (CSR V × Nat)) := do
  let npb ← Outer.perBlock A.rows nb
  let flops ← sch.base.flop.foldlM (flopCol A B npb) (List.replicate nb 0)
  let sum ← total flops nb
  let _ ← rd flops 0
  let r ← phase n (Outer.step mul A B (fun r => div r npb) nb width sch.base.asg) (Outer.fin nb) sch.base.main
    { blk := flops.map fun f => List.replicate f none, cnt := List.replicate nb 0 } (fun _ => none)
  match r with
  | none => .ok none
  | some (g, _) => do
    let s ← sortMerge add sortf (Outer.key npb) nb sch.base.sort sch.merge g
    let r ← Outer.finish A B n nb mem s sch.base
    .ok (r.map fun C => (C, sum))

/-- The body of the loop OP2:110-119, for row `rows - 1 - k`. The state is `total_flops` and the array `reversed`. -/
def backStep (byRows iters : List Nat) (rows k : Nat) (s : Nat × List Nat) : Res (Nat × List Nat) := do
  let x ← rd byRows (rows - 1 - k)
  let it ← rd iters (rows - 1 - k)
  if k = 0 then do
    let rev ← wr s.2 (rows - 1 - k) it
    .ok (s.1 + x, rev)
  else do
    let y ← rd s.2 (rows - 1 - k + 1)
    let rev ← wr s.2 (rows - 1 - k) (y + it)
    .ok (s.1 + x, rev)

/-- `do_symbolic`, OP2:82-150, with `endIdx = A.rows` (OP2:295): `rows_to_blockers`, `flops_by_row_blockers`, `thread_rows_offset` and `total_flops`. There is no
array `blocker_row_count` as in `outer_mult2.h`; its model is kept, since it is used with the same indices as `flops_by_row_blockers` and does not influence the
rest. -/
def symbolic (A : CSC V) (B : CSR V) (n nb : Nat) : Res (List (Option Nat) × List Nat × List Nat × Nat) := do
  let fr ← forRange 0 A.rows (List.replicate A.rows 0, List.replicate A.rows 0) (Outer2.flopCol A B)
  let t ← forRange 0 A.rows (0, List.replicate A.rows 0) (backStep fr.2 fr.1 A.rows)
  let avgB ← div t.1 nb
  let avgT ← div t.1 n
  let blk ← wr (List.replicate A.rows none) 0 (some 0)
  let off ← wr (List.replicate (n + 1) 0) 0 0
  let s ← forRange 0 A.rows { bvol := 0, tvol := 0, bid := 0, tid := 1, blk := blk, flops := List.replicate nb 0, count := List.replicate nb 0, off := off }
    (Outer2.symRow fr.2 fr.1 avgB avgT)
  let off ← wr s.off s.tid A.rows
  .ok (s.blk, s.flops, off, t.1)

/-- The choices of one stage of the second kernel: as for `Outer2.outerSpGEMM`, and the order of the loop OP2:423 -/
structure Sched2 where
  base : Outer2.Sched
  merge : List Nat

/-- `OuterSpGEMM_stage`, OP2:266-484. The number of rows per block, OP2:282, is computed and not used, but the division by the number of blocks may fail. -/
def stage2 (mul add : V → V → V) (sortf : (Nat × Nat × V → Nat) → List (Nat × Nat × V) → List (Nat × Nat × V))
    (A : CSC V) (B : CSR V) (n nb width : Nat) (mem : List Nat) (sch : Sched2) : Res (Option (CSR V × Nat)) := do
  let _ ← Outer.perBlock A.rows nb
  let sym ← symbolic A B n nb
  let _ ← rd sym.2.1 0
  let r ← phase n (Outer.step mul A B (Outer2.blockOf sym.1) nb width (Outer2.colsOf sym.2.2.1)) (Outer.fin nb) sch.base.main
    { blk := sym.2.1.map fun f => List.replicate f none, cnt := List.replicate nb 0 } (fun _ => none)
  match r with
  | none => .ok none
  | some (g, _) => do
    let s ← sortMerge add sortf Outer2.key nb sch.base.sort sch.merge g
    let r ← Outer.finish A B n nb mem s sch.base.last
    .ok (r.map fun C => (C, sym.2.2.2))

/-- The loop of `OuterSpGEMM`, OP:469-473: `k + 1` runs of the stage, the last result stays. -/
def repeated {α : Type} (run : Nat → Res (Option α)) : Nat → Res (Option α)
  | 0 => run 0
  | k + 1 => do
    match ← repeated run k with
    | none => .ok none
    | some _ => run (k + 1)

/-- `OuterSpGEMM`, OP:454-487: five stages. The number is printed (OP:485). -/
def outerSpGEMM (mul add : V → V → V) (sortf : (Nat × Nat × V → Nat) → List (Nat × Nat × V) → List (Nat × Nat × V))
    (A : CSC V) (B : CSR V) (n nb width : Nat) (mem : Nat → List Nat) (sch : Nat → Sched) : Res (Option (CSR V × Nat)) :=
  repeated (fun i => stage mul add sortf A B n nb width (mem i) (sch i)) 4

/-- `OuterSpGEMM`, OP2:486-520: five stages -/
def outerSpGEMM2 (mul add : V → V → V) (sortf : (Nat × Nat × V → Nat) → List (Nat × Nat × V) → List (Nat × Nat × V))
    (A : CSC V) (B : CSR V) (n nb width : Nat) (mem : Nat → List Nat) (sch : Nat → Sched2) : Res (Option (CSR V × Nat)) :=
  repeated (fun i => stage2 mul add sortf A B n nb width (mem i) (sch i)) 4

end Verif.Model.Profile
