import Verif.Model.Common
import Verif.Model.UtilScan
import Verif.Model.Hash
import Verif.Model.Blocks

/-!
# Work partition of the older kernels

Models `/repo/BIN.h`. All arrays come from `my_malloc`, which fills them with `T()`, so all cells are set. Integers are
unbounded. `create_global_hash_table` and `set_min_bin` are not called and not modelled.
-/

namespace Verif.Model.Bin

variable {V : Type}

/-- Body of the loop of `set_intprod_num`, BIN.h:95-99: the number of products of row `i`. -/
def intprodRow (A B : CSR V) (i : Nat) : Res Nat := do
  let lo ← rd A.rowptr i
  let hi ← rd A.rowptr (i + 1)
  forRange lo hi 0 fun j nz => do
    let c ← rd A.colids j
    let e ← rd B.rowptr (c + 1)
    let b ← rd B.rowptr c
    .ok (nz + (e - b))

/-- `set_intprod_num`, BIN.h:88-107, iterations in the order `order`. `row_nz` and `total_intprod`. The sums of the threads
are added to the total at the end there; here each row is added at once. -/
def setIntprodNum (A B : CSR V) (order : List Nat) (rowNz : List Nat) : Res (List Nat × Nat) :=
  order.foldlM (fun (rowNz, total) i => do
    let nz ← intprodRow A B i
    let rowNz ← wr rowNz i nz
    .ok (rowNz, total + nz)) (rowNz, 0)

/-- `set_rows_offset`, BIN.h:110-131, for `n` threads, which run in the order `orderT`. `nd` is the default team size, used
by the prefix sum, with its schedules `s1` and `s2`. `none`: the schedule is too short. -/
def setRowsOffset (rowNz : List Nat) (total rows n nd : Nat) (s1 s2 orderT : List Nat) : Res (Option (List Nat)) := do
  let r ← UtilScan.scan rowNz (rows + 1) (List.replicate (rows + 1) 0) nd s1 s2
  match r with
  | none => .ok none
  | some ps => do
    let average := (total + n - 1) / n
    let off ← wr (List.replicate (n + 1) 0) 0 0
    let off ← orderT.foldlM (fun off t => do
      let e ← lowerBound (ps.map some) (rows + 1) (average * (t + 1))
      wr off (t + 1) (if e > rows then rows else e)) off
    let off ← wr off n rows
    .ok (some off)

/-- The loop BIN.h:197-199, `while (nz_per_row > (min << j)) j++`. If `min` is positive at most `nz_per_row` rounds are
needed, so running out of `fuel` means that the loop never ends. -/
def binIdx (nz min : Nat) : (fuel : Nat) → (j : Nat) → Res Nat
  | 0, _ => .error .diverge
  | fuel + 1, j => if nz > min <<< j then binIdx nz min fuel (j + 1) else .ok j

/-- Body of the loop of `set_bin_id`, BIN.h:189-201 -/
def binIdOf (nz cols min : Nat) : Res Nat :=
  let nz := if nz > cols then cols else nz
  if nz = 0 then .ok 0
  else do
    let j ← binIdx nz min (nz + 1) 0
    .ok (j + 1)

/-- `set_bin_id`, BIN.h:184-203, iterations in the order `order` -/
def setBinId (rowNz : List Nat) (cols min : Nat) (order : List Nat) (binId : List Nat) : Res (List Nat) :=
  order.foldlM (fun binId i => do
    let nz ← rd rowNz i
    let b ← binIdOf nz cols min
    wr binId i b) binId

/-- The partition: `row_nz`, `rows_offset`, `bin_id` -/
structure Part where
  rowNz : List Nat
  rowsOffset : List Nat
  binId : List Nat

/-- Schedules of the calls below: orders of the loops over rows and over threads, schedules of the prefix sum -/
structure Sched where
  intprod : List Nat
  s1 : List Nat
  s2 : List Nat
  threads : List Nat
  ids : List Nat

/-- The constructor `BIN(rows, ht_size, threadCount)`, BIN.h:41-49, followed by `set_max_bin`, BIN.h:206-211 -/
def setMaxBin (A B : CSR V) (rows cols minHt n nd : Nat) (sch : Sched) : Res (Option Part) := do
  check (decide (rows ≠ 0))
  let (rowNz, total) ← setIntprodNum A B sch.intprod (List.replicate rows 0)
  let r ← setRowsOffset rowNz total rows n nd sch.s1 sch.s2 sch.threads
  match r with
  | none => .ok none
  | some off => do
    let binId ← setBinId rowNz cols minHt sch.ids (List.replicate rows 0)
    .ok (some { rowNz := rowNz, rowsOffset := off, binId := binId })

/-- Size of the table of a thread, `create_local_hash_table`, BIN.h:139-150, for a block of rows. -/
def localSize (rowNz : List Nat) (cols minHt lo hi : Nat) : Res Nat := do
  let m ← forRange lo hi 0 fun j m => do
    let x ← rd rowNz j
    .ok (if m < x then x else m)
  if m > 0 then
    let m := if m > cols then cols else m
    .ok (Hash.grow m m minHt)
  else .ok 0

end Verif.Model.Bin
