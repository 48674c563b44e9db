import Verif.Model.Msa
import Verif.Model.Threads
import Verif.Model.Tuples

/-!
# The statistics per row

Models `setRowData` and `printRowData` of `/repo/benchmarks/TriCntAll.cpp` (called TCA below), lines 37-150.

Simplifications. Integers of type `IT` and `long` in `setRowData` are unbounded. The inner `parallel for` TCA:63 is inside of a parallel
region; nested regions are not active (the default), so every thread of the outer region executes all rows, with its own accumulator.
Formatting is left out: a line of the output is the list of its fields.
-/

namespace Verif.Model.RowData

open Tuples (div)
open Msa (SAcc)

variable {V : Type}

/-- `currRowFlops`, TCA:70-75 -/
def flops (A B : CSR V) (row : Nat) : Res Nat := do
  let lo ← rd A.rowptr row
  let hi ← rd A.rowptr (row + 1)
  forRange lo hi 0 fun j f => do
    let inner ← rd A.colids j
    let e ← rd B.rowptr (inner + 1)
    let b ← rd B.rowptr inner
    .ok (f + (e - b))

/-- The body of the loop TCA:92-103 for one product in column `c`. The state is the accumulator, `currRowNvals` and `currRowNflops`. -/
def count (c : Nat) (s : SAcc × Nat × Nat) : Res (SAcc × Nat × Nat) := do
  let st ← s.1.getState c
  if st = Msa.NOT_ALLOWED false then .ok s
  else if st = Msa.ALLOWED false then do
    let acc ← s.1.putState c Msa.INITIALIZED
    .ok (acc, s.2.1 + 1, s.2.2 + 1)
  else do
    check (st == Msa.INITIALIZED)
    .ok (s.1, s.2.1, s.2.2 + 1)

/-- TCA:79-113 for one row: the accumulator and the two values that are stored, `rowFlopsMasked[row]` and `rowNvals[row]`. -/
def masked (A B M : CSR V) (row : Nat) (acc : SAcc) : Res (SAcc × Nat × Nat) := do
  let acc ← maskLoop M row acc fun c acc => acc.setAllowed false c
  let s ← nest A B row (acc, 0, 0) fun _ k s => do
    let c ← rd B.colids k
    count c s
  let acc ← maskLoop M row s.1 fun c acc => acc.clear false c
  .ok (acc, s.2.2, s.2.2)

/-- The loop body TCA:64-114: the accumulator and the values that are stored in `ncols`, `rowSizesA`, `rowSizesM`, `rowFlops`,
`rowFlopsMasked`, `rowNvals`. -/
def rowStats (A B M : CSR V) (row : Nat) (acc : SAcc) : Res (SAcc × List Nat) := do
  let a1 ← rd A.rowptr (row + 1)
  let a0 ← rd A.rowptr row
  let m1 ← rd M.rowptr (row + 1)
  let m0 ← rd M.rowptr row
  let f ← flops A B row
  let r ← masked A B M row acc
  .ok (r.1, [B.cols, a1 - a0, m1 - m0, f, r.2.1, r.2.2])

/-- A thread: the accumulator, the next row, and what it still has to store for the row before (array, value). -/
structure Loc where
  acc : SAcc
  row : Nat
  todo : List (Nat × Nat)

/-- The start of a thread, TCA:57-61: `getCleanMemory` with everything dirty fills the states with 0xFF, the default state. -/
def start (A : CSR V) : Loc := { acc := { states := List.replicate A.cols (Msa.DEFAULT false), dirty := [] }, row := 0, todo := [] }

/-- Store `data[a][row] = v` -/
def store (g : List (List (Option Nat))) (a row v : Nat) : Res (List (List (Option Nat))) := do
  let arr ← rd g a
  let arr ← wr arr row (some v)
  wr g a arr

/-- One step of a thread: it stores one value, or it takes the next row. The first four values are stored before the others are computed
(TCA:65-75), which makes no difference unless the computation fails. -/
def step (A B M : CSR V) (_t : Nat) (g : List (List (Option Nat))) (l : Loc) : Res (List (List (Option Nat)) × Loc) :=
  match l.todo with
  | (a, v) :: rest => do
    let g ← store g a (l.row - 1) v
    .ok (g, { l with todo := rest })
  | [] => do
    let r ← rowStats A B M l.row l.acc
    .ok (g, { acc := r.1, row := l.row + 1, todo := (List.range 6).zip r.2 })

/-- The thread has left the region. -/
def fin (A : CSR V) (l : Loc) : Bool := l.todo.isEmpty && decide (A.rows ≤ l.row)

/-- `setRowData`, TCA:37-119: the six arrays, from `operator new`, that are appended to `data`, with `n` threads. `none`: the schedule is too
short. -/
def setRowData (A B M : CSR V) (n : Nat) (sched : List Nat) : Res (Option (List (List (Option Nat)))) := do
  let r ← phase n (step A B M) (fin A) sched (List.replicate 6 (List.replicate A.rows none)) (fun _ => start A)
  .ok (r.map (·.1))

/-! ## Printing -/

/-- Conversion to a signed type with values below `W / 2` (`W` a power of two) -/
def toSigned (W : Nat) (x : Int) : Int := Int.bmod x W

/-- `std::accumulate(times.begin(), times.begin() + nsamples, 0)`, TCA:142. The initial value is an `int`, so every sum is converted to
`int`. -/
def accumulate (ts : List Int) : Int := ts.foldl (fun a x => toSigned (2 ^ 32) (a + x)) 0

/-- `long avg = std::accumulate(…) / nsamples`, TCA:142: `nsamples` is unsigned, so the sum is converted to an unsigned number of 64 bits. -/
def average (ts : List Int) (nsamples : Nat) : Res Int := do
  if ts.length < nsamples then .error .oob
  else do
    let q ← div (accumulate (ts.take nsamples) % 2 ^ 64).toNat nsamples
    .ok (toSigned (2 ^ 64) q)

/-- `times[iter] = data[nh + algNum * niter + iter][i]` for all `iter`, TCA:138-140 -/
def times (data : List (List Int)) (nh niter alg i : Nat) : Res (List Int) :=
  (List.range niter).mapM fun iter => do
    let arr ← rd data (nh + alg * niter + iter)
    rd arr i

/-- One line, TCA:131-148 -/
def line (data : List (List Int)) (nh niter nsamples nalg i : Nat) : Res (List Int) := do
  let hd ← (List.range nh).mapM fun j => do
    let arr ← rd data j
    rd arr i
  let tl ← (List.range nalg).mapM fun alg => do
    let ts ← times data nh niter alg i
    average (ts.mergeSort (fun a b => decide (a ≤ b))) nsamples
  .ok (hd ++ tl)

/-- `nh`, TCA:123: the subtraction is in `size_t`. -/
def heads (data : List (List Int)) (niter nalg : Nat) : Nat := (data.length + (2 ^ 64 - niter * nalg % 2 ^ 64)) % 2 ^ 64

/-- `printRowData`, TCA:121-150: the names in the first line and the lines of numbers. -/
def printRowData (data : List (List Int)) (nrows niter nsamples : Nat) (names : List String) : Res (List String × List (List Int)) := do
  let rows ← (List.range nrows).mapM (line data (heads data niter names.length) niter nsamples names.length)
  .ok (["NCOLS", "ROW_SIZE_A", "ROW_SIZE_M", "ROW_FLOPS", "ROW_FLOPS_MASKED", "ROW_NVALS"] ++ names, rows)

end Verif.Model.RowData
