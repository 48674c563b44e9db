import Verif.Model.Common
import Verif.Model.Scan

/-!
# The generic drivers

Models `MaskedSpGEMM1p` and `MaskedSpGEMM2p`, `/repo/spgemm-blocks/masked-spgemm.h`,
for an arbitrary row algorithm.

Simplifications. Accumulators own their memory; `initN`/`initS` give the state
after `setBuffer` (the byte-level buffer handling is modelled in
`Verif.Model.Memory`). A row algorithm returns the list of pairs it stores
through `currColId`/`currValue`; the driver checks each of these stores against
the bounds of the destination. Thread-private work between two shared writes is
one step.
-/

namespace Verif.Model

open Scan (rdu exclusiveScan)

/-- The template parameter `RowAlgorithm`, see masked-spgemm.h:20-21, 48-58 for what
the drivers use. -/
structure RowAlg (V : Type) where
  /-- numeric accumulator -/
  N : Type
  /-- symbolic accumulator -/
  S : Type
  /-- `COMPLEMENTED` -/
  compl : Bool
  /-- `CALC_MAX_ROW_SIZE_A` -/
  calcA : Bool
  /-- `CALC_MAX_ROW_SIZE_M` -/
  calcM : Bool
  /-- `CALC_MAX_ROW_FLOPS` -/
  calcF : Bool
  /-- constructor and `getNumericAccumulator().setBuffer(..)`; the first argument is `B.cols` -/
  initN : Nat → Sizes → N
  /-- constructor and `getSymbolicAccumulator().setBuffer(..)` -/
  initS : Nat → Sizes → S
  /-- `numericRow(A, B, M, multop, addop, row, currColId, currValue, flops)` -/
  numRow : (V → V → V) → (V → V → V) → CSR V → CSR V → CSR V → Nat → Nat → N → Res (N × List (Nat × V))
  /-- `symbolicRow(A, B, M, row, rowNvals, flops)`; the result is the value stored in `rowNvals[row]` -/
  symRow : CSR V → CSR V → CSR V → Nat → Nat → S → Res (S × Nat)

variable {V : Type}

/-- Shared memory of a parallel region: `rowNvals`, `threadsNvals` and the arrays of
the result. -/
structure Sh (V : Type) where
  rowNvals : List (Option Nat)
  threadsNvals : List (Option Nat)
  rowptr : List (Option Nat) := []
  colids : List (Option Nat) := []
  values : List (Option V) := []

/-- Schedules for the parallel regions of one call: the order of the flops loop, the
two parts of the scan, the part before and the part after the barriers. -/
structure Scheds where
  flops : List Nat
  scan1 : List Nat
  scan2 : List Nat
  first : List Nat
  second : List Nat

/-- Everything before the parallel region, masked-spgemm.h:24-38 and 106-120:
`flopsPerRow`, the total and the cumulative work. -/
def prepare (compl : Bool) (A B M : CSR V) (n : Nat) (sch : Scheds) :
    Res (Option (List (Option Nat) × Nat × List (Option Nat))) := do
  verifyInputs A B M
  let (fpr, flops) ← calculateFlops compl A B M sch.flops
  let r ← exclusiveScan fpr A.rows (List.replicate A.rows none) n sch.scan1 sch.scan2
  match r with
  | none => .ok none
  | some cum => .ok (some (fpr, flops, cum))

/-- Body of `initC`, common.h:152-166, with the row count of `A`. Cells start unset. -/
def initC (rows n : Nat) (g : Sh V) : Res (Sh V) := do
  let nnz ← accumulate g.threadsNvals n
  .ok { g with
    rowptr := List.replicate (rows + 1) none
    colids := List.replicate nnz none
    values := List.replicate nnz none }

/-- Read the result object back as a matrix. Every cell must have been written.
`zb` is the `zerobased` flag of the result object, which no driver touches. -/
def freeze (rows cols : Nat) (zb : Bool) (g : Sh V) : Res (CSR V) := do
  let rowptr ← g.rowptr.mapM use
  let colids ← g.colids.mapM use
  let values ← g.values.mapM use
  .ok { rows := rows, cols := cols, nnz := g.colids.length, rowptr := rowptr, colids := colids,
        values := values, zerobased := zb }

/-! ## One-phase driver -/

/-- Local state of a thread in the first part of the region. `out` is what has been
stored behind `colIdsLocal`/`valuesLocal` (their length is `cap`). -/
structure L1 (N V : Type) where
  row : Nat
  acc : N
  out : List (Nat × V)
  cap : Nat
  stop : Nat
  done : Bool := false

/-- masked-spgemm.h:45-68: set-up of a thread -/
def init1 (alg : RowAlg V) (A B M : CSR V) (n : Nat) (fpr : List (Option Nat)) (flops : Nat)
    (cum : List (Option Nat)) (t : Nat) : Res (L1 alg.N V) := do
  let (b, e) ← distributeWork flops cum A.rows n t
  let sz ← scanInputs alg.compl true alg.calcA alg.calcM alg.calcF b e fpr A M
  .ok { row := b, acc := alg.initN B.cols sz, out := [], cap := sz.sizeC, stop := e }

/-- masked-spgemm.h:69-78: one row per step, then `threadsNvals[thisThread]` -/
def step1 (alg : RowAlg V) (mul add : V → V → V) (A B M : CSR V) (fpr : List (Option Nat)) (t : Nat)
    (g : Sh V) (l : L1 alg.N V) : Res (Sh V × L1 alg.N V) :=
  if l.row < l.stop then do
    let f ← rdu fpr l.row
    if f ≠ 0 then do
      let (acc, em) ← alg.numRow mul add A B M l.row f l.acc
      if l.out.length + em.length ≤ l.cap then do
        let rn ← wr g.rowNvals l.row (some em.length)
        .ok ({ g with rowNvals := rn }, { l with row := l.row + 1, acc := acc, out := l.out ++ em })
      else .error .oob
    else do
      let rn ← wr g.rowNvals l.row (some 0)
      .ok ({ g with rowNvals := rn }, { l with row := l.row + 1 })
  else do
    let tn ← wr g.threadsNvals t (some l.out.length)
    .ok ({ g with threadsNvals := tn }, { l with done := true })

/-- Control of a thread in the second part of the one-phase region. -/
inductive Ctl3 where
  | start
  | offs (i off : Nat)
  | last (off : Nat)
  | baseC
  | copyC (base : Option Nat) (k : Nat)
  | baseV
  | copyV (base : Option Nat) (k : Nat)
  | done
  deriving DecidableEq

/-- `setRowOffsets` (common.h:169-179) and `copyValuesToC` (common.h:182-185), called
in masked-spgemm.h:87-88. `b`, `e` is the row range and `out` the private buffers. -/
def step3 (rows n : Nat) (rng : Nat → Nat × Nat) (outs : Nat → List (Nat × V)) (t : Nat) (g : Sh V)
    (c : Ctl3) : Res (Sh V × Ctl3) :=
  match c with
  | .start => do
    let off ← accumulate g.threadsNvals t
    .ok (g, .offs (rng t).1 off)
  | .offs i off =>
    if i < (rng t).2 then do
      let rp ← wr g.rowptr i (some off)
      let k ← rdu g.rowNvals i
      .ok ({ g with rowptr := rp }, .offs (i + 1) (off + k))
    else .ok (g, .last off)
  | .last off =>
    if t = n - 1 then do
      let rp ← wr g.rowptr rows (some off)
      .ok ({ g with rowptr := rp }, .baseC)
    else .ok (g, .baseC)
  | .baseC => do
    let base ← rd g.rowptr (rng t).1
    .ok (g, .copyC base 0)
  | .copyC base k => do
    let cnt ← rdu g.threadsNvals t
    if k < cnt then do
      let d ← use base
      let x ← rd (outs t) k
      let cs ← wr g.colids (d + k) (some x.1)
      .ok ({ g with colids := cs }, .copyC base (k + 1))
    else .ok (g, .baseV)
  | .baseV => do
    let base ← rd g.rowptr (rng t).1
    .ok (g, .copyV base 0)
  | .copyV base k => do
    let cnt ← rdu g.threadsNvals t
    if k < cnt then do
      let d ← use base
      let x ← rd (outs t) k
      let vs ← wr g.values (d + k) (some x.2)
      .ok ({ g with values := vs }, .copyV base (k + 1))
    else .ok (g, .done)
  | .done => .ok (g, .done)

/-- Set-up of all threads of a region; a thread that fails makes the call fail. -/
def setup {l : Type} (n : Nat) (f : Nat → Res l) : Res (List l) := (List.range n).mapM f

/-- `MaskedSpGEMM1p`, masked-spgemm.h:18-95. `none` means that a schedule ended before
all threads reached the next barrier. -/
def spgemm1p (alg : RowAlg V) (mul add : V → V → V) (A B M : CSR V) (zb : Bool) (numThreads dflt : Nat)
    (sch : Scheds) : Res (Option (CSR V)) := do
  let n := setNumThreads numThreads dflt
  let p ← prepare alg.compl A B M n sch
  match p with
  | none => .ok none
  | some (fpr, flops, cum) => do
    let ls ← setup n (init1 alg A B M n fpr flops cum)
    let rngs ← setup n (distributeWork flops cum A.rows n)
    let g : Sh V := { rowNvals := List.replicate A.rows none, threadsNvals := List.replicate n none }
    match ls with
    | [] => .ok none
    | l0 :: _ => do
      let r ← phase n (step1 alg mul add A B M fpr) (·.done) sch.first g (fun t => ls.getD t l0)
      match r with
      | none => .ok none
      | some (g, ls) => do
        let g ← initC A.rows n g
        let r ← phase n (step3 A.rows n (fun t => rngs.getD t (0, 0)) (fun t => (ls t).out)) (· == .done)
          sch.second g (fun _ => .start)
        match r with
        | none => .ok none
        | some (g, _) => do
          let C ← freeze A.rows B.cols zb g
          .ok (some C)

/-! ## Two-phase driver -/

/-- Local state of a thread in the symbolic part. -/
structure L2 (S : Type) where
  row : Nat
  acc : S
  nvals : Nat
  stop : Nat
  done : Bool := false

/-- masked-spgemm.h:127-145: set-up of a thread; `maxFlops`, ... are shared by both accumulators -/
def init2 (alg : RowAlg V) (A B M : CSR V) (n : Nat) (fpr : List (Option Nat)) (flops : Nat)
    (cum : List (Option Nat)) (t : Nat) : Res (L2 alg.S × alg.N) := do
  let (b, e) ← distributeWork flops cum A.rows n t
  let sz ← scanInputs alg.compl false alg.calcA alg.calcM alg.calcF b e fpr A M
  .ok ({ row := b, acc := alg.initS B.cols sz, nvals := 0, stop := e }, alg.initN B.cols sz)

/-- masked-spgemm.h:146-154: one row per step, then `threadsNvals[thisThread]` -/
def step2 (alg : RowAlg V) (A B M : CSR V) (fpr : List (Option Nat)) (t : Nat)
    (g : Sh V) (l : L2 alg.S) : Res (Sh V × L2 alg.S) :=
  if l.row < l.stop then do
    let f ← rdu fpr l.row
    if f ≠ 0 then do
      let (acc, k) ← alg.symRow A B M l.row f l.acc
      let rn ← wr g.rowNvals l.row (some k)
      let k ← rdu rn l.row
      .ok ({ g with rowNvals := rn }, { l with row := l.row + 1, acc := acc, nvals := l.nvals + k })
    else do
      let rn ← wr g.rowNvals l.row (some 0)
      let k ← rdu rn l.row
      .ok ({ g with rowNvals := rn }, { l with row := l.row + 1, nvals := l.nvals + k })
  else do
    let tn ← wr g.threadsNvals t (some l.nvals)
    .ok ({ g with threadsNvals := tn }, { l with done := true })

/-- Control of a thread in the numeric part of the two-phase region. `cur` is the
offset of `currColId` and `currValue` (unset if `rowptr[rowBeginIdx]` was read
before it was written). -/
inductive Ctl4 (V : Type) where
  | start
  | offs (i off : Nat)
  | last (off : Nat)
  | base
  | row (r : Nat) (cur : Option Nat)
  | flushC (r : Nat) (em : List (Nat × V)) (cur : Option Nat)
  | flushV (r : Nat) (v : V) (em : List (Nat × V)) (cur : Option Nat)
  | done

/-- Local state of a thread in the numeric part. -/
structure L4 (N V : Type) where
  ctl : Ctl4 V
  acc : N

/-- has the thread reached the end of the region? -/
def L4.fin {N V : Type} (l : L4 N V) : Bool :=
  match l.ctl with
  | .done => true
  | _ => false

/-- `setRowOffsets` (common.h:169-179) and the numeric loop, masked-spgemm.h:164-173.
The stores of `numericRow` become one step per cell. -/
def step4 (alg : RowAlg V) (mul add : V → V → V) (A B M : CSR V) (n : Nat) (rng : Nat → Nat × Nat)
    (t : Nat) (g : Sh V) (l : L4 alg.N V) : Res (Sh V × L4 alg.N V) :=
  match l.ctl with
  | .start => do
    let off ← accumulate g.threadsNvals t
    .ok (g, { l with ctl := .offs (rng t).1 off })
  | .offs i off =>
    if i < (rng t).2 then do
      let rp ← wr g.rowptr i (some off)
      let k ← rdu g.rowNvals i
      .ok ({ g with rowptr := rp }, { l with ctl := .offs (i + 1) (off + k) })
    else .ok (g, { l with ctl := .last off })
  | .last off =>
    if t = n - 1 then do
      let rp ← wr g.rowptr A.rows (some off)
      .ok ({ g with rowptr := rp }, { l with ctl := .base })
    else .ok (g, { l with ctl := .base })
  | .base => do
    let cur ← rd g.rowptr (rng t).1
    .ok (g, { l with ctl := .row (rng t).1 cur })
  | .row r cur =>
    if r < (rng t).2 then do
      let k ← rdu g.rowNvals r
      if k = 0 then .ok (g, { l with ctl := .row (r + 1) cur })
      else do
        let (acc, em) ← alg.numRow mul add A B M r k l.acc
        .ok (g, { ctl := .flushC r em cur, acc := acc })
    else .ok (g, { l with ctl := .done })
  | .flushC r em cur =>
    match em with
    | [] => .ok (g, { l with ctl := .row (r + 1) cur })
    | (c, v) :: em => do
      let d ← use cur
      let cs ← wr g.colids d (some c)
      .ok ({ g with colids := cs }, { l with ctl := .flushV r v em cur })
  | .flushV r v em cur => do
    let d ← use cur
    let vs ← wr g.values d (some v)
    .ok ({ g with values := vs }, { l with ctl := .flushC r em (some (d + 1)) })
  | .done => .ok (g, l)

/-- `MaskedSpGEMM2p`, masked-spgemm.h:98-193. The result is built in the local object
`R` and moved to `C` at the end (181-192); `C.zerobased` keeps its old value `zb`. -/
def spgemm2p (alg : RowAlg V) (mul add : V → V → V) (A B M : CSR V) (zb : Bool) (numThreads dflt : Nat)
    (sch : Scheds) : Res (Option (CSR V)) := do
  let n := setNumThreads numThreads dflt
  let p ← prepare alg.compl A B M n sch
  match p with
  | none => .ok none
  | some (fpr, flops, cum) => do
    let ls ← setup n (init2 alg A B M n fpr flops cum)
    let rngs ← setup n (distributeWork flops cum A.rows n)
    let g : Sh V := { rowNvals := List.replicate A.rows none, threadsNvals := List.replicate n none }
    match ls with
    | [] => .ok none
    | l0 :: _ => do
      let r ← phase n (step2 alg A B M fpr) (·.done) sch.first g (fun t => (ls.getD t l0).1)
      match r with
      | none => .ok none
      | some (g, _) => do
        let g ← initC A.rows n g
        let r ← phase n (step4 alg mul add A B M n (fun t => rngs.getD t (0, 0))) (·.fin)
          sch.second g (fun t => { ctl := .start, acc := (ls.getD t l0).2 })
        match r with
        | none => .ok none
        | some (g, _) => do
          let C ← freeze A.rows B.cols zb g
          .ok (some C)

end Verif.Model
