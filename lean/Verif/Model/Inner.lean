import Verif.Model.Driver

/-!
# Inner-product multiply

Models `/repo/spgemm-blocks/inner/InnerAlgorithm.h`, the drivers
`/repo/spgemm-blocks/masked-spgemm-inner.h` and their manually inlined copy
`/repo/spgemm-blocks/inner/MaskedInnerSpGEMM.h` (the same statements with the row
functions written out).

Simplifications: as in `Verif.Model.Driver`. `active` and `value` are one optional value.
-/

namespace Verif.Model.Inner

open Scan (rdu exclusiveScan)

variable {V : Type}

/-! ## Row functions -/

/-- The loop InnerAlgorithm.h:53-68. Each turn advances a position, so the sum of the remaining lengths is enough
`fuel`. -/
def mergeNum (mul add : V → V → V) (A : CSR V) (B : CSC V) (ae be : Nat) : Nat → Nat → Nat → Option V → Res (Option V)
  | 0, _, _, _ => .error .diverge
  | fuel + 1, ia, ib, v => do
    let a ← rd A.colids ia
    let b ← rd B.rowids ib
    if a < b then
      if ia + 1 = ae then .ok v else mergeNum mul add A B ae be fuel (ia + 1) ib v
    else if b < a then
      if ib + 1 = be then .ok v else mergeNum mul add A B ae be fuel ia (ib + 1) v
    else do
      let x ← rd A.values ia
      let y ← rd B.values ib
      let v := match v with
        | some w => add w (mul x y)
        | none => mul x y
      if ia + 1 = ae then .ok (some v)
      else if ib + 1 = be then .ok (some v)
      else mergeNum mul add A B ae be fuel (ia + 1) (ib + 1) (some v)

/-- The loop InnerAlgorithm.h:22-31: is there a common position? -/
def mergeSym (A : CSR V) (B : CSC V) (ae be : Nat) : Nat → Nat → Nat → Res Bool
  | 0, _, _ => .error .diverge
  | fuel + 1, ia, ib => do
    let a ← rd A.colids ia
    let b ← rd B.rowids ib
    if a < b then
      if ia + 1 = ae then .ok false else mergeSym A B ae be fuel (ia + 1) ib
    else if b < a then
      if ib + 1 = be then .ok false else mergeSym A B ae be fuel ia (ib + 1)
    else .ok true

/-- `symbolicRow`, InnerAlgorithm.h:10-35; MaskedInnerSpGEMM.h:143-166 -/
def symbolicRow (A : CSR V) (B : CSC V) (M : CSR V) (row : Nat) : Res Nat := do
  let lo ← rd M.rowptr row
  let hi ← rd M.rowptr (row + 1)
  forRange lo hi 0 fun j cnt => do
    let ia ← rd A.rowptr row
    let ae ← rd A.rowptr (row + 1)
    if ia = ae then .ok cnt
    else do
      let c ← rd M.colids j
      let ib ← rd B.colptr c
      let be ← rd B.colptr (c + 1)
      if ib = be then .ok cnt
      else do
        let found ← mergeSym A B ae be ((ae - ia) + (be - ib)) ia ib
        .ok (if found then cnt + 1 else cnt)

/-- `numericRow`, InnerAlgorithm.h:39-75; MaskedInnerSpGEMM.h:56-89 and 190-223. The result is what is stored
through `currColId` and `currValue`. -/
def numericRow (mul add : V → V → V) (A : CSR V) (B : CSC V) (M : CSR V) (row : Nat) : Res (List (Nat × V)) := do
  let lo ← rd M.rowptr row
  let hi ← rd M.rowptr (row + 1)
  forRange lo hi [] fun j out => do
    let ia ← rd A.rowptr row
    let ae ← rd A.rowptr (row + 1)
    if ia = ae then .ok out
    else do
      let c ← rd M.colids j
      let ib ← rd B.colptr c
      let be ← rd B.colptr (c + 1)
      if ib = be then .ok out
      else do
        let v ← mergeNum mul add A B ae be ((ae - ia) + (be - ib)) ia ib none
        match v with
        | none => .ok out
        | some v => do
          let c ← rd M.colids j
          .ok (out ++ [(c, v)])

/-! ## Before the parallel region -/

/-- `verifyInputs`, common.h:17-21 -/
def verifyInputs (A : CSR V) (B : CSC V) (M : CSR V) : Res Unit := do
  check (A.cols == B.rows)
  check (M.rows == A.rows)
  check (M.cols == B.cols)

/-- Body of the loop in `calculateWork`, common.h:91-96 -/
def workRow (A : CSR V) (B : CSC V) (M : CSR V) (i : Nat) : Res Nat := do
  let lo ← rd M.rowptr i
  let hi ← rd M.rowptr (i + 1)
  forRange lo hi 0 fun j w => do
    let lenA ← rowLen A i
    let c ← rd M.colids j
    let bhi ← rd B.colptr (c + 1)
    let blo ← rd B.colptr c
    let lenB := bhi - blo
    .ok (if lenA ≠ 0 ∧ lenB ≠ 0 then w + (lenA + lenB) else w)

/-- `calculateWork`, common.h:86-102; the iterations of the `parallel for` are executed in some `order`. -/
def calculateWork (A : CSR V) (B : CSC V) (M : CSR V) (order : List Nat) : Res (List (Option Nat) × Nat) :=
  order.foldlM (fun (wpr, work) i => do
    let w ← workRow A B M i
    let wpr ← wr wpr i (some w)
    .ok (wpr, work + w)) (List.replicate M.rows none, 0)

/-- masked-spgemm-inner.h:13-22 and 80-89: `workPerRow`, the total and the cumulative work -/
def prepare (A : CSR V) (B : CSC V) (M : CSR V) (n : Nat) (sch : Scheds) :
    Res (Option (List (Option Nat) × Nat × List (Option Nat))) := do
  verifyInputs A B M
  let (wpr, work) ← calculateWork A B M sch.flops
  let r ← exclusiveScan wpr M.rows (List.replicate M.rows none) n sch.scan1 sch.scan2
  match r with
  | none => .ok none
  | some cum => .ok (some (wpr, work, cum))

/-! ## One-phase driver -/

/-- Shared memory: `colIds` and `values` (masked-spgemm-inner.h:29-30) are shared by all threads. -/
structure Sh1 (V : Type) extends Sh V where
  tmpC : List (Option Nat)
  tmpV : List (Option V)

/-- Control of a thread before the barrier. -/
inductive Ctl1 (V : Type) where
  | row
  | num
  | flushC (em : List (Nat × V))
  | flushV (v : V) (em : List (Nat × V))
  | done

/-- Local state of a thread: `cur` is the position of `currColId` and `currValue` in the shared buffers, `base`
that of `colIdsLocal`, `beg` that of `rowColIdBegin`. -/
structure L1 (V : Type) where
  row : Nat
  stop : Nat
  base : Nat
  cur : Nat
  beg : Nat
  ctl : Ctl1 V

/-- has the thread reached the barrier? -/
def L1.fin (l : L1 V) : Bool :=
  match l.ctl with
  | .done => true
  | _ => false

/-- masked-spgemm-inner.h:34-44 -/
def init1 (A M : CSR V) (n work : Nat) (cum : List (Option Nat)) (t : Nat) : Res (L1 V) := do
  let (b, e) ← distributeWork work cum A.rows n t
  let base ← rd M.rowptr b
  .ok { row := b, stop := e, base := base, cur := base, beg := base, ctl := .row }

/-- masked-spgemm-inner.h:47-57. The stores of `numericRow` become one step per cell. -/
def step1 (mul add : V → V → V) (A : CSR V) (B : CSC V) (M : CSR V) (wpr : List (Option Nat)) (t : Nat)
    (g : Sh1 V) (l : L1 V) : Res (Sh1 V × L1 V) :=
  match l.ctl with
  | .row =>
    if l.row < l.stop then do
      let w ← rdu wpr l.row
      if w = 0 then do
        let rn ← wr g.rowNvals l.row (some 0)
        .ok ({ g with rowNvals := rn }, { l with ctl := .num })
      else .ok (g, { l with ctl := .num })
    else do
      let tn ← wr g.threadsNvals t (some (l.cur - l.base))
      .ok ({ g with threadsNvals := tn }, { l with ctl := .done })
  | .num => do
    let em ← numericRow mul add A B M l.row
    .ok (g, { l with beg := l.cur, ctl := .flushC em })
  | .flushC [] => do
    let rn ← wr g.rowNvals l.row (some (l.cur - l.beg))
    .ok ({ g with rowNvals := rn }, { l with row := l.row + 1, ctl := .row })
  | .flushC ((c, v) :: em) => do
    let tc ← wr g.tmpC l.cur (some c)
    .ok ({ g with tmpC := tc }, { l with ctl := .flushV v em })
  | .flushV v em => do
    let tv ← wr g.tmpV l.cur (some v)
    .ok ({ g with tmpV := tv }, { l with cur := l.cur + 1, ctl := .flushC em })
  | .done => .ok (g, l)

/-- What `copyValuesToC` will read from the buffers of thread `t` (masked-spgemm-inner.h:67; nobody writes the
buffers any more). -/
def readTmp (g : Sh1 V) (base : Nat) (t : Nat) : Res (List (Nat × V)) := do
  let cnt ← rdu g.threadsNvals t
  (List.range cnt).mapM fun k => do
    let c ← rdu g.tmpC (base + k)
    let v ← rdu g.tmpV (base + k)
    .ok (c, v)

/-- `MaskedSpGEMM1p` for CSR times CSC, masked-spgemm-inner.h:6-71; MaskedInnerSpGEMM.h:13-107 -/
def spgemm1p (mul add : V → V → V) (A : CSR V) (B : CSC V) (M : CSR V) (zb : Bool) (numThreads dflt : Nat)
    (sch : Scheds) : Res (Option (CSR V)) := do
  let n := setNumThreads numThreads dflt
  let p ← prepare A B M n sch
  match p with
  | none => .ok none
  | some (wpr, work, cum) => do
    let ls ← setup n (init1 A M n work cum)
    let rngs ← setup n (distributeWork work cum A.rows n)
    let g : Sh1 V := { rowNvals := List.replicate M.rows none, threadsNvals := List.replicate n none,
                       tmpC := List.replicate M.nnz none, tmpV := List.replicate M.nnz none }
    match ls with
    | [] => .ok none
    | l0 :: _ => do
      let r ← phase n (step1 mul add A B M wpr) (·.fin) sch.first g (fun t => ls.getD t l0)
      match r with
      | none => .ok none
      | some (g, ls) => do
        let outs ← setup n (fun t => readTmp g (ls t).base t)
        let g ← initC A.rows n g.toSh
        let r ← phase n (step3 A.rows n (fun t => rngs.getD t (0, 0)) (fun t => outs.getD t [])) (· == .done)
          sch.second g (fun _ => .start)
        match r with
        | none => .ok none
        | some (g, _) => do
          let C ← freeze A.rows B.cols zb g
          .ok (some C)

/-! ## Two-phase driver -/

/-- Local state of a thread in the symbolic part. -/
structure L2 where
  row : Nat
  nvals : Nat
  stop : Nat
  done : Bool := false

/-- masked-spgemm-inner.h:97-104 -/
def init2 (A : CSR V) (n work : Nat) (cum : List (Option Nat)) (t : Nat) : Res L2 := do
  let (b, e) ← distributeWork work cum A.rows n t
  .ok { row := b, nvals := 0, stop := e }

/-- masked-spgemm-inner.h:105-114 -/
def step2 (A : CSR V) (B : CSC V) (M : CSR V) (wpr : List (Option Nat)) (t : Nat) (g : Sh V) (l : L2) :
    Res (Sh V × L2) :=
  if l.row < l.stop then do
    let w ← rdu wpr l.row
    if w = 0 then do
      let rn ← wr g.rowNvals l.row (some 0)
      .ok ({ g with rowNvals := rn }, { l with row := l.row + 1 })
    else do
      let k ← symbolicRow A B M l.row
      let rn ← wr g.rowNvals l.row (some k)
      let k ← rdu rn l.row
      .ok ({ g with rowNvals := rn }, { l with row := l.row + 1, nvals := l.nvals + k })
  else do
    let tn ← wr g.threadsNvals t (some l.nvals)
    .ok ({ g with threadsNvals := tn }, { l with done := true })

/-- Control of a thread in the numeric part; `cur` is the position of `currColId` and `currValue` in `C`, `beg`
that of `rowColIdBegin`. -/
inductive Ctl4 (V : Type) where
  | start
  | offs (i off : Nat)
  | last (off : Nat)
  | base
  | row (r : Nat) (cur : Option Nat)
  | flushC (r : Nat) (em : List (Nat × V)) (beg cur : Option Nat)
  | flushV (r : Nat) (v : V) (em : List (Nat × V)) (beg cur : Option Nat)
  | done

/-- has the thread reached the end of the region? -/
def Ctl4.fin : Ctl4 V → Bool
  | .done => true
  | _ => false

/-- `setRowOffsets` (common.h:169-179) and the numeric loop, masked-spgemm-inner.h:123-137 -/
def step4 (mul add : V → V → V) (A : CSR V) (B : CSC V) (M : CSR V) (wpr : List (Option Nat)) (n : Nat)
    (rng : Nat → Nat × Nat) (t : Nat) (g : Sh V) (l : Ctl4 V) : Res (Sh V × Ctl4 V) :=
  match l with
  | .start => do
    let off ← accumulate g.threadsNvals t
    .ok (g, .offs (rng t).1 off)
  | .offs i off =>
    if i < (rng t).2 then do
      let rp ← wr g.rowptr i (some off)
      let k ← rdu g.rowNvals i
      .ok ({ g with rowptr := rp }, .offs (i + 1) (off + k))
    else .ok (g, .last off)
  | .last off =>
    if t = n - 1 then do
      let rp ← wr g.rowptr A.rows (some off)
      .ok ({ g with rowptr := rp }, .base)
    else .ok (g, .base)
  | .base => do
    let cur ← rd g.rowptr (rng t).1
    .ok (g, .row (rng t).1 cur)
  | .row r cur =>
    if r < (rng t).2 then do
      let w ← rdu wpr r
      if w = 0 then do
        let rn ← wr g.rowNvals r (some 0)
        .ok ({ g with rowNvals := rn }, .row (r + 1) cur)
      else do
        let em ← numericRow mul add A B M r
        .ok (g, .flushC r em cur cur)
    else .ok (g, .done)
  | .flushC r [] beg cur => do
    let d ← use cur
    let d0 ← use beg
    let rn ← wr g.rowNvals r (some (d - d0))
    .ok ({ g with rowNvals := rn }, .row (r + 1) cur)
  | .flushC r ((c, v) :: em) beg cur => do
    let d ← use cur
    let cs ← wr g.colids d (some c)
    .ok ({ g with colids := cs }, .flushV r v em beg cur)
  | .flushV r v em beg cur => do
    let d ← use cur
    let vs ← wr g.values d (some v)
    .ok ({ g with values := vs }, .flushC r em beg (some (d + 1)))
  | .done => .ok (g, l)

/-- `MaskedSpGEMM2p` for CSR times CSC, masked-spgemm-inner.h:73-141; MaskedInnerSpGEMM.h:109-229, for an output
object that is none of the inputs (see `Verif.Model.Alias` for the other case). -/
def spgemm2p (mul add : V → V → V) (A : CSR V) (B : CSC V) (M : CSR V) (zb : Bool) (numThreads dflt : Nat)
    (sch : Scheds) : Res (Option (CSR V)) := do
  let n := setNumThreads numThreads dflt
  let p ← prepare A B M n sch
  match p with
  | none => .ok none
  | some (wpr, work, cum) => do
    let ls ← setup n (init2 A n work cum)
    let rngs ← setup n (distributeWork work cum A.rows n)
    let g : Sh V := { rowNvals := List.replicate M.rows none, threadsNvals := List.replicate n none }
    match ls with
    | [] => .ok none
    | l0 :: _ => do
      let r ← phase n (step2 A B M wpr) (·.done) sch.first g (fun t => ls.getD t l0)
      match r with
      | none => .ok none
      | some (g, _) => do
        let g ← initC A.rows n g
        let r ← phase n (step4 mul add A B M wpr n (fun t => rngs.getD t (0, 0))) (·.fin)
          sch.second g (fun _ => .start)
        match r with
        | none => .ok none
        | some (g, _) => do
          let C ← freeze A.rows B.cols zb g
          .ok (some C)

end Verif.Model.Inner
