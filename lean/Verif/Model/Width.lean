import Verif.Model.Driver
import Verif.Model.Inner

/-!
# The drivers with an index type of limited width

Models the same functions as `Verif.Model.Driver`, `Verif.Model.Inner`, `Verif.Model.Common` and
`Verif.Model.Scan`, but with a template parameter `IT` that is an unsigned type of `W` values (`W = 2^32` for
`uint32_t`, `W = 2^64` for `uint64_t`): every addition and multiplication of two `IT` is taken modulo `W`.

Where the code adds or multiplies `IT` values: the counts of products per row and in total
(common.h:46-102), the prefix sums of them (scan.h:56-99, `T` is `IT`), the first piece of work of a thread
(common.h:106-115), the sizes of the buffers (common.h:128-146), the counts per thread and the row offsets
(common.h:152-179).

Simplifications. As in the modules above. Differences of row pointers, comparisons, loop counters that are
bounded by the dimensions or by the numbers of entries of the inputs, and the positions in the arrays are not
reduced: they stay below `W` if the inputs can be written down with the type `IT`. The sums inside of a row
algorithm are not reduced either; the only one that is not such a counter is
`maxRowSizeM + maxRowFlops`, MaskedHashAlgorithm.h:116-119 (complemented mask), which is at most
`M.nnz + B.nnz`.
-/

namespace Verif.Model.Wid

open Scan (rdu)

variable {V : Type}

/-! ## common.h -/

/-- Body of the loop in `calculateFlops(A, B, ..)`, common.h:51-56 -/
def flopsRow (W : Nat) (A B : CSR V) (i : Nat) : Res Nat := do
  let lo ← rd A.rowptr i
  let hi ← rd A.rowptr (i + 1)
  forRange lo hi 0 fun j flopsRow => do
    let inner ← rd A.colids j
    let npins ← rowLen B inner
    .ok ((flopsRow + npins) % W)

/-- Body of the loop in `calculateFlops(A, B, M, ..)`, common.h:70-77 -/
def flopsRowMasked (W : Nat) (A B M : CSR V) (i : Nat) : Res Nat := do
  let hi ← rd M.rowptr (i + 1)
  let lo ← rd M.rowptr i
  if hi ≠ lo then flopsRow W A B i else .ok 0

/-- `calculateFlops`, common.h:46-62 (`compl`) and 65-83 -/
def calculateFlops (W : Nat) (compl : Bool) (A B M : CSR V) (order : List Nat) : Res (List (Option Nat) × Nat) :=
  order.foldlM (fun (fpr, flops) i => do
    let f ← if compl then flopsRow W A B i else flopsRowMasked W A B M i
    let fpr ← wr fpr i (some f)
    .ok (fpr, (flops + f) % W)) (List.replicate A.rows none, 0)

/-- `distributeWork`, common.h:106-115 -/
def distributeWork (W total : Nat) (accum : List (Option Nat)) (nrows n t : Nat) : Res (Nat × Nat) := do
  let wpt := total / n
  let b ← if t ≠ 0 then lowerBound accum nrows (wpt * t % W) else .ok 0
  let e ← if t ≠ n - 1 then lowerBound accum nrows (wpt * (t + 1) % W) else .ok nrows
  .ok (b, e)

/-- `scanInputs<compl, calcC, calcA, calcM, calcF>`, common.h:128-146 -/
def scanInputs (W : Nat) (compl calcC calcA calcM calcF : Bool) (b e : Nat) (fpr : List (Option Nat))
    (A M : CSR V) : Res Sizes :=
  forRange b e {} fun row s => do
    let s ← if calcC then do
        let f ← rd fpr row
        let f ← use f
        if !compl then do
          let m ← rowLen M row
          .ok { s with sizeC := (s.sizeC + min f m) % W }
        else .ok { s with sizeC := (s.sizeC + f) % W }
      else .ok s
    let s ← if calcA then do
        let a ← rowLen A row
        .ok { s with maxA := max s.maxA a }
      else .ok s
    let s ← if calcM then do
        let m ← rowLen M row
        .ok { s with maxM := max s.maxM m }
      else .ok s
    if calcF then do
      let f ← rd fpr row
      let f ← use f
      .ok { s with maxFlops := max s.maxFlops f }
    else .ok s

/-- `std::accumulate(a, a + k, IT(0))`, common.h:163 and 171 -/
def accumulate (W : Nat) (a : List (Option Nat)) (k : Nat) : Res Nat :=
  forRange 0 k 0 fun i s => do
    let x ← rdu a i
    .ok ((s + x) % W)

/-- `initC`, common.h:152-166 -/
def initC (W rows n : Nat) (g : Sh V) : Res (Sh V) := do
  let nnz ← accumulate W g.threadsNvals n
  .ok { g with
    rowptr := List.replicate (rows + 1) none
    colids := List.replicate nnz none
    values := List.replicate nnz none }

/-! ## scan.h -/

/-- Sequential exclusive scan, scan.h:84-88 -/
def exclSeq (W : Nat) (src : List (Option Nat)) (size : Nat) (dst : List (Option Nat)) : Res (List (Option Nat)) := do
  let dst ← wr dst 0 (some 0)
  forRange 1 size dst fun i dst => do
    let p ← rdu dst (i - 1)
    let x ← rdu src (i - 1)
    wr dst i (some ((p + x) % W))

/-- First part of a thread, scan.h:62-66 -/
def stepSum (W : Nat) (src : List (Option Nat)) (size n t : Nat) (ps : List (Option Nat)) (_ : Bool) :
    Res (List (Option Nat) × Bool) := do
  let sum ← forRange (Scan.start size n t) (Scan.stop size n t) 0 fun i s => do
    let x ← rdu src i
    .ok ((s + x) % W)
  let ps ← wr ps t (some sum)
  .ok (ps, true)

/-- Second part of a thread, scan.h:69-77 -/
def stepWrite (W : Nat) (src ps : List (Option Nat)) (size n t : Nat) (dst : List (Option Nat)) (c : Scan.Ctl) :
    Res (List (Option Nat) × Scan.Ctl) :=
  match c with
  | .first => do
    let offset ← forRange 0 t 0 fun i s => do
      let x ← rdu ps i
      .ok ((s + x) % W)
    let dst ← wr dst (Scan.start size n t) (some offset)
    .ok (dst, .at (Scan.start size n t + 1))
  | .at i =>
    if i < Scan.stop size n t then do
      let p ← rdu dst (i - 1)
      let x ← rdu src (i - 1)
      let dst ← wr dst i (some ((p + x) % W))
      .ok (dst, .at (i + 1))
    else .ok (dst, .done)
  | .done => .ok (dst, .done)

/-- Parallel scan, scan.h:56-78, 91-99 -/
def par (W : Nat) (src : List (Option Nat)) (size : Nat) (dst : List (Option Nat)) (n : Nat) (s1 s2 : List Nat) :
    Res (Option (List (Option Nat))) := do
  let r ← phase n (stepSum W src size n) id s1 (List.replicate n none) (fun _ => false)
  match r with
  | none => .ok none
  | some (ps, _) => do
    let r ← phase n (stepWrite W src ps size n) (· == .done) s2 dst (fun _ => .first)
    match r with
    | none => .ok none
    | some (dst, _) => .ok (some dst)

/-- `exclusiveScan(src, size, dst, numThreads)`, scan.h:81-99 -/
def exclusiveScan (W : Nat) (src : List (Option Nat)) (size : Nat) (dst : List (Option Nat)) (n : Nat)
    (s1 s2 : List Nat) : Res (Option (List (Option Nat))) :=
  if size < 2 ∨ n = 1 then do
    let d ← exclSeq W src size dst
    .ok (some d)
  else par W src size dst n s1 s2

/-! ## masked-spgemm.h -/

/-- masked-spgemm.h:24-38 and 106-120 -/
def prepare (W : Nat) (compl : Bool) (A B M : CSR V) (n : Nat) (sch : Scheds) :
    Res (Option (List (Option Nat) × Nat × List (Option Nat))) := do
  verifyInputs A B M
  let (fpr, flops) ← calculateFlops W compl A B M sch.flops
  let r ← exclusiveScan W fpr A.rows (List.replicate A.rows none) n sch.scan1 sch.scan2
  match r with
  | none => .ok none
  | some cum => .ok (some (fpr, flops, cum))

/-- masked-spgemm.h:45-68 -/
def init1 (W : Nat) (alg : RowAlg V) (A B M : CSR V) (n : Nat) (fpr : List (Option Nat)) (flops : Nat)
    (cum : List (Option Nat)) (t : Nat) : Res (L1 alg.N V) := do
  let (b, e) ← distributeWork W flops cum A.rows n t
  let sz ← scanInputs W alg.compl true alg.calcA alg.calcM alg.calcF b e fpr A M
  .ok { row := b, acc := alg.initN B.cols sz, out := [], cap := sz.sizeC, stop := e }

/-- masked-spgemm.h:69-78. The differences of pointers are converted to `IT`. -/
def step1 (W : Nat) (alg : RowAlg V) (mul add : V → V → V) (A B M : CSR V) (fpr : List (Option Nat)) (t : Nat)
    (g : Sh V) (l : L1 alg.N V) : Res (Sh V × L1 alg.N V) :=
  if l.row < l.stop then do
    let f ← rdu fpr l.row
    if f ≠ 0 then do
      let (acc, em) ← alg.numRow mul add A B M l.row f l.acc
      if l.out.length + em.length ≤ l.cap then do
        let rn ← wr g.rowNvals l.row (some (em.length % W))
        .ok ({ g with rowNvals := rn }, { l with row := l.row + 1, acc := acc, out := l.out ++ em })
      else .error .oob
    else do
      let rn ← wr g.rowNvals l.row (some 0)
      .ok ({ g with rowNvals := rn }, { l with row := l.row + 1 })
  else do
    let tn ← wr g.threadsNvals t (some (l.out.length % W))
    .ok ({ g with threadsNvals := tn }, { l with done := true })

/-- `setRowOffsets` (common.h:169-179) and `copyValuesToC` (common.h:182-185). Only the first two cases add values
of type `IT`. -/
def step3 (W rows n : Nat) (rng : Nat → Nat × Nat) (outs : Nat → List (Nat × V)) (t : Nat) (g : Sh V) (c : Ctl3) :
    Res (Sh V × Ctl3) :=
  match c with
  | .start => do
    let off ← accumulate W g.threadsNvals t
    .ok (g, .offs (rng t).1 off)
  | .offs i off =>
    if i < (rng t).2 then do
      let rp ← wr g.rowptr i (some off)
      let k ← rdu g.rowNvals i
      .ok ({ g with rowptr := rp }, .offs (i + 1) ((off + k) % W))
    else .ok (g, .last off)
  | c => Model.step3 rows n rng outs t g c

/-- `MaskedSpGEMM1p`, masked-spgemm.h:18-95 -/
def spgemm1p (W : Nat) (alg : RowAlg V) (mul add : V → V → V) (A B M : CSR V) (zb : Bool) (numThreads dflt : Nat)
    (sch : Scheds) : Res (Option (CSR V)) := do
  let n := setNumThreads numThreads dflt
  let p ← prepare W alg.compl A B M n sch
  match p with
  | none => .ok none
  | some (fpr, flops, cum) => do
    let ls ← setup n (init1 W alg A B M n fpr flops cum)
    let rngs ← setup n (distributeWork W flops cum A.rows n)
    let g : Sh V := { rowNvals := List.replicate A.rows none, threadsNvals := List.replicate n none }
    match ls with
    | [] => .ok none
    | l0 :: _ => do
      let r ← phase n (step1 W alg mul add A B M fpr) (·.done) sch.first g (fun t => ls.getD t l0)
      match r with
      | none => .ok none
      | some (g, ls) => do
        let g ← initC W A.rows n g
        let r ← phase n (step3 W A.rows n (fun t => rngs.getD t (0, 0)) (fun t => (ls t).out)) (· == .done)
          sch.second g (fun _ => .start)
        match r with
        | none => .ok none
        | some (g, _) => do
          let C ← freeze A.rows B.cols zb g
          .ok (some C)

/-- masked-spgemm.h:127-145 -/
def init2 (W : Nat) (alg : RowAlg V) (A B M : CSR V) (n : Nat) (fpr : List (Option Nat)) (flops : Nat)
    (cum : List (Option Nat)) (t : Nat) : Res (L2 alg.S × alg.N) := do
  let (b, e) ← distributeWork W flops cum A.rows n t
  let sz ← scanInputs W alg.compl false alg.calcA alg.calcM alg.calcF b e fpr A M
  .ok ({ row := b, acc := alg.initS B.cols sz, nvals := 0, stop := e }, alg.initN B.cols sz)

/-- masked-spgemm.h:146-154 -/
def step2 (W : Nat) (alg : RowAlg V) (A B M : CSR V) (fpr : List (Option Nat)) (t : Nat)
    (g : Sh V) (l : L2 alg.S) : Res (Sh V × L2 alg.S) :=
  if l.row < l.stop then do
    let f ← rdu fpr l.row
    if f ≠ 0 then do
      let (acc, k) ← alg.symRow A B M l.row f l.acc
      let rn ← wr g.rowNvals l.row (some (k % W))
      let k ← rdu rn l.row
      .ok ({ g with rowNvals := rn }, { l with row := l.row + 1, acc := acc, nvals := (l.nvals + k) % W })
    else do
      let rn ← wr g.rowNvals l.row (some 0)
      let k ← rdu rn l.row
      .ok ({ g with rowNvals := rn }, { l with row := l.row + 1, nvals := (l.nvals + k) % W })
  else do
    let tn ← wr g.threadsNvals t (some l.nvals)
    .ok ({ g with threadsNvals := tn }, { l with done := true })

/-- `setRowOffsets` (common.h:169-179) and the numeric loop, masked-spgemm.h:164-173. Only the first two cases add
values of type `IT`. -/
def step4 (W : Nat) (alg : RowAlg V) (mul add : V → V → V) (A B M : CSR V) (n : Nat) (rng : Nat → Nat × Nat)
    (t : Nat) (g : Sh V) (l : L4 alg.N V) : Res (Sh V × L4 alg.N V) :=
  match l.ctl with
  | .start => do
    let off ← accumulate W g.threadsNvals t
    .ok (g, { l with ctl := .offs (rng t).1 off })
  | .offs i off =>
    if i < (rng t).2 then do
      let rp ← wr g.rowptr i (some off)
      let k ← rdu g.rowNvals i
      .ok ({ g with rowptr := rp }, { l with ctl := .offs (i + 1) ((off + k) % W) })
    else .ok (g, { l with ctl := .last off })
  | _ => Model.step4 alg mul add A B M n rng t g l

/-- `MaskedSpGEMM2p`, masked-spgemm.h:98-193 -/
def spgemm2p (W : Nat) (alg : RowAlg V) (mul add : V → V → V) (A B M : CSR V) (zb : Bool) (numThreads dflt : Nat)
    (sch : Scheds) : Res (Option (CSR V)) := do
  let n := setNumThreads numThreads dflt
  let p ← prepare W alg.compl A B M n sch
  match p with
  | none => .ok none
  | some (fpr, flops, cum) => do
    let ls ← setup n (init2 W alg A B M n fpr flops cum)
    let rngs ← setup n (distributeWork W flops cum A.rows n)
    let g : Sh V := { rowNvals := List.replicate A.rows none, threadsNvals := List.replicate n none }
    match ls with
    | [] => .ok none
    | l0 :: _ => do
      let r ← phase n (step2 W alg A B M fpr) (·.done) sch.first g (fun t => (ls.getD t l0).1)
      match r with
      | none => .ok none
      | some (g, _) => do
        let g ← initC W A.rows n g
        let r ← phase n (step4 W alg mul add A B M n (fun t => rngs.getD t (0, 0))) (·.fin)
          sch.second g (fun t => { ctl := .start, acc := (ls.getD t l0).2 })
        match r with
        | none => .ok none
        | some (g, _) => do
          let C ← freeze A.rows B.cols zb g
          .ok (some C)

/-! ## masked-spgemm-inner.h -/

namespace Inner

/-- Body of the loop in `calculateWork`, common.h:91-96 -/
def workRow (W : Nat) (A : CSR V) (B : CSC V) (M : CSR V) (i : Nat) : Res Nat := do
  let lo ← rd M.rowptr i
  let hi ← rd M.rowptr (i + 1)
  forRange lo hi 0 fun j w => do
    let lenA ← rowLen A i
    let c ← rd M.colids j
    let bhi ← rd B.colptr (c + 1)
    let blo ← rd B.colptr c
    let lenB := bhi - blo
    .ok (if lenA ≠ 0 ∧ lenB ≠ 0 then (w + (lenA + lenB) % W) % W else w)

/-- `calculateWork`, common.h:86-102 -/
def calculateWork (W : Nat) (A : CSR V) (B : CSC V) (M : CSR V) (order : List Nat) : Res (List (Option Nat) × Nat) :=
  order.foldlM (fun (wpr, work) i => do
    let w ← workRow W A B M i
    let wpr ← wr wpr i (some w)
    .ok (wpr, (work + w) % W)) (List.replicate M.rows none, 0)

/-- masked-spgemm-inner.h:13-22 and 80-89 -/
def prepare (W : Nat) (A : CSR V) (B : CSC V) (M : CSR V) (n : Nat) (sch : Scheds) :
    Res (Option (List (Option Nat) × Nat × List (Option Nat))) := do
  Model.Inner.verifyInputs A B M
  let (wpr, work) ← calculateWork W A B M sch.flops
  let r ← exclusiveScan W wpr M.rows (List.replicate M.rows none) n sch.scan1 sch.scan2
  match r with
  | none => .ok none
  | some cum => .ok (some (wpr, work, cum))

/-- masked-spgemm-inner.h:34-44 -/
def init1 (W : Nat) (A M : CSR V) (n work : Nat) (cum : List (Option Nat)) (t : Nat) : Res (Model.Inner.L1 V) := do
  let (b, e) ← distributeWork W work cum A.rows n t
  let base ← rd M.rowptr b
  .ok { row := b, stop := e, base := base, cur := base, beg := base, ctl := .row }

/-- masked-spgemm-inner.h:47-57. The differences of pointers are converted to `IT`. -/
def step1 (W : Nat) (mul add : V → V → V) (A : CSR V) (B : CSC V) (M : CSR V) (wpr : List (Option Nat)) (t : Nat)
    (g : Model.Inner.Sh1 V) (l : Model.Inner.L1 V) : Res (Model.Inner.Sh1 V × Model.Inner.L1 V) :=
  match l.ctl with
  | .row =>
    if l.row < l.stop then do
      let w ← rdu wpr l.row
      if w = 0 then do
        let rn ← wr g.rowNvals l.row (some 0)
        .ok ({ g with rowNvals := rn }, { l with ctl := .num })
      else .ok (g, { l with ctl := .num })
    else do
      let tn ← wr g.threadsNvals t (some ((l.cur - l.base) % W))
      .ok ({ g with threadsNvals := tn }, { l with ctl := .done })
  | .num => do
    let em ← Model.Inner.numericRow mul add A B M l.row
    .ok (g, { l with beg := l.cur, ctl := .flushC em })
  | .flushC [] => do
    let rn ← wr g.rowNvals l.row (some ((l.cur - l.beg) % W))
    .ok ({ g with rowNvals := rn }, { l with row := l.row + 1, ctl := .row })
  | .flushC ((c, v) :: em) => do
    let tc ← wr g.tmpC l.cur (some c)
    .ok ({ g with tmpC := tc }, { l with ctl := .flushV v em })
  | .flushV v em => do
    let tv ← wr g.tmpV l.cur (some v)
    .ok ({ g with tmpV := tv }, { l with cur := l.cur + 1, ctl := .flushC em })
  | .done => .ok (g, l)

/-- `MaskedSpGEMM1p` for CSR times CSC, masked-spgemm-inner.h:6-71; MaskedInnerSpGEMM.h:13-107 -/
def spgemm1p (W : Nat) (mul add : V → V → V) (A : CSR V) (B : CSC V) (M : CSR V) (zb : Bool) (numThreads dflt : Nat)
    (sch : Scheds) : Res (Option (CSR V)) := do
  let n := setNumThreads numThreads dflt
  let p ← prepare W A B M n sch
  match p with
  | none => .ok none
  | some (wpr, work, cum) => do
    let ls ← setup n (init1 W A M n work cum)
    let rngs ← setup n (distributeWork W work cum A.rows n)
    let g : Model.Inner.Sh1 V := { rowNvals := List.replicate M.rows none, threadsNvals := List.replicate n none,
                                   tmpC := List.replicate M.nnz none, tmpV := List.replicate M.nnz none }
    match ls with
    | [] => .ok none
    | l0 :: _ => do
      let r ← phase n (step1 W mul add A B M wpr) (·.fin) sch.first g (fun t => ls.getD t l0)
      match r with
      | none => .ok none
      | some (g, ls) => do
        let outs ← setup n (fun t => Model.Inner.readTmp g (ls t).base t)
        let g ← initC W A.rows n g.toSh
        let r ← phase n (step3 W A.rows n (fun t => rngs.getD t (0, 0)) (fun t => outs.getD t [])) (· == .done)
          sch.second g (fun _ => .start)
        match r with
        | none => .ok none
        | some (g, _) => do
          let C ← freeze A.rows B.cols zb g
          .ok (some C)

/-- masked-spgemm-inner.h:97-104 -/
def init2 (W : Nat) (A : CSR V) (n work : Nat) (cum : List (Option Nat)) (t : Nat) : Res Model.Inner.L2 := do
  let (b, e) ← distributeWork W work cum A.rows n t
  .ok { row := b, nvals := 0, stop := e }

/-- masked-spgemm-inner.h:105-114 -/
def step2 (W : Nat) (A : CSR V) (B : CSC V) (M : CSR V) (wpr : List (Option Nat)) (t : Nat) (g : Sh V)
    (l : Model.Inner.L2) : Res (Sh V × Model.Inner.L2) :=
  if l.row < l.stop then do
    let w ← rdu wpr l.row
    if w = 0 then do
      let rn ← wr g.rowNvals l.row (some 0)
      .ok ({ g with rowNvals := rn }, { l with row := l.row + 1 })
    else do
      let k ← Model.Inner.symbolicRow A B M l.row
      let rn ← wr g.rowNvals l.row (some (k % W))
      let k ← rdu rn l.row
      .ok ({ g with rowNvals := rn }, { l with row := l.row + 1, nvals := (l.nvals + k) % W })
  else do
    let tn ← wr g.threadsNvals t (some l.nvals)
    .ok ({ g with threadsNvals := tn }, { l with done := true })

/-- `setRowOffsets` (common.h:169-179) and the numeric loop, masked-spgemm-inner.h:123-137. -/
def step4 (W : Nat) (mul add : V → V → V) (A : CSR V) (B : CSC V) (M : CSR V) (wpr : List (Option Nat)) (n : Nat)
    (rng : Nat → Nat × Nat) (t : Nat) (g : Sh V) (l : Model.Inner.Ctl4 V) : Res (Sh V × Model.Inner.Ctl4 V) :=
  match l with
  | .start => do
    let off ← accumulate W g.threadsNvals t
    .ok (g, .offs (rng t).1 off)
  | .offs i off =>
    if i < (rng t).2 then do
      let rp ← wr g.rowptr i (some off)
      let k ← rdu g.rowNvals i
      .ok ({ g with rowptr := rp }, .offs (i + 1) ((off + k) % W))
    else .ok (g, .last off)
  | .flushC r [] beg cur => do
    let d ← use cur
    let d0 ← use beg
    let rn ← wr g.rowNvals r (some ((d - d0) % W))
    .ok ({ g with rowNvals := rn }, .row (r + 1) cur)
  | l => Model.Inner.step4 mul add A B M wpr n rng t g l

/-- `MaskedSpGEMM2p` for CSR times CSC, masked-spgemm-inner.h:73-141; MaskedInnerSpGEMM.h:109-229 -/
def spgemm2p (W : Nat) (mul add : V → V → V) (A : CSR V) (B : CSC V) (M : CSR V) (zb : Bool) (numThreads dflt : Nat)
    (sch : Scheds) : Res (Option (CSR V)) := do
  let n := setNumThreads numThreads dflt
  let p ← prepare W A B M n sch
  match p with
  | none => .ok none
  | some (wpr, work, cum) => do
    let ls ← setup n (init2 W A n work cum)
    let rngs ← setup n (distributeWork W work cum A.rows n)
    let g : Sh V := { rowNvals := List.replicate M.rows none, threadsNvals := List.replicate n none }
    match ls with
    | [] => .ok none
    | l0 :: _ => do
      let r ← phase n (step2 W A B M wpr) (·.done) sch.first g (fun t => ls.getD t l0)
      match r with
      | none => .ok none
      | some (g, _) => do
        let g ← initC W A.rows n g
        let r ← phase n (step4 W mul add A B M wpr n (fun t => rngs.getD t (0, 0))) (·.fin)
          sch.second g (fun _ => .start)
        match r with
        | none => .ok none
        | some (g, _) => do
          let C ← freeze A.rows B.cols zb g
          .ok (some C)

end Inner

end Verif.Model.Wid
