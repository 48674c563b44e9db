import Verif.Model.Inner

/-!
# Calls whose output object may be one of the inputs

The drivers take their matrices by reference. Here the matrices are objects of a
store and the call gets references to them, which may be equal.

Models the object handling of `/repo/spgemm-blocks/masked-spgemm.h`,
`/repo/spgemm-blocks/masked-spgemm-inner.h`, `initC`
(`/repo/spgemm-blocks/common.h:152-166`) and `CSR::make_empty`
(`/repo/CSR.h:52-66`). The work itself is that of `Verif.Model.Driver` and
`Verif.Model.Inner`.

Simplifications. Before `initC` (one-phase and inner) or the final
`C.make_empty()` (generic two-phase) no statement of a driver writes a matrix
object, so the inputs are fetched from the store once at the start. The copy
of the row and column count that `initC` makes is a fetch of its own.
-/

namespace Verif.Model.Alias

open Scan (rdu)

variable {V : Type}

/-- A matrix object: complete, or emptied and not yet complete again. -/
inductive Obj (V : Type) where
  | full (X : CSR V)
  | emptied

/-- The matrix objects of the program. -/
abbrev Store (V : Type) := Nat → Obj V

/-- use an object as an input -/
def fetch (s : Store V) (r : Nat) : Res (CSR V) :=
  match s r with
  | .full X => .ok X
  | .emptied => .error .freed

/-- `make_empty` on the object `c` (CSR.h:52-66) -/
def makeEmpty (s : Store V) (c : Nat) : Store V := upd s c .emptied

/-- `initC` on the object `c`, common.h:152-166: the sizes of `A` and `B` are copied (153-154) before `c` is
emptied (155). The result is `nrows`, `ncols`, the store and the shared memory with the new arrays. -/
def initRef (s : Store V) (nrowsA ncolsB : Store V → Res Nat) (c n : Nat) (g : Sh V) :
    Res (Nat × Nat × Store V × Sh V) := do
  let nrows ← nrowsA s
  let ncols ← ncolsB s
  let s := makeEmpty s c
  let g ← initC nrows n g
  .ok (nrows, ncols, s, g)

/-- the number of rows of an object -/
def rowsOf (a : Nat) (s : Store V) : Res Nat := do
  let A ← fetch s a
  .ok A.rows

/-- the number of columns of an object -/
def colsOf (b : Nat) (s : Store V) : Res Nat := do
  let B ← fetch s b
  .ok B.cols

/-- `MaskedSpGEMM1p(A, B, C, M, ...)`, masked-spgemm.h:18-95, on the objects `a`, `b`, `m` and `c`. After the
first barrier of the region (line 80) only `C`, `threadsNvals`, `rowNvals` and private buffers are used. -/
def spgemm1p (alg : RowAlg V) (mul add : V → V → V) (s : Store V) (a b m c : Nat) (numThreads dflt : Nat)
    (sch : Scheds) : Res (Option (Store V)) := do
  let A ← fetch s a
  let B ← fetch s b
  let M ← fetch s m
  let C ← fetch s c
  let n := setNumThreads numThreads dflt
  let p ← prepare alg.compl A B M n sch
  match p with
  | none => .ok none
  | some (fpr, flops, cum) => do
    let ls ← setup n (init1 alg A B M n fpr flops cum)
    let rngs ← setup n (distributeWork flops cum A.rows n)
    let g : Sh V := { rowNvals := List.replicate A.rows none, threadsNvals := List.replicate n none }
    match ls with
    | [] => .ok none
    | l0 :: _ => do
      let r ← phase n (step1 alg mul add A B M fpr) (·.done) sch.first g (fun t => ls.getD t l0)
      match r with
      | none => .ok none
      | some (g, ls) => do
        let (nrows, ncols, s, g) ← initRef s (rowsOf a) (colsOf b) c n g
        let r ← phase n (step3 nrows n (fun t => rngs.getD t (0, 0)) (fun t => (ls t).out)) (· == .done)
          sch.second g (fun _ => .start)
        match r with
        | none => .ok none
        | some (g, _) => do
          let C ← freeze nrows ncols C.zerobased g
          .ok (some (upd s c (.full C)))

/-- `MaskedSpGEMM2p(A, B, C, M, ...)`, masked-spgemm.h:98-193, on the objects `a`, `b`, `m` and `c`. `R` is a
fresh local object; lines 181-192 empty `C` and give it the arrays of `R`. -/
def spgemm2p (alg : RowAlg V) (mul add : V → V → V) (s : Store V) (a b m c : Nat) (numThreads dflt : Nat)
    (sch : Scheds) : Res (Option (Store V)) := do
  let A ← fetch s a
  let B ← fetch s b
  let M ← fetch s m
  let C ← fetch s c
  let R ← Model.spgemm2p alg mul add A B M C.zerobased numThreads dflt sch
  match R with
  | none => .ok none
  | some R => .ok (some (upd (makeEmpty s c) c (.full R)))

/-- `MaskedSpGEMM1p(A, B, C, M, ...)` for a CSC matrix `B`, masked-spgemm-inner.h:6-71. `B` has another type
than `C`, so it cannot be the same object. -/
def inner1p (mul add : V → V → V) (s : Store V) (B : CSC V) (a m c : Nat) (numThreads dflt : Nat)
    (sch : Scheds) : Res (Option (Store V)) := do
  let A ← fetch s a
  let M ← fetch s m
  let C ← fetch s c
  let n := setNumThreads numThreads dflt
  let p ← Inner.prepare A B M n sch
  match p with
  | none => .ok none
  | some (wpr, work, cum) => do
    let ls ← setup n (Inner.init1 A M n work cum)
    let rngs ← setup n (distributeWork work cum A.rows n)
    let g : Inner.Sh1 V := { rowNvals := List.replicate M.rows none, threadsNvals := List.replicate n none,
                             tmpC := List.replicate M.nnz none, tmpV := List.replicate M.nnz none }
    match ls with
    | [] => .ok none
    | l0 :: _ => do
      let r ← phase n (Inner.step1 mul add A B M wpr) (·.fin) sch.first g (fun t => ls.getD t l0)
      match r with
      | none => .ok none
      | some (g, ls) => do
        let outs ← setup n (fun t => Inner.readTmp g (ls t).base t)
        let (nrows, ncols, s, g) ← initRef s (rowsOf a) (fun _ => .ok B.cols) c n g.toSh
        let r ← phase n (step3 nrows n (fun t => rngs.getD t (0, 0)) (fun t => outs.getD t [])) (· == .done)
          sch.second g (fun _ => .start)
        match r with
        | none => .ok none
        | some (g, _) => do
          let C ← freeze nrows ncols C.zerobased g
          .ok (some (upd s c (.full C)))

/-! ## Two-phase inner product

Its numeric loop reads `A` and `M` while `C` is being written, so an input that is
also the output is seen through the new arrays. -/

/-- The arrays of an input, as found when they are read. -/
structure View (V : Type) where
  rowptr : List (Option Nat)
  colids : List (Option Nat)
  values : List (Option V)

/-- the arrays of a complete matrix -/
def View.ofCSR (X : CSR V) : View V := ⟨X.rowptr.map some, X.colids.map some, X.values.map some⟩

/-- the arrays of the object under construction -/
def View.ofSh (g : Sh V) : View V := ⟨g.rowptr, g.colids, g.values⟩

/-- `Inner.mergeNum` (InnerAlgorithm.h:53-68) on the arrays as found -/
def mergeNum (mul add : V → V → V) (A : View V) (B : CSC V) (ae be : Nat) : Nat → Nat → Nat → Option V → Res (Option V)
  | 0, _, _, _ => .error .diverge
  | fuel + 1, ia, ib, v => do
    let a ← rdu A.colids ia
    let b ← rd B.rowids ib
    if a < b then
      if ia + 1 = ae then .ok v else mergeNum mul add A B ae be fuel (ia + 1) ib v
    else if b < a then
      if ib + 1 = be then .ok v else mergeNum mul add A B ae be fuel ia (ib + 1) v
    else do
      let x ← rdu A.values ia
      let y ← rd B.values ib
      let v := match v with
        | some w => add w (mul x y)
        | none => mul x y
      if ia + 1 = ae then .ok (some v)
      else if ib + 1 = be then .ok (some v)
      else mergeNum mul add A B ae be fuel (ia + 1) (ib + 1) (some v)

/-- `Inner.numericRow` (InnerAlgorithm.h:39-75) on the arrays as found -/
def numericRow (mul add : V → V → V) (A : View V) (B : CSC V) (M : View V) (row : Nat) : Res (List (Nat × V)) := do
  let lo ← rdu M.rowptr row
  let hi ← rdu M.rowptr (row + 1)
  forRange lo hi [] fun j out => do
    let ia ← rdu A.rowptr row
    let ae ← rdu A.rowptr (row + 1)
    if ia = ae then .ok out
    else do
      let c ← rdu M.colids j
      let ib ← rd B.colptr c
      let be ← rd B.colptr (c + 1)
      if ib = be then .ok out
      else do
        let v ← mergeNum mul add A B ae be ((ae - ia) + (be - ib)) ia ib none
        match v with
        | none => .ok out
        | some v => do
          let c ← rdu M.colids j
          .ok (out ++ [(c, v)])

/-- `Inner.step4` (masked-spgemm-inner.h:123-137) with inputs that are read when they are needed: `inA`, `inM` give
the arrays of the inputs for the current contents of the memory. The row count is that of `C`. -/
def step4 (mul add : V → V → V) (inA inM : Sh V → View V) (B : CSC V) (wpr : List (Option Nat)) (rows n : Nat)
    (rng : Nat → Nat × Nat) (t : Nat) (g : Sh V) (l : Inner.Ctl4 V) : Res (Sh V × Inner.Ctl4 V) :=
  match l with
  | .start => do
    let off ← accumulate g.threadsNvals t
    .ok (g, .offs (rng t).1 off)
  | .offs i off =>
    if i < (rng t).2 then do
      let rp ← wr g.rowptr i (some off)
      let k ← rdu g.rowNvals i
      .ok ({ g with rowptr := rp }, .offs (i + 1) (off + k))
    else .ok (g, .last off)
  | .last off =>
    if t = n - 1 then do
      let rp ← wr g.rowptr rows (some off)
      .ok ({ g with rowptr := rp }, .base)
    else .ok (g, .base)
  | .base => do
    let cur ← rd g.rowptr (rng t).1
    .ok (g, .row (rng t).1 cur)
  | .row r cur =>
    if r < (rng t).2 then do
      let w ← rdu wpr r
      if w = 0 then do
        let rn ← wr g.rowNvals r (some 0)
        .ok ({ g with rowNvals := rn }, .row (r + 1) cur)
      else do
        let em ← numericRow mul add (inA g) B (inM g) r
        .ok (g, .flushC r em cur cur)
    else .ok (g, .done)
  | .flushC r [] beg cur => do
    let d ← use cur
    let d0 ← use beg
    let rn ← wr g.rowNvals r (some (d - d0))
    .ok ({ g with rowNvals := rn }, .row (r + 1) cur)
  | .flushC r ((c, v) :: em) beg cur => do
    let d ← use cur
    let cs ← wr g.colids d (some c)
    .ok ({ g with colids := cs }, .flushV r v em beg cur)
  | .flushV r v em beg cur => do
    let d ← use cur
    let vs ← wr g.values d (some v)
    .ok ({ g with values := vs }, .flushC r em beg (some (d + 1)))
  | .done => .ok (g, l)

/-- The arrays of the input object `r` while `c` is under construction: the input itself, or, if it is the same
object, the new arrays of `c`. -/
def viewOf (X : CSR V) (r c : Nat) (g : Sh V) : View V := if r = c then View.ofSh g else View.ofCSR X

/-- `MaskedSpGEMM2p(A, B, C, M, ...)` for a CSC matrix `B`, masked-spgemm-inner.h:73-141, on the objects `a`,
`m` and `c`. -/
def inner2p (mul add : V → V → V) (s : Store V) (B : CSC V) (a m c : Nat) (numThreads dflt : Nat)
    (sch : Scheds) : Res (Option (Store V)) := do
  let A ← fetch s a
  let M ← fetch s m
  let C ← fetch s c
  let n := setNumThreads numThreads dflt
  let p ← Inner.prepare A B M n sch
  match p with
  | none => .ok none
  | some (wpr, work, cum) => do
    let ls ← setup n (Inner.init2 A n work cum)
    let rngs ← setup n (distributeWork work cum A.rows n)
    let g : Sh V := { rowNvals := List.replicate M.rows none, threadsNvals := List.replicate n none }
    match ls with
    | [] => .ok none
    | l0 :: _ => do
      let r ← phase n (Inner.step2 A B M wpr) (·.done) sch.first g (fun t => ls.getD t l0)
      match r with
      | none => .ok none
      | some (g, _) => do
        let (nrows, ncols, s, g) ← initRef s (rowsOf a) (fun _ => .ok B.cols) c n g
        let r ← phase n (step4 mul add (viewOf A a c) (viewOf M m c) B wpr nrows n (fun t => rngs.getD t (0, 0)))
          (·.fin) sch.second g (fun _ => .start)
        match r with
        | none => .ok none
        | some (g, _) => do
          let C ← freeze nrows ncols C.zerobased g
          .ok (some (upd s c (.full C)))

end Verif.Model.Alias
