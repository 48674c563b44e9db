import Verif.Model.OldAlg
import Verif.Model.UtilScan

/-!
# The generic heap driver

Models `HeapSpGEMM<RowAlgorithm>` of `/repo/heap_mult_generic.h`: the driver `HeapSpGEMMImpl` and the row algorithms `BasicHeap`,
`HeapLinear`, `MaskedHeap_v0`, `MaskedHeap_v1`, `MaskedHeap_v2`, `MCA_v1`, `MCA_v2`, `MCA_v3`.

Simplifications. The loops over the heap of the masked versions are the statements of `MaskedHeapAlgorithm.h`, so `Verif.Model.Old` is used
for them; as there the heap is the list of the first `hsize` cells of `mergeheap` together with the size of the array. `prevColIdC` and
`prevValueC` always move together and are one position. Integers are unbounded. Arrays from `my_malloc` are filled with zeros (`zero` is
`NT()`), except that the arrays of the result start unset, so that a read of a cell nobody has written is an error.
-/

namespace Verif.Model.Gen

open Heap (HP Ent)

variable {V : Type}

/-- `colIdsLocalMem`, `valuesLocalMem` and the position of `prevColIdC` and `prevValueC` -/
structure Buf (V : Type) where
  cols : List Nat
  vals : List V
  pos : Nat

/-- heap_mult_generic.h:116-118 (and 172-174, 266-268, 338-340, 428-430) -/
def push (cur key : Nat) (value : V) (b : Buf V) : Res (Buf V × Nat) := do
  let vals ← wr b.vals (b.pos + 1) value
  let cols ← wr b.cols (b.pos + 1) key
  .ok (⟨cols, vals, b.pos + 1⟩, cur + 1)

/-- heap_mult_generic.h:113-119 (and 169-175, 263-269, 335-341, 425-431): `cur` is `currRowNvals`, returned with its new value. -/
def store (add : V → V → V) (cur key : Nat) (value : V) (b : Buf V) : Res (Buf V × Nat) :=
  if cur > 0 then do
    let c ← rd b.cols b.pos
    if c = key then do
      let v ← rd b.vals b.pos
      let vals ← wr b.vals b.pos (add value v)
      .ok ({ b with vals := vals }, cur)
    else push cur key value b
  else push cur key value b

/-! ## Heaps -/

/-- The initial heap, heap_mult_generic.h:95-105, 240-250, 304-322 and 380-412. All of them write `mergeheap[hsize]` for every row of `B`
that is not empty, also if the entry is not kept. -/
def initHeap (ver : Old.Ver) (A B M : CSR V) (row maskIdx maskEnd : Nat) (h : HP) : Res HP := do
  let lo ← rd A.rowptr row
  let hi ← rd A.rowptr (row + 1)
  let h ← forRange lo hi h fun j h => do
    let inner ← rd A.colids j
    let bend ← rd B.rowptr (inner + 1)
    let bbeg ← rd B.rowptr inner
    if bend - bbeg = 0 then .ok h
    else if h.es.length < h.cap then do
      let key ← rd B.colids bbeg
      Old.firstEntry ver B M maskIdx maskEnd bbeg bend j key h
    else .error .oob
  h.make

/-- Main loop of the masked heaps, heap_mult_generic.h:253-281, 325-357 and 415-468 -/
def maskedLoop (ver : Old.Ver) (mul add : V → V → V) (A B M : CSR V) (maskEnd : Nat) :
    Nat → HP → Nat → Nat → Buf V → Res (Buf V × Nat)
  | 0, _, _, _, _ => .error .diverge
  | fuel + 1, h, maskIdx, cur, b =>
    if h.es.isEmpty then .ok (b, cur)
    else do
      let e ← rd h.es 0
      let m ← Old.advance M e.key maskEnd (maskEnd - maskIdx) maskIdx
      if m ≥ maskEnd then .ok (b, cur)
      else do
        let mc ← rd M.colids m
        let (b, cur) ← if e.key = mc then do
            let x ← rd A.values e.runr
            let y ← rd B.values e.loc
            store add cur e.key (mul x y) b
          else .ok (b, cur)
        let h ← Old.insertNext ver A B M m maskEnd h
        maskedLoop ver mul add A B M maskEnd fuel h m cur b

/-- `MaskedHeap_v0::row`, `MaskedHeap_v1::row` and `MaskedHeap_v2::row`, heap_mult_generic.h:228-285, 290-361 and 366-472. The auxiliary
memory is the size of `mergeheap`. The last component is what is stored in `rowNvals[i]` and added to `threadNvals`; `none`: the
function returns before it does so (lines 299 and 375). -/
def maskedRow (ver : Old.Ver) (mul add : V → V → V) (A B M : CSR V) (row cap : Nat) (b : Buf V) : Res (Nat × Buf V × Option Nat) := do
  let maskIdx ← rd M.rowptr row
  let maskEnd ← rd M.rowptr (row + 1)
  if ver ≠ .v0 ∧ maskIdx = maskEnd then .ok (cap, b, none)
  else do
    let h ← initHeap ver A B M row maskIdx maskEnd ⟨cap, []⟩
    let (b, cur) ← maskedLoop ver mul add A B M maskEnd (Heap.turns A B row) h maskIdx 0 b
    .ok (cap, b, some cur)

/-- `std::max_element`: the position of the first largest element of `es` where `best` at position `i` is the largest one so far. An entry
is larger if its key is smaller (`/repo/HeapEntry.h` lines 12-15). -/
def maxElem : List Ent → Nat → Nat → Nat → Nat
  | [], _, at_, _ => at_
  | e :: es, k, at_, best => if e.key < best then maxElem es (k + 1) k e.key else maxElem es (k + 1) at_ best

/-- heap_mult_generic.h:164: which entry is next -/
def nextIdx (threshold : Nat) (es : List Ent) : Nat :=
  if es.length > threshold then 0
  else match es with
    | [] => 0
    | e :: es => maxElem es 1 0 e.key

/-- heap_mult_generic.h:177-191: step over the entry `e` at position `idx` -/
def linNext (threshold : Nat) (A B : CSR V) (h : HP) (idx : Nat) (e : Ent) : Res HP := do
  let inner ← rd A.colids e.runr
  let bend ← rd B.rowptr (inner + 1)
  if e.loc + 1 < bend then do
    let key ← rd B.colids (e.loc + 1)
    let es ← wr h.es idx ⟨key, e.runr, e.loc + 1⟩
    if h.es.length > threshold then HP.sinkRoot { h with es := es } else .ok { h with es := es }
  else do
    let es ← wr h.es idx ⟨e.key, e.runr, e.loc + 1⟩
    if h.es.length > threshold then HP.pop { h with es := es }
    else do
      let last ← rd es (es.length - 1)
      let es ← wr es idx last
      .ok { h with es := es.dropLast }

/-- Main loop of `HeapLinear<threshold>`, heap_mult_generic.h:163-192, and of `BasicHeap`, lines 108-130, which is the one with
`threshold = 0`: the heap is not empty inside of the loop. -/
def plainLoop (threshold : Nat) (mul add : V → V → V) (A B : CSR V) : Nat → HP → Nat → Buf V → Res (Buf V × Nat)
  | 0, _, _, _ => .error .diverge
  | fuel + 1, h, cur, b =>
    if h.es.isEmpty then .ok (b, cur)
    else do
      let idx := nextIdx threshold h.es
      let e ← rd h.es idx
      let x ← rd A.values e.runr
      let y ← rd B.values e.loc
      let (b, cur) ← store add cur e.key (mul x y) b
      let h ← linNext threshold A B h idx e
      plainLoop threshold mul add A B fuel h cur b

/-- The initial array of entries, heap_mult_generic.h:95-103 and 150-158 -/
def initEntries (A B : CSR V) (row : Nat) (h : HP) : Res HP := do
  let lo ← rd A.rowptr row
  let hi ← rd A.rowptr (row + 1)
  forRange lo hi h fun j h => do
    let inner ← rd A.colids j
    let bend ← rd B.rowptr (inner + 1)
    let bbeg ← rd B.rowptr inner
    if bend - bbeg = 0 then .ok h
    else do
      let key ← rd B.colids bbeg
      h.append key j bbeg

/-- heap_mult_generic.h:105 and 160. `make_heap` does nothing on an empty heap. -/
def order (threshold : Nat) (h : HP) : Res HP := if h.es.length > threshold then h.make else .ok h

/-- `HeapLinear<threshold>::row` and (`threshold = 0`) `BasicHeap::row`, heap_mult_generic.h:141-196 and 86-134 -/
def plainRow (threshold : Nat) (mul add : V → V → V) (A B : CSR V) (row cap : Nat) (b : Buf V) : Res (Nat × Buf V × Option Nat) := do
  let h ← initEntries A B row ⟨cap, []⟩
  let h ← order threshold h
  let (b, cur) ← plainLoop threshold mul add A B (Heap.turns A B row) h 0 b
  .ok (cap, b, some cur)

/-! ## Mask compressed accumulators -/

/-- heap_mult_generic.h:539-547 (and 609-617, 682-690): the column at position `idx` of the mask row is in row `A.colids[j]` of `B`, at
position `loc`. The state is the array of values, with the first cell of the row at `pos + 1`, and the flags. -/
def hit (mul add : V → V → V) (A B : CSR V) (pos j loc idx : Nat) (s : List V × List Bool) : Res (List V × List Bool) := do
  let x ← rd A.values j
  let y ← rd B.values loc
  let f ← rd s.2 idx
  if !f then do
    let vals ← wr s.1 (pos + 1 + idx) (mul x y)
    let flags ← wr s.2 idx true
    .ok (vals, flags)
  else do
    let v ← rd s.1 (pos + 1 + idx)
    let vals ← wr s.1 (pos + 1 + idx) (add v (mul x y))
    .ok (vals, s.2)

/-- The search of `MCA_v1` and `MCA_v3`, heap_mult_generic.h:532-552 and 675-695. In version 3 `key` is `*colIdsIt`. If the mask row is
empty the loop starts behind its end and does not stop there. -/
def walk (B M : CSR V) (bend maskBegin maskEnd : Nat) (hit : Nat → Nat → List V × List Bool → Res (List V × List Bool)) :
    Nat → Nat → Nat → Nat → List V × List Bool → Res (List V × List Bool)
  | 0, _, _, _, _ => .error .diverge
  | fuel + 1, key, loc, m, s => do
    let mc ← rd M.colids m
    if key < mc then
      if loc + 1 < bend then do
        let key ← rd B.colids (loc + 1)
        walk B M bend maskBegin maskEnd hit fuel key (loc + 1) m s
      else .ok s
    else if key > mc then
      if m + 1 = maskEnd then .ok s
      else walk B M bend maskBegin maskEnd hit fuel key loc (m + 1) s
    else do
      let s ← hit loc (m - maskBegin) s
      if loc + 1 < bend then do
        let key ← rd B.colids (loc + 1)
        if m + 1 = maskEnd then .ok s
        else walk B M bend maskBegin maskEnd hit fuel key (loc + 1) (m + 1) s
      else .ok s

/-- heap_mult_generic.h:603-605; `none`: the end of the row of `B` -/
def skip (B : CSR V) (bend mc : Nat) : Nat → Nat → Nat → Res (Option (Nat × Nat))
  | 0, _, _ => .error .diverge
  | fuel + 1, key, loc =>
    if key < mc then
      if loc + 1 < bend then do
        let key ← rd B.colids (loc + 1)
        skip B bend mc fuel key (loc + 1)
      else .ok none
    else .ok (some (key, loc))

/-- The search of `MCA_v2`, heap_mult_generic.h:602-621; the number is `maskEnd - maskIdx` -/
def walk2 (B M : CSR V) (bend maskBegin : Nat) (hit : Nat → Nat → List V × List Bool → Res (List V × List Bool)) :
    Nat → Nat → Nat → Nat → List V × List Bool → Res (List V × List Bool)
  | 0, _, _, _, s => .ok s
  | k + 1, key, loc, m, s => do
    let mc ← rd M.colids m
    let r ← skip B bend mc (bend - loc) key loc
    match r with
    | none => .ok s
    | some (key, loc) =>
      if key = mc then do
        let s ← hit loc (m - maskBegin) s
        if loc + 1 < bend then do
          let key ← rd B.colids (loc + 1)
          walk2 B M bend maskBegin hit k key (loc + 1) (m + 1) s
        else .ok s
      else walk2 B M bend maskBegin hit k key loc (m + 1) s

/-- The three classes -/
inductive MVer where
  | v1
  | v2
  | v3
  deriving DecidableEq

/-- One turn of the loop over the row of `A`, heap_mult_generic.h:522-553, 594-624 and 664-696. Versions 1 and 2 read the first key from
`A.colids` (lines 525 and 597). -/
def mcaTurn (ver : MVer) (mul add : V → V → V) (A B M : CSR V) (maskBegin maskEnd pos j : Nat) (s : List V × List Bool) :
    Res (List V × List Bool) := do
  let inner ← rd A.colids j
  let bbeg ← rd B.rowptr inner
  let bend ← rd B.rowptr (inner + 1)
  match ver with
  | .v1 => do
    let key ← rd A.colids bbeg
    if bbeg = bend then .ok s
    else walk B M bend maskBegin maskEnd (hit mul add A B pos j) ((bend - bbeg) + (M.colids.length - maskBegin)) key bbeg maskBegin s
  | .v2 => do
    let key ← rd A.colids bbeg
    if bbeg = bend then .ok s
    else walk2 B M bend maskBegin (hit mul add A B pos j) (maskEnd - maskBegin) key bbeg maskBegin s
  | .v3 =>
    if bbeg = bend then .ok s
    else do
      let key ← rd B.colids bbeg
      walk B M bend maskBegin maskEnd (hit mul add A B pos j) ((bend - bbeg) + (M.colids.length - maskBegin)) key bbeg maskBegin s

/-- heap_mult_generic.h:555-563 (and 626-634, 698-706): keep the cells whose flag is set. The state is `dst` and the arrays. -/
def compress (M : CSR V) (maskBegin maskSize pos : Nat) (flags : List Bool) (cols : List Nat) (vals : List V) :
    Res (Nat × List Nat × List V) :=
  forRange 0 maskSize (0, cols, vals) fun src (dst, cols, vals) => do
    let f ← rd flags src
    if f then do
      let c ← rd M.colids (maskBegin + src)
      let cols ← wr cols (pos + 1 + dst) c
      let v ← rd vals (pos + 1 + src)
      let vals ← wr vals (pos + 1 + dst) v
      .ok (dst + 1, cols, vals)
    else .ok (dst, cols, vals)

/-- `MCA_v1::row`, `MCA_v2::row` and `MCA_v3::row`, heap_mult_generic.h:506-570, 577-641 and 648-713. The auxiliary memory is `flags`. -/
def mcaRow (ver : MVer) (mul add : V → V → V) (A B M : CSR V) (row : Nat) (flags : List Bool) (b : Buf V) :
    Res (List Bool × Buf V × Option Nat) := do
  let maskBegin ← rd M.rowptr row
  let maskEnd ← rd M.rowptr (row + 1)
  let flags ← forRange 0 (maskEnd - maskBegin) flags fun i flags => wr flags i false
  let lo ← rd A.rowptr row
  let hi ← rd A.rowptr (row + 1)
  let (vals, flags) ← forRange lo hi (b.vals, flags) (mcaTurn ver mul add A B M maskBegin maskEnd b.pos)
  let (dst, cols, vals) ← compress M maskBegin (maskEnd - maskBegin) b.pos flags b.cols vals
  .ok (flags, ⟨cols, vals, b.pos + dst⟩, some dst)

/-! ## The driver -/

/-- What the driver uses of the template parameter `RowAlgorithm` -/
structure Alg (V : Type) where
  /-- auxiliary memory -/
  Aux : Type
  /-- `estimateResultSize`; the arguments are `M`, `maxnnzc` and the range of rows -/
  size : CSR V → List Nat → Nat → Nat → Res Nat
  /-- `allocateAuxiliaryMemory`; the arguments are `A`, `M` and the range of rows -/
  aux : CSR V → CSR V → Nat → Nat → Res Aux
  /-- `row` -/
  row : (V → V → V) → (V → V → V) → CSR V → CSR V → CSR V → Nat → Aux → Buf V → Res (Aux × Buf V × Option Nat)

/-- `HeapBase::estimateResultSize`, heap_mult_generic.h:64-69 -/
def plainSize (maxnnzc : List Nat) (lo hi : Nat) : Res Nat :=
  forRange lo hi 0 fun i s => do
    let x ← rd maxnnzc i
    .ok (s + x)

/-- `MaskedHeapBase::estimateResultSize` and `MCABase::estimateResultSize`, heap_mult_generic.h:202-210 and 478-486 -/
def maskedSize (M : CSR V) (maxnnzc : List Nat) (lo hi : Nat) : Res Nat :=
  forRange lo hi 0 fun row size => do
    let x ← rd maxnnzc row
    let m ← rowLen M row
    .ok (size + min x m)

/-- The longest of the rows from `lo` to `hi`: `threadHeapSize`, heap_mult_generic.h:75-79 and 216-220, and `flagsSize`, lines 491-495 -/
def longest (X : CSR V) (lo hi : Nat) : Res Nat :=
  forRange lo hi 0 fun i m => do
    let l ← rowLen X i
    .ok (if l > m then l else m)

/-- `HeapLinear<threshold>`; `BasicHeap` if `threshold = 0`. heap_mult_generic.h:60-82, 84-136 and 138-197 -/
def plain (threshold : Nat) : Alg V where
  Aux := Nat
  size _ maxnnzc lo hi := plainSize maxnnzc lo hi
  aux A _ lo hi := longest A lo hi
  row mul add A B _ i cap b := plainRow threshold mul add A B i cap b

/-- `MaskedHeap_v0`, `MaskedHeap_v1`, `MaskedHeap_v2`, heap_mult_generic.h:199-473 -/
def masked (ver : Old.Ver) : Alg V where
  Aux := Nat
  size := maskedSize
  aux A _ lo hi := longest A lo hi
  row := maskedRow ver

/-- `MCA_v1`, `MCA_v2`, `MCA_v3`, heap_mult_generic.h:475-714 -/
def mca (ver : MVer) : Alg V where
  Aux := List Bool
  size := maskedSize
  aux _ M lo hi := do
    let n ← longest M lo hi
    .ok (List.replicate n false)
  row := mcaRow ver

/-- Body of the loop of `tmp::getFlop`, heap_mult_generic.h:20-25 -/
def flopRow (A B : CSR V) (i : Nat) : Res Nat := do
  let lo ← rd A.rowptr i
  let hi ← rd A.rowptr (i + 1)
  forRange lo hi 0 fun j locmax => do
    let inner ← rd A.colids j
    let e ← rd B.rowptr (inner + 1)
    let b ← rd B.rowptr inner
    .ok (locmax + (e - b))

/-- `tmp::getFlop`, heap_mult_generic.h:14-30, iterations in the order `order`. The array `maxnnzc` and the total, which is doubled at the
end of the function and halved by the caller. -/
def getFlop (A B : CSR V) (order : List Nat) (maxnnzc : List Nat) : Res (List Nat × Nat) :=
  order.foldlM (fun (maxnnzc, flop) i => do
    let locmax ← flopRow A B i
    let maxnnzc ← wr maxnnzc i locmax
    .ok (maxnnzc, flop + locmax)) (maxnnzc, 0)

/-- State of a thread before the first barrier. -/
structure Loc (X V : Type) where
  row : Nat
  stop : Nat
  aux : X
  buf : Buf V
  nvals : Nat
  done : Bool := false

/-- `rowBegin` and `rowEnd`, heap_mult_generic.h:757-758 -/
def range (rowStart : List Nat) (flops rows n t : Nat) : Res (Nat × Nat) := do
  let flopsPerThread := flops / n
  let b ← if t ≠ 0 then lowerBound (rowStart.map some) rows (flopsPerThread * t) else .ok 0
  let e ← if t ≠ n - 1 then lowerBound (rowStart.map some) rows (flopsPerThread * (t + 1)) else .ok rows
  .ok (b, e)

/-- heap_mult_generic.h:761-771 -/
def start (alg : Alg V) (zero : V) (A M : CSR V) (maxnnzc : List Nat) (r : Nat × Nat) : Res (Loc alg.Aux V) := do
  let localsum ← alg.size M maxnnzc r.1 r.2
  let aux ← alg.aux A M r.1 r.2
  .ok { row := r.1, stop := r.2, aux := aux, nvals := 0,
        buf := ⟨List.replicate (localsum + 1) 0, List.replicate (localsum + 1) zero, 0⟩ }

/-- heap_mult_generic.h:774-777: one row per step, then `threadsNvals[thisThread]` -/
def step (alg : Alg V) (mul add : V → V → V) (A B M : CSR V) (t : Nat) (g : Sh V) (l : Loc alg.Aux V) :
    Res (Sh V × Loc alg.Aux V) :=
  if l.row < l.stop then do
    let (aux, buf, k) ← alg.row mul add A B M l.row l.aux l.buf
    match k with
    | none => .ok (g, { l with row := l.row + 1, aux := aux, buf := buf })
    | some k => do
      let rn ← wr g.rowNvals l.row (some k)
      .ok ({ g with rowNvals := rn }, { l with row := l.row + 1, aux := aux, buf := buf, nvals := l.nvals + k })
  else do
    let tn ← wr g.threadsNvals t (some l.nvals)
    .ok ({ g with threadsNvals := tn }, { l with done := true })

/-- The pairs behind the first cell that lines 802-803 copy -/
def Loc.out {X : Type} (l : Loc X V) : List (Nat × V) := ((l.buf.cols.zip l.buf.vals).drop 1).take l.nvals

/-- The allocation by the master thread, heap_mult_generic.h:783-788 -/
def alloc (rows n : Nat) (g : Sh V) : Res (Sh V) := do
  let nnz ← accumulate g.threadsNvals n
  let rowptr ← wr (List.replicate (rows + 1) none) 0 (some 0)
  .ok { g with rowptr := rowptr, colids := List.replicate nnz none, values := List.replicate nnz none }

/-- Everything before the parallel region, heap_mult_generic.h:735-749: `maxnnzc`, `flops` and `rowStart`. The prefix sum runs with the
default team size `dflt`. `rowStart[0] = 0` needs a row. -/
def plan (A B : CSR V) (dflt : Nat) (sch : Scheds) : Res (Option (List Nat × Nat × List Nat)) := do
  let (maxnnzc, flops) ← getFlop A B sch.flops (List.replicate A.rows 0)
  let rowStart ← wr (List.replicate A.rows 0) 0 0
  let r ← UtilScan.scan maxnnzc A.rows rowStart dflt sch.scan1 sch.scan2
  match r with
  | none => .ok none
  | some rowStart => .ok (some (maxnnzc, flops, rowStart))

/-- The parallel region, heap_mult_generic.h:752-807. The part behind the second barrier (lines 791-803) is `step3`, which has the same
statements. The result object is empty or made empty at first (line 730); `zb` is its flag `zerobased`, which is not touched. -/
def region (alg : Alg V) (mul add : V → V → V) (zero : V) (A B M : CSR V) (zb : Bool) (n : Nat) (maxnnzc : List Nat) (flops : Nat)
    (rowStart : List Nat) (sch : Scheds) : Res (Option (CSR V)) := do
  let rngs ← setup n (range rowStart flops A.rows n)
  let ls ← rngs.mapM (start alg zero A M maxnnzc)
  let g : Sh V := { rowNvals := List.replicate A.rows (some 0), threadsNvals := List.replicate n (some 0) }
  match ls with
  | [] => .ok none
  | l0 :: _ => do
    let r ← phase n (step alg mul add A B M) (·.done) sch.first g (fun t => ls.getD t l0)
    match r with
    | none => .ok none
    | some (g, ls) => do
      let g ← alloc A.rows n g
      let r ← phase n (step3 A.rows n (fun t => rngs.getD t (0, 0)) (fun t => (ls t).out)) (· == .done) sch.second g (fun _ => .start)
      match r with
      | none => .ok none
      | some (g, _) => do
        let C ← freeze A.rows B.cols zb g
        .ok (some C)

/-- `HeapSpGEMM<RowAlgorithm>(A, B, C, M, multop, addop, numThreads)`, heap_mult_generic.h:718-812 and 820-824. The algorithms `plain`
do not look at `M` (lines 814-818 pass an empty object). `none`: a schedule ended before all threads reached the next barrier. -/
def heapSpGEMM (alg : Alg V) (mul add : V → V → V) (zero : V) (A B M : CSR V) (zb : Bool) (numThreads dflt : Nat) (sch : Scheds) :
    Res (Option (CSR V)) := do
  let n := setNumThreads numThreads dflt
  let p ← plan A B dflt sch
  match p with
  | none => .ok none
  | some (maxnnzc, flops, rowStart) => region alg mul add zero A B M zb n maxnnzc flops rowStart sch

end Verif.Model.Gen
