import Verif.Model.Driver
import Verif.Model.StlHeap

/-!
# Heap row algorithms

Models `/repo/spgemm-blocks/heap/Heap.h` and
`/repo/spgemm-blocks/heap/MaskedHeapAlgorithmInspect.h`.

Simplifications: the array `_entries` is the list of its first `_size` entries, with
the capacity checked on `append`; the key sentinel `numeric_limits<IT>::max()` for
`prevKey` (never a column id, since column ids are below `cols`) is `none`; the stores
through `currColId`/`currValue` are a list whose last cell can be rewritten.
-/

namespace Verif.Model.Heap

variable {V : Type}

/-- `Heap`, Heap.h:27-42 -/
structure HP where
  cap : Nat
  es : List Ent

/-- `append`, Heap.h:67-72 -/
def HP.append (h : HP) (key runr loc : Nat) : Res HP :=
  if h.es.length < h.cap then .ok { h with es := h.es ++ [⟨key, runr, loc⟩] } else .error .oob

/-- `make`, Heap.h:80-83 -/
def HP.make (h : HP) : Res HP := do
  let es ← makeHeap h.es
  .ok { h with es := es }

/-- `pop`, Heap.h:85-88 -/
def HP.pop (h : HP) : Res HP := do
  let es ← popHeap h.es
  .ok { h with es := es.dropLast }

/-- `sinkRoot`, Heap.h:90-93 -/
def HP.sinkRoot (h : HP) : Res HP := do
  let es ← popHeap h.es
  let es ← pushHeap es
  .ok { h with es := es }

/-- Overwrite `_entries[0]` through the reference `hentry` (Heap.h:76). -/
def HP.setTop (h : HP) (e : Ent) : Res HP := do
  let es ← wr h.es 0 e
  .ok { h with es := es }

/-- `numeric_limits<size_t>::max()` on a 64-bit machine -/
def SIZE_MAX : Nat := 2 ^ 64 - 1

/-- Loop of MaskedHeapAlgorithmInspect.h:119 (`Inspect = 1`, first entry) -/
def skipInit (B M : CSR V) (maskIdx bend : Nat) : Nat → Nat → Nat → Res (Nat × Nat)
  | 0, _, _ => .error .diverge
  | fuel + 1, key, loc => do
    let mc ← rd M.colids maskIdx
    if key < mc then
      if loc + 1 < bend then do
        let key ← rd B.colids (loc + 1)
        skipInit B M maskIdx bend fuel key (loc + 1)
      else .ok (key, loc)
    else .ok (key, loc)

/-- Loop of MaskedHeapAlgorithmInspect.h:191-194 (`Inspect = 1`, next entry) -/
def skipNext (B M : CSR V) (maskIdx bend : Nat) : Nat → Nat → Nat → Res (Nat × Nat)
  | 0, _, _ => .error .diverge
  | fuel + 1, key, loc =>
    if loc + 1 < bend then do
      let key ← rd B.colids (loc + 1)
      let mc ← rd M.colids maskIdx
      if mc ≤ key then .ok (key, loc + 1)
      else skipNext B M maskIdx bend fuel key (loc + 1)
    else .ok (key, loc + 1)

/-- Search for the next column of the row of `B` that is in the mask, looking at mask
positions below `stop` only: MaskedHeapAlgorithmInspect.h:129-139, 151-164 (first entry)
and 210-228, 248-267 (next entry). For `Inspect = numeric_limits<size_t>::max()` the
loops are those with `stop = maskEnd`. The result says whether the entry goes into
the heap, and its key and position. -/
def search (B M : CSR V) (bend stop maskEnd : Nat) : Nat → Nat → Nat → Nat → Res (Bool × Nat × Nat)
  | 0, _, _, _ => .error .diverge
  | fuel + 1, key, loc, m => do
    let mc ← rd M.colids m
    if key < mc then
      if loc + 1 < bend then do
        let key ← rd B.colids (loc + 1)
        search B M bend stop maskEnd fuel key (loc + 1) m
      else .ok (false, key, loc + 1)
    else if mc < key then
      if m + 1 = stop then .ok (m + 1 != maskEnd, key, loc)
      else search B M bend stop maskEnd fuel key loc (m + 1)
    else .ok (true, key, loc)

/-- `std::min<std::size_t>(maskIdx + Inspect, maskEnd)`, lines 146 and 233; the sum wraps
around. For the unbounded search the bound is `maskEnd`. -/
def stopOf (insp maskIdx maskEnd : Nat) : Nat :=
  if insp = SIZE_MAX then maskEnd else min ((maskIdx + insp) % 2 ^ 64) maskEnd

/-- `initHeap`, MaskedHeapAlgorithmInspect.h:101-172 -/
def initHeap (insp : Nat) (A B M : CSR V) (row maskIdx maskEnd : Nat) (h : HP) : Res HP := do
  let lo ← rd A.rowptr row
  let hi ← rd A.rowptr (row + 1)
  let h ← forRange lo hi h fun j h => do
    let inner ← rd A.colids j
    let bend ← rd B.rowptr (inner + 1)
    let bbeg ← rd B.rowptr inner
    if bend - bbeg = 0 then .ok h
    else do
      let key ← rd B.colids bbeg
      if insp = 0 then h.append key j bbeg
      else if insp = 1 then do
        let (key, loc) ← skipInit B M maskIdx bend (bend - bbeg) key bbeg
        if loc < bend then h.append key j loc else .ok h
      else do
        let (put, key, loc) ← search B M bend (stopOf insp maskIdx maskEnd) maskEnd
          ((bend - bbeg) + (M.colids.length - maskIdx)) key bbeg maskIdx
        if put then h.append key j loc else .ok h
  h.make

/-- `insertNext`, MaskedHeapAlgorithmInspect.h:174-271 -/
def insertNext (insp : Nat) (A B M : CSR V) (maskIdx maskEnd : Nat) (h : HP) : Res HP := do
  let e ← rd h.es 0
  let inner ← rd A.colids e.runr
  let bend ← rd B.rowptr (inner + 1)
  if insp = 0 then
    if e.loc + 1 < bend then do
      let key ← rd B.colids (e.loc + 1)
      let h ← h.setTop ⟨key, e.runr, e.loc + 1⟩
      h.sinkRoot
    else do
      let h ← h.setTop ⟨e.key, e.runr, e.loc + 1⟩
      h.pop
  else if insp = 1 then do
    let (key, loc) ← skipNext B M maskIdx bend (bend - e.loc) e.key e.loc
    let h ← h.setTop ⟨key, e.runr, loc⟩
    if loc < bend then h.sinkRoot else h.pop
  else if e.loc + 1 < bend then do
    let key ← rd B.colids (e.loc + 1)
    let (put, key, loc) ← search B M bend (stopOf insp maskIdx maskEnd) maskEnd
      ((bend - (e.loc + 1)) + (M.colids.length - maskIdx)) key (e.loc + 1) maskIdx
    let h ← h.setTop ⟨key, e.runr, loc⟩
    if put then h.sinkRoot else h.pop
  else do
    let h ← h.setTop ⟨e.key, e.runr, e.loc + 1⟩
    h.pop

/-- `while (maskIdx < maskEnd && hentry.key > M.colids[maskIdx]) { ++maskIdx; }`, lines
44, 77, 314, 355 -/
def advMask (M : CSR V) (key maskEnd : Nat) : Nat → Nat → Res Nat
  | 0, m => if m < maskEnd then .error .diverge else .ok m
  | fuel + 1, m =>
    if m < maskEnd then do
      let mc ← rd M.colids m
      if mc < key then advMask M key maskEnd fuel (m + 1) else .ok m
    else .ok m

/-- Store a product, lines 86-92, 362-368, 379-385: add to the last cell (new product
first) or open a new one. -/
def emit (add : V → V → V) (prev : Option Nat) (out : List (Nat × V)) (key : Nat) (value : V) :
    Res (Option Nat × List (Nat × V)) :=
  if prev = some key then
    match out.getLast? with
    | none => .error .oob
    | some (c, v) => .ok (prev, out.dropLast ++ [(c, add value v)])
  else .ok (some key, out ++ [(key, value)])

/-- Each turn of the main loops moves one entry forward or removes it, so the number of
turns is at most the number of products of the row. -/
def turns (A B : CSR V) (row : Nat) : Nat := ((A.row row).map fun ka => (B.row ka.1).length).sum + 1

/-- Main loop of `numericRow`, MaskedHeapAlgorithmInspect.h:74-96 -/
def numLoop (insp : Nat) (mul add : V → V → V) (A B M : CSR V) (maskEnd : Nat) :
    Nat → HP → Nat → Option Nat → List (Nat × V) → Res (HP × List (Nat × V))
  | 0, _, _, _, _ => .error .diverge
  | fuel + 1, h, maskIdx, prev, out =>
    if h.es.isEmpty then .ok (h, out)
    else do
      let e ← rd h.es 0
      let m ← advMask M e.key maskEnd (maskEnd - maskIdx) maskIdx
      if maskEnd ≤ m then .ok ({ h with es := [] }, out)
      else do
        let mc ← rd M.colids m
        let (prev, out) ← if e.key = mc then do
            let a ← rd A.values e.runr
            let b ← rd B.values e.loc
            emit add prev out e.key (mul a b)
          else .ok (prev, out)
        let h ← insertNext insp A B M m maskEnd h
        numLoop insp mul add A B M maskEnd fuel h m prev out

/-- `numericRow`, MaskedHeapAlgorithmInspect.h:63-98 -/
def numericRow (insp : Nat) (mul add : V → V → V) (A B M : CSR V) (row : Nat) (h : HP) :
    Res (HP × List (Nat × V)) := do
  let maskIdx ← rd M.rowptr row
  let maskEnd ← rd M.rowptr (row + 1)
  check (maskIdx != maskEnd)
  let h ← initHeap insp A B M row maskIdx maskEnd h
  numLoop insp mul add A B M maskEnd (turns A B row) h maskIdx none []

/-- Main loop of `symbolicRow`, MaskedHeapAlgorithmInspect.h:41-56 -/
def symLoop (insp : Nat) (A B M : CSR V) (maskEnd : Nat) : Nat → HP → Nat → Option Nat → Nat → Res (HP × Nat)
  | 0, _, _, _, _ => .error .diverge
  | fuel + 1, h, maskIdx, prev, cnt =>
    if h.es.isEmpty then .ok (h, cnt)
    else do
      let e ← rd h.es 0
      let m ← advMask M e.key maskEnd (maskEnd - maskIdx) maskIdx
      if maskEnd ≤ m then .ok ({ h with es := [] }, cnt)
      else do
        let mc ← rd M.colids m
        let hit := e.key == mc && prev != some e.key
        let h ← insertNext insp A B M m maskEnd h
        symLoop insp A B M maskEnd fuel h m (if hit then some e.key else prev) (if hit then cnt + 1 else cnt)

/-- `symbolicRow`, MaskedHeapAlgorithmInspect.h:29-59 -/
def symbolicRow (insp : Nat) (A B M : CSR V) (row : Nat) (h : HP) : Res (HP × Nat) := do
  let maskIdx ← rd M.rowptr row
  let maskEnd ← rd M.rowptr (row + 1)
  check (maskIdx != maskEnd)
  let h ← initHeap insp A B M row maskIdx maskEnd h
  symLoop insp A B M maskEnd (turns A B row) h maskIdx none 0

/-- `internal::MaskedHeap<IT, NT, Inspect>`, MaskedHeapAlgorithmInspect.h:8-272 -/
def heap (insp : Nat) : RowAlg V where
  N := HP
  S := HP
  compl := false
  calcA := true
  calcM := false
  calcF := false
  initN := fun _ sz => ⟨sz.maxA, []⟩
  initS := fun _ sz => ⟨sz.maxA, []⟩
  numRow := fun mul add A B M row _ h => numericRow insp mul add A B M row h
  symRow := fun A B M row _ h => symbolicRow insp A B M row h

/-! ## Complemented -/

/-- `initHeap`, MaskedHeapAlgorithmInspect.h:393-405 -/
def initHeapC (A B : CSR V) (row : Nat) (h : HP) : Res HP := do
  let lo ← rd A.rowptr row
  let hi ← rd A.rowptr (row + 1)
  let h ← forRange lo hi h fun j h => do
    let inner ← rd A.colids j
    let bend ← rd B.rowptr (inner + 1)
    let bbeg ← rd B.rowptr inner
    if bend - bbeg = 0 then .ok h
    else do
      let key ← rd B.colids bbeg
      h.append key j bbeg
  h.make

/-- `insertNext`, MaskedHeapAlgorithmInspect.h:407-416 -/
def insertNextC (A B : CSR V) (h : HP) : Res HP := do
  let e ← rd h.es 0
  let inner ← rd A.colids e.runr
  let bend ← rd B.rowptr (inner + 1)
  if e.loc + 1 < bend then do
    let key ← rd B.colids (e.loc + 1)
    let h ← h.setTop ⟨key, e.runr, e.loc + 1⟩
    h.sinkRoot
  else do
    let h ← h.setTop ⟨e.key, e.runr, e.loc + 1⟩
    h.pop

/-- First loop of `numericRow`, MaskedHeapAlgorithmInspect.h:352-372; ends when the heap or
the mask row is used up. -/
def numLoop1 (mul add : V → V → V) (A B M : CSR V) (maskEnd : Nat) :
    Nat → HP → Nat → Option Nat → List (Nat × V) → Res (HP × Option Nat × List (Nat × V))
  | 0, _, _, _, _ => .error .diverge
  | fuel + 1, h, maskIdx, prev, out =>
    if h.es.isEmpty then .ok (h, prev, out)
    else do
      let e ← rd h.es 0
      let m ← advMask M e.key maskEnd (maskEnd - maskIdx) maskIdx
      if maskEnd ≤ m then .ok (h, prev, out)
      else do
        let mc ← rd M.colids m
        let (prev, out) ← if e.key ≠ mc then do
            let a ← rd A.values e.runr
            let b ← rd B.values e.loc
            emit add prev out e.key (mul a b)
          else .ok (prev, out)
        let h ← insertNextC A B h
        numLoop1 mul add A B M maskEnd fuel h m prev out

/-- Second loop of `numericRow`, MaskedHeapAlgorithmInspect.h:374-388 -/
def numLoop2 (mul add : V → V → V) (A B : CSR V) :
    Nat → HP → Option Nat → List (Nat × V) → Res (HP × List (Nat × V))
  | 0, _, _, _ => .error .diverge
  | fuel + 1, h, prev, out =>
    if h.es.isEmpty then .ok (h, out)
    else do
      let e ← rd h.es 0
      let a ← rd A.values e.runr
      let b ← rd B.values e.loc
      let (prev, out) ← emit add prev out e.key (mul a b)
      let h ← insertNextC A B h
      numLoop2 mul add A B fuel h prev out

/-- `numericRow`, MaskedHeapAlgorithmInspect.h:341-391; `ndebug` switches the assert off -/
def numericRowC (ndebug : Bool) (mul add : V → V → V) (A B M : CSR V) (row : Nat) (h : HP) :
    Res (HP × List (Nat × V)) := do
  let maskIdx ← rd M.rowptr row
  let maskEnd ← rd M.rowptr (row + 1)
  check (ndebug || maskIdx != maskEnd)
  let h ← initHeapC A B row h
  let (h, prev, out) ← numLoop1 mul add A B M maskEnd (turns A B row) h maskIdx none []
  numLoop2 mul add A B (turns A B row) h prev out

/-- First loop of `symbolicRow`, MaskedHeapAlgorithmInspect.h:311-323 -/
def symLoop1 (A B M : CSR V) (maskEnd : Nat) :
    Nat → HP → Nat → Option Nat → Nat → Res (HP × Option Nat × Nat)
  | 0, _, _, _, _ => .error .diverge
  | fuel + 1, h, maskIdx, prev, cnt =>
    if h.es.isEmpty then .ok (h, prev, cnt)
    else do
      let e ← rd h.es 0
      let m ← advMask M e.key maskEnd (maskEnd - maskIdx) maskIdx
      if maskEnd ≤ m then .ok (h, prev, cnt)
      else do
        let mc ← rd M.colids m
        let hit := e.key != mc && prev != some e.key
        let h ← insertNextC A B h
        symLoop1 A B M maskEnd fuel h m (if hit then some e.key else prev) (if hit then cnt + 1 else cnt)

/-- Second loop of `symbolicRow`, MaskedHeapAlgorithmInspect.h:325-334 -/
def symLoop2 (A B : CSR V) : Nat → HP → Option Nat → Nat → Res (HP × Nat)
  | 0, _, _, _ => .error .diverge
  | fuel + 1, h, prev, cnt =>
    if h.es.isEmpty then .ok (h, cnt)
    else do
      let e ← rd h.es 0
      let hit := prev != some e.key
      let h ← insertNextC A B h
      symLoop2 A B fuel h (if hit then some e.key else prev) (if hit then cnt + 1 else cnt)

/-- `symbolicRow`, MaskedHeapAlgorithmInspect.h:298-337; `ndebug` switches the assert off -/
def symbolicRowC (ndebug : Bool) (A B M : CSR V) (row : Nat) (h : HP) : Res (HP × Nat) := do
  let maskIdx ← rd M.rowptr row
  let maskEnd ← rd M.rowptr (row + 1)
  check (ndebug || maskIdx != maskEnd)
  let h ← initHeapC A B row h
  let (h, prev, cnt) ← symLoop1 A B M maskEnd (turns A B row) h maskIdx none 0
  symLoop2 A B (turns A B row) h prev cnt

/-- `internal::MaskedHeapComplemented<IT, NT>`, MaskedHeapAlgorithmInspect.h:274-417 -/
def heapC (ndebug : Bool) : RowAlg V where
  N := HP
  S := HP
  compl := true
  calcA := true
  calcM := false
  calcF := false
  initN := fun _ sz => ⟨sz.maxA, []⟩
  initS := fun _ sz => ⟨sz.maxA, []⟩
  numRow := fun mul add A B M row _ h => numericRowC ndebug mul add A B M row h
  symRow := fun A B M row _ h => symbolicRowC ndebug A B M row h

end Verif.Model.Heap
