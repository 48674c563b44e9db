import Verif.Model.MsaAlg
import Verif.Model.HeapAlg

/-!
# The older row algorithms

Models `/repo/spgemm-blocks/msa/MSAAlgorithm_old.h` (classes `MSA1A_old`, `MSA2A_old`) and
`/repo/spgemm-blocks/heap/MaskedHeapAlgorithm.h` (classes `MaskedHeap_v0`, `MaskedHeap_v1`, `MaskedHeap_v2`), which the triangle
counting program runs next to the newer classes. Written from these files and not by reference to the newer row algorithms; the
accumulators and the heap are the same classes. The simplifications are those of `Verif.Model.Msa` and `Verif.Model.Heap`.
-/

namespace Verif.Model.Old

open Msa (SAcc Acc1 Acc2 ALLOWED NOT_ALLOWED INITIALIZED)
open Heap (HP)

variable {V : Type}

/-! ## Sparse accumulators -/

/-- `symbolicRow`, MSAAlgorithm_old.h:37-68 (one array) and 140-171 (two arrays) -/
def msaSym (A B M : CSR V) (row : Nat) (acc : SAcc) : Res (SAcc × Nat) := do
  let acc ← maskLoop M row acc fun c acc => acc.setAllowed false c
  let (acc, n) ← nest A B row (acc, 0) fun _ k (acc, n) => do
    let c ← rd B.colids k
    let (acc, erased) ← acc.erase false c
    .ok (acc, if erased then n + 1 else n)
  let acc ← maskLoop M row acc fun c acc => acc.clear false c
  .ok (acc, n)

/-- The loop over the products, MSAAlgorithm_old.h:84-93 -/
def msa1Add (mul add : V → V → V) (A B : CSR V) (j k : Nat) (acc : Acc1 V) : Res (Acc1 V) := do
  let c ← rd B.colids k
  let e ← acc.get c
  if e.state = ALLOWED false then do
    let a ← rd A.values j
    let b ← rd B.values k
    acc.put c { state := INITIALIZED, value := some (mul a b) }
  else if e.state = INITIALIZED then do
    let a ← rd A.values j
    let b ← rd B.values k
    let v ← use e.value
    acc.put c { e with value := some (add v (mul a b)) }
  else .ok acc

/-- `MSA1A_old::numericRow`, MSAAlgorithm_old.h:72-107 -/
def msa1Num (mul add : V → V → V) (A B M : CSR V) (row : Nat) (acc : Acc1 V) : Res (Acc1 V × List (Nat × V)) := do
  let acc ← maskLoop M row acc fun c acc => acc.setAllowed false c
  let acc ← nest A B row acc (msa1Add mul add A B)
  maskLoop M row (acc, []) fun c (acc, out) => do
    let e ← acc.get c
    let out ← if e.state = INITIALIZED then do
        let v ← use e.value
        .ok (out ++ [(c, v)])
      else .ok out
    let acc ← acc.clear false c
    .ok (acc, out)

/-- The loop over the products, MSAAlgorithm_old.h:188-200 -/
def msa2Add (mul add : V → V → V) (A B : CSR V) (j k : Nat) (acc : Acc2 V) : Res (Acc2 V) := do
  let c ← rd B.colids k
  let s ← acc.getState c
  if s = NOT_ALLOWED false then .ok acc
  else if s = ALLOWED false then do
    let a ← rd A.values j
    let b ← rd B.values k
    let acc ← acc.putValue c (some (mul a b))
    acc.putState c INITIALIZED
  else do
    check (s == INITIALIZED)
    let a ← rd A.values j
    let b ← rd B.values k
    let v ← acc.getValue c
    acc.putValue c (some (add v (mul a b)))

/-- `MSA2A_old::numericRow`, MSAAlgorithm_old.h:175-227 -/
def msa2Num (mul add : V → V → V) (A B M : CSR V) (row : Nat) (acc : Acc2 V) : Res (Acc2 V × List (Nat × V)) := do
  let acc ← maskLoop M row acc fun c acc => acc.setAllowed false c
  let acc ← nest A B row acc (msa2Add mul add A B)
  maskLoop M row (acc, []) fun c (acc, out) => do
    let s ← acc.getState c
    let out ← if s = INITIALIZED then do
        let v ← acc.getValue c
        .ok (out ++ [(c, v)])
      else .ok out
    let acc ← acc.clear false c
    .ok (acc, out)

/-- `MSA1A_old`, MSAAlgorithm_old.h:8-109 -/
def msa1 : RowAlg V where
  N := Acc1 V
  S := SAcc
  compl := false
  calcA := false
  calcM := false
  calcF := false
  initN cols _ := Msa.fresh1 cols
  initS cols _ := Msa.freshS cols
  numRow mul add A B M row _ acc := msa1Num mul add A B M row acc
  symRow A B M row _ acc := msaSym A B M row acc

/-- `MSA2A_old`, MSAAlgorithm_old.h:111-229 -/
def msa2 : RowAlg V where
  N := Acc2 V
  S := SAcc
  compl := false
  calcA := false
  calcM := false
  calcF := false
  initN cols _ := Msa.fresh2 cols
  initS cols _ := Msa.freshS cols
  numRow mul add A B M row _ acc := msa2Num mul add A B M row acc
  symRow A B M row _ acc := msaSym A B M row acc

/-! ## Heaps -/

/-- The three classes -/
inductive Ver where
  | v0
  | v1
  | v2
  deriving DecidableEq

/-- Loop of `MaskedHeap_v1::initHeap`, MaskedHeapAlgorithm.h:228-231; `bend` is `B.rowptr[inner + 1]`. -/
def skipFirst (B M : CSR V) (maskIdx bend : Nat) : Nat → Nat → Nat → Res (Nat × Nat)
  | 0, _, _ => .error .diverge
  | fuel + 1, key, loc => do
    let mc ← rd M.colids maskIdx
    if key < mc then
      if loc + 1 < bend then do
        let key ← rd B.colids (loc + 1)
        skipFirst B M maskIdx bend fuel key (loc + 1)
      else .ok (key, loc)
    else .ok (key, loc)

/-- Loop of `MaskedHeap_v1::insertNext`, MaskedHeapAlgorithm.h:244-247 -/
def skipNext (B M : CSR V) (maskIdx bend : Nat) : Nat → Nat → Nat → Res (Nat × Nat)
  | 0, _, _ => .error .diverge
  | fuel + 1, key, loc =>
    if loc + 1 < bend then do
      let key ← rd B.colids (loc + 1)
      let mc ← rd M.colids maskIdx
      if key ≥ mc then .ok (key, loc + 1)
      else skipNext B M maskIdx bend fuel key (loc + 1)
    else .ok (key, loc + 1)

/-- Loops of `MaskedHeap_v2::initHeap` and `insertNext`, MaskedHeapAlgorithm.h:362-377 and 398-416: whether there is a
common column, and the key and position that are left in the entry. -/
def common (B M : CSR V) (bend maskEnd : Nat) : Nat → Nat → Nat → Nat → Res (Bool × Nat × Nat)
  | 0, _, _, _ => .error .diverge
  | fuel + 1, key, loc, m => do
    let mc ← rd M.colids m
    if key < mc then
      if loc + 1 < bend then do
        let key ← rd B.colids (loc + 1)
        common B M bend maskEnd fuel key (loc + 1) m
      else .ok (false, key, loc + 1)
    else if key > mc then
      if m + 1 = maskEnd then .ok (false, key, loc)
      else common B M bend maskEnd fuel key loc (m + 1)
    else .ok (true, key, loc)

/-- The entry for row `inner` of `B` whose first key is `key`, MaskedHeapAlgorithm.h:107-109, 225-233 and 356-379 -/
def firstEntry (ver : Ver) (B M : CSR V) (maskIdx maskEnd bbeg bend j key : Nat) (h : HP) : Res HP :=
  match ver with
  | .v0 => h.append key j bbeg
  | .v1 => do
    let (key, loc) ← skipFirst B M maskIdx bend (bend - bbeg) key bbeg
    if loc < bend then h.append key j loc else .ok h
  | .v2 => do
    let (found, key, loc) ← common B M bend maskEnd ((bend - bbeg) + (M.colids.length - maskIdx)) key bbeg maskIdx
    if found then h.append key j loc else .ok h

/-- `initHeap`, MaskedHeapAlgorithm.h:101-113, 219-237 and 349-383 -/
def initHeap (ver : Ver) (A B M : CSR V) (row maskIdx maskEnd : Nat) (h : HP) : Res HP := do
  let lo ← rd A.rowptr row
  let hi ← rd A.rowptr (row + 1)
  let h ← forRange lo hi h fun j h => do
    let inner ← rd A.colids j
    let bend ← rd B.rowptr (inner + 1)
    let bbeg ← rd B.rowptr inner
    if bend - bbeg = 0 then .ok h
    else do
      let key ← rd B.colids bbeg
      firstEntry ver B M maskIdx maskEnd bbeg bend j key h
  h.make

/-- `insertNext`, MaskedHeapAlgorithm.h:115-124, 239-254 and 385-417 -/
def insertNext (ver : Ver) (A B M : CSR V) (maskIdx maskEnd : Nat) (h : HP) : Res HP := do
  let e ← rd h.es 0
  let inner ← rd A.colids e.runr
  let bend ← rd B.rowptr (inner + 1)
  match ver with
  | .v0 =>
    if e.loc + 1 < bend then do
      let key ← rd B.colids (e.loc + 1)
      let h ← h.setTop ⟨key, e.runr, e.loc + 1⟩
      h.sinkRoot
    else do
      let h ← h.setTop ⟨e.key, e.runr, e.loc + 1⟩
      h.pop
  | .v1 => do
    let (key, loc) ← skipNext B M maskIdx bend (bend - e.loc) e.key e.loc
    let h ← h.setTop ⟨key, e.runr, loc⟩
    if loc < bend then h.sinkRoot else h.pop
  | .v2 =>
    if e.loc + 1 ≥ bend then do
      let h ← h.setTop ⟨e.key, e.runr, e.loc + 1⟩
      h.pop
    else do
      let key ← rd B.colids (e.loc + 1)
      let (found, key, loc) ← common B M bend maskEnd ((bend - (e.loc + 1)) + (M.colids.length - maskIdx)) key (e.loc + 1) maskIdx
      let h ← h.setTop ⟨key, e.runr, loc⟩
      if found then h.sinkRoot else h.pop

/-- The loop over the mask, MaskedHeapAlgorithm.h:43, 76, 161, 195, 292, 325 -/
def advance (M : CSR V) (key maskEnd : Nat) : Nat → Nat → Res Nat
  | 0, m => if m < maskEnd then .error .diverge else .ok m
  | fuel + 1, m =>
    if m < maskEnd then do
      let mc ← rd M.colids m
      if key > mc then advance M key maskEnd fuel (m + 1) else .ok m
    else .ok m

/-- Main loop of `numericRow`, MaskedHeapAlgorithm.h:73-96, 192-215 and 322-345 -/
def numLoop (ver : Ver) (mul add : V → V → V) (A B M : CSR V) (maskEnd : Nat) :
    Nat → HP → Nat → Option Nat → List (Nat × V) → Res (HP × List (Nat × V))
  | 0, _, _, _, _ => .error .diverge
  | fuel + 1, h, maskIdx, prev, out =>
    if h.es.isEmpty then .ok (h, out)
    else do
      let e ← rd h.es 0
      let m ← advance M e.key maskEnd (maskEnd - maskIdx) maskIdx
      if m ≥ maskEnd then .ok ({ h with es := [] }, out)
      else do
        let mc ← rd M.colids m
        let (prev, out) ← if e.key = mc then do
            let a ← rd A.values e.runr
            let b ← rd B.values e.loc
            Heap.emit add prev out e.key (mul a b)
          else .ok (prev, out)
        let h ← insertNext ver A B M m maskEnd h
        numLoop ver mul add A B M maskEnd fuel h m prev out

/-- `numericRow`, MaskedHeapAlgorithm.h:60-99, 179-217 and 309-347 -/
def heapNum (ver : Ver) (mul add : V → V → V) (A B M : CSR V) (row : Nat) (h : HP) : Res (HP × List (Nat × V)) := do
  let maskIdx ← rd M.rowptr row
  let maskEnd ← rd M.rowptr (row + 1)
  check (maskIdx != maskEnd)
  let h ← initHeap ver A B M row maskIdx maskEnd h
  numLoop ver mul add A B M maskEnd (Heap.turns A B row) h maskIdx none []

/-- Main loop of `symbolicRow`, MaskedHeapAlgorithm.h:40-55, 158-174 and 289-304 -/
def symLoop (ver : Ver) (A B M : CSR V) (maskEnd : Nat) : Nat → HP → Nat → Option Nat → Nat → Res (HP × Nat)
  | 0, _, _, _, _ => .error .diverge
  | fuel + 1, h, maskIdx, prev, cnt =>
    if h.es.isEmpty then .ok (h, cnt)
    else do
      let e ← rd h.es 0
      let m ← advance M e.key maskEnd (maskEnd - maskIdx) maskIdx
      if m ≥ maskEnd then .ok ({ h with es := [] }, cnt)
      else do
        let mc ← rd M.colids m
        let hit := e.key == mc && prev != some e.key
        let h ← insertNext ver A B M m maskEnd h
        symLoop ver A B M maskEnd fuel h m (if hit then some e.key else prev) (if hit then cnt + 1 else cnt)

/-- `symbolicRow`, MaskedHeapAlgorithm.h:27-58, 147-177 and 277-307 -/
def heapSym (ver : Ver) (A B M : CSR V) (row : Nat) (h : HP) : Res (HP × Nat) := do
  let maskIdx ← rd M.rowptr row
  let maskEnd ← rd M.rowptr (row + 1)
  check (maskIdx != maskEnd)
  let h ← initHeap ver A B M row maskIdx maskEnd h
  symLoop ver A B M maskEnd (Heap.turns A B row) h maskIdx none 0

/-- `MaskedHeap_v0`, `MaskedHeap_v1`, `MaskedHeap_v2`, MaskedHeapAlgorithm.h:7-125, 127-255 and 257-418 -/
def heap (ver : Ver) : RowAlg V where
  N := HP
  S := HP
  compl := false
  calcA := true
  calcM := false
  calcF := false
  initN := fun _ sz => ⟨sz.maxA, []⟩
  initS := fun _ sz => ⟨sz.maxA, []⟩
  numRow := fun mul add A B M row _ h => heapNum ver mul add A B M row h
  symRow := fun A B M row _ h => heapSym ver A B M row h

end Verif.Model.Old
