import Verif.Model.Driver

/-!
# Mask-compressed accumulator

Models `/repo/spgemm-blocks/mca/MaskCompressedAccumulator.h` and
`/repo/spgemm-blocks/mca/MCAAlgorithm.h`. The accumulator has one entry per
position of the mask row. A byte pattern of all ones in a value (after
`clearAll`) is an unset value.
-/

namespace Verif.Model.Mca

variable {V σ : Type}

/-- MaskCompressedAccumulator.h:27 -/
def EMPTY : Nat := 255
/-- MaskCompressedAccumulator.h:28 -/
def ALLOWED : Nat := 0
/-- MaskCompressedAccumulator.h:29 -/
def INITIALIZED : Nat := 1

/-- `MCAEntry`, MaskCompressedAccumulator.h:7-16. The payload type is `Option V` for the
numeric and `Unit` for the symbolic accumulator. -/
structure Entry (P : Type) where
  state : Nat
  value : P
  deriving DecidableEq, Repr

/-- The loop `while (true)` of MCAAlgorithm.h:64-82 and 109-129 for one row of `B`.
`loc`, `maskIdx` are the positions in `B` and `M`, `key` is `B.colids[loc]`; `hit` is the
code for a column found in both. Each turn advances `loc` or `maskIdx`, so `fuel` turns with
`fuel` the sum of the remaining lengths are enough. -/
def inter (B M : CSR V) (khi mend : Nat) (hit : Nat → Nat → σ → Res σ) :
    Nat → Nat → Nat → Nat → σ → Res σ
  | 0, _, _, _, _ => .error .diverge
  | fuel + 1, loc, key, maskIdx, s => do
    let mc ← rd M.colids maskIdx
    if key < mc then
      if loc + 1 < khi then do
        let key ← rd B.colids (loc + 1)
        inter B M khi mend hit fuel (loc + 1) key maskIdx s
      else .ok s
    else if mc < key then
      if maskIdx + 1 = mend then .ok s
      else inter B M khi mend hit fuel loc key (maskIdx + 1) s
    else do
      let s ← hit loc maskIdx s
      if loc + 1 < khi then do
        let key ← rd B.colids (loc + 1)
        if maskIdx + 1 = mend then .ok s
        else inter B M khi mend hit fuel (loc + 1) key (maskIdx + 1) s
      else .ok s

/-- The loop over the row of `A`, MCAAlgorithm.h:53-83 and 98-130. `hit` gets the position
in `A`, the position in `B` and the position in `M`. -/
def interAll (A B M : CSR V) (row mbeg mend : Nat) (hit : Nat → Nat → Nat → σ → Res σ) (s : σ) : Res σ := do
  let lo ← rd A.rowptr row
  let hi ← rd A.rowptr (row + 1)
  forRange lo hi s fun j s => do
    let inner ← rd A.colids j
    let klo ← rd B.rowptr inner
    let khi ← rd B.rowptr (inner + 1)
    if klo = khi then .ok s
    else do
      let key ← rd B.colids klo
      inter B M khi mend (hit j) ((khi - klo) + (mend - mbeg)) klo key mbeg s

/-- `clearAll(nelems)`, MaskCompressedAccumulator.h:98-100: `memset` of the first `n` entries -/
def clearAll {P : Type} (p : P) (n : Nat) (acc : List (Entry P)) : Res (List (Entry P)) :=
  forRange 0 n acc fun i acc => wr acc i ⟨EMPTY, p⟩

/-- `symbolicRow`, MCAAlgorithm.h:43-85 -/
def symbolicRow (A B M : CSR V) (row : Nat) (acc : List (Entry Unit)) : Res (List (Entry Unit) × Nat) := do
  let mbeg ← rd M.rowptr row
  let mend ← rd M.rowptr (row + 1)
  let r ← interAll A B M row mbeg mend (fun _ _ m (s : List (Entry Unit) × Nat) => do
    let idx := m - mbeg
    let e ← rd s.1 idx
    if e.state = EMPTY then do
      let acc ← wr s.1 idx { e with state := ALLOWED }
      .ok (acc, s.2 + 1)
    else .ok s) (acc, 0)
  let acc ← clearAll () (mend - mbeg) r.1
  .ok (acc, r.2)

/-- `numericRow`, MCAAlgorithm.h:89-141 -/
def numericRow (mul add : V → V → V) (A B M : CSR V) (row : Nat) (acc : List (Entry (Option V))) :
    Res (List (Entry (Option V)) × List (Nat × V)) := do
  let mbeg ← rd M.rowptr row
  let mend ← rd M.rowptr (row + 1)
  let acc ← interAll A B M row mbeg mend (fun j k m acc => do
    let idx := m - mbeg
    let a ← rd A.values j
    let b ← rd B.values k
    let value := mul a b
    let e ← rd acc idx
    if e.state = INITIALIZED then do
      let v ← use e.value
      wr acc idx { e with value := some (add v value) }
    else wr acc idx { state := INITIALIZED, value := some value }) acc
  let out ← forRange 0 (mend - mbeg) [] fun i out => do
    let e ← rd acc i
    if e.state = INITIALIZED then do
      let p ← rd M.rowptr row
      let c ← rd M.colids (p + i)
      let v ← use e.value
      .ok (out ++ [(c, v)])
    else .ok out
  let acc ← clearAll none (mend - mbeg) acc
  .ok (acc, out)

/-- A fresh accumulator: the constructor gets `maxRowSizeM` (MCAAlgorithm.h:28-29),
`setBuffer` (MaskCompressedAccumulator.h:53-59) provides clean memory. -/
def fresh {P : Type} (p : P) (n : Nat) : List (Entry P) := List.replicate n ⟨EMPTY, p⟩

/-- `MCA<false, false>::Impl`, MCAAlgorithm.h:7-143 -/
def mca : RowAlg V where
  N := List (Entry (Option V))
  S := List (Entry Unit)
  compl := false
  calcA := false
  calcM := true
  calcF := false
  initN := fun _ sz => fresh none sz.maxM
  initS := fun _ sz => fresh () sz.maxM
  numRow := fun mul add A B M row _ acc => numericRow mul add A B M row acc
  symRow := fun A B M row _ acc => symbolicRow A B M row acc

end Verif.Model.Mca
