import Verif.Model.Nest
import Verif.Model.Driver
import Verif.Model.MsaAlg

/-!
# The hash accumulator and the hash row algorithms

Models `/repo/spgemm-blocks/hash/HashAccumulator.h` (called HA below) and
`/repo/spgemm-blocks/hash/MaskedHashAlgorithm.h` (called MH below).

Simplifications. The key `EMPTY` (the largest value of the key type, HA:25) is
`none`; a real key is below the number of columns and so is never `EMPTY`. Integers
are unbounded here; `adjustSizeW` below is the fixed-width version of `adjustSize`.
The product `key * SCALE` is not reduced modulo the word size before it is masked; as the
mask is one less than a power of two this does not matter (`Verif.Props.C16_hash_word`). The fields
`_dirty` and `_maxSize` (used by `releaseBuffer`) are in `Verif.Model.Memory`.
-/

namespace Verif.Model.Hash

variable {V P : Type}

/-! ## Table size -/

/-- `while (size < target) { size <<= 1; }`, HA:44 and HA:47, over unbounded integers. `fuel` bounds
the number of rounds; `target` rounds are enough for every positive start
(`le_grow`). -/
def grow (target : Nat) : (fuel : Nat) → (size : Nat) → Nat
  | 0, size => size
  | fuel + 1, size => if size < target then grow target fuel (size * 2) else size

/-- `adjustSize`, HA:41-49. `LOAD_FACTOR` is `std::ratio<2, 8>`, which is reduced to 1/4, so
the second loop compares `requestedSize * 4` with `size`. -/
def adjustSize (requested : Nat) : Nat :=
  let requested := requested + 1
  let size := grow requested requested 16
  grow (requested * 4) (requested * 4) size

/-- A loop `while (cond(size)) { size <<= 1; }` on integers of `w` bits. After `w` shifts the value is 0 and
stays 0, so `w + 1` rounds decide whether the loop ends. -/
def growW (w : Nat) (cond : Nat → Bool) : (fuel : Nat) → (size : Nat) → Res Nat
  | 0, _ => .error .diverge
  | fuel + 1, size => if cond size then growW w cond fuel (size * 2 % 2 ^ w) else .ok size

/-- `adjustSize`, HA:41-49, for an unsigned type `T` of `w` bits, `w = 32` or `w = 64`. `LOAD_FACTOR::den` and
`LOAD_FACTOR::num` have type `intmax_t` (64 bits), so the products in HA:47 are computed in
64 bits for both widths (in signed arithmetic for `w = 32`, where they fit, and modulo
`2 ^ 64` for `w = 64`). -/
def adjustSizeW (w : Nat) (requested : Nat) : Res Nat := do
  let requested := (requested + 1) % 2 ^ w
  let size ← growW w (fun size => size < requested) (w + 2) 16
  growW w (fun size => size * 1 % 2 ^ 64 < requested * 4 % 2 ^ 64) (w + 2) size

/-! ## The table -/

/-- `HashAccumEntryT`, HA:164-169 and HA:255-258: a key (`none` is `EMPTY`) and the payload -/
structure Entry (P : Type) where
  key : Option Nat
  val : P
  deriving DecidableEq

/-- `HashAccumulatorBase`, HA:33-37, with the list `_keys` of the derived classes (HA:176-177, HA:264-265);
`_mask` is always `_size - 1` after `resize` -/
structure Tbl (P : Type) where
  capacity : Nat
  size : Nat
  table : List (Entry P)
  keys : List Nat
  deriving DecidableEq

namespace Tbl

/-- `_mask`, HA:88 -/
def mask (t : Tbl P) : Nat := t.size - 1

/-- `hash`, HA:153-156, and the first line of `findIdx` and `findIdxForce` -/
def hash (t : Tbl P) (key : Nat) : Nat := (key * 107) &&& t.mask

/-- `resize`, HA:86-92 -/
def resize (t : Tbl P) (size : Nat) : Res (Tbl P) := do
  let t := { t with size := adjustSize size }
  check (t.size ≤ t.capacity)
  .ok t

/-- The probe loops `while (!stop(_table[hv])) { hv = (hv + 1) & _mask; }`. The loop does not change
the table and goes around the `_size` slots, so it never ends if none of `_size` consecutive probes
stops it. -/
def probe (t : Tbl P) (stop : Entry P → Bool) : (fuel : Nat) → (hv : Nat) → Res Nat
  | 0, _ => .error .diverge
  | fuel + 1, hv => do
    let e ← rd t.table hv
    if stop e then .ok hv else probe t stop fuel ((hv + 1) &&& t.mask)

/-- `findIdx`, HA:139-143 -/
def findIdx (t : Tbl P) (key : Nat) : Res Nat :=
  t.probe (fun e => e.key == none || e.key == some key) t.size (t.hash key)

/-- `findIdxForce`, HA:147-151 -/
def findIdxForce (t : Tbl P) (key : Nat) : Res Nat :=
  t.probe (fun e => e.key == some key) t.size (t.hash key)

/-- `find`, HA:106-109; `none` is `NOT_FOUND` -/
def find (t : Tbl P) (key : Nat) : Res (Option Nat) := do
  let idx ← t.findIdx key
  let e ← rd t.table idx
  .ok (if e.key == none then none else some idx)

/-- write of an entry -/
def put (t : Tbl P) (idx : Nat) (e : Entry P) : Res (Tbl P) := do
  let table ← wr t.table idx e
  .ok { t with table := table }

/-- `_table[idx].key = EMPTY` -/
def putEmpty (t : Tbl P) (idx : Nat) : Res (Tbl P) := do
  let e ← rd t.table idx
  t.put idx { e with key := none }

/-- The loop of `erase`, HA:121-133. Each round looks at the next slot; the number of empty
slots does not change, so the loop never ends if the first `_size` rounds do not end it. -/
def shift (t : Tbl P) : (fuel : Nat) → (eraseIdx shiftIdx : Nat) → Res (Tbl P × Nat)
  | 0, _, _ => .error .diverge
  | fuel + 1, eraseIdx, shiftIdx => do
    let shiftIdx := (shiftIdx + 1) &&& t.mask
    let e ← rd t.table shiftIdx
    match e.key with
    | none => .ok (t, eraseIdx)
    | some k =>
      let insertIdx := t.hash k &&& t.mask
      if (insertIdx ≤ eraseIdx ∧ eraseIdx ≤ shiftIdx) ∨
          (eraseIdx ≤ shiftIdx ∧ shiftIdx < insertIdx) ∨
          (shiftIdx < insertIdx ∧ insertIdx ≤ eraseIdx) then do
        let t ← t.put eraseIdx e
        shift t fuel shiftIdx shiftIdx
      else shift t fuel eraseIdx shiftIdx

/-- `erase`, HA:115-137 -/
def erase (t : Tbl P) (key : Nat) : Res (Tbl P × Bool) := do
  let eraseIdx ← t.findIdx key
  let e ← rd t.table eraseIdx
  if e.key == none then .ok (t, false)
  else do
    let (t, eraseIdx) ← t.shift t.size eraseIdx eraseIdx
    let t ← t.putEmpty eraseIdx
    .ok (t, true)

/-- `resetStates`, HA:98-100 -/
def resetStates (t : Tbl P) : Res (Tbl P) :=
  forRange 0 t.size t fun i t => t.putEmpty i

end Tbl

/-! ## Keys only: `HashAccumulator<K, void, void>` -/

namespace Tbl

/-- `insert<TrackKeys>(key)`, HA:272-281 -/
def insertK (track : Bool) (t : Tbl Unit) (key : Nat) : Res (Tbl Unit × Bool) := do
  let idx ← t.findIdx key
  let e ← rd t.table idx
  if e.key ≠ none then .ok (t, false)
  else do
    let t ← t.put idx { e with key := some key }
    .ok (if track then { t with keys := t.keys ++ [key] } else t, true)

/-- `resetStatesList`, HA:283-290 -/
def resetStatesList (t : Tbl Unit) : Res (Tbl Unit) := do
  let t ← t.keys.foldlM (fun t key => do
    let idx ← t.findIdxForce key
    t.putEmpty idx) t
  .ok { t with keys := [] }

end Tbl

/-! ## Keys, values and flags: `HashAccumulator<K, V1, bool>` -/

/-- `value1` and `value2`, HA:167-168; `none` is memory that was never written -/
structure Val (V : Type) where
  v1 : Option V
  v2 : Option Bool
  deriving DecidableEq

namespace Tbl

/-- `insert(key)`, HA:202-209 -/
def insertM (t : Tbl (Val V)) (key : Nat) : Res (Tbl (Val V) × Bool) := do
  let idx ← t.findIdx key
  let e ← rd t.table idx
  if e.key ≠ none then .ok (t, false)
  else do
    let t ← t.put idx { key := some key, val := { e.val with v2 := some false } }
    .ok (t, true)

/-- `insert<TrackKeys>(key, value1, value2)`, HA:193-200 -/
def insertV (track : Bool) (t : Tbl (Val V)) (key : Nat) (v1 : V) (v2 : Bool) : Res (Tbl (Val V) × Bool) := do
  let idx ← t.findIdx key
  let e ← rd t.table idx
  if e.key ≠ none then .ok (t, false)
  else do
    let t ← t.put idx { key := some key, val := { v1 := some v1, v2 := some v2 } }
    .ok (if track then { t with keys := t.keys ++ [key] } else t, true)

/-- `insert<true>(idx, key, value1, value2)`, HA:183-191 -/
def insertAt (t : Tbl (Val V)) (idx key : Nat) (v1 : V) (v2 : Bool) : Res (Tbl (Val V)) := do
  let t ← t.put idx { key := some key, val := { v1 := some v1, v2 := some v2 } }
  .ok { t with keys := t.keys ++ [key] }

/-- one round of `gather`, HA:230-240 -/
def gather1 (s : Tbl (Val V) × List (Nat × V)) (key : Nat) : Res (Tbl (Val V) × List (Nat × V)) := do
  let idx ← s.1.findIdxForce key
  let e ← rd s.1.table idx
  let b ← use e.val.v2
  if b then do
    let v ← use e.val.v1
    let k ← use e.key
    let t ← s.1.put idx { key := none, val := { e.val with v1 := none } }
    .ok (t, s.2 ++ [(k, v)])
  else do
    let t ← s.1.put idx { e with key := none }
    .ok (t, s.2)

/-- `gather(idxPtr, valPtr, keysBegin, keysEnd)`, HA:227-242; the second component is what is stored
through `idxPtr` and `valPtr` -/
def gather (t : Tbl (Val V)) (keys : List Nat) : Res (Tbl (Val V) × List (Nat × V)) :=
  keys.foldlM gather1 (t, [])

/-- `gatherList<Sorted>`, HA:244-249 -/
def gatherList (sorted : Bool) (t : Tbl (Val V)) : Res (Tbl (Val V) × List (Nat × V)) := do
  let keys := if sorted then t.keys.mergeSort (· ≤ ·) else t.keys
  let (t, out) ← t.gather keys
  .ok ({ t with keys := [] }, out)

end Tbl

/-! ## The row algorithms -/

/-- `maskEnd - maskBegin`, MH:42-43, 46 -/
def maskLen (M : CSR V) (row : Nat) : Res Nat := do
  let lo ← rd M.rowptr row
  let hi ← rd M.rowptr (row + 1)
  .ok (hi - lo)

/-- `MaskedHash::symbolicRow`, MH:39-62 -/
def symbolicRow (A B M : CSR V) (row : Nat) (t : Tbl Unit) : Res (Tbl Unit × Nat) := do
  let n ← maskLen M row
  let t ← t.resize n
  let t ← maskLoop M row t fun c t => do
    let (t, _) ← t.insertK false c
    .ok t
  let (t, n) ← nest A B row (t, 0) fun _ k s => do
    let c ← rd B.colids k
    let (t, erased) ← s.1.erase c
    .ok (t, if erased then s.2 + 1 else s.2)
  let t ← t.resetStates
  .ok (t, n)

/-- `MaskedHash::numericRow`, MH:64-97. Only the mask columns are used by `gather`, with the
pointers `maskBegin` and `maskEnd`. -/
def numericRow (mul add : V → V → V) (A B M : CSR V) (row : Nat) (t : Tbl (Val V)) :
    Res (Tbl (Val V) × List (Nat × V)) := do
  let n ← maskLen M row
  let t ← t.resize n
  let t ← maskLoop M row t fun c t => do
    let (t, _) ← t.insertM c
    .ok t
  let t ← nest A B row t fun j k t => do
    let c ← rd B.colids k
    let idx ← t.find c
    match idx with
    | none => .ok t
    | some idx => do
      let e ← rd t.table idx
      let b ← use e.val.v2
      let x ← rd A.values j
      let y ← rd B.values k
      if b then do
        let v ← use e.val.v1
        t.put idx { e with val := { e.val with v1 := some (add v (mul x y)) } }
      else
        t.put idx { e with val := { v1 := some (mul x y), v2 := some true } }
  maskLoop M row (t, []) fun c s => Tbl.gather1 s c

/-- `MaskedHashComplemented::symbolicRow`, MH:133-157. The counter is an integer since it is decremented. -/
def symbolicRowC (A B M : CSR V) (row flops : Nat) (t : Tbl Unit) : Res (Tbl Unit × Int) := do
  let n ← maskLen M row
  let t ← t.resize (n + flops)
  let (t, n) ← nest A B row (t, (0 : Int)) fun _ k s => do
    let c ← rd B.colids k
    let (t, inserted) ← s.1.insertK true c
    .ok (t, if inserted then s.2 + 1 else s.2)
  let n ← maskLoop M row n fun c n => do
    let idx ← t.find c
    .ok (if idx.isSome then n - 1 else n)
  let t ← t.resetStatesList
  .ok (t, n)

/-- `MaskedHashComplemented::numericRow`, MH:159-193 -/
def numericRowC (sorted : Bool) (mul add : V → V → V) (A B M : CSR V) (row flops : Nat) (t : Tbl (Val V)) :
    Res (Tbl (Val V) × List (Nat × V)) := do
  let n ← maskLen M row
  let t ← t.resize (n + flops)
  let t ← maskLoop M row t fun c t => do
    let (t, _) ← t.insertM c
    .ok t
  let t ← nest A B row t fun j k t => do
    let c ← rd B.colids k
    let idx ← t.findIdx c
    let e ← rd t.table idx
    if e.key = none then do
      let x ← rd A.values j
      let y ← rd B.values k
      t.insertAt idx c (mul x y) true
    else do
      let b ← use e.val.v2
      if b then do
        let x ← rd A.values j
        let y ← rd B.values k
        let v ← use e.val.v1
        t.put idx { e with val := { e.val with v1 := some (add v (mul x y)) } }
      else .ok t
  let (t, out) ← t.gatherList sorted
  let t ← maskLoop M row t fun c t => do
    let (t, _) ← t.erase c
    .ok t
  .ok (t, out)

/-! ## As row algorithms of the drivers -/

/-- Accumulator after the constructor (HA:57-58) and `setBuffer` (HA:68-74): all bytes are 0xFF, so all keys
are `EMPTY`. -/
def fresh (p : P) (capacity : Nat) : Tbl P :=
  { capacity := adjustSize capacity, size := 0,
    table := List.replicate (adjustSize capacity) ⟨none, p⟩, keys := [] }

/-- value bytes of a fresh entry -/
def blank : Val V := ⟨none, none⟩

/-- `MaskedHash<false, Sorted>`, MH:8-37 -/
def hash : RowAlg V where
  N := Tbl (Val V)
  S := Tbl Unit
  compl := false
  calcA := false
  calcM := true
  calcF := false
  initN _ sz := fresh blank sz.maxM
  initS _ sz := fresh () sz.maxM
  numRow mul add A B M row _ t := numericRow mul add A B M row t
  symRow A B M row _ t := symbolicRow A B M row t

/-- `MaskedHash<true, Sorted>`, MH:100-131. The call of `resize` in the constructor (MH:118-119) only sets
`_size`, which each row sets again. -/
def hashC (sorted : Bool) : RowAlg V where
  N := Tbl (Val V)
  S := Tbl Unit
  compl := true
  calcA := false
  calcM := true
  calcF := true
  initN _ sz := fresh blank (sz.maxM + sz.maxFlops)
  initS _ sz := fresh () (sz.maxM + sz.maxFlops)
  numRow mul add A B M row flops t := numericRowC sorted mul add A B M row flops t
  symRow A B M row flops t := do
    let r ← symbolicRowC A B M row flops t
    Msa.toCount r

end Verif.Model.Hash
