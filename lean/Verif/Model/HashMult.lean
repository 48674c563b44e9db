import Verif.Model.Bin
import Verif.Model.Nest

/-!
# The unmasked hash multiply

Models `/repo/hash_mult_hw.h` (called HM below).

The two arrays `local_hash_table_id[tid]` and `local_hash_table_val[tid]` have the same length and are used with the same
indices; here they are one list of entries. The key `-1` is `none`. The field `size` of a table is `SH_ROW` of the current row.
-/

namespace Verif.Model.HashMult
open Hash (Tbl Entry)

variable {V : Type}

/-- `check[j] = -1` for the first `SH_ROW` slots, HM:49-51 and HM:126-128 -/
def reset (t : Tbl V) (shRow : Nat) : Res (Tbl V) :=
  forRange 0 shRow { t with size := shRow } fun j t => t.putEmpty j

/-- The loop `while (1)` over slots, HM:57-70: count a new key -/
def insertSym (t : Tbl V) (nz key : Nat) : Res (Tbl V × Nat) := do
  let hash ← t.findIdx key
  let e ← rd t.table hash
  if e.key = some key then .ok (t, nz)
  else do
    let t ← t.put hash { e with key := some key }
    .ok (t, nz + 1)

/-- Row `i` of `hash_symbolic_kernel`, HM:39-74. The shared state is `row_nz`. -/
def symRow (A B : CSR V) (binId : List Nat) (i : Nat) (rowNz : List Nat) (t : Tbl V) : Res (List Nat × Tbl V) := do
  let bid ← rd binId i
  if bid > 0 then do
    let t ← reset t (8 <<< (bid - 1))
    let (t, nz) ← nest A B i (t, 0) fun _ k (t, nz) => do
      let key ← rd B.colids k
      insertSym t nz key
    let rowNz ← wr rowNz i nz
    .ok (rowNz, t)
  else do
    let rowNz ← wr rowNz i 0
    .ok (rowNz, t)

/-- The loop `while (1)` over slots, HM:137-151: add a product -/
def insertNum (add : V → V → V) (t : Tbl V) (key : Nat) (tval : V) : Res (Tbl V) := do
  let hash ← t.findIdx key
  let e ← rd t.table hash
  if e.key = some key then t.put hash { e with val := add tval e.val }
  else t.put hash { key := some key, val := tval }

/-- HM:157-162: collect the entries in `p_vec`, which has `nz` elements -/
def collect (t : Tbl V) (shRow nz : Nat) (dflt : V) : Res (List (Nat × V) × Nat) :=
  forRange 0 shRow (List.replicate nz (0, dflt), 0) fun j (pv, index) => do
    let e ← rd t.table j
    match e.key with
    | some c => do
      let pv ← wr pv index (c, e.val)
      .ok (pv, index + 1)
    | none => .ok (pv, index)

/-- HM:164-167: copy the first `index` elements of `p_vec` -/
def writeOut (off index : Nat) (pv : List (Nat × V)) (s : List Nat × List V) : Res (List Nat × List V) :=
  forRange 0 index s fun j s => do
    let x ← rd pv j
    let c ← wr s.1 (off + j) x.1
    let v ← wr s.2 (off + j) x.2
    .ok (c, v)

/-- HM:170-176: write the entries in slot order -/
def gather (t : Tbl V) (shRow off : Nat) (s : List Nat × List V) : Res ((List Nat × List V) × Nat) :=
  forRange 0 shRow (s, 0) fun j (s, index) => do
    let e ← rd t.table j
    match e.key with
    | some key => do
      let c ← wr s.1 (off + index) key
      let v ← wr s.2 (off + index) e.val
      .ok ((c, v), index + 1)
    | none => .ok (s, index)

/-- Row `i` of `hash_numeric`, HM:114-178. The shared state is `ccol` and `cval`. `sortf` is `std::sort` on `p_vec`. -/
def numRow (sorted : Bool) (sortf : List (Nat × V) → List (Nat × V)) (mul add : V → V → V) (dflt : V) (A B : CSR V)
    (rowptr binId : List Nat) (i : Nat) (s : List Nat × List V) (t : Tbl V) : Res ((List Nat × List V) × Tbl V) := do
  let bid ← rd binId i
  if bid > 0 then do
    let off ← rd rowptr i
    let t ← reset t (8 <<< (bid - 1))
    let t ← nest A B i t fun j k t => do
      let a ← rd A.values j
      let b ← rd B.values k
      let key ← rd B.colids k
      insertNum add t key (mul a b)
    if sorted then do
      let hi ← rd rowptr (i + 1)
      let (pv, index) ← collect t (8 <<< (bid - 1)) (hi - off) dflt
      let s ← writeOut off index (sortf pv) s
      .ok (s, t)
    else do
      let (s, _) ← gather t (8 <<< (bid - 1)) off s
      .ok (s, t)
  else .ok (s, t)

/-- `my_malloc` of the two tables, BIN.h:151-152: keys `0` and values `NT()` -/
def newTable (s : Nat) (dflt : V) : Tbl V :=
  { capacity := s, size := 0, table := List.replicate s ⟨some 0, dflt⟩, keys := [] }

/-- Schedules of a call -/
structure Sched where
  bin : Bin.Sched
  sym : List Nat
  s1 : List Nat
  s2 : List Nat
  num : List Nat

/-- `HashSpGEMM`, HM:184-207, with `hash_symbolic`, HM:81-89. `n` is `threadCount` and `nd` the default team size. -/
def hashSpGEMM (sorted : Bool) (sortf : List (Nat × V) → List (Nat × V)) (mul add : V → V → V) (A B : CSR V) (dflt : V)
    (n nd : Nat) (sch : Sched) : Res (Option (CSR V)) := do
  let r ← Bin.setMaxBin A B A.rows B.cols 8 n nd sch.bin
  match r with
  | none => .ok none
  | some p => do
    let tables ← (List.range n).mapM fun t => do
      let lo ← rd p.rowsOffset t
      let hi ← rd p.rowsOffset (t + 1)
      let s ← Bin.localSize p.rowNz B.cols 8 lo hi
      .ok (newTable s dflt)
    let r ← blocks n p.rowsOffset (fun t _ _ => rd tables t) (symRow A B p.binId) sch.sym p.rowNz
    match r with
    | none => .ok none
    | some (rowNz, tables) => do
      let r ← UtilScan.scan rowNz (A.rows + 1) (List.replicate (A.rows + 1) 0) nd sch.s1 sch.s2
      match r with
      | none => .ok none
      | some rowptr => do
        let nnz ← rd rowptr A.rows
        let r ← blocks n p.rowsOffset (fun t _ _ => rd tables t) (numRow sorted sortf mul add dflt A B rowptr p.binId) sch.num
          (List.replicate nnz 0, List.replicate nnz dflt)
        match r with
        | none => .ok none
        | some ((colids, values), _) =>
          .ok (some { rows := A.rows, cols := B.cols, nnz := nnz, rowptr := rowptr, colids := colids, values := values,
                      zerobased := true })

end Verif.Model.HashMult
