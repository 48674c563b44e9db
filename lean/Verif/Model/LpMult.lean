import Verif.Model.TwoPass
import Verif.Model.Nest

/-!
# The linear-probing hash kernels

Models `/repo/mask_hash.h` (called LP below) and `/repo/mask_hash_mult.h` (called LM below). The hash table `map_lp` is a
vector of keys and payloads; the key `-1` is `none`. Keys are columns, so no key is `-1`. The payload is `bool` in the first
pass and a value with a `bool` in the second one. Integers are unbounded: `key * scale_` does not overflow.
-/

namespace Verif.Model.LpMult
open Hash (Tbl Entry)

variable {V P : Type}

/-- The constructor `map_lp(sz)`, LP:52-61 and LP:156-165. `resize` makes the payloads `P()`. -/
def newTable (sz : Nat) (dflt : P) : Tbl P :=
  let size := Hash.grow sz sz 16
  { capacity := size, size := size, table := List.replicate size ⟨none, dflt⟩, keys := [] }

/-- `insert`, LP:65-83 and LP:169-186 -/
def insert (t : Tbl P) (k : Nat) (val : P) : Res (Tbl P) := do
  let hv ← t.findIdx k
  let e ← rd t.table hv
  if e.key = none then t.put hv ⟨some k, val⟩ else .ok t

/-- `find`, LP:87-99 and LP:190-202; `none` is `-1` -/
def find (t : Tbl P) (k : Nat) : Res (Option Nat) := do
  let hv ← t.findIdx k
  let e ← rd t.table hv
  .ok (if e.key = none then none else some hv)

/-- `reset`, LP:230-237 -/
def reset (t : Tbl P) : Res (Tbl P) := forRange 0 t.size t fun j t => t.putEmpty j

/-- The loop over the mask row, LM:84-85, LM:130-131, LM:187-188 and LM:216-217 -/
def maskRow (M : CSR V) (i : Nat) (val : P) (t : Tbl P) : Res (Tbl P) := do
  let lo ← rd M.rowptr i
  let hi ← rd M.rowptr (i + 1)
  forRange lo hi t fun k t => do
    let c ← rd M.colids k
    insert t c val

/-- The loop over the products in the first pass, LM:87-100 and LM:190-203 -/
def countProducts (A B : CSR V) (i : Nat) (rowNz : List Nat) (t : Tbl Bool) : Res (List Nat × Tbl Bool) := do
  let rowNz ← wr rowNz i 0
  nest A B i (rowNz, t) fun _ k (rowNz, t) => do
    let c ← rd B.colids k
    let hv ← find t c
    match hv with
    | none => .ok (rowNz, t)
    | some hv => do
      let e ← rd t.table hv
      if e.val = false then do
        let x ← rd rowNz i
        let rowNz ← wr rowNz i (x + 1)
        let t ← t.put hv { e with val := true }
        .ok (rowNz, t)
      else .ok (rowNz, t)

/-- The loop over the products in the second pass, LM:133-149 and LM:219-235 -/
def addProducts (mul add : V → V → V) (A B : CSR V) (i : Nat) (t : Tbl (V × Bool)) : Res (Tbl (V × Bool)) :=
  nest A B i t fun j k t => do
    let c ← rd B.colids k
    let hv ← find t c
    match hv with
    | none => .ok t
    | some hv => do
      let e ← rd t.table hv
      let a ← rd A.values j
      let b ← rd B.values k
      if e.val.2 = false then t.put hv { e with val := (mul a b, true) }
      else t.put hv { e with val := (add e.val.1 (mul a b), true) }

/-- `gather`, LP:120-136, with the output starting at position `off` -/
def gather (t : Tbl (V × Bool)) (off : Nat) (out : List Nat × List V) : Res ((List Nat × List V) × Tbl (V × Bool)) := do
  let (out, t, _) ← forRange 0 t.size (out, t, 0) fun j (out, t, k) => do
    let e ← rd t.table j
    let (out, k) ← (match e.key with
      | some c =>
        if e.val.2 then do
          let cs ← wr out.1 (off + k) c
          let vs ← wr out.2 (off + k) e.val.1
          .ok ((cs, vs), k + 1)
        else .ok (out, k)
      | none => .ok (out, k) : Res ((List Nat × List V) × Nat))
    let t ← t.putEmpty j
    .ok (out, t, k)
  .ok (out, t)

/-- Loop body of the first region of `mxm_hash_mask`, LM:82-102 -/
def countRow (A B M : CSR V) (i : Nat) (rowNz : List Nat) (t : Tbl Bool) : Res (List Nat × Tbl Bool) := do
  let t ← maskRow M i false t
  let (rowNz, t) ← countProducts A B i rowNz t
  let t ← reset t
  .ok (rowNz, t)

/-- Loop body of the second region of `mxm_hash_mask`, LM:128-152. `dflt` is `NT()`. -/
def fillRow (mul add : V → V → V) (dflt : V) (A B M : CSR V) (rowptr : List Nat) (i : Nat) (out : List Nat × List V)
    (t : Tbl (V × Bool)) : Res ((List Nat × List V) × Tbl (V × Bool)) := do
  let t ← maskRow M i (dflt, false) t
  let t ← addProducts mul add A B i t
  let off ← rd rowptr i
  gather t off out

/-- Length of the longest mask row of a block, LM:75-77 and LM:121-123 -/
def maxRow (M : CSR V) (lo hi : Nat) : Res Nat :=
  forRange lo hi 0 fun ra m => do
    let e ← rd M.rowptr (ra + 1)
    let b ← rd M.rowptr ra
    .ok (max m (e - b))

/-- `mxm_hash_mask`, LM:28-157. The tables made by `bin.create_local_hash_table` (LM:62) are not used, and not modelled. -/
def hashMask (mul add : V → V → V) (A B M : CSR V) (dflt : V) (n nd : Nat) (sch : TwoPassSched) : Res (Option (CSR V)) :=
  twoPass A B dflt n nd
    (fun _ lo hi => do
      let m ← maxRow M lo hi
      .ok (newTable (m + 1) false)) (countRow A B M)
    (fun _ lo hi => do
      let m ← maxRow M lo hi
      .ok (newTable (m + 1) (dflt, false))) (fillRow mul add dflt A B M) sch

/-- A table for one row, LM:186 and LM:215 -/
def rowTable (M : CSR V) (i : Nat) (dflt : P) : Res (Tbl P) := do
  let e ← rd M.rowptr (i + 1)
  let b ← rd M.rowptr i
  .ok (newTable (e - b + 1) dflt)

/-- `mxm_hash_mask_wobin`, LM:161-241. The iterations of the two parallel loops run in the orders `order1` and `order2`. -/
def hashMaskWobin (mul add : V → V → V) (A B M : CSR V) (dflt : V) (nd : Nat) (order1 s1 s2 order2 : List Nat) :
    Res (Option (CSR V)) := do
  let rowNz ← order1.foldlM (fun rowNz i => do
    let t ← rowTable M i false
    let t ← maskRow M i false t
    let (rowNz, _) ← countProducts A B i rowNz t
    .ok rowNz) (List.replicate A.rows 0)
  let r ← UtilScan.scan rowNz (A.rows + 1) (List.replicate (A.rows + 1) 0) nd s1 s2
  match r with
  | none => .ok none
  | some rowptr => do
    let nnz ← rd rowptr A.rows
    let (colids, values) ← order2.foldlM (fun out i => do
      let t ← rowTable M i (dflt, false)
      let (out, _) ← fillRow mul add dflt A B M rowptr i out t
      .ok out) (List.replicate nnz 0, List.replicate nnz dflt)
    .ok (some { rows := A.rows, cols := B.cols, nnz := nnz, rowptr := rowptr, colids := colids, values := values,
                zerobased := true })

end Verif.Model.LpMult
