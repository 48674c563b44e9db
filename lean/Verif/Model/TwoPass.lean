import Verif.Model.Bin

/-!
# The frame of the older masked kernels

`MaskedSPASpGEMM` (`/repo/spa_mult.h`) and `mxm_hash_mask` (`/repo/mask_hash_mult.h`) have the same frame: partition the rows,
count the entries of every row, form the row pointers, fill in the rows. They differ in the thread-local tables and the loop
bodies, which are parameters here.
-/

namespace Verif.Model

variable {V α β : Type}

/-- Schedules of a call -/
structure TwoPassSched where
  bin : Bin.Sched
  count : List Nat
  s1 : List Nat
  s2 : List Nat
  fill : List Nat

/-- The frame, spa_mult.h:15-90 and mask_hash_mult.h:44-153. `n` is the number of threads, `nd` the default team size. `init1`
and `row1` are the tables and the loop body of the first region, which writes `row_nz`; `init2` and `row2` those of the second
region, which gets `C.rowptr` and writes `C.colids` and `C.values`. `IMB_PWMIN` is 8 (hash_mult_hw.h:18). -/
def twoPass (A B : CSR V) (dflt : V) (n nd : Nat) (init1 : Nat → Nat → Nat → Res α)
    (row1 : Nat → List Nat → α → Res (List Nat × α)) (init2 : Nat → Nat → Nat → Res β)
    (row2 : List Nat → Nat → List Nat × List V → β → Res ((List Nat × List V) × β)) (sch : TwoPassSched) :
    Res (Option (CSR V)) := do
  let r ← Bin.setMaxBin A B A.rows B.cols 8 n nd sch.bin
  match r with
  | none => .ok none
  | some p => do
    let r ← blocks n p.rowsOffset init1 row1 sch.count (List.replicate A.rows 0)
    match r with
    | none => .ok none
    | some (rowNz, _) => do
      let r ← UtilScan.scan rowNz (A.rows + 1) (List.replicate (A.rows + 1) 0) nd sch.s1 sch.s2
      match r with
      | none => .ok none
      | some rowptr => do
        let nnz ← rd rowptr A.rows
        let r ← blocks n p.rowsOffset init2 (row2 rowptr) sch.fill (List.replicate nnz 0, List.replicate nnz dflt)
        match r with
        | none => .ok none
        | some ((colids, values), _) =>
          .ok (some { rows := A.rows, cols := B.cols, nnz := nnz, rowptr := rowptr, colids := colids, values := values,
                      zerobased := true })

end Verif.Model
