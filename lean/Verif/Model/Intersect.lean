import Verif.Csr
import Verif.Model.UtilScan

/-!
# Intersection of two matrices

Models `/repo/CSR.h` 688-742, `Intersect`.
-/

namespace Verif.Model.Intersect

variable {V : Type}

/-- The loop CSR.h:714-724, `while(acur != aend && bcur != bend)`. Each turn advances a position, so the sum of the
remaining lengths plus one is enough `fuel`. -/
def merge (add : V → V → V) (A B : CSR V) (aend bend : Nat) : Nat → Nat → Nat → List (Nat × V) → Res (List (Nat × V))
  | 0, _, _, _ => .error .diverge
  | fuel + 1, acur, bcur, out =>
    if acur ≠ aend ∧ bcur ≠ bend then do
      let a ← rd A.colids acur
      let b ← rd B.colids bcur
      if a < b then merge add A B aend bend fuel (acur + 1) bcur out
      else if b < a then merge add A B aend bend fuel acur (bcur + 1) out
      else do
        let x ← rd A.values acur
        let y ← rd B.values bcur
        merge add A B aend bend fuel (acur + 1) (bcur + 1) (out ++ [(a, add x y)])
    else .ok out

/-- Body of the first loop, CSR.h:710-725: what is pushed to `vec_colids[i]` and `vec_values[i]`. -/
def mergeRow (add : V → V → V) (A B : CSR V) (i : Nat) : Res (List (Nat × V)) := do
  let acur ← rd A.rowptr i
  let aend ← rd A.rowptr (i + 1)
  let bcur ← rd B.rowptr i
  let bend ← rd B.rowptr (i + 1)
  merge add A B aend bend ((aend - acur) + (bend - bcur) + 1) acur bcur []

/-- `std::copy` of a row to the position `off` of `colids` and `values`, CSR.h:738-739 -/
def copyRow (off : Nat) (xs : List (Nat × V)) (s : List Nat × List V) : Res (List Nat × List V) :=
  forRange 0 xs.length s fun k s => do
    let x ← rd xs k
    let c ← wr s.1 (off + k) x.1
    let v ← wr s.2 (off + k) x.2
    .ok (c, v)

/-- `CSR()`, CSR.h:25 -/
def emptyCSR : CSR V := { rows := 0, cols := 0, nnz := 0, rowptr := [], colids := [], values := [], zerobased := true }

/-- `Intersect`, CSR.h:690-742. The iterations of the two parallel loops run in the orders `order1` and `order2`;
`n`, `s1`, `s2` are the team size and the schedules of the prefix sum. `dflt` is `NT()`. -/
def intersect (add : V → V → V) (A B : CSR V) (dflt : V) (n : Nat) (order1 s1 s2 order2 : List Nat) :
    Res (Option (CSR V)) :=
  if A.rows ≠ B.rows ∨ A.cols ≠ B.cols then .ok (some emptyCSR)
  else do
    let (rowNz, vecs) ← order1.foldlM (fun (rowNz, vecs) i => do
      let xs ← mergeRow add A B i
      let vecs ← wr vecs i xs
      let rowNz ← wr rowNz i xs.length
      .ok (rowNz, vecs)) (List.replicate A.rows 0, List.replicate A.rows [])
    let r ← UtilScan.scan rowNz (A.rows + 1) (List.replicate (A.rows + 1) 0) n s1 s2
    match r with
    | none => .ok none
    | some rowptr => do
      let nnz ← rd rowptr A.rows
      let (colids, values) ← order2.foldlM (fun s i => do
        let xs ← rd vecs i
        let off ← rd rowptr i
        copyRow off xs s) (List.replicate nnz 0, List.replicate nnz dflt)
      .ok (some { rows := A.rows, cols := A.cols, nnz := nnz, rowptr := rowptr, colids := colids, values := values,
                  zerobased := A.zerobased })

end Verif.Model.Intersect
