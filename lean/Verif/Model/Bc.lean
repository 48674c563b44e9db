import Verif.Kinds
import Verif.Model.Alias
import Verif.Lemmas.OfRows
import Mathlib.Algebra.Field.Basic

/-!
# The graph applications: betweenness centrality

Models `msp_bc_internal` (295-453) and the loops of `grb_bc_internal` (78-224) of `/repo/benchmarks/BCAllGrb.cpp`.

The GraphBLAS functions it calls are third-party code and are modelled by their documented effect on the stored entries;
a `GrB_Matrix` is a matrix with sorted rows. Taking the arrays out of a `GrB_Matrix` (the constructor `CSR(GrB_Matrix)`)
is not modelled, nor is the special storage of matrices with equal values. Putting them back is `pack`. The numbers are
those of a field (the program uses `float` or `double`, and `GrB_MINV_FP32` for both). Timing, output and the release of
the matrices are left out.
-/

namespace Verif.Model.Bc

open Verif.Spec
open Verif.Model.Alias (Store Obj)

variable {V : Type}

/-! ## GraphBLAS -/

/-- The value stored at a position. -/
def entry (X : CSR V) (i j : Nat) : Option V := ((X.row i).find? fun e => e.1 == j).map Prod.snd

/-- The matrix with the given entries, rows sorted. -/
def ofEntries (rows cols : Nat) (f : Nat → Nat → Option V) : CSR V :=
  ofRows rows cols true fun i => (List.range cols).filterMap fun j => (f i j).map fun v => (j, v)

/-- `GrB_Matrix_build` for tuples (row, column, value) with different positions. -/
def build (rows cols : Nat) (ts : List (Nat × Nat × V)) : CSR V :=
  ofEntries rows cols fun i j => (ts.find? fun t => t.1 == i && t.2.1 == j).map fun t => t.2.2

/-- `GrB_Matrix_setElement` -/
def setElem (X : CSR V) (v : V) (i j : Nat) : CSR V :=
  ofEntries X.rows X.cols fun i' j' => if i' = i ∧ j' = j then some v else entry X i' j'

/-- `avoid_iso`, grb_util.h:893-904: overwrite an entry by 0 and then by `x`. -/
def avoidIso [Zero V] (X : CSR V) (x : V) (i j : Nat) : CSR V := setElem (setElem X 0 i j) x i j

/-- `GrB_transpose` -/
def transpose (X : CSR V) : CSR V := ofEntries X.cols X.rows fun i j => entry X j i

/-- The union of two sets of entries; where both have one, the values are combined. -/
def union (op : V → V → V) : Option V → Option V → Option V
  | some x, some y => some (op x y)
  | some x, none => some x
  | none, y => y

/-- The intersection of two sets of entries. -/
def inter (op : V → V → V) : Option V → Option V → Option V
  | some x, some y => some (op x y)
  | _, _ => none

/-- `GrB_Matrix_eWiseAdd_BinaryOp(C, NULL, NULL, op, X, Y, NULL)` -/
def eWiseAdd (op : V → V → V) (X Y : CSR V) : CSR V :=
  ofEntries X.rows X.cols fun i j => union op (entry X i j) (entry Y i j)

/-- `GrB_Matrix_eWiseMult_BinaryOp(C, mask, NULL, op, X, Y, GrB_DESC_R)`: only the positions where the mask stores a
value other than 0 are written, all other entries of `C` are removed. -/
def eWiseMultMask [Zero V] [DecidableEq V] (mask : CSR V) (op : V → V → V) (X Y : CSR V) : CSR V :=
  ofEntries X.rows X.cols fun i j =>
    match entry mask i j with
    | some m => if m = 0 then none else inter op (entry X i j) (entry Y i j)
    | none => none

/-- `GrB_Matrix_eWiseMult_BinaryOp(C, NULL, accum, op, X, Y, NULL)`: combine the result with the old entries of `C`. -/
def eWiseMultAccum (C : CSR V) (accum op : V → V → V) (X Y : CSR V) : CSR V :=
  ofEntries C.rows C.cols fun i j => union accum (entry C i j) (inter op (entry X i j) (entry Y i j))

/-- `GrB_Matrix_apply` -/
def apply (f : V → V) (X : CSR V) : CSR V := ofEntries X.rows X.cols fun i j => (entry X i j).map f

/-- `GrB_Matrix_assign` of a scalar to all positions. -/
def assignAll (rows cols : Nat) (x : V) : CSR V := ofEntries rows cols fun _ _ => some x

/-- `GrB_Matrix_reduce_BinaryOp` to a vector: the sums of the rows that have entries. -/
def reduceRows [Zero V] [Add V] (X : CSR V) : List (Option V) :=
  (List.range X.rows).map fun i => if X.row i = [] then none else some ((X.row i).map Prod.snd).sum

/-- `CSR::get_grb_mat(GrB_Matrix)`, CSR.h:788-832: the size of the `GrB_Matrix` must fit (799-801), and since it passes
`is_jumbled = false` to `GxB_Matrix_pack_CSR` the rows must be sorted. -/
def pack (rows cols : Nat) (X : CSR V) : Res (CSR V) :=
  if X.rows = rows ∧ X.cols = cols ∧ (∀ i < X.rows, (X.rowCols i).Pairwise (· < ·)) then .ok X else .error .assertion

/-! ## The program -/

/-- A function passed as `f_plain` or `f_cmpl`: a row algorithm and the number of phases. -/
structure Callee where
  kind : Kind
  two : Bool

/-- The objects of a call `f(A, B, B, M, ...)`: 0 is `A`, 1 is `B`, 2 is `M`. -/
def store (A B M : CSR V) : Store V
  | 0 => .full A
  | 1 => .full B
  | _ => .full M

/-- `f(A, B, B, M, f_second, plus, tnum)`, BCAllGrb.cpp:363 and 415: the output is the object `B`. `f_second` (334)
returns its second argument. -/
def mult [Add V] (f : Callee) (A B M : CSR V) (nt dflt : Nat) (sch : Scheds) : Res (Option (CSR V)) := do
  let r ← match f.two with
    | false => Alias.spgemm1p f.kind.alg (fun _ y => y) (fun x y => x + y) (store A B M) 0 1 2 1 nt dflt sch
    | true => Alias.spgemm2p f.kind.alg (fun _ y => y) (fun x y => x + y) (store A B M) 0 1 2 1 nt dflt sch
  match r with
  | none => .ok none
  | some s => do
    let C ← Alias.fetch s 1
    .ok (some C)

/-- A call of `f` and putting the result back into the `GrB_Matrix` it came from, BCAllGrb.cpp:361-365 and 413-417 -/
def multPack [Add V] (f : Callee) (nt dflt : Nat) (A B M : CSR V) (sch : Scheds) : Res (Option (CSR V)) := do
  let r ← mult f A B M nt dflt sch
  match r with
  | none => .ok none
  | some C => do
    let C ← pack B.rows B.cols C
    .ok (some C)

variable [Field V] [DecidableEq V]

/-- The first loop, BCAllGrb.cpp:359-378, and 135-152 with GraphBLAS; `mul A B M` is the multiplication. Round number `depth` is executed with
schedule `sch depth`. The loop has no bound of its own; `fuel` bounds the number of rounds and running out of it is the outcome `diverge`. The
result is `N`, `preds` and `depth`. -/
def sigmaLoop (mul : CSR V → CSR V → CSR V → Scheds → Res (Option (CSR V))) (Atr : CSR V) (sch : Nat → Scheds) :
    Nat → Nat → CSR V → CSR V → List (CSR V) → Nat → Res (Option (CSR V × List (CSR V) × Nat))
  | 0, _, _, _, _, _ => .error .diverge
  | fuel + 1, nvals, F, N, preds, depth =>
    if nvals > 0 then do
      let r ← mul Atr F N (sch depth)
      match r with
      | none => .ok none
      | some F' =>
        let preds := preds ++ [F']
        let N := eWiseAdd (fun x y => x + y) N F'
        sigmaLoop mul Atr sch fuel F'.nnz F' N preds (depth + 1)
    else .ok (some (N, preds, depth))

/-- The second loop, BCAllGrb.cpp:406-424, and 179-195 with GraphBLAS, `for (d = depth - 1; d > 0; --d)`. The round for `d` is executed with
schedule `sch d`. -/
def deltaLoop (mul : CSR V → CSR V → CSR V → Scheds → Res (Option (CSR V))) (A N Ninv : CSR V) (preds : List (CSR V)) (sch : Nat → Scheds) :
    Nat → CSR V → Res (Option (CSR V))
  | 0, BCu => .ok (some BCu)
  | d + 1, BCu => do
    let Pd ← rd preds (d + 1)
    let W := eWiseMultMask Pd (fun x y => x * y) Ninv BCu
    let Pred ← rd preds d
    let r ← mul A W Pred (sch (d + 1))
    match r with
    | none => .ok none
    | some W' =>
      let BCu := eWiseMultAccum BCu (fun x y => x + y) (fun x y => x * y) W' N
      deltaLoop mul A N Ninv preds sch d BCu

/-- `msp_bc_internal` after the assertion, BCAllGrb.cpp:338-440, and `grb_bc_internal`, 114-213. The result is the vector `delta`. -/
def bcWith (mulp mulc : CSR V → CSR V → CSR V → Scheds → Res (Option (CSR V))) (A : CSR V) (srcs : List Nat) (sch sch' : Nat → Scheds) (fuel : Nat) :
    Res (Option (List (Option V))) := do
  let s := srcs.length
  let n := A.rows
  let F := build n s (srcs.zipIdx.map fun x => (x.1, x.2, 1))
  let s0 ← rd srcs 0
  let F := avoidIso F 1 s0 0
  let N := F
  let Atr := transpose A
  let r ← sigmaLoop mulc Atr sch fuel s F N [] 0
  match r with
  | none => .ok none
  | some (N, preds, depth) => do
    let Ninv := apply (fun x => x⁻¹) N
    let BCu := avoidIso (assignAll n s 1) 1 0 0
    let r ← deltaLoop mulp A N Ninv preds sch' (depth - 1) BCu
    match r with
    | none => .ok none
    | some BCu => .ok (some ((reduceRows BCu).map (Option.map fun x => x + -1 * (s : V))))

/-- `msp_bc_internal`, BCAllGrb.cpp:336-440 -/
def bc (fplain fcmpl : Callee) (A : CSR V) (srcs : List Nat) (nt dflt : Nat) (sch sch' : Nat → Scheds) (fuel : Nat) :
    Res (Option (List (Option V))) := do
  check (decide (srcs.length > 0))
  bcWith (multPack fplain nt dflt) (multPack fcmpl nt dflt) A srcs sch sch' fuel

end Verif.Model.Bc
