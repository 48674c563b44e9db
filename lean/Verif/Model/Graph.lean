import Verif.Kinds
import Verif.Lemmas.OfRows
import Verif.Lemmas.Triples

/-!
# The graph applications: triangle counting and k-truss

Models `/repo/benchmarks/TriCntAllGrb.cpp` (`msp_tri_count_sandia_L`), `/repo/benchmarks/KTrussAllGrb.cpp`
(`msp_ktruss`) and the helpers `sort_by_degree`, `get_lowtri`, `convert_to_csc` of `/repo/grb_util.h`.

The GraphBLAS functions they call are third-party code and are modelled by their documented effect on matrices with
sorted rows and without repeated positions. The conversions between `GrB_Matrix` and `CSR`/`CSC` move the arrays and are
not modelled. Timing, output and the repetition of the measurement are left out.
-/

namespace Verif.Model.Graph

open Verif.Spec

variable {V : Type}

/-- `GxB_Matrix_select`: keep the entries that satisfy a condition. -/
def select (p : Nat → Nat → V → Bool) (X : CSR V) : CSR V :=
  ofRows X.rows X.cols X.zerobased fun i => (X.row i).filter fun e => p i e.1 e.2

/-- `GrB_Matrix_build`: the matrix with the given tuples (row, column, value). -/
def build (rows cols : Nat) (ts : List (Nat × Nat × V)) : CSR V :=
  ofRows rows cols true fun i =>
    (Conv.bucket ts i).mergeSort fun a b => decide (a.1 ≤ b.1)

/-- `GrB_Matrix_reduce` with the plus monoid: the sum of the stored values. -/
def reduce [Zero V] [Add V] (X : CSR V) : V := X.values.sum

/-- `convert_to_csc`, grb_util.h:857-887, and the transposition of KTrussAllGrb.cpp:205-212: the same matrix stored by
columns. -/
def toCsc (X : CSR V) : CSC V :=
  Conv.ofCols X.rows X.cols fun j =>
    (List.range X.rows).flatMap fun i => ((X.row i).filter fun e => decide (e.1 = j)).map fun e => (i, e.2)

/-- `get_lowtri`, grb_util.h:836-855: `GxB_TRIL` with thunk -1 keeps the entries with `j - i <= -1`. -/
def lowTri (X : CSR V) : CSR V := select (fun i j _ => decide (j < i)) X

/-- `sort_by_degree`, grb_util.h:786-834. `sortf` is `std::sort` with `std::greater` on pairs. -/
def sortByDegree (sortf : List (Nat × Nat) → List (Nat × Nat)) (A : CSR V) : Res (CSR V) := do
  let ts := triples A
  let cnts := (List.range A.rows).map fun i => (0, i)
  let cnts ← ts.foldlM (init := cnts) fun c t => do
    let x ← rd c t.1
    wr c t.1 (x.1 + 1, x.2)
  let cnts := sortf cnts
  let mapping ← forRange 0 A.rows (List.replicate A.rows none) fun i m => do
    let x ← rd cnts i
    wr m x.2 (some i)
  let ts ← ts.mapM fun t => do
    let r ← Scan.rdu mapping t.1
    let c ← Scan.rdu mapping t.2.1
    .ok (r, c, t.2.2)
  .ok (build A.rows A.cols ts)

variable [Zero V] [One V] [Add V]

/-- The multiply call both applications make: `f(X, X, C, X, f_one, plus, tnum)` with the operator `f_one` that ignores
its arguments and returns 1, TriCntAllGrb.cpp:138, 166-168, KTrussAllGrb.cpp:173, 218-224. The output object is
zero-based (it is empty, or made from a `GrB_Matrix`). -/
def square (a : Algo) (two : Bool) (X : CSR V) (nt dflt : Nat) (sch : Scheds) : Res (Option (CSR V)) :=
  a.call two (fun _ _ => 1) (fun x y => x + y) X X (toCsc X) X true nt dflt sch

/-- `main` and `msp_tri_count_sandia_L`, TriCntAllGrb.cpp:264, 287, 295, 166-182: relabel, take the lower triangle,
multiply, add up. -/
def triCount (sortf : List (Nat × Nat) → List (Nat × Nat)) (a : Algo) (two : Bool) (A : CSR V) (nt dflt : Nat)
    (sch : Scheds) : Res (Option V) := do
  let A ← sortByDegree sortf A
  let r ← square a two (lowTri A) nt dflt sch
  match r with
  | none => .ok none
  | some C => .ok (some (reduce C))

/-- The loop of `msp_ktruss`, KTrussAllGrb.cpp:195-246. `ge` is the test `>= k-2` of `GxB_GE_THUNK`; round number
`step` is executed with schedule `sch step`; the loop has no bound of its own, `fuel` bounds the number of rounds and
running out of it is the outcome `diverge`. -/
def ktrussLoop (a : Algo) (two : Bool) (ge : V → Bool) (nt dflt : Nat) (sch : Nat → Scheds) :
    Nat → CSR V → Nat → Nat → Res (Option (CSR V × Nat))
  | 0, _, _, _ => .error .diverge
  | fuel + 1, T, last, step => do
    let r ← square a two T nt dflt (sch step)
    match r with
    | none => .ok none
    | some C =>
      let C := select (fun _ _ v => ge v) C
      if last = C.nnz then .ok (some (C, step))
      else ktrussLoop a two ge nt dflt sch fuel C C.nnz (step + 1)

/-- `msp_ktruss`, KTrussAllGrb.cpp:193-246: `nnz_last` starts with the number of entries of `A`. -/
def ktruss (a : Algo) (two : Bool) (ge : V → Bool) (nt dflt : Nat) (sch : Nat → Scheds) (fuel : Nat) (A : CSR V) :
    Res (Option (CSR V × Nat)) :=
  ktrussLoop a two ge nt dflt sch fuel A A.nnz 1

end Verif.Model.Graph
