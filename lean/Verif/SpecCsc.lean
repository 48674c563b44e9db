import Verif.Spec

/-!
# Specification of the masked product when `B` is stored by columns

Independent of the model of the code, like `Verif.Spec`.
-/

namespace Verif.Spec

variable {V : Type _}

/-- The products that contribute to entry `(i, j)` of `A * B`, in the storage order of row `i` of `A`. -/
def contribsC (mul : V → V → V) (A : CSR V) (B : CSC V) (i j : Nat) : List V :=
  (A.row i).flatMap fun ka =>
    (B.col j).filterMap fun kb => if kb.1 = ka.1 then some (mul ka.2 kb.2) else none

/-- Entry `(i, j)` of `A * B`. -/
def dotC (mul add : V → V → V) (A : CSR V) (B : CSC V) (i j : Nat) : Option V :=
  sum1 add (contribsC mul A B i j)

/-- `C` is the product of `A` and `B` under the mask `M`. -/
structure IsMaskedC (mul add : V → V → V) (A : CSR V) (B : CSC V) (M C : CSR V) : Prop where
  rows : C.rows = A.rows
  cols : C.cols = B.cols
  /-- entry `(i,j)` with value `v` is stored iff the mask stores `(i,j)` and the product is `v` -/
  entries : ∀ i < A.rows, ∀ j v, (j, v) ∈ C.row i ↔ j ∈ M.rowCols i ∧ dotC mul add A B i j = some v
  /-- no column is stored twice in a row -/
  nodup : C.NodupRows
  /-- the columns of a row appear in the order of the mask row -/
  order : ∀ i < A.rows, (C.rowCols i).Sublist (M.rowCols i)

/-- Inputs of the inner-product multiply: well-formed matrices of fitting shapes with at least one row, rows of
`A` and columns of `B` strictly increasing. -/
structure ValidC (A : CSR V) (B : CSC V) (M : CSR V) : Prop where
  wfA : A.WF
  wfB : B.WF
  wfM : M.WF
  ab : A.cols = B.rows
  ma : M.rows = A.rows
  mb : M.cols = B.cols
  rowsPos : 0 < A.rows
  sortedA : A.SortedRows
  sortedB : B.SortedCols

/-- The two storage formats hold the same matrix: the same triples (row, column, value). -/
structure SameMat (B : CSR V) (Bc : CSC V) : Prop where
  rows : Bc.rows = B.rows
  cols : Bc.cols = B.cols
  entries : ∀ i j v, i < B.rows → j < B.cols → ((j, v) ∈ B.row i ↔ (i, v) ∈ Bc.col j)

end Verif.Spec
