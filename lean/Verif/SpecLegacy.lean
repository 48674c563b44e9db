import Verif.SpecConv

/-!
# Specification of the older kernels

Independent of the model of the code, like `Verif.Spec`.
-/

namespace Verif.Spec

variable {V : Type}

/-- `C` is the product of `A` and `B`: the entries of row `i` are exactly the columns that get at least one contribution, each
once, with the sum of its contributions in the order in which the row of `A` lists them. With `sorted`, the columns of a row
increase. -/
structure IsPlainProduct (mul add : V → V → V) (sorted : Bool) (A B C : CSR V) : Prop where
  wf : C.WF
  rows : C.rows = A.rows
  cols : C.cols = B.cols
  entries : ∀ i < A.rows, ∀ j v, (j, v) ∈ C.row i ↔ dot mul add A B i j = some v
  nodup : C.NodupRows
  sorted : sorted = true → C.SortedRows

/-- `C` is the product of `A` and `B` under the mask `M`, with the entries of a row in any order. -/
structure IsMaskedSet (mul add : V → V → V) (A B M C : CSR V) : Prop where
  wf : C.WF
  rows : C.rows = A.rows
  cols : C.cols = B.cols
  entries : ∀ i < A.rows, ∀ j v, (j, v) ∈ C.row i ↔ j ∈ M.rowCols i ∧ dot mul add A B i j = some v
  nodup : C.NodupRows

end Verif.Spec
