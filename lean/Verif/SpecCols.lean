import Verif.Spec

/-!
# Specification of the product of matrices stored by columns

Independent of the model of the code, like `Verif.Spec`.
-/

namespace Verif.Spec

variable {V : Type}

/-- The products that contribute to entry `(r, j)` of `A * B`, in the storage order of column `j` of `B`. -/
def contribsByCol (mul : V → V → V) (A B : CSC V) (r j : Nat) : List V :=
  (B.col j).flatMap fun kb =>
    (A.col kb.1).filterMap fun ra => if ra.1 = r then some (mul ra.2 kb.2) else none

/-- `C` is the product of `A` and `B`: the entries of column `j` are exactly the rows that get at least one contribution, in
increasing order, each with the sum of its contributions. -/
structure IsColProduct (mul add : V → V → V) (A B C : CSC V) : Prop where
  wf : C.WF
  rows : C.rows = A.rows
  cols : C.cols = B.cols
  entries : ∀ j < B.cols, ∀ r v, (r, v) ∈ C.col j ↔ sum1 add (contribsByCol mul A B r j) = some v
  sorted : C.SortedCols

/-- Inputs of a product by columns: well-formed matrices of fitting shapes, the columns of `A` strictly increasing. -/
structure ValidCols (A B : CSC V) : Prop where
  wfA : A.WF
  wfB : B.WF
  ab : A.cols = B.rows
  sortedA : A.SortedCols

end Verif.Spec
