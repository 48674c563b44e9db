import Verif.Spec

/-!
# Specification of the outer product of a matrix stored by columns and a matrix stored by rows

Independent of the model of the code, like `Verif.Spec`.
-/

namespace Verif.Spec

variable {V : Type}

/-- The products that contribute to entry `(i, j)` of `A * B`, column by column of `A`. -/
def contribsOuter (mul : V → V → V) (A : CSC V) (B : CSR V) (i j : Nat) : List V :=
  (List.range A.cols).flatMap fun k => (A.col k).flatMap fun ra => (B.row k).filterMap fun jb =>
    if ra.1 = i ∧ jb.1 = j then some (mul ra.2 jb.2) else none

/-- `C` is the product of `A` and `B`: row `i` has exactly the columns that get at least one contribution, in increasing order, each with
the sum of its contributions. -/
structure IsOuterProduct (mul add : V → V → V) (A : CSC V) (B C : CSR V) : Prop where
  wf : C.WF
  rows : C.rows = A.rows
  cols : C.cols = B.cols
  entries : ∀ i < A.rows, ∀ j v, (j, v) ∈ C.row i ↔ sum1 add (contribsOuter mul A B i j) = some v
  sorted : C.SortedRows

/-- Inputs of an outer product: well-formed matrices of fitting shapes. -/
structure ValidOuter (A : CSC V) (B : CSR V) : Prop where
  wfA : A.WF
  wfB : B.WF
  ab : A.cols = B.rows

end Verif.Spec
