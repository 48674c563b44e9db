import Verif.Csr

/-!
# Specification of the masked product

This file is independent of the model of the code. It only uses the stored
entries of the rows (`CSR.row`) and lists.
-/

namespace Verif.Spec

variable {V : Type _}

/-- The products that contribute to entry `(i, j)` of `A * B`, in the storage
order of row `i` of `A`. -/
def contribs (mul : V → V → V) (A B : CSR V) (i j : Nat) : List V :=
  (A.row i).flatMap fun ka =>
    (B.row ka.1).filterMap fun jb => if jb.1 = j then some (mul ka.2 jb.2) else none

/-- Left fold of `add` over a list; `none` for the empty list. -/
def sum1 (add : V → V → V) : List V → Option V
  | [] => none
  | x :: xs => some (xs.foldl add x)

/-- Entry `(i, j)` of `A * B`: absent when no `k` has both `A(i,k)` and `B(k,j)`
stored, otherwise the sum of the products in `A`-row order. -/
def dot (mul add : V → V → V) (A B : CSR V) (i j : Nat) : Option V :=
  sum1 add (contribs mul A B i j)

/-- `C` is the product of `A` and `B` under the mask `M`. -/
structure IsMasked (mul add : V → V → V) (A B M C : CSR V) : Prop where
  rows : C.rows = A.rows
  cols : C.cols = B.cols
  /-- entry `(i,j)` with value `v` is stored iff the mask stores `(i,j)` and the product is `v` -/
  entries : ∀ i < A.rows, ∀ j v, (j, v) ∈ C.row i ↔ j ∈ M.rowCols i ∧ dot mul add A B i j = some v
  /-- no column is stored twice in a row -/
  nodup : C.NodupRows
  /-- the columns of a row appear in the order of the mask row -/
  order : ∀ i < A.rows, (C.rowCols i).Sublist (M.rowCols i)

/-- `C` is the product of `A` and `B` under the complement of the mask `M`. -/
structure IsComplMasked (mul add : V → V → V) (A B M C : CSR V) : Prop where
  rows : C.rows = A.rows
  cols : C.cols = B.cols
  /-- entry `(i,j)` with value `v` is stored iff the mask does not store `(i,j)` and the product is `v` -/
  entries : ∀ i < A.rows, ∀ j v, (j, v) ∈ C.row i ↔ j ∉ M.rowCols i ∧ dot mul add A B i j = some v
  /-- no column is stored twice in a row -/
  nodup : C.NodupRows

/-- The columns touched while the products of row `i` are formed, in order. -/
def touched (A B : CSR V) (i : Nat) : List Nat := (A.row i).flatMap fun ka => (B.row ka.1).map (·.1)

/-- In each row of `C` the columns appear in the order in which they were first touched. -/
def FirstTouchOrder (A B C : CSR V) : Prop :=
  ∀ i < C.rows, (C.rowCols i).Pairwise fun j j' => (touched A B i).idxOf j < (touched A B i).idxOf j'

/-- The shapes of the inputs fit (this is what `verifyInputs` asserts). -/
structure Shapes (A B M : CSR V) : Prop where
  ab : A.cols = B.rows
  ma : M.rows = A.rows
  mb : M.cols = B.cols

/-- Inputs of a masked multiply: well-formed matrices of fitting shapes with at least one row. -/
structure Valid (A B M : CSR V) : Prop where
  wfA : A.WF
  wfB : B.WF
  wfM : M.WF
  shapes : Shapes A B M
  rowsPos : 0 < A.rows

/-- Associative and commutative addition: the sum does not depend on the order. -/
structure AssocComm (add : V → V → V) : Prop where
  assoc : ∀ a b c, add (add a b) c = add a (add b c)
  comm : ∀ a b, add a b = add b a

end Verif.Spec
