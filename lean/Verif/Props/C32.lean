import Verif.Lemmas.Transpose
import Verif.Props.Examples

/-!
# C32: transposition with atomic counters

The loop `for (i = 0; i <= n; i++)` of `/repo/util/transpose.h` line 35 does one step too many: it reads the counter behind the
end of the array of `n` counters and writes a column pointer behind the `n + 1` column pointers. So the property fails for
every matrix (`C32_violated`). What is left is that the result is right for all interleavings if these two cells may be accessed
(`C32_slack_partial`).
-/

namespace Verif.Props

open Verif.Model.Transpose

variable {V : Type}

/-- The two loops get to the pairs (row, position) in these orders. -/
def Interleaving (A : CSR V) (order : List (Nat × Nat)) : Prop :=
  order.Perm ((List.range A.rows).flatMap fun i => (List.range' (A.ptr i) (A.ptr (i + 1) - A.ptr i)).map fun j => (i, j))

/-- **C32** fails: whatever the matrix, the output arrays and the interleaving, an array is accessed out of bounds. -/
theorem C32_violated (A : CSR V) (hA : A.WF) (colptr rowidx : List Nat) (val : List V) (order1 order2 : List (Nat × Nat))
    (h1 : Interleaving A order1) : csr2csc A [] colptr rowidx val order1 order2 = .error .oob :=
  csr2csc_oob hA h1 order2 colptr rowidx val

/-- **C32**, if the cell behind the counters may be read (it holds an arbitrary `x`) and the array of column pointers has one
more cell than needed: for every interleaving the output arrays are those of a well-formed matrix with the same entries.
Missing: this access is not allowed. -/
theorem C32_slack_partial (A : CSR V) (hA : A.WF) (dflt : V) (x : Nat) (colptr rowidx : List Nat) (val : List V)
    (hc : colptr.length = A.cols + 2) (hr : rowidx.length = A.nnz) (hv : val.length = A.nnz) (order1 order2 : List (Nat × Nat))
    (h1 : Interleaving A order1) (h2 : Interleaving A order2) :
    ∃ colptr' rowidx' val', csr2csc A [x] colptr rowidx val order1 order2 = .ok (colptr', rowidx', val') ∧
      (CSC.mk A.rows A.cols A.nnz (colptr'.take (A.cols + 1)) rowidx' val' true).WF ∧
      (Spec.triplesC (CSC.mk A.rows A.cols A.nnz (colptr'.take (A.cols + 1)) rowidx' val' true)).Perm (Spec.triples A) := by
  obtain ⟨cp, e1, e2, e3⟩ := csr2csc_ok hA dflt h1 h2 x [] colptr rowidx val (by omega) hr hv
  have e : CSC.mk A.rows A.cols A.nnz (cp.take (A.cols + 1)) (Conv.ofCols A.rows A.cols (column A dflt order1)).rowids
      (Conv.ofCols A.rows A.cols (column A dflt order1)).values true = Conv.ofCols A.rows A.cols (column A dflt order1) := by
    rw [e2, ← e3]
    rfl
  refine ⟨cp, _, _, e1, ?_, ?_⟩
  · rw [e]
    exact Conv.ofCols_wf _ _ _ (column_lt dflt h1)
  · rw [e]
    exact triples_column hA dflt h1

/-- Two different interleavings for the example matrix. -/
theorem exInterleaving1 : Interleaving Ex.A [(2, 4), (0, 1), (2, 3), (1, 2), (0, 0)] := by unfold Interleaving; decide
theorem exInterleaving2 : Interleaving Ex.A [(1, 2), (0, 0), (2, 4), (2, 3), (0, 1)] := by unfold Interleaving; decide

example := C32_slack_partial Ex.A Ex.wfA 0 7 [9, 9, 9, 9, 9] [9, 9, 9, 9, 9] [9, 9, 9, 9, 9] rfl rfl rfl _ _
  exInterleaving1 exInterleaving2

example := C32_violated Ex.A Ex.wfA [9, 9, 9, 9, 9] [9, 9, 9, 9, 9] [9, 9, 9, 9, 9] _ [] exInterleaving1

/-- Columns 0 and 2 come out in the order of the increments. -/
example : csr2csc Ex.A [7] [9, 9, 9, 9, 9] [9, 9, 9, 9, 9] [9, 9, 9, 9, 9] [(2, 4), (0, 1), (2, 3), (1, 2), (0, 0)]
    [(1, 2), (0, 0), (2, 4), (2, 3), (0, 1)] = .ok ([0, 2, 3, 5, 12], [2, 0, 0, 2, 1], [4, 1, 2, 5, 3]) := by decide

end Verif.Props
