import Verif.Csr
import Mathlib.LinearAlgebra.Matrix.Hadamard

/-!
# Sparse matrices as matrices of mathematics

Independent of the model of the code. Used to state C28.
-/

namespace Verif.Spec

variable {R : Type} [Semiring R]

/-- The dense matrix that a sparse matrix stands for: absent entries are 0, entries stored more than once add up. -/
def dense (r c : Nat) (X : CSR R) : Matrix (Fin r) (Fin c) R :=
  Matrix.of fun i j => ((X.row i).filterMap fun e => if e.1 = j.val then some e.2 else none).sum

/-- The 0/1 matrix of the positions a mask allows: the stored ones, or with `compl` the ones not stored. -/
def pattern (compl : Bool) (r c : Nat) (M : CSR R) : Matrix (Fin r) (Fin c) R :=
  Matrix.of fun i j => if decide (j.val ∈ M.rowCols i) = compl then 0 else 1

end Verif.Spec
