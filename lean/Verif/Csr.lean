import Verif.Base

/-!
# Sparse matrices

`CSR` models `/repo/CSR.h` lines 24-117 and 325-345 (the data members), `CSC`
models the data members of `/repo/CSC.h`. Pointers are lists; a null pointer is
the empty list. The members are `rows`, `cols`, `nnz`, `rowptr` (`rows + 1`
entries), `colids` and `values` (`nnz` entries) and the flag `zerobased`.
-/

namespace Verif

/-- Compressed sparse rows, `/repo/CSR.h`. -/
structure CSR (V : Type _) where
  rows : Nat
  cols : Nat
  nnz : Nat
  rowptr : List Nat
  colids : List Nat
  values : List V
  zerobased : Bool := true
  deriving DecidableEq, Repr

/-- Compressed sparse columns, `/repo/CSC.h`. -/
structure CSC (V : Type _) where
  rows : Nat
  cols : Nat
  nnz : Nat
  colptr : List Nat
  rowids : List Nat
  values : List V
  zerobased : Bool := true
  deriving DecidableEq, Repr

/-- The part of an array between two positions. -/
def slice {α : Type _} (l : List α) (lo hi : Nat) : List α := (l.drop lo).take (hi - lo)

namespace CSR
variable {V : Type _}

/-- `rowptr[i]`, total version for specifications. -/
def ptr (A : CSR V) (i : Nat) : Nat := A.rowptr.getD i 0

/-- The stored entries (column, value) of row `i`, in storage order. -/
def row (A : CSR V) (i : Nat) : List (Nat × V) :=
  slice (A.colids.zip A.values) (A.ptr i) (A.ptr (i + 1))

/-- The stored column ids of row `i`, in storage order. -/
def rowCols (A : CSR V) (i : Nat) : List Nat := slice A.colids (A.ptr i) (A.ptr (i + 1))

/-- A well-formed zero-based CSR matrix. -/
structure WF (A : CSR V) : Prop where
  zero : A.zerobased = true
  ptrLen : A.rowptr.length = A.rows + 1
  ptrFirst : A.ptr 0 = 0
  ptrMono : ∀ i < A.rows, A.ptr i ≤ A.ptr (i + 1)
  ptrLast : A.ptr A.rows = A.nnz
  colLen : A.colids.length = A.nnz
  valLen : A.values.length = A.nnz
  inBounds : ∀ c ∈ A.colids, c < A.cols

/-- No row lists a column twice. -/
def NodupRows (A : CSR V) : Prop := ∀ i < A.rows, (A.rowCols i).Nodup

/-- Every row lists its columns in strictly increasing order. -/
def SortedRows (A : CSR V) : Prop := ∀ i < A.rows, (A.rowCols i).Pairwise (· < ·)

end CSR

namespace CSC
variable {V : Type _}

/-- `colptr[j]`, total version for specifications. -/
def ptr (B : CSC V) (j : Nat) : Nat := B.colptr.getD j 0

/-- The stored entries (row, value) of column `j`, in storage order. -/
def col (B : CSC V) (j : Nat) : List (Nat × V) :=
  slice (B.rowids.zip B.values) (B.ptr j) (B.ptr (j + 1))

/-- The stored row ids of column `j`. -/
def colRows (B : CSC V) (j : Nat) : List Nat := slice B.rowids (B.ptr j) (B.ptr (j + 1))

/-- A well-formed zero-based CSC matrix. -/
structure WF (B : CSC V) : Prop where
  zero : B.zerobased = true
  ptrLen : B.colptr.length = B.cols + 1
  ptrFirst : B.ptr 0 = 0
  ptrMono : ∀ j < B.cols, B.ptr j ≤ B.ptr (j + 1)
  ptrLast : B.ptr B.cols = B.nnz
  rowLen : B.rowids.length = B.nnz
  valLen : B.values.length = B.nnz
  inBounds : ∀ r ∈ B.rowids, r < B.rows

/-- Every column lists its rows in strictly increasing order. -/
def SortedCols (B : CSC V) : Prop := ∀ j < B.cols, (B.colRows j).Pairwise (· < ·)

end CSC

end Verif
