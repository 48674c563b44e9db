import Verif.SpecCsc

/-!
# Specification of constructors and conversions

Independent of the model of the code, like `Verif.Spec`.
-/

namespace Verif.Spec

/-- A sorting function by key, such as `std::sort`: the result is a rearrangement with
non-decreasing keys. Nothing is said about the order of equal keys. -/
structure SortsBy {α : Type} (key : α → Nat) (sortf : List α → List α) : Prop where
  perm : ∀ l, (sortf l).Perm l
  sorted : ∀ l, (sortf l).Pairwise (fun a b => key a ≤ key b)

/-- A sorting function for keys of 32 bits -/
def SortsBy32 {α : Type} (sortf : (α → Nat) → List α → List α) : Prop := ∀ k : α → Nat, (∀ x, k x < 2 ^ 32) → SortsBy k (sortf k)

variable {V : Type}

/-- The stored triples (row, column, value) of a CSR matrix. -/
def triples (A : CSR V) : List (Nat × Nat × V) :=
  (List.range A.rows).flatMap fun i => (A.row i).map fun x => (i, x.1, x.2)

/-- The stored triples (row, column, value) of a CSC matrix. -/
def triplesC (A : CSC V) : List (Nat × Nat × V) :=
  (List.range A.cols).flatMap fun j => (A.col j).map fun x => (x.1, j, x.2)

/-- The triples (row, column, value) a CSR matrix stands for, counted from 0 whatever its index
base: for a one-based matrix all row pointers and column ids are one too large. -/
def logical (A : CSR V) : List (Nat × Nat × V) :=
  let base := if A.zerobased then 0 else 1
  (List.range A.rows).flatMap fun i =>
    (slice (A.colids.zip A.values) (A.ptr i - base) (A.ptr (i + 1) - base)).map fun x =>
      (i, x.1 - base, x.2)

/-- `C` is the intersection of `A` and `B`: it stores exactly the positions stored in both, with the combined values,
each once, in increasing column order. -/
structure IsIntersection (add : V → V → V) (A B C : CSR V) : Prop where
  wf : C.WF
  rows : C.rows = A.rows
  cols : C.cols = A.cols
  entries : ∀ i < A.rows, ∀ j v, (j, v) ∈ C.row i ↔ ∃ a b, (j, a) ∈ A.row i ∧ (j, b) ∈ B.row i ∧ v = add a b
  sorted : C.SortedRows

/-- `C` is `A` with the entries inside each row rearranged. -/
structure SameRows (A C : CSR V) : Prop where
  wf : C.WF
  rows : C.rows = A.rows
  cols : C.cols = A.cols
  nnz : C.nnz = A.nnz
  perm : ∀ i < A.rows, (C.row i).Perm (A.row i)

/-! ## Matrices of graphs -/

/-- A sorting function for pairs of an edge and a weight, such as `std::sort`: the result is a rearrangement with the
edges in lexicographic order. -/
structure SortsEdges (sortf : List ((Nat × Nat) × V) → List ((Nat × Nat) × V)) : Prop where
  perm : ∀ l, (sortf l).Perm l
  sorted : ∀ l, (sortf l).Pairwise (fun a b => a.1.1 < b.1.1 ∨ a.1.1 = b.1.1 ∧ a.1.2 ≤ b.1.2)

/-- The weights of the edges from `i` to `j`. -/
def weights (edges : List (Nat × Nat × V)) (i j : Nat) : List V :=
  (edges.filter fun e => decide (e.1 = i ∧ e.2.1 = j)).map fun e => e.2.2

/-- `C` is the weight matrix of the graph: entry `(i, j)` is present exactly if there is an edge from `i` to `j`, and
holds the sum of the weights of all these edges. -/
structure IsGraphMat (add : V → V → V) (n : Nat) (edges : List (Nat × Nat × V)) (C : CSR V) : Prop where
  wf : C.WF
  rows : C.rows = n
  cols : C.cols = n
  sorted : C.SortedRows
  entries : ∀ i < n, ∀ j v, (j, v) ∈ C.row i ↔ sum1 add (weights edges i j) = some v

/-- The same by columns. -/
structure IsGraphMatC (add : V → V → V) (n : Nat) (edges : List (Nat × Nat × V)) (C : CSC V) : Prop where
  wf : C.WF
  rows : C.rows = n
  cols : C.cols = n
  sorted : ∀ j < n, (C.colRows j).Pairwise (· < ·)
  entries : ∀ j < n, ∀ i v, (i, v) ∈ C.col j ↔ sum1 add (weights edges i j) = some v

end Verif.Spec
