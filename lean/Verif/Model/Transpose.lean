import Verif.Csr

/-!
# Transposition with atomic counters

Models `/repo/util/transpose.h` (called TR below). Each of the two parallel loops goes through all pairs (row, position) in an
arbitrary order: this covers every interleaving, because the step of a pair has one atomic access to shared data (the
`fetch_add` in the first loop) and otherwise only accesses cells that belong to the pair or are not written. The counters are
unbounded (`int` in the code).
-/

namespace Verif.Model.Transpose

variable {V : Type}

/-- The pairs (row, position) the two parallel loops go through, TR:27-29 and TR:41-43 -/
def cells (A : CSR V) : List (Nat × Nat) :=
  (List.range A.rows).flatMap fun i => (List.range' (A.ptr i) (A.ptr (i + 1) - A.ptr i)).map fun j => (i, j)

/-- Body of the first loop, TR:31 -/
def count (A : CSR V) (s : List Nat × List Nat) (p : Nat × Nat) : Res (List Nat × List Nat) := do
  let c ← rd A.colids p.2
  let x ← rd s.1 c
  let counter ← wr s.1 c (x + 1)
  let dloc ← wr s.2 p.2 x
  .ok (counter, dloc)

/-- Body of the last loop, TR:46-48 -/
def place (A : CSR V) (colptr dloc : List Nat) (s : List Nat × List V) (p : Nat × Nat) : Res (List Nat × List V) := do
  let c ← rd A.colids p.2
  let b ← rd colptr c
  let d ← rd dloc p.2
  let rowidx ← wr s.1 (b + d) p.1
  let v ← rd A.values p.2
  let val ← wr s.2 (b + d) v
  .ok (rowidx, val)

/-- `csr2csc_atomic_nosort`, TR:12-52, on the arrays of `A`. `past` are the cells behind the end of the array of `n` counters:
there are none that the code may access, so the code is the case `past = []`. `colptr`, `rowidx` and `val` are the output
arrays; `order1` and `order2` list the pairs (row, position) in the order in which the loops TR:27-33 and TR:41-50 get to
them, rearrangements of `cells A`. -/
def csr2csc (A : CSR V) (past : List Nat) (colptr rowidx : List Nat) (val : List V) (order1 order2 : List (Nat × Nat)) :
    Res (List Nat × List Nat × List V) := do
  let (counter, dloc) ← order1.foldlM (count A) (List.replicate A.cols 0 ++ past, List.replicate A.nnz 0)
  let colptr ← wr colptr 0 0
  let colptr ← forRange 0 (A.cols + 1) colptr fun i colptr => do
    let x ← rd counter i
    let y ← rd colptr i
    wr colptr (i + 1) (x + y)
  let (rowidx, val) ← order2.foldlM (place A colptr dloc) (rowidx, val)
  .ok (colptr, rowidx, val)

end Verif.Model.Transpose
