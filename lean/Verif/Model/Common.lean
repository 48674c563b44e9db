import Verif.Csr

/-!
# Helper functions of the drivers

Models `/repo/spgemm-blocks/common.h`.
-/

namespace Verif.Model

variable {V : Type}

/-- `setNumThreads`, common.h:4-10; `dflt` is what `omp_get_num_threads()` returns. -/
def setNumThreads (numThreads dflt : Nat) : Nat := if numThreads = 0 then dflt else numThreads

/-- `verifyInputs`, common.h:17-21 -/
def verifyInputs (A B M : CSR V) : Res Unit := do
  check (A.cols == B.rows)
  check (M.rows == A.rows)
  check (M.cols == B.cols)

/-- Length of a row read from the row pointers, `X.rowptr[i + 1] - X.rowptr[i]`. -/
def rowLen (X : CSR V) (i : Nat) : Res Nat := do
  let hi ← rd X.rowptr (i + 1)
  let lo ← rd X.rowptr i
  .ok (hi - lo)

/-- Body of the loop in `calculateFlops(A, B, ..)`, common.h:51-56 -/
def flopsRow (A B : CSR V) (i : Nat) : Res Nat := do
  let lo ← rd A.rowptr i
  let hi ← rd A.rowptr (i + 1)
  forRange lo hi 0 fun j flopsRow => do
    let inner ← rd A.colids j
    let npins ← rowLen B inner
    .ok (flopsRow + npins)

/-- Body of the loop in `calculateFlops(A, B, M, ..)`, common.h:70-77 -/
def flopsRowMasked (A B M : CSR V) (i : Nat) : Res Nat := do
  let hi ← rd M.rowptr (i + 1)
  let lo ← rd M.rowptr i
  if hi ≠ lo then flopsRow A B i else .ok 0

/-- `calculateFlops`, common.h:46-62 (`compl`) and 65-83. The iterations of the
`parallel for` are executed in some `order`; each writes its own
`flopsPerRow[i]` and adds to the reduction variable. Returns `flopsPerRow` and
the total. -/
def calculateFlops (compl : Bool) (A B M : CSR V) (order : List Nat) :
    Res (List (Option Nat) × Nat) :=
  order.foldlM (fun (fpr, flops) i => do
    let f ← if compl then flopsRow A B i else flopsRowMasked A B M i
    let fpr ← wr fpr i (some f)
    .ok (fpr, flops + f)) (List.replicate A.rows none, 0)

/-- `std::lower_bound` (libstdc++ `__lower_bound`, bits/stl_algobase.h:1459-1482): binary search;
`fuel` is the number of iterations that remain. -/
def lbGo (a : List (Option Nat)) (x : Nat) : Nat → Nat → Nat → Res Nat
  | _, first, 0 => .ok first
  | 0, _, _ + 1 => .error .diverge
  | fuel + 1, first, len + 1 => do
    let half := (len + 1) / 2
    let m ← rd a (first + half)
    let m ← use m
    if m < x then lbGo a x fuel (first + half + 1) (len + 1 - half - 1)
    else lbGo a x fuel first half

/-- `lower_bound(a, a + n, x) - a` -/
def lowerBound (a : List (Option Nat)) (n x : Nat) : Res Nat := lbGo a x n 0 n

/-- `distributeWork`, common.h:106-115 -/
def distributeWork (total : Nat) (accum : List (Option Nat)) (nrows n t : Nat) : Res (Nat × Nat) := do
  let wpt := total / n
  let b ← if t ≠ 0 then lowerBound accum nrows (wpt * t) else .ok 0
  let e ← if t ≠ n - 1 then lowerBound accum nrows (wpt * (t + 1)) else .ok nrows
  .ok (b, e)

/-- Results of `scanInputs` -/
structure Sizes where
  sizeC : Nat := 0
  maxA : Nat := 0
  maxM : Nat := 0
  maxFlops : Nat := 0
  deriving DecidableEq

/-- `scanInputs<compl, calcC, calcA, calcM, calcF>`, common.h:128-146 -/
def scanInputs (compl calcC calcA calcM calcF : Bool) (b e : Nat) (fpr : List (Option Nat))
    (A M : CSR V) : Res Sizes :=
  forRange b e {} fun row s => do
    let s ← if calcC then do
        let f ← rd fpr row
        let f ← use f
        if !compl then do
          let m ← rowLen M row
          .ok { s with sizeC := s.sizeC + min f m }
        else .ok { s with sizeC := s.sizeC + f }
      else .ok s
    let s ← if calcA then do
        let a ← rowLen A row
        .ok { s with maxA := max s.maxA a }
      else .ok s
    let s ← if calcM then do
        let m ← rowLen M row
        .ok { s with maxM := max s.maxM m }
      else .ok s
    if calcF then do
      let f ← rd fpr row
      let f ← use f
      .ok { s with maxFlops := max s.maxFlops f }
    else .ok s

/-- `std::accumulate(a, a + k, 0)` over an array that may have unset cells -/
def accumulate (a : List (Option Nat)) (k : Nat) : Res Nat :=
  forRange 0 k 0 fun i s => do
    let x ← rd a i
    let x ← use x
    .ok (s + x)

end Verif.Model
