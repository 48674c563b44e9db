import Verif.Spec

/-! # What the statistics per row should say -/

namespace Verif.Spec

variable {V : Type}

/-- Well-formed matrices whose shapes fit -/
structure StatArgs (A B M : CSR V) : Prop where
  wfA : A.WF
  wfB : B.WF
  wfM : M.WF
  ab : A.cols = B.rows
  ma : M.rows = A.rows

/-- Row `i`: the mask has no column twice, and the columns of the mask and of the products are numbers of columns of `A`. -/
structure StatRow (A B M : CSR V) (i : Nat) : Prop where
  nodup : (M.rowCols i).Nodup
  mask : ∀ c ∈ M.rowCols i, c < A.cols
  prod : ∀ c ∈ touched A B i, c < A.cols

/-- The number of products of row `i` in columns that the mask allows -/
def maskedProducts (A B M : CSR V) (i : Nat) : Nat := ((touched A B i).filter (· ∈ M.rowCols i)).length

/-- `m` is the mean of the `k` smallest numbers of `ts`, rounded down. -/
def IsMean (ts : List Int) (k : Nat) (m : Int) : Prop :=
  ∃ L : List Int, L.Perm ts ∧ L.Pairwise (· ≤ ·) ∧ m = (L.take k).sum / k

/-- The sum of the `k` smallest numbers of `ts` is below `2 ^ 31`. -/
def SmallSum (ts : List Int) (k : Nat) : Prop :=
  ∃ L : List Int, L.Perm ts ∧ L.Pairwise (· ≤ ·) ∧ (L.take k).sum < 2 ^ 31

/-- The values for row `i` of some arrays -/
def valuesAt (arrs : List (List Int)) (i : Nat) : List Int := arrs.map fun x => x.getD i 0

/-- Statistics `hd` and, per algorithm, the arrays with the times of its `niter` runs; every array has a value for each of the `nrows` rows,
and no time is negative. -/
structure Timings (hd : List (List Int)) (tms : List (List (List Int))) (nrows niter : Nat) : Prop where
  runs : ∀ T ∈ tms, T.length = niter
  hdLen : ∀ x ∈ hd, nrows ≤ x.length
  timeLen : ∀ T ∈ tms, ∀ x ∈ T, nrows ≤ x.length
  nonneg : ∀ T ∈ tms, ∀ x ∈ T, ∀ v ∈ x, 0 ≤ v
  size : hd.length + niter * tms.length < 2 ^ 64

/-- One line per row: the statistics of the row, then, per algorithm, the mean of its `k` fastest runs. -/
def RightTable (hd : List (List Int)) (tms : List (List (List Int))) (nrows k : Nat) (lines : List (List Int)) : Prop :=
  lines.length = nrows ∧ ∀ i < nrows, ∃ ms, lines[i]? = some (valuesAt hd i ++ ms) ∧ ms.length = tms.length ∧
    ∀ (a : Nat) (T : List (List Int)), tms[a]? = some T → ∃ m, ms[a]? = some m ∧ IsMean (valuesAt T i) k m

end Verif.Spec
