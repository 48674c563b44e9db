import Verif.Model.Convert

/-!
# Lists of triples and duplicates

Models `SplitTuples.h` 34-73, `util/triple-util.h` 8-41 and `CSC::MergeDuplicates` (`CSC.h` 374-413).
-/

namespace Verif.Tuples

variable {V : Type}

/-- an integer division -/
def div (a b : Nat) : Res Nat := if b = 0 then .error .divzero else .ok (a / b)

/-- `v[i].push_back(x)` -/
def pushAt {α : Type} (v : List (List α)) (i : Nat) (x : α) : Res (List (List α)) := do
  let l ← rd v i
  wr v i (l ++ [x])

/-- the owner of a row, `std::min(rowid / perpiece, numsplits - 1)`, `SplitTuples.h` 48, 67 -/
def owner (row perpiece splits : Nat) : Res Nat := do
  let o ← div row perpiece
  .ok (min o (splits - 1))

/-- the inner loop over the entries of column `i`, `SplitTuples.h` 45-50 -/
def splitCol (A : CSC V) (splits perpiece i : Nat) (S : List (List (Nat × Nat × V))) : Res (List (List (Nat × Nat × V))) := do
  let b ← rd A.colptr i
  let e ← rd A.colptr (i + 1)
  forRange b e S (fun j S => do
    let r ← rd A.rowids j
    let o ← owner r perpiece splits
    let v ← rd A.values j
    pushAt S o (r, i, v))

/-- `SplitTuples(CSC&, int)`, `SplitTuples.h` 34-52. The number of pieces is not negative. The result is `splitTuples`; the other
members are copies of the arguments. -/
def splitCsc (A : CSC V) (splits : Nat) : Res (List (List (Nat × Nat × V))) := do
  let perpiece ← div A.rows splits
  forRange 0 A.cols (List.replicate splits []) (splitCol A splits perpiece)

/-- the loop body for row `i`, `SplitTuples.h` 66-71 -/
def splitRow (A : CSR V) (splits perpiece i : Nat) (S : List (List (Nat × Nat × V))) : Res (List (List (Nat × Nat × V))) := do
  let o ← owner i perpiece splits
  let b ← rd A.rowptr i
  let e ← rd A.rowptr (i + 1)
  forRange b e S (fun j S => do
    let c ← rd A.colids j
    let v ← rd A.values j
    pushAt S o (i % perpiece, c, v))

/-- `SplitTuples(CSR&, int)`, `SplitTuples.h` 54-73. The size of a piece is computed from the number of columns (line 63). -/
def splitCsr (A : CSR V) (splits : Nat) : Res (List (List (Nat × Nat × V))) := do
  let perpiece ← div A.cols splits
  forRange 0 A.rows (List.replicate splits []) (splitRow A splits perpiece)

/-- one iteration of the loop of `removeDuplicates`, `triple-util.h` 16-21. The state is the array and `dst`. -/
def keepStep (src : Nat) (s : List (Nat × Nat × V) × Nat) : Res (List (Nat × Nat × V) × Nat) := do
  let x ← rd s.1 src
  let y ← rd s.1 (src - 1)
  if x.1 ≠ y.1 ∨ x.2.1 ≠ y.2.1 then do
    let a ← wr s.1 s.2 x
    .ok (a, s.2 + 1)
  else .ok s

/-- `removeDuplicates`, `triple-util.h` 8-23. `sortf` stands for `std::sort` with the comparison by row and column. The result is the
array and the return value. -/
def removeDuplicates (sortf : List (Nat × Nat × V) → List (Nat × Nat × V)) (triples : List (Nat × Nat × V)) :
    Res (List (Nat × Nat × V) × Nat) :=
  forRange 1 triples.length (sortf triples, 1) keepStep

/-- `generateRandomTriples`, `triple-util.h` 25-41. The `i`-th calls of the two distributions return `rndRow i` and `rndCol i`. -/
def randomTriples (sortf : List (Nat × Nat × V) → List (Nat × Nat × V)) (one : V) (rndRow rndCol : Nat → Nat)
    (numValues : Nat) : Res (List (Nat × Nat × V) × Nat) :=
  removeDuplicates sortf (tab numValues fun i => (rndRow i, rndCol i, one))

/-- State of `MergeDuplicates` in the first loop: `v_rowids`, `v_values`, `diff`. -/
structure MergeSt (V : Type) where
  ids : List (List Nat)
  vals : List (List V)
  diff : List Nat

/-- `while (j < colptr[i + 1] - 1 && rowids[j] == rowids[j + 1]) { … }`, `CSC.h` 389-393. At most `fuel` iterations. The result has the
new `j`. -/
def mergeRun (A : CSC V) (add : V → V → V) (i e : Nat) : Nat → Nat → MergeSt V → Res (Nat × MergeSt V)
  | 0, _, _ => .error .diverge
  | fuel + 1, j, s =>
    if j + 1 < e then do
      let x ← rd A.rowids j
      let y ← rd A.rowids (j + 1)
      if x = y then do
        let l ← rd s.vals i
        let v ← rd A.values (j + 1)
        let old ← rd l (l.length - 1)
        let l ← wr l (l.length - 1) (add old v)
        let vals ← wr s.vals i l
        let d ← rd s.diff i
        let diff ← wr s.diff i (d - 1)
        mergeRun A add i e fuel (j + 1) { s with vals := vals, diff := diff }
      else .ok (j, s)
    else .ok (j, s)

/-- `for (j = colptr[i]; j < colptr[i + 1]; ++j) { … }`, `CSC.h` 386-394. At most `fuel` iterations. -/
def mergeCol (A : CSC V) (add : V → V → V) (i e : Nat) : Nat → Nat → MergeSt V → Res (MergeSt V)
  | 0, _, _ => .error .diverge
  | fuel + 1, j, s =>
    if j < e then do
      let x ← rd A.rowids j
      let ids ← pushAt s.ids i x
      let v ← rd A.values j
      let vals ← pushAt s.vals i v
      let (j, s) ← mergeRun A add i e (e - j + 1) j { s with ids := ids, vals := vals }
      mergeCol A add i e fuel (j + 1) s
    else .ok s

/-- the body of the first parallel loop, `CSC.h` 385-395 -/
def mergeStep (A : CSC V) (add : V → V → V) (s : MergeSt V) (i : Nat) : Res (MergeSt V) := do
  let b ← rd A.colptr i
  let e ← rd A.colptr (i + 1)
  mergeCol A add i e (e - b + 1) b s

/-- the first parallel loop, which runs if there are entries, `CSC.h` 383-396 -/
def mergeAll (A : CSC V) (add : V → V → V) (order : List Nat) (s : MergeSt V) : Res (MergeSt V) :=
  if 0 < A.nnz then order.foldlM (mergeStep A add) s else .ok s

/-- `copy(l.begin(), l.end(), dst + p)` -/
def copyTo {α : Type} (l : List α) (p : Nat) (dst : List α) : Res (List α) :=
  forRange 0 l.length dst (fun t dst => do wr dst (p + t) (← rd l t))

/-- the body of the second parallel loop, `CSC.h` 409-412 -/
def collectStep (s : MergeSt V) (ptr : List Nat) (out : List Nat × List V) (i : Nat) : Res (List Nat × List V) := do
  let l ← rd s.ids i
  let p ← rd ptr i
  let ids ← copyTo l p out.1
  let l ← rd s.vals i
  let vals ← copyTo l p out.2
  .ok (ids, vals)

/-- `CSC::MergeDuplicates`, `CSC.h` 374-413. The iterations of the parallel loops, which touch different columns, run in the orders
`order` and `order2`. The vectors `v_rowids` and `v_values` have no elements (lines 380-381). -/
def mergeDuplicates (dflt : V) (add : V → V → V) (order order2 : List Nat) (A : CSC V) : Res (CSC V) := do
  let diff ← forRange 0 A.cols (List.replicate A.cols 0) (fun i diff => do
    let e ← rd A.colptr (i + 1)
    if i = 0 then wr diff i e
    else do
      let b ← rd A.colptr i
      wr diff i (e - b))
  let s ← mergeAll A add order { ids := [], vals := [], diff := diff }
  let (diff, total) ← Conv.cumulativeSum s.diff A.cols
  let ptr ← wr A.colptr A.cols total
  let ptr ← Conv.copyN diff A.cols ptr
  let nnz ← rd ptr A.cols
  let out ← order2.foldlM (collectStep s ptr) (List.replicate nnz 0, List.replicate nnz dflt)
  .ok { A with nnz := nnz, colptr := ptr, rowids := out.1, values := out.2 }

end Verif.Tuples
