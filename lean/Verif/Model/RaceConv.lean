import Verif.Model.RaceOuter
import Verif.Model.Convert
import Verif.Model.Reorder
import Verif.Model.Intersect
import Verif.Model.Transpose

/-!
# Memory accesses of the sorting, conversion, intersection and transposition loops

The parallel loops of `CSR::sortIds` (`/repo/CSR.h` 665-685), `Intersect` (CSR.h 690-742), the constructors `CSC(triples)`,
`CSC(tuples, addop)`, `CSC(ri, ci, val)` and `CSC(edges)` (`/repo/CSC.h` 236-320, 415-512) and `csr2csc_atomic_nosort`
(`/repo/util/transpose.h`, called TR) as programs of loads and stores, see `Verif.Model.RaceOuter`. Not listed: reads of arrays that
the loop does not write, the atomic `fetch_add` of TR:31, and private data. `std::sort` of a range may write all its cells.
-/

namespace Verif.Model.RaceConv
open RaceOld (Arr Access Racy done)
open RaceOuter (Prog priv loop loopTrace)

variable {V σ ι : Type}

/-- What a loop computes whose iterations run in the order `order`. -/
def loopRun (prog : ι → Prog σ Unit) (order : List ι) (g : σ) : Res σ :=
  order.foldlM (fun g i => do
    let r ← (prog i).exec g
    .ok r.1) g

/-! ## An array of numbers and an array of values -/

/-- `x = numbers[i]` -/
def getN (i : Nat) : Prog (List Nat × List V) Nat := .op [⟨.numbers, i, false⟩] (fun s => do
  let x ← rd s.1 i
  .ok (s, x)) .ret

/-- `v = values[i]` -/
def getV (i : Nat) : Prog (List Nat × List V) V := .op [⟨.values, i, false⟩] (fun s => do
  let x ← rd s.2 i
  .ok (s, x)) .ret

/-- `numbers[i] = x` -/
def putN (i x : Nat) : Prog (List Nat × List V) Unit := .op [⟨.numbers, i, true⟩] (fun s => do
  let xs ← wr s.1 i x
  .ok ((xs, s.2), ())) .ret

/-- `values[i] = v` -/
def putV (i : Nat) (v : V) : Prog (List Nat × List V) Unit := .op [⟨.values, i, true⟩] (fun s => do
  let xs ← wr s.2 i v
  .ok ((s.1, xs), ())) .ret

/-! ## `CSR::sortIds` -/

/-- `Reorder.collect`, CSR.h:672-676 -/
def collectProg : (len : Nat) → Nat → List (Nat × V) → Prog (List Nat × List V) (List (Nat × V))
  | 0, _, acc => return acc
  | len + 1, j, acc => do
    let c ← getN j
    let v ← getV j
    collectProg len (j + 1) (acc ++ [(c, v)])

/-- `Reorder.putBack`, CSR.h:678-684 -/
def putBackProg (tosort : List (Nat × V)) : (len : Nat) → Nat → Nat → Prog (List Nat × List V) Unit
  | 0, _, _ => return ()
  | len + 1, j, it => do
    let x ← priv (rd tosort it)
    putN j x.1
    putV j x.2
    putBackProg tosort len (j + 1) (it + 1)

/-- `Reorder.sortRow`, CSR.h:668-684 -/
def sortProg (sortf : List (Nat × V) → List (Nat × V)) (ptr : List Nat) (i : Nat) : Prog (List Nat × List V) Unit := do
  let b ← priv (rd ptr i)
  let e ← priv (rd ptr (i + 1))
  let tosort ← collectProg (e - b) b []
  putBackProg (sortf tosort) (e - b) b 0

/-! ## `Intersect` -/

/-- Body of the first loop, CSR.h:707-727. The cells of the vectors of vectors `vec_colids` and `vec_values` count as the array of
values, the cells of `row_nz` as the one of numbers. -/
def mergeProg (add : V → V → V) (A B : CSR V) (i : Nat) : Prog (List Nat × List (List (Nat × V))) Unit := do
  let xs ← priv (Intersect.mergeRow add A B i)
  putV i xs
  putN i xs.length

/-- Body of the second loop, CSR.h:735-740 -/
def copyProg (vecs : List (List (Nat × V))) (rowptr : List Nat) (i : Nat) : Prog (List Nat × List V) Unit := do
  let xs ← priv (rd vecs i)
  let off ← priv (rd rowptr i)
  loop 0 xs.length fun k => do
    let x ← priv (rd xs k)
    putN (off + k) x.1
    putV (off + k) x.2

/-- The two loops of `Intersect` (compare `Intersect.intersect`), CSR.h:690-742; `w1`, `w2` say which thread runs an iteration. -/
def intersectTraces (add : V → V → V) (A B : CSR V) (dflt : V) (n : Nat) (w1 w2 : Nat → Nat) (order1 s1 s2 order2 : List Nat) :
    List (List (Nat × Access)) :=
  if A.rows ≠ B.rows ∨ A.cols ≠ B.cols then []
  else
    loopTrace w1 (mergeProg add A B) order1 (List.replicate A.rows 0, List.replicate A.rows []) ::
    match loopRun (mergeProg add A B) order1 (List.replicate A.rows 0, List.replicate A.rows []) with
    | .error _ => []
    | .ok (rowNz, vecs) =>
      match done (UtilScan.scan rowNz (A.rows + 1) (List.replicate (A.rows + 1) 0) n s1 s2) with
      | none => []
      | some rowptr =>
        match rd rowptr A.rows with
        | .error _ => []
        | .ok nnz => [loopTrace w2 (copyProg vecs rowptr) order2 (List.replicate nnz 0, List.replicate nnz dflt)]

/-! ## The constructors of `CSC` -/

/-- `std::sort(tosort + b, tosort + e)`, CSC.h:267, 455, 503 -/
def sortT (sortf : List (Nat × V) → List (Nat × V)) (b e : Nat) : Prog (List (Nat × V) × List Nat × List V) Unit :=
  .op ((List.range' b (e - b)).map fun k => ⟨.block 0, k, true⟩) (fun s => do
    let t ← Conv.sortRange sortf s.1 b e
    .ok ((t, s.2), ())) .ret

/-- `x = tosort[i]` -/
def getT (i : Nat) : Prog (List (Nat × V) × List Nat × List V) (Nat × V) := .op [⟨.block 0, i, false⟩] (fun s => do
  let x ← rd s.1 i
  .ok (s, x)) .ret

/-- `rowids[i] = x` -/
def putR (i x : Nat) : Prog (List (Nat × V) × List Nat × List V) Unit := .op [⟨.numbers, i, true⟩] (fun s => do
  let xs ← wr s.2.1 i x
  .ok ((s.1, xs, s.2.2), ())) .ret

/-- `values[i] = v` -/
def putW (i : Nat) (v : V) : Prog (List (Nat × V) × List Nat × List V) Unit := .op [⟨.values, i, true⟩] (fun s => do
  let xs ← wr s.2.2 i v
  .ok ((s.1, s.2.1, xs), ())) .ret

/-- Body of the loop over the columns, CSC.h:262-275, 450-463, 498-511 -/
def colProg (sortf : List (Nat × V) → List (Nat × V)) (colptr : List Nat) (i : Nat) :
    Prog (List (Nat × V) × List Nat × List V) Unit := do
  let b ← priv (rd colptr i)
  let e ← priv (rd colptr (i + 1))
  sortT sortf b e
  loop b (e - b) fun ind => do
    let p ← getT ind
    putR ind p.1
    putW ind p.2

/-- What precedes that loop for a nonempty list (compare `Conv.cscOfTriples`), CSC.h:246-261: `colptr` and `tosort` -/
def triplesSetup (dflt : V) (triples : List (Nat × Nat × V)) (n : Nat) : Res (List Nat × List (Nat × V)) := do
  let work ← Conv.countKeys (fun k => do let t ← rd triples k; .ok t.2.1) triples.length (List.replicate n 0)
  let (work, total) ← Conv.cumulativeSum work n
  let colptr ← wr (List.replicate (n + 1) 0) n total
  let colptr ← Conv.copyN work n colptr
  let (_, tosort) ← forRange 0 triples.length (work, List.replicate triples.length (0, dflt)) (fun k (work, tosort) => do
    let t ← rd triples k
    let last ← rd work t.2.1
    let work ← wr work t.2.1 (last + 1)
    let tosort ← wr tosort last (t.1, t.2.2)
    .ok (work, tosort))
  .ok (colptr, tosort)

/-- The parallel loop of `CSC(triples)`, CSC.h:236-277 -/
def triplesTraces (sortf : List (Nat × V) → List (Nat × V)) (who : Nat → Nat) (order : List Nat) (dflt : V)
    (triples : List (Nat × Nat × V)) (n : Nat) : List (List (Nat × Access)) :=
  match triplesSetup dflt triples n with
  | .error _ => []
  | .ok (colptr, tosort) => [loopTrace who (colProg sortf colptr) order
      (tosort, List.replicate triples.length 0, List.replicate triples.length dflt)]

/-- Body of the first loop of `CSC(edges)`, CSC.h:307-310 -/
def edgeProg (sortf : List Nat → List Nat) (colptr : List Nat) (i : Nat) : Prog (List Nat) Unit := do
  let b ← priv (rd colptr i)
  let e ← priv (rd colptr (i + 1))
  .op ((List.range' b (e - b)).map fun k => ⟨.numbers, k, true⟩) (fun s => do
    let t ← Conv.sortRange sortf s b e
    .ok (t, ())) .ret

/-- Body of the second one, CSC.h:313-316 -/
def oneProg (one : V) (k : Nat) : Prog (List V) Unit := .op [⟨.values, k, true⟩] (fun s => do
  let xs ← wr s k one
  .ok (xs, ())) .ret

/-- What precedes the loops (compare `Conv.cscOfEdges`), CSC.h:289-306: `colptr` and `rowids` -/
def edgesSetup (edges : List (Nat × Nat)) (n : Nat) : Res (List Nat × List Nat) := do
  let work ← Conv.countKeys (fun k => do let t ← rd edges k; .ok t.2) edges.length (List.replicate n 0)
  let (work, total) ← Conv.cumulativeSum work n
  let colptr ← wr (List.replicate (n + 1) 0) n total
  let colptr ← Conv.copyN work n colptr
  let (_, rowids) ← forRange 0 edges.length (work, List.replicate edges.length 0) (fun k (work, rowids) => do
    let t ← rd edges k
    let last ← rd work t.2
    let work ← wr work t.2 (last + 1)
    let rowids ← wr rowids last t.1
    .ok (work, rowids))
  .ok (colptr, rowids)

/-- The parallel loops of `CSC(edges)`, CSC.h:279-320 -/
def edgesTraces (sortf : List Nat → List Nat) (w1 w2 : Nat → Nat) (order order2 : List Nat) (dflt one : V)
    (edges : List (Nat × Nat)) (n : Nat) : List (List (Nat × Access)) :=
  match edgesSetup edges n with
  | .error _ => []
  | .ok (colptr, rowids) => loopTrace w1 (edgeProg sortf colptr) order rowids ::
    match loopRun (edgeProg sortf colptr) order rowids with
    | .error _ => []
    | .ok _ => [loopTrace w2 (oneProg one) order2 (List.replicate edges.length dflt)]

/-! ## Transposition -/

/-- Body of the first loop, TR:31: an atomic addition, then a store. -/
def countProg (A : CSR V) (p : Nat × Nat) : Prog (List Nat × List Nat) Unit := do
  let c ← priv (rd A.colids p.2)
  let x ← .op [] (fun s => do
    let x ← rd s.1 c
    let counter ← wr s.1 c (x + 1)
    .ok ((counter, s.2), x)) .ret
  putV p.2 x

/-- Body of the last loop, TR:46-48 -/
def placeProg (A : CSR V) (colptr dloc : List Nat) (p : Nat × Nat) : Prog (List Nat × List V) Unit := do
  let c ← priv (rd A.colids p.2)
  let b ← priv (rd colptr c)
  let d ← priv (rd dloc p.2)
  putN (b + d) p.1
  let v ← priv (rd A.values p.2)
  putV (b + d) v

/-- The loop between them, TR:34-38 -/
def pointers (A : CSR V) (counter colptr : List Nat) : Res (List Nat) := do
  let colptr ← wr colptr 0 0
  forRange 0 (A.cols + 1) colptr fun i colptr => do
    let x ← rd counter i
    let y ← rd colptr i
    wr colptr (i + 1) (x + y)

/-- The parallel loops of `csr2csc_atomic_nosort` (compare `Transpose.csr2csc`), TR:12-52. A thread runs whole rows. -/
def transposeTraces (A : CSR V) (past : List Nat) (colptr rowidx : List Nat) (val : List V) (w1 w2 : Nat → Nat)
    (order1 order2 : List (Nat × Nat)) : List (List (Nat × Access)) :=
  loopTrace (fun p => w1 p.1) (countProg A) order1 (List.replicate A.cols 0 ++ past, List.replicate A.nnz 0) ::
  match loopRun (countProg A) order1 (List.replicate A.cols 0 ++ past, List.replicate A.nnz 0) with
  | .error _ => []
  | .ok (counter, dloc) =>
    match pointers A counter colptr with
    | .error _ => []
    | .ok colptr => [loopTrace (fun p => w2 p.1) (placeProg A colptr dloc) order2 (rowidx, val)]

end Verif.Model.RaceConv
