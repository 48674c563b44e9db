import Verif.Model.BitMap
import Verif.Csr

/-!
# Extracting a submatrix

Models `CSC::SpRef` (`CSC.h` 723-782), `SpRef1` (792-836), `SpRef2` (655-713) and `intersect` (583-610). `abort()` counts
as a failing assertion. In `SpRef2` the array `values_out` is declared as an array of indices (line 677),
so the function compiles only if index and value type are the same; the model keeps the types apart. Fresh arrays are filled by
`my_malloc`; `dflt` is the value it fills in.
-/

namespace Verif.SubRef

variable {V σ : Type}

/-- The bound checks, `CSC.h` 725-732, 794-801 and 658-665. Only the last elements are tested, and the bounds themselves
pass. -/
def checkRef (A : CSC V) (ri ci : List Nat) : Res Unit := do
  check (match ci.getLast? with | some c => decide (c ≤ A.cols) | none => true)
  check (match ri.getLast? with | some r => decide (r ≤ A.rows) | none => true)

/-- The loop that looks for equal elements of the column `rowids[j..e)` and of `ri`: `CSC.h` 739-753, 764-777, 593-605.
`hit` is the branch of equal elements without the increments; `nextJ` says whether it increments `j` as well. At most `fuel`
iterations. -/
def matchLoop (rowids ri : List Nat) (e : Nat) (nextJ : Bool) (hit : Nat → σ → Res σ) :
    Nat → Nat → Nat → σ → Res σ
  | 0, _, _, _ => .error .diverge
  | fuel + 1, j, k, s =>
    if j < e ∧ k < ri.length then do
      let r ← rd ri k
      let x ← rd rowids j
      if r < x then matchLoop rowids ri e nextJ hit fuel j (k + 1) s
      else if x < r then matchLoop rowids ri e nextJ hit fuel (j + 1) k s
      else do
        let s ← hit j s
        matchLoop rowids ri e nextJ hit fuel (if nextJ then j + 1 else j) (k + 1) s
    else .ok s

/-- `values_out[idx] = values[j]; rowids_out[idx++] = rowids[j];`, `CSC.h` 771-772, 828-829, 600-601. The state is
`rowids_out`, `values_out` and `idx`. -/
def emit (A : CSC V) (j : Nat) (s : List Nat × List V × Nat) : Res (List Nat × List V × Nat) := do
  let v ← rd A.values j
  let vals ← wr s.2.1 s.2.2 v
  let x ← rd A.rowids j
  let ids ← wr s.1 s.2.2 x
  .ok (ids, vals, s.2.2 + 1)

/-- the fill loop over the columns, `CSC.h` 761-779, 824-833 -/
def fillStep (A : CSC V) (ci : List Nat)
    (fillCol : Nat → Nat → List Nat × List V × Nat → Res (List Nat × List V × Nat)) (i : Nat)
    (s : List Nat × List Nat × List V × Nat) : Res (List Nat × List Nat × List V × Nat) := do
  let c ← rd ci i
  let b ← rd A.colptr c
  let e ← rd A.colptr (c + 1)
  let t ← fillCol b e s.2
  let ptr ← wr s.1 (i + 1) t.2.2
  .ok (ptr, t)

/-- The common text of `SpRef` and `SpRef1`: count the entries (`CSC.h` 734-754, 809-817), construct the result with its assertion
(758, 821), fill it (759-781, 822-835). -/
def refBody (dflt : V) (A : CSC V) (ri ci : List Nat) (countCol : Nat → Nat → Nat → Res Nat)
    (fillCol : Nat → Nat → List Nat × List V × Nat → Res (List Nat × List V × Nat)) : Res (CSC V) := do
  let refnnz ← ci.foldlM (fun n c => do
    let b ← rd A.colptr c
    let e ← rd A.colptr (c + 1)
    countCol b e n) 0
  check (decide (refnnz ≠ 0 ∧ ci.length ≠ 0))
  let ptr ← wr (List.replicate (ci.length + 1) 0) 0 0
  let s ← forRange 0 ci.length (ptr, List.replicate refnnz 0, List.replicate refnnz dflt, 0) (fillStep A ci fillCol)
  .ok { rows := ri.length, cols := ci.length, nnz := refnnz, colptr := s.1, rowids := s.2.1, values := s.2.2.1 }

/-- `CSC::SpRef`, `CSC.h` 723-782. -/
def spRef (dflt : V) (A : CSC V) (ri ci : List Nat) : Res (CSC V) := do
  checkRef A ri ci
  refBody dflt A ri ci
    (fun b e n => matchLoop A.rowids ri e false (fun _ n => .ok (n + 1)) (e - b + ri.length + 1) b 0 n)
    (fun b e s => matchLoop A.rowids ri e false (emit A) (e - b + ri.length + 1) b 0 s)

/-- the test `bmap.get_bit(rowids[j])`, `CSC.h` 814, 827 -/
def member (A : CSC V) (w : BitMap.Words) (j : Nat) : Res Bool := do
  let x ← rd A.rowids j
  BitMap.getBit w x

/-- `CSC::SpRef1`, `CSC.h` 792-836. The bit map has room for `ri.size()` positions (line 803). -/
def spRef1 (dflt : V) (A : CSC V) (ri ci : List Nat) : Res (CSC V) := do
  checkRef A ri ci
  let w ← ri.foldlM BitMap.setBit (BitMap.reset (BitMap.make ri.length))
  refBody dflt A ri ci
    (fun b e n => forRange b e n (fun j n => do
      let m ← member A w j
      .ok (if m then n + 1 else n)))
    (fun b e s => forRange b e s (fun j s => do
      let m ← member A w j
      if m then emit A j s else .ok s))

/-- the step of the loop over the columns, `CSC.h` 681-687 with `intersect`: the entries found are written at the position that the column
has in `A`. The state is `rowids_out`, `values_out` and `len_out`. -/
def findStep (A : CSC V) (ri ci : List Nat) (i : Nat) (s : List Nat × List V × List Nat) :
    Res (List Nat × List V × List Nat) := do
  let c ← rd ci i
  let b ← rd A.colptr c
  let e ← rd A.colptr (c + 1)
  let t ← matchLoop A.rowids ri e true (emit A) (e - b + ri.length + 1) b 0 (s.1, s.2.1, b)
  let len ← wr s.2.2 i (t.2.2 - b)
  .ok (t.1, t.2.1, len)

/-- `copy(&out[b], &out[b + len], dst + p)` for the two arrays, `CSC.h` 709-710 -/
def copyOut (out : List Nat × List V × List Nat) (b len p : Nat) (s : List Nat × List V) : Res (List Nat × List V) :=
  forRange 0 len s (fun t s => do
    let x ← rd out.1 (b + t)
    let ids ← wr s.1 (p + t) x
    let v ← rd out.2.1 (b + t)
    let vals ← wr s.2 (p + t) v
    .ok (ids, vals))

/-- `CSC::SpRef2`, `CSC.h` 655-713. -/
def spRef2 (dflt : V) (A : CSC V) (ri ci : List Nat) : Res (CSC V) := do
  checkRef A ri ci
  let nnzci ← ci.foldlM (fun n c => do
    let e ← rd A.colptr (c + 1)
    let b ← rd A.colptr c
    .ok (n + e - b)) 0
  let out ← forRange 0 ci.length (List.replicate nnzci 0, List.replicate nnzci dflt, List.replicate ci.length 0)
    (findStep A ri ci)
  let ptr ← wr (List.replicate (ci.length + 1) 0) 0 0
  let ptr ← forRange 0 ci.length ptr (fun i ptr => do
    let p ← rd ptr i
    let l ← rd out.2.2 i
    wr ptr (i + 1) (p + l))
  let nnz ← rd ptr ci.length
  let s ← forRange 0 ci.length (List.replicate nnz 0, List.replicate nnz dflt) (fun i s => do
    let c ← rd ci i
    let b ← rd A.colptr c
    let l ← rd out.2.2 i
    let p ← rd ptr i
    copyOut out b l p s)
  .ok { rows := ri.length, cols := ci.length, nnz := nnz, colptr := ptr, rowids := s.1, values := s.2 }

end Verif.SubRef
