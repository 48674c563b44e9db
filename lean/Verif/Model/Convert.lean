import Verif.Csr

/-!
# Conversions and constructors that place entries by counting

`CSR.h` 165-241 (`CSR(CSC)`, `CSR(CSC, transpose)`), `CSC.h` 236-277 (`CSC(triples)`),
279-320 (`CSC(edges)`), 415-470 (`CSC(tuples, addop)`), 472-512 (`CSC(ri, ci, val)`),
`utility.h` 58-67 (`CumulativeSum`).

`my_malloc<T>(n)` fills the array with `T()`; `dflt` stands for `NT()`.
-/

namespace Verif.Conv

variable {V : Type}

/-- Models `utility.h` 58-67, `CumulativeSum`: in-place exclusive prefix sum; returns the total. -/
def cumulativeSum (arr : List Nat) (size : Nat) : Res (List Nat × Nat) :=
  forRange 0 size (arr, 0) (fun i (arr, tempnz) => do
    let prev ← rd arr i
    let arr ← wr arr i tempnz
    .ok (arr, tempnz + prev))

/-- The counting loop `for k < nnz: work[key(k)]++` (`CSR.h` 174-177, `CSC.h` 249-252,
291-295, 434-437, 487-490). -/
def countKeys (key : Nat → Res Nat) (nnz : Nat) (work : List Nat) : Res (List Nat) :=
  forRange 0 nnz work (fun k work => do
    let tmp ← key k
    let c ← rd work tmp
    wr work tmp (c + 1))

/-- `std::copy(src, src + n, dst)`. -/
def copyN {α : Type} (src : List α) (n : Nat) (dst : List α) : Res (List α) :=
  forRange 0 n dst (fun i dst => do wr dst i (← rd src i))

/-- Models `CSR.h` 165-195, `CSR(const CSC &)` (and the branch without transposition of
the constructor at 197-226, which has the same text). -/
def csrOfCsc (dflt : V) (csc : CSC V) : Res (CSR V) := do
  let rowptr := List.replicate (csc.rows + 1) 0
  let colids := List.replicate csc.nnz 0
  let values := List.replicate csc.nnz dflt
  let work ← countKeys (fun k => rd csc.rowids k) csc.nnz (List.replicate csc.rows 0)
  if csc.nnz > 0 then
    let (work, total) ← cumulativeSum work csc.rows
    let rowptr ← wr rowptr csc.rows total
    let rowptr ← copyN work csc.rows rowptr
    let (_, colids, values) ← forRange 0 csc.cols (work, colids, values) (fun i s => do
      let b ← rd csc.colptr i
      let e ← rd csc.colptr (i + 1)
      forRange b e s (fun j (work, colids, values) => do
        let r ← rd csc.rowids j
        let last ← rd work r
        let work ← wr work r (last + 1)
        let colids ← wr colids last i
        let v ← rd csc.values j
        let values ← wr values last v
        .ok (work, colids, values)))
    .ok { rows := csc.rows, cols := csc.cols, nnz := csc.nnz, rowptr := rowptr, colids := colids,
          values := values, zerobased := true }
  else
    .ok { rows := csc.rows, cols := csc.cols, nnz := csc.nnz, rowptr := rowptr, colids := colids,
          values := values, zerobased := true }

/-- Models `CSR.h` 197-241, `CSR(const CSC &, bool transpose)`. -/
def csrOfCscT (dflt : V) (csc : CSC V) (transpose : Bool) : Res (CSR V) :=
  if !transpose then csrOfCsc dflt csc
  else do
    let rows := csc.cols
    let cols := csc.rows
    let rowptr ← copyN csc.colptr (rows + 1) (List.replicate (rows + 1) 0)
    let (values, colids) ← forRange 0 csc.nnz
      (List.replicate csc.nnz dflt, List.replicate csc.nnz 0) (fun k (values, colids) => do
        let values ← wr values k (← rd csc.values k)
        let colids ← wr colids k (← rd csc.rowids k)
        .ok (values, colids))
    .ok { rows := rows, cols := cols, nnz := csc.nnz, rowptr := rowptr, colids := colids,
          values := values, zerobased := true }

/-- `std::sort(first + lo, first + hi)` with a sorting function `sortf` of lists: the range is
replaced by its sorted rearrangement. -/
def sortRange {α : Type} (sortf : List α → List α) (a : List α) (lo hi : Nat) : Res (List α) :=
  if lo ≤ hi ∧ hi ≤ a.length then .ok (a.take lo ++ sortf (slice a lo hi) ++ a.drop hi)
  else .error .oob

/-- Models `CSC.h` 236-277, `CSC(Triple *, nnz, m, n)`, with triples (row, column, value). The
constructors at 415-470 (from tuples; its `addop` is never used) and 472-512 (from parallel
arrays; with an assert, see `cscOfArrays`) have the same text. `std::sort` is a
parameter `sortf`. The loop over the columns is an OpenMP parallel loop whose
iterations touch disjoint ranges; its iterations run in the order `order`. -/
def cscOfTriples (sortf : List (Nat × V) → List (Nat × V)) (order : List Nat) (dflt : V)
    (triples : List (Nat × Nat × V)) (m n : Nat) : Res (CSC V) := do
  let nnz := triples.length
  let colptr := List.replicate (n + 1) 0
  let rowids := List.replicate nnz 0
  let values := List.replicate nnz dflt
  let tosort := List.replicate nnz (0, dflt)
  let work ← countKeys (fun k => do let t ← rd triples k; .ok t.2.1) nnz (List.replicate n 0)
  if nnz > 0 then
    let (work, total) ← cumulativeSum work n
    let colptr ← wr colptr n total
    let colptr ← copyN work n colptr
    let (_, tosort) ← forRange 0 nnz (work, tosort) (fun k (work, tosort) => do
      let t ← rd triples k
      let last ← rd work t.2.1
      let work ← wr work t.2.1 (last + 1)
      let tosort ← wr tosort last (t.1, t.2.2)
      .ok (work, tosort))
    let (_, rowids, values) ← order.foldlM (fun (tosort, rowids, values) i => do
      let b ← rd colptr i
      let e ← rd colptr (i + 1)
      let tosort ← sortRange sortf tosort b e
      let (rowids, values) ← forRange b e (rowids, values) (fun ind (rowids, values) => do
        let p ← rd tosort ind
        let rowids ← wr rowids ind p.1
        let values ← wr values ind p.2
        .ok (rowids, values))
      .ok (tosort, rowids, values)) (tosort, rowids, values)
    .ok { rows := m, cols := n, nnz := nnz, colptr := colptr, rowids := rowids, values := values }
  else
    .ok { rows := m, cols := n, nnz := nnz, colptr := colptr, rowids := rowids, values := values }

/-- Models `CSC.h` 472-512, `CSC(ri, ci, val, nnz, m, n)`: the assert, then as above. -/
def cscOfArrays (sortf : List (Nat × V) → List (Nat × V)) (order : List Nat) (dflt : V)
    (triples : List (Nat × Nat × V)) (m n : Nat) : Res (CSC V) := do
  check (decide (triples.length ≠ 0 ∧ m ≠ 0))
  cscOfTriples sortf order dflt triples m n

/-- Models `CSC.h` 279-320, `CSC(edges, nnz, m, n)`, with edges (row, column); all values are
`one`. -/
def cscOfEdges (sortf : List Nat → List Nat) (order order2 : List Nat) (dflt one : V)
    (edges : List (Nat × Nat)) (m n : Nat) : Res (CSC V) := do
  let nnz := edges.length
  let colptr := List.replicate (n + 1) 0
  let rowids := List.replicate nnz 0
  let values := List.replicate nnz dflt
  let work ← countKeys (fun k => do let t ← rd edges k; .ok t.2) nnz (List.replicate n 0)
  if nnz > 0 then
    let (work, total) ← cumulativeSum work n
    let colptr ← wr colptr n total
    let colptr ← copyN work n colptr
    let (_, rowids) ← forRange 0 nnz (work, rowids) (fun k (work, rowids) => do
      let t ← rd edges k
      let last ← rd work t.2
      let work ← wr work t.2 (last + 1)
      let rowids ← wr rowids last t.1
      .ok (work, rowids))
    let rowids ← order.foldlM (fun rowids i => do
      let b ← rd colptr i
      let e ← rd colptr (i + 1)
      sortRange sortf rowids b e) rowids
    let values ← order2.foldlM (fun values k => wr values k one) values
    .ok { rows := m, cols := n, nnz := nnz, colptr := colptr, rowids := rowids, values := values }
  else
    .ok { rows := m, cols := n, nnz := nnz, colptr := colptr, rowids := rowids, values := values }

/-! ## Index base: `CSR.h` 69-88 -/

/-- `std::transform(a, a + n, a, x + 1)`. -/
def incr (a : List Nat) (n : Nat) : Res (List Nat) :=
  forRange 0 n a (fun i a => do
    let x ← rd a i
    wr a i (x + 1))

/-- `std::transform(a, a + n, a, x - 1)`; the model counts an entry 0 as an error (for an
unsigned index type it would wrap, for a signed one it would be negative). -/
def decr (a : List Nat) (n : Nat) : Res (List Nat) :=
  forRange 0 n a (fun i a => do
    let x ← rd a i
    if x = 0 then .error .oob else wr a i (x - 1))

/-- Models `CSR.h` 69-78, `ConvertOneBased`; the result is the matrix and the returned flag. -/
def convertOneBased (A : CSR V) : Res (CSR V × Bool) :=
  if !A.zerobased then .ok (A, false)
  else do
    let rowptr ← incr A.rowptr (A.rows + 1)
    let colids ← incr A.colids A.nnz
    .ok ({ A with rowptr := rowptr, colids := colids, zerobased := false }, true)

/-- Models `CSR.h` 79-88, `ConvertZeroBased`. -/
def convertZeroBased (A : CSR V) : Res (CSR V × Bool) :=
  if A.zerobased then .ok (A, true)
  else do
    let rowptr ← decr A.rowptr (A.rows + 1)
    let colids ← decr A.colids A.nnz
    .ok ({ A with rowptr := rowptr, colids := colids, zerobased := true }, false)

end Verif.Conv
