import Verif.Model.Bin
import Verif.Csr

/-!
# The older inner-product kernel

Models `innerSpGEMM_nohash` of `/repo/inner_mult.h`. The team has `n` threads. The arrays come from `my_malloc` and
`std::vector`, which fill them with zeros. One turn of the loop over the rows is one step of a thread: it touches cells of
the thread's own part of the arrays only.
-/

namespace Verif.Model.Dot

variable {V : Type}

/-- `B` as `bin.set_max_bin` sees it (inner_mult.h:77): the column pointers are passed in the place of row pointers. -/
def asRows (B : CSC V) : CSR V :=
  { rows := B.cols, cols := B.rows, nnz := B.nnz, rowptr := B.colptr, colids := B.rowids, values := B.values }

/-- The loop inner_mult.h:118-130 over row `i` of `A` and column `c` of `B`. Every turn moves one of the positions forward, and
a position beyond its array is an error, so `fuel` is enough if it exceeds the sum of the lengths. -/
def merge (mul add : V → V → V) (A : CSR V) (B : CSC V) (i c : Nat) : (fuel : Nat) → Nat → Nat → V → Bool → Res (V × Bool)
  | 0, _, _, _, _ => .error .diverge
  | fuel + 1, p, q, t, active => do
    let ae ← rd A.rowptr (i + 1)
    if p < ae then do
      let be ← rd B.colptr (c + 1)
      if q < be then do
        let a ← rd A.colids p
        let b ← rd B.rowids q
        if a < b then merge mul add A B i c fuel (p + 1) q t active
        else if b < a then merge mul add A B i c fuel p (q + 1) t active
        else do
          let x ← rd A.values p
          let y ← rd B.values q
          merge mul add A B i c fuel (p + 1) (q + 1) (add t (mul x y)) true
      else .ok (t, active)
    else .ok (t, active)

/-- The shared arrays: `C.colids`, `C.values`, `th_nnz` and `rownnz` -/
structure Shared (V : Type) where
  colids : List Nat
  values : List V
  thNnz : List Nat
  rowNnz : List Nat

/-- Body of the loop over the rows, inner_mult.h:102-139, in thread `tid` whose first row is `start`. `zero` is `0` as an `NT`. -/
def rowBody (mul add : V → V → V) (zero : V) (A : CSR V) (B : CSC V) (M : CSR V) (tid start i : Nat) (g : Shared V) :
    Res (Shared V) := do
  let lo ← rd M.rowptr i
  let hi ← rd M.rowptr (i + 1)
  forRange lo hi g fun j g => do
    let c ← rd M.colids j
    let p ← rd A.rowptr i
    let q ← rd B.colptr c
    let (t, active) ← merge mul add A B i c (A.colids.length + B.rowids.length + 1) p q zero false
    if active then do
      let base ← rd M.rowptr start
      let k ← rd g.thNnz tid
      let colids ← wr g.colids (base + k) c
      let values ← wr g.values (base + k) t
      let thNnz ← wr g.thNnz tid (k + 1)
      let r ← rd g.rowNnz i
      let rowNnz ← wr g.rowNnz i (r + 1)
      .ok { colids := colids, values := values, thNnz := thNnz, rowNnz := rowNnz }
    else .ok g

/-- `rowPerThread`, inner_mult.h:88 -/
def chunk (rows n : Nat) : Nat := (rows + n - 1) / n

/-- First rows of the threads, inner_mult.h:97-98. `start_row` is not cut off at the number of rows in the code. If it is
larger the loop has no turns, as here. -/
def starts (rows n : Nat) : List Nat := tab (n + 1) fun t => min (chunk rows n * t) rows

/-- `memcpy(dst + d, src + s, len * sizeof(T))` -/
def memcpy {α : Type} (dst : List α) (d : Nat) (src : List α) (s len : Nat) : Res (List α) :=
  forRange 0 len dst fun k dst => do
    let x ← rd src (s + k)
    wr dst (d + k) x

/-- Schedules of a call -/
structure Sched where
  bin : Bin.Sched
  main : List Nat

/-- The part of `innerSpGEMM_nohash` after the parallel region, inner_mult.h:146-172. `nnz0` is `C_final.nnz` before the call. -/
def shrink (zero : V) (A M : CSR V) (n nnz0 : Nat) (g : Shared V) : Res (CSR V) := do
  let nnz ← forRange 0 M.rows nnz0 fun i nnz => do
    let r ← rd g.rowNnz i
    .ok (nnz + r)
  let k ← rd g.thNnz 0
  let colids ← memcpy (List.replicate nnz 0) 0 g.colids 0 k
  let values ← memcpy (List.replicate nnz zero) 0 g.values 0 k
  let (colids, values, _) ← forRange 1 n (colids, values, 0) fun t (colids, values, dest) => do
    let p ← rd g.thNnz (t - 1)
    let dest := dest + p
    let s ← rd M.rowptr (min (t * chunk M.rows n) A.rows)
    let k ← rd g.thNnz t
    let colids ← memcpy colids dest g.colids s k
    let values ← memcpy values dest g.values s k
    .ok (colids, values, dest)
  let rowptr ← wr (List.replicate (M.rows + 1) 0) 0 0
  let rowptr ← forRange 1 (M.rows + 1) rowptr fun i rowptr => do
    let x ← rd rowptr (i - 1)
    let y ← rd g.rowNnz (i - 1)
    wr rowptr i (x + y)
  .ok { rows := M.rows, cols := M.cols, nnz := nnz, rowptr := rowptr, colids := colids, values := values, zerobased := true }

/-- `innerSpGEMM_nohash`, inner_mult.h:49-183, with `n` threads; `nd` is the default team size, used by the prefix sum in
`set_max_bin`. `nnz0` is `C_final.nnz` before the call. The partition `bin` is computed and not used. `C.rowptr` is written and
not used, and not modelled. `none`: the schedule is too short. -/
def innerNohash (mul add : V → V → V) (zero : V) (A : CSR V) (B : CSC V) (M : CSR V) (n nd nnz0 : Nat) (sch : Sched) :
    Res (Option (CSR V)) := do
  let colids ← (List.range M.nnz).mapM (rd M.colids)
  let r ← Bin.setMaxBin A (asRows B) A.rows M.cols 8 n nd sch.bin
  match r with
  | none => .ok none
  | some _ => do
    let r ← blocks n (starts M.rows n) (fun t lo _ => .ok (t, lo))
      (fun i g (a : Nat × Nat) => do
        let g ← rowBody mul add zero A B M a.1 a.2 i g
        .ok (g, a)) sch.main
      { colids := colids, values := List.replicate M.nnz zero, thNnz := List.replicate n 0,
        rowNnz := List.replicate M.rows 0 }
    match r with
    | none => .ok none
    | some (g, _) => do
      let C ← shrink zero A M n nnz0 g
      .ok (some C)

end Verif.Model.Dot
