import Verif.Model.HashMult
import Verif.Model.Intersect
import Verif.Model.Reorder
import Verif.Model.Spa
import Verif.Model.LpMult
import Verif.Model.Dot
import Verif.Model.Flops
import Verif.Model.SumAll
import Verif.Model.ReadIO
import Verif.Model.Convert

/-!
# Counting triangles in a matrix that is split into blocks

Models `main` of `/repo/sample/blocked_parallel_tc.cpp` (BT) up to line 208, where the totals are printed.

Simplifications. Values are rational numbers without rounding (`double` there), counts have no bound (`long long` and `int64_t` there). The
numbers of blocks are numbers, not text. The five arrays of counts with three indices are one array of records with the index of the
iteration in the collapsed loop. An iteration of that loop is one step: iterations write to different elements and only read the matrices. The
copies of the matrices (BT:121-123) are equal to the originals (`Model.MatObj`) and the calls of `Sorted()` have no effect. The lines that
each thread prints, and the later loops that call the same functions again to measure times and do not use the results, are left out.
-/

namespace Verif.Model.BlockedTc

/-- Run `f` on the result of a part in which the threads had enough turns. -/
def andThen {α β : Type} (x : Res (Option α)) (f : α → Res (Option β)) : Res (Option β) :=
  x >>= fun r => match r with
    | none => .ok none
    | some a => f a

/-- The schedules of the calls of one iteration: `HashSpGEMM`, `sortIds`, `Intersect`, `MaskedSPASpGEMM`, `sumall` (the distribution of
a number of iterations over threads), `innerSpGEMM_nohash`, `mxm_hash_mask` -/
structure Sch where
  prod : HashMult.Sched
  sort : List Nat
  order1 : List Nat
  s1 : List Nat
  s2 : List Nat
  order2 : List Nat
  spa : TwoPassSched
  parts : Nat → List (List Nat)
  dot : Dot.Sched
  hash : TwoPassSched

/-- The counts of one iteration, and their totals: `flps`, `nnzs`, `masked_nnzs`, `masked_inner_nnzs`, `triangles` -/
structure Counts where
  flps : Nat
  nnzs : Nat
  masked : Nat
  inner : Nat
  triangles : ℤ
  deriving DecidableEq

/-- `(int64_t) C_csr.sumall()`, BT:142 -/
def sumInt (C : CSR ℚ) (parts : Nat → List (List Nat)) : Res ℤ := do
  let x ← SumAll.sumallQ C.values (parts C.nnz)
  .ok (SumAll.trunc x)

/-- The body of the loop, BT:113-165: `A` is block `(i, k)`, `B` and `Bc` are block `(k, j)`, `M` is block `(i, j)`. The calls get one thread;
`nd` is the number of threads of parallel loops inside the body. After `make_empty` the number of entries of `C_csr` is 0. -/
def cell (sortf : List (Nat × ℚ) → List (Nat × ℚ)) (nd : Nat) (A B M : CSR ℚ) (Bc : CSC ℚ) (s : Sch) : Res (Option Counts) := do
  let flps ← Flops.csrCsr A B
  andThen (HashMult.hashSpGEMM false sortf (fun x y => x * y) (fun x y => x + y) A B 0 1 nd s.prod) fun C => do
    let C' ← Reorder.sortIds sortf s.sort C
    andThen (Intersect.intersect (fun x y => x + y) M C' 0 nd s.order1 s.s1 s.s2 s.order2) fun Tr =>
      andThen (Spa.spaSpGEMM (fun x y => x * y) (fun x y => x + y) A B M 0 1 nd s.spa) fun S => do
        let tri ← sumInt S s.parts
        andThen (Dot.innerNohash (fun x y => x * y) (fun x y => x + y) 0 A Bc M 1 nd 0 s.dot) fun I =>
          andThen (LpMult.hashMask (fun x y => x * y) (fun x y => x + y) A B M 0 1 nd s.hash) fun _ =>
            .ok (some { flps := flps, nnzs := C.nnz, masked := Tr.nnz, inner := I.nnz, triangles := tri })

/-- `submatricesCSC` and `submatricesCSR` -/
abbrev Blocks := List (List (CSC ℚ × CSR ℚ))

/-- Reading one block, BT:92-97. The order is that of the loop in the constructor of the matrix. -/
def readBlock (sortf : List (Nat × ℚ) → List (Nat × ℚ)) (order : List Nat) (file : Option (List Char)) : Res (CSC ℚ × CSR ℚ) := do
  let Ac ← ReadIO.readASCII sortf order (fun z : Int => (z : ℚ)) file
  let A ← Conv.csrOfCsc 0 Ac
  .ok (Ac, A)

/-- Reading the blocks, BT:65-102. `files i j` is the content of the file `splitmatrix_{i+1}_{j+1}.mtx`, if it can be read. -/
def load (sortf : List (Nat × ℚ) → List (Nat × ℚ)) (gridx gridy : Nat) (orders : Nat → Nat → List Nat) (files : Nat → Nat → Option (List Char)) :
    Res Blocks :=
  (List.range gridx).mapM fun i => (List.range gridy).mapM fun j => readBlock sortf (orders i j) (files i j)

/-- `submatrices[i][j]` -/
def blockAt (bs : Blocks) (i j : Nat) : Res (CSC ℚ × CSR ℚ) := do
  let row ← rd bs i
  rd row j

/-- Iteration `q` of the collapsed loop, BT:106-112: `i`, `j` and `k` are the digits of `q`. -/
def iteration (sortf : List (Nat × ℚ) → List (Nat × ℚ)) (nd gridy : Nat) (bs : Blocks) (sch : Nat → Sch) (q : Nat) : Res (Option Counts) := do
  let a ← blockAt bs (q / (gridy * gridy)) (q % gridy)
  let b ← blockAt bs (q % gridy) (q / gridy % gridy)
  let m ← blockAt bs (q / (gridy * gridy)) (q / gridy % gridy)
  cell sortf nd a.2 b.2 m.2 b.1 (sch q)

/-- The iterations in the order `order`, which store their counts in the array `cs` -/
def fill (f : Nat → Res (Option Counts)) : List Nat → List Counts → Res (Option (List Counts))
  | [], cs => .ok (some cs)
  | q :: order, cs => andThen (f q) fun c => do
      let cs ← wr cs q c
      fill f order cs

/-- The totals, BT:169-193 -/
def totals (cs : List Counts) : Counts :=
  cs.foldl (fun t c => ⟨t.flps + c.flps, t.nnzs + c.nnzs, t.masked + c.masked, t.inner + c.inner, t.triangles + c.triangles⟩) ⟨0, 0, 0, 0, 0⟩

/-- `main`, BT:32-199: the result are the totals that are printed (`nnzs` is printed later, BT:236). `order` is the order of the iterations of
the collapsed loop, `sch q` are the schedules of the calls in iteration `q`. -/
def main (sortf : List (Nat × ℚ) → List (Nat × ℚ)) (nd gridx gridy : Nat) (orders : Nat → Nat → List Nat) (files : Nat → Nat → Option (List Char))
    (order : List Nat) (sch : Nat → Sch) : Res (Option Counts) := do
  check (decide (gridx = gridy))
  let bs ← load sortf gridx gridy orders files
  andThen (fill (iteration sortf nd gridy bs sch) order (List.replicate (gridx * gridy * gridy) ⟨0, 0, 0, 0, 0⟩)) fun cs => .ok (some (totals cs))

end Verif.Model.BlockedTc
