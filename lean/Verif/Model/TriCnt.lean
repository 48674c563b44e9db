import Verif.Kinds
import Verif.Model.Tuples
import Verif.Model.SumAll
import Verif.Model.ReadIO

/-!
# Triangle counting without GraphBLAS

Models `preprocessInput` and the pipeline of `main` and `run` of `/repo/benchmarks/TriCntAll.cpp`. Timing, output and the repetition of the
measurement are left out; the file reader is `Model.ReadIO`.
-/

namespace Verif.Model.TriCnt

open Verif.Spec

variable {V : Type}

/-- The counts of the entries of the rows, TriCntAll.cpp:201-205: pairs of the count and the row. -/
def countRows (A : CSC V) : Res (List (Nat × Nat)) :=
  forRange 0 A.nnz (tab A.rows fun i => (0, i)) fun i c => do
    let r ← rd A.rowids i
    let x ← rd c r
    wr c r (x.1 + 1, x.2)

/-- `triples[idx] = Triple(…); idx++` -/
def push (t : Nat × Nat × V) (s : List (Nat × Nat × V) × Nat) : Res (List (Nat × Nat × V) × Nat) := do
  let a ← wr s.1 s.2 t
  .ok (a, s.2 + 1)

/-- The body of the loops over columns and entries, TriCntAll.cpp:214-222. The state is the array and `idx`. -/
def lowerStep (one : V) (cnts : List (Nat × Nat)) (A : CSC V) (i j : Nat) (s : List (Nat × Nat × V) × Nat) :
    Res (List (Nat × Nat × V) × Nat) := do
  let x ← rd cnts i
  let r ← rd A.rowids j
  let y ← rd cnts r
  if x.2 < y.2 then push (y.2, x.2, one) s
  else if y.2 < x.2 then push (x.2, y.2, one) s
  else .ok s

/-- The loop over the entries of column `i`, TriCntAll.cpp:213-223 -/
def lowerCol (one : V) (cnts : List (Nat × Nat)) (A : CSC V) (i : Nat) (s : List (Nat × Nat × V) × Nat) :
    Res (List (Nat × Nat × V) × Nat) := do
  let b ← rd A.colptr i
  let e ← rd A.colptr (i + 1)
  forRange b e s (lowerStep one cnts A i)

/-- The first `n` elements of an array, all of which are read -/
def prefixOf {α : Type} (a : List α) (n : Nat) : Res (List α) := if n ≤ a.length then .ok (a.take n) else .error .oob

/-- `preprocessInput`, TriCntAll.cpp:199-242. `sortP` is `std::sort` with `std::greater` on pairs, `sortT` is `std::sort` with the
comparison of lines 226-228, `sortf` the one of the constructor. The array holds `Triple()`, that is `(0, 0, dflt)`, at first. -/
def preprocess (sortP : List (Nat × Nat) → List (Nat × Nat)) (sortT : List (Nat × Nat × V) → List (Nat × Nat × V))
    (sortf : List (Nat × V) → List (Nat × V)) (order : List Nat) (dflt one : V) (A : CSC V) : Res (CSC V) := do
  let cnts ← countRows A
  let s ← forRange 0 A.cols (List.replicate A.nnz (0, 0, dflt), 0) (lowerCol one (sortP cnts) A)
  let arr ← Conv.sortRange sortT s.1 0 s.2
  let d ← forRange 1 s.2 (arr, 1) Tuples.keepStep
  let ts ← prefixOf d.1 d.2
  Conv.cscOfTriples sortf order dflt ts A.rows A.cols

variable [Zero V] [One V] [Add V] [Mul V]

/-- `main`, TriCntAll.cpp:279-280, and `run`, benchmarks-util.h:115-125, 143, with the multiplication `f`: the matrix by rows,
`f(A_csr, B, C, A_csr, multiplies, plus, tnum)` where `B` is `A_csr` or, for the inner product, `A_csc`, and the sum of `C` (`C` is a new
object). `f` gets the matrix by rows and by columns. -/
def countWith (sortP : List (Nat × Nat) → List (Nat × Nat)) (sortT : List (Nat × Nat × V) → List (Nat × Nat × V))
    (sortf : List (Nat × V) → List (Nat × V)) (order : List Nat) (f : CSR V → CSC V → Res (Option (CSR V))) (A : CSC V)
    (parts : Nat → List (List Nat)) : Res (Option V) := do
  let A ← preprocess sortP sortT sortf order 0 1 A
  let X ← Conv.csrOfCsc 0 A
  let r ← f X A
  match r with
  | none => .ok none
  | some C => do
    let x ← SumAll.sumall (fun s v => s + v) (fun s t => s + t) (0 : V) id C.values (parts C.nnz)
    .ok (some x)

/-- The program with one of the algorithms of the library. -/
def triCount (sortP : List (Nat × Nat) → List (Nat × Nat)) (sortT : List (Nat × Nat × V) → List (Nat × Nat × V))
    (sortf : List (Nat × V) → List (Nat × V)) (order : List Nat) (a : Algo) (two : Bool) (A : CSC V) (nt dflt : Nat)
    (parts : Nat → List (List Nat)) (sch : Scheds) : Res (Option V) :=
  countWith sortP sortT sortf order (fun X A => a.call two (fun x y => x * y) (fun x y => x + y) X X A X true nt dflt sch) A parts

/-- The whole program, TriCntAll.cpp:262-375: reads the file and counts. `ofInt` converts integers to the type of values, `order'` is the
order of the iterations in the constructor of the matrix that is read. -/
def program (ofInt : Int → V) (order' : List Nat) (sortP : List (Nat × Nat) → List (Nat × Nat))
    (sortT : List (Nat × Nat × V) → List (Nat × Nat × V)) (sortf : List (Nat × V) → List (Nat × V)) (order : List Nat) (a : Algo) (two : Bool)
    (file : Option (List Char)) (nt dflt : Nat) (parts : Nat → List (List Nat)) (sch : Scheds) : Res (Option V) := do
  let A ← ReadIO.readASCII sortf order' ofInt file
  triCount sortP sortT sortf order a two A nt dflt parts sch

end Verif.Model.TriCnt
