import Verif.Model.OuterMain
import Verif.Model.Tuples

/-!
# The sample program that multiplies two halves at the same time

Models `main` of `/repo/sample/NUMA-aware.cpp` (called NA below).

Simplifications. Times, rates, the compression ratio and the texts with the usage are left out, also the sum of the times, which starts from a variable that is
not set (NA:87, 159). The calls of `Sorted()`, which only print a line, and the release of memory are left out; the objects of the results are empty before
each call. Numbers of type `long long` are printed with the format for `int`; the model prints the number. The two sections run one after the other: they share
only the matrix `B_csr`, which they read, and the static variables of `outer_mult.h`, to which both write the same values (without synchronisation, which is a
data race). The number of threads of the fifth argument is not used (NA:66); how many threads a section gets is up to the runtime system. The arguments are
`argv[1]`, `argv[2]`, …
-/

namespace Verif.Model.NumaMain

open Bench (Out)
open SampleMain (andThen say lastOf)

variable {V F : Type}

/-- What is printed: the numbers of entries of the two halves, NA:85-86; the number of operations; the numbers of products and entries of the result together
with the number of threads, NA:167-172 -/
inductive Event where
  | part (nnz : Nat)
  | flop (n : Nat)
  | result (products nnz threads : Nat)

/-- What is not determined by the program in one section: the number of threads, the schedule, and what the fresh array of row pointers holds -/
structure Section where
  threads : Nat
  sch : Outer.Sched
  mem : List Nat

/-- The input of the calls: the halves as triples and by columns, the matrices that are used to count the operations -/
structure Halves (V : Type) where
  up : List (Nat × Nat × V)
  low : List (Nat × Nat × V)
  left : CSC V
  right : CSC V
  A : CSC V
  B : CSR V

/-- The first part, NA:70-84: the input, both matrices by rows, shuffling with the random numbers `rA` and `rB` (not of the first matrix by rows), the halves. The
constructors for the halves have parallel loops, run in the orders `oL` and `oR`. -/
def setup (env : Sample.Env V F) (args : List (List Char)) (oA oB oL oR : List Nat) (rA rB : Nat → Nat) : Res (Option (Halves V)) := do
  let x ← Sample.setInput env args oA oB
  let B ← Conv.csrOfCsc (env.ofInt 0) x.2
  let A' ← Conv.csrOfCsc (env.ofInt 0) x.1
  let A ← Reorder.shuffleIdsC true rA x.1
  let B ← Reorder.shuffleIds true rB B
  let S ← Tuples.splitCsr A' 2
  let up ← rd S 0
  let low ← rd S 1
  let left ← Conv.cscOfTriples env.sortf oL (env.ofInt 0) up (A'.rows / 2) A'.cols
  let right ← Conv.cscOfTriples env.sortf oR (env.ofInt 0) low (A'.rows / 2) A'.cols
  .ok (some { up := up, low := low, left := left, right := right, A := A, B := B })

/-- `get_flop(A_csc, B_csr)`, NA:89, as in `OuterMain.setup` -/
def flops (x : Halves V) (oF : List Nat) : Res (Option Nat) := do
  let flop ← Flops.cscCsr (2 ^ 31) x.A x.B oF
  .ok (some flop)

/-- Both sections, NA:105-119 and 141-155 -/
def sections {α : Type} (l r : Res (Option α)) : Res (Option (α × α)) := do
  match ← l with
  | none => .ok none
  | some a => do
    match ← r with
    | none => .ok none
    | some b => .ok (some (a, b))

/-- `main`, NA:49-224. `sch i`: the sections of call `i`. `tmax`: what `omp_get_max_threads` returns. `sortf`: the radix sort, see `C91`. -/
def numaMain [Add V] [Mul V] (sortf : (Nat × Nat × V → Nat) → List (Nat × Nat × V) → List (Nat × Nat × V)) (env : Sample.Env V F) (args : List (List Char))
    (oA oB oF oL oR : List Nat) (rA rB : Nat → Nat) (tmax : Nat) (sch : Nat → Section × Section) : Out Event :=
  if args.length < 3 then ⟨[], .ok (some ())⟩
  else andThen (setup env args oA oB oL oR rA rB) fun x =>
    (say (.part x.up.length)).seq <| (say (.part x.low.length)).seq <| andThen (flops x oF) fun flop =>
      (say (.flop flop)).seq <| andThen (OuterMain.blocks args) fun w =>
        let call (M : CSC V) (s : Section) := Outer.outerSpGEMM (fun x y => x * y) (fun x y => x + y) sortf M x.B s.threads w.1 w.2 s.mem s.sch
        andThen (lastOf (fun s => sections (call x.left s.1) (call x.right s.2)) (sch 0) ((List.range 15).map fun i => sch (i + 1))) fun C =>
          say (.result (flop / 2) (C.1.nnz + C.2.nnz) tmax)

end Verif.Model.NumaMain
