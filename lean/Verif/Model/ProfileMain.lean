import Verif.Model.NumaMain
import Verif.Model.OuterProfile

/-!
# The sample programs that measure the outer-product kernels

Models `main` of `/repo/sample/ProfileOuterSpGEMM.cpp` (called PO below) and `/repo/sample/ProfileOuterSpGEMM2.cpp` (called PO2 below).

Simplifications. Times, rates, the compression ratio and the texts with the usage are left out, also the lines with times in the kernels. The calls of `Sorted()`,
which only print a line, and the release of memory are left out; the objects of the results are empty before each call. Numbers of type `long long` are printed with
the format for `int`; the model prints the number. A number of threads that is not positive is taken as 0. A negative number of blocks or of products in a buffer
leads to arrays of negative size; this is taken as an exception before the call. The arguments are `argv[1]`, `argv[2]`, …
-/

namespace Verif.Model.ProfileMain

open Bench (Out)
open SampleMain (andThen say tnums)

variable {V F : Type}

/-- What is printed: the number of operations; the number of products, by the kernels; the numbers of entries of the factors and the number of rows, PO:160,
PO2:123; the numbers of products and entries of the result together with the number of threads, PO:161-162, PO2:124-125 -/
inductive Event where
  | flop (n : Nat)
  | total (n : Nat)
  | left (nnzA nnzB rows : Nat)
  | result (products nnz threads : Nat)

/-- What is not determined by the program in a call of the kernel of PO: the number of threads (PO:95 is a comment), the schedules of the five stages, and what the
fresh arrays of row pointers hold -/
structure Run where
  threads : Nat
  sch : Nat → Profile.Sched
  mem : Nat → List Nat

/-- The same for PO2, which sets the number of threads -/
structure Run2 where
  sch : Nat → Profile.Sched2
  mem : Nat → List Nat

/-- The numbers of blocks and of products in a buffer, `atoi(argv[6])` and `atoi(argv[7])`, which are parameters of type `int` (outer_profile.h:455): a missing argument
is a null pointer or lies behind the array. -/
def blocks (args : List (List Char)) : Res (Option (Nat × Nat)) := do
  let a ← rd args 5
  let b ← rd args 6
  if ReadIO.atoi a < 0 ∨ ReadIO.atoi b < 0 then .error .assertion
  else .ok (some ((ReadIO.atoi a).toNat, (ReadIO.atoi b).toNat))

/-- The matrices of PO: the upper part of the first by columns, the first by columns, the second by rows -/
structure Parts (V : Type) where
  left : CSC V
  A : CSC V
  B : CSR V

/-- The first part, PO:72-88: the input, both matrices by rows, the halves. The second half is not used any more. The constructors for the halves have parallel loops,
run in the orders `oL` and `oR`. -/
def setup (env : Sample.Env V F) (args : List (List Char)) (oA oB oL oR : List Nat) : Res (Option (Parts V)) := do
  let x ← Sample.setInput env args oA oB
  let B ← Conv.csrOfCsc (env.ofInt 0) x.2
  let A' ← Conv.csrOfCsc (env.ofInt 0) x.1
  let S ← Tuples.splitCsr A' 2
  let up ← rd S 0
  let low ← rd S 1
  let left ← Conv.cscOfTriples env.sortf oL (env.ofInt 0) up (A'.rows / 2) A'.cols
  let _ ← Conv.cscOfTriples env.sortf oR (env.ofInt 0) low (A'.rows / 2) A'.cols
  .ok (some { left := left, A := x.1, B := B })

/-- The first part, PO2:72-74: the input, the second matrix by rows -/
def setup2 (env : Sample.Env V F) (args : List (List Char)) (oA oB : List Nat) : Res (Option (CSC V × CSR V)) := do
  let x ← Sample.setInput env args oA oB
  let B ← Conv.csrOfCsc (env.ofInt 0) x.2
  .ok (some (x.1, B))

/-- `get_flop`, PO:91, PO2:84, as in `OuterMain.setup` -/
def flops (A : CSC V) (B : CSR V) (oF : List Nat) : Res (Option Nat) := do
  let flop ← Flops.cscCsr (2 ^ 31) A B oF
  .ok (some flop)

section
variable [Add V] [Mul V]

/-- `main` of PO, lines 52-172. The kernel is called for the whole matrix, PO:126, and then for the upper part, PO:137 (`ITERS` is 1). `sch j`: the two calls with
the `j`-th number of threads; there is one of them. `sortf`: the radix sort, see `C91`. -/
def profileMain (sortf : (Nat × Nat × V → Nat) → List (Nat × Nat × V) → List (Nat × Nat × V)) (env : Sample.Env V F) (args : List (List Char))
    (oA oB oF oL oR : List Nat) (sch : Nat → Run × Run) : Out Event :=
  if args.length < 3 then ⟨[], .ok (some ())⟩
  else andThen (setup env args oA oB oL oR) fun x =>
    andThen (flops x.left x.B oF) fun flop =>
      (say (.flop flop)).seq (Bench.seqAll ((tnums [1] args 4).zipIdx.map fun t =>
        andThen (blocks args) fun w =>
          let call (M : CSC V) (s : Run) := Profile.outerSpGEMM (fun x y => x * y) (fun x y => x + y) sortf M x.B s.threads w.1 w.2 s.mem s.sch
          andThen (call x.A (sch t.2).1) fun C₀ =>
            (say (.total C₀.2)).seq <| andThen (call x.left (sch t.2).2) fun C =>
              (say (.total C.2)).seq <| (say (.left x.A.nnz x.B.nnz x.A.rows)).seq <| say (.result (flop / 2) C.1.nnz t.1)))

/-- `main` of PO2, lines 52-135, with two calls for the whole matrix -/
def profile2Main (sortf : (Nat × Nat × V → Nat) → List (Nat × Nat × V) → List (Nat × Nat × V)) (env : Sample.Env V F) (args : List (List Char))
    (oA oB oF : List Nat) (sch : Nat → Run2 × Run2) : Out Event :=
  if args.length < 3 then ⟨[], .ok (some ())⟩
  else andThen (setup2 env args oA oB) fun x =>
    andThen (flops x.1 x.2 oF) fun flop =>
      (say (.flop flop)).seq (Bench.seqAll ((tnums [1] args 4).zipIdx.map fun t =>
        andThen (blocks args) fun w =>
          let call (s : Run2) := Profile.outerSpGEMM2 (fun x y => x * y) (fun x y => x + y) sortf x.1 x.2 t.1 w.1 w.2 s.mem s.sch
          andThen (call (sch t.2).1) fun C₀ =>
            (say (.total C₀.2)).seq <| andThen (call (sch t.2).2) fun C =>
              (say (.total C.2)).seq <| (say (.left x.1.nnz x.2.nnz x.1.rows)).seq <| say (.result (flop / 2) C.1.nnz t.1)))

end

end Verif.Model.ProfileMain
