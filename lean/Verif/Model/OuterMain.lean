import Verif.Model.SampleMain
import Verif.Model.Outer
import Verif.Model.Outer2
import Verif.Model.Flops

/-!
# The sample programs for outer products

Models `main` of `/repo/sample/OuterSpGEMM.cpp` and `/repo/sample/OuterSpGEMM2.cpp`.

Simplifications. Times, rates, the compression ratio and the texts with the usage are left out. The calls of `Sorted()`, which only print a line, and the
release of memory are left out; the object of the result is empty before each call. Numbers of type `long long` are printed with the format for `int`; the
model prints the number. A number of threads that is not positive is taken as 0. The arguments are `argv[1]`, `argv[2]`, …
-/

namespace Verif.Model.OuterMain

open Bench (Out)
open SampleMain (andThen say lastOf tnums)

variable {V F : Type}

/-- What is printed: the number of operations; the numbers of entries of the factors and the number of rows (OuterSpGEMM2.cpp:126-128 only); the numbers of
products and entries of the result together with the number of threads -/
inductive Event where
  | flop (n : Nat)
  | left (nnzA nnzB rows : Nat)
  | result (products nnz threads : Nat)

/-- The schedule of a call, and what the fresh array of row pointers happens to hold -/
structure Call (σ : Type) where
  sch : σ
  mem : List Nat

/-- The conversion of an `int` to `uint16_t`: the parameters `nblockers` and `nblockchars`, outer_mult.h:219-220, outer_mult2.h:215-216 -/
def u16 (x : Int) : Nat := (x % 65536).toNat

/-- The first part, OuterSpGEMM.cpp:71-90, OuterSpGEMM2.cpp:69-84: the input, the second matrix by rows, shuffling with the random numbers `rA` and `rB`, the
number of operations. The index type is `int32_t`; in `get_flop` a product of `2^31` or more is undefined, here it is reduced (`C83`). OuterSpGEMM.cpp also
converts the first matrix to rows (`both`) and does not use the result. -/
def setup (both : Bool) (env : Sample.Env V F) (args : List (List Char)) (oA oB oF : List Nat) (rA rB : Nat → Nat) : Res (Option (CSC V × CSR V × Nat)) := do
  let x ← Sample.setInput env args oA oB
  let B ← Conv.csrOfCsc (env.ofInt 0) x.2
  let _ ← (if both then (do let _ ← Conv.csrOfCsc (env.ofInt 0) x.1; .ok ()) else .ok () : Res Unit)
  let A ← Reorder.shuffleIdsC true rA x.1
  let B ← Reorder.shuffleIds true rB B
  let flop ← Flops.cscCsr (2 ^ 31) A B oF
  .ok (some (A, B, flop))

/-- The numbers of blocks and of products in a buffer, `atoi(argv[6])` and `atoi(argv[7])`: a missing argument is a null pointer or lies behind the array. -/
def blocks (args : List (List Char)) : Res (Option (Nat × Nat)) := do
  let a ← rd args 5
  let b ← rd args 6
  .ok (some (u16 (ReadIO.atoi a), u16 (ReadIO.atoi b)))

section
variable [Add V] [Mul V]

/-- `main` of OuterSpGEMM.cpp, lines 49-157. `sch j i`: call `i` with the `j`-th number of threads; there is one of them. `sortf`: the radix
sort, see `C91`. -/
def outerMain (sortf : (Nat × Nat × V → Nat) → List (Nat × Nat × V) → List (Nat × Nat × V)) (env : Sample.Env V F) (args : List (List Char)) (oA oB oF : List Nat) (rA rB : Nat → Nat)
    (sch : Nat → Nat → Call Outer.Sched) : Out Event :=
  if args.length < 3 then ⟨[], .ok (some ())⟩
  else andThen (setup true env args oA oB oF rA rB) fun x =>
    (say (.flop x.2.2)).seq (Bench.seqAll ((tnums [1] args 4).zipIdx.map fun t =>
      andThen (blocks args) fun w =>
        andThen (lastOf (fun c => Outer.outerSpGEMM (fun x y => x * y) (fun x y => x + y) sortf x.1 x.2.1 t.1 w.1 w.2 c.mem c.sch) (sch t.2 0)
          ((List.range 15).map fun i => sch t.2 (i + 1))) fun C =>
        say (.result (x.2.2 / 2) C.nnz t.1)))

/-- `main` of OuterSpGEMM2.cpp, lines 49-144 -/
def outer2Main (sortf : (Nat × Nat × V → Nat) → List (Nat × Nat × V) → List (Nat × Nat × V)) (env : Sample.Env V F) (args : List (List Char)) (oA oB oF : List Nat) (rA rB : Nat → Nat)
    (sch : Nat → Nat → Call Outer2.Sched) : Out Event :=
  if args.length < 3 then ⟨[], .ok (some ())⟩
  else andThen (setup false env args oA oB oF rA rB) fun x =>
    (say (.flop x.2.2)).seq (Bench.seqAll ((tnums [1] args 4).zipIdx.map fun t =>
      andThen (blocks args) fun w =>
        andThen (lastOf (fun c => Outer2.outerSpGEMM (fun x y => x * y) (fun x y => x + y) sortf x.1 x.2.1 t.1 w.1 w.2 c.mem c.sch) (sch t.2 0)
          ((List.range 15).map fun i => sch t.2 (i + 1))) fun C =>
        (say (.left x.1.nnz x.2.1.nnz x.1.rows)).seq (say (.result (x.2.2 / 2) C.nnz t.1))))

end

end Verif.Model.OuterMain
