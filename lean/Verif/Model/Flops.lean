import Verif.Model.HeapMult
import Verif.Model.HeapGen

/-!
# Counting operations

Models the functions that count the operations of a multiplication for the programs: `get_flop` of `/repo/multiply.h` lines 116-150, of
`/repo/heap_mult.h` lines 12-45 and `/repo/inner_mult.h` lines 12-45 (the same text), `tmp::getFlop` of
`/repo/heap_mult_generic.h` lines 14-30, and `getFlop` of `/repo/outer_mult.h` lines 33-46 (the same text in
`/repo/outer_mult2.h`, `/repo/outer_profile.h` and `/repo/outer_profile2.h`). Totals are `long long int` or `uint64_t` there, here numbers
without bound.
-/

namespace Verif.Model.Flops

variable {V : Type}

/-- `get_flop(CSR, CSR)`, multiply.h:116-133. The body of the outer loop is that of `tmp::getFlop`. -/
def csrCsr (A B : CSR V) : Res Nat := do
  let tflops ← forRange 0 A.rows 0 fun i tflops => do
    let locmax ← Gen.flopRow A B i
    .ok (tflops + locmax)
  .ok (tflops * 2)

/-- `getFlop(CSC, CSR)`, outer_mult.h:33-46. The product `colnnz * rownnz` is computed in the index type, which has `W` values (unsigned
types; for signed types a larger product is undefined). The iterations run in the order `order`. -/
def cscCsrOnce (W : Nat) (A : CSC V) (B : CSR V) (order : List Nat) : Res Nat :=
  order.foldlM (fun flop i => do
    let e ← rd A.colptr (i + 1)
    let b ← rd A.colptr i
    let e' ← rd B.rowptr (i + 1)
    let b' ← rd B.rowptr i
    .ok (flop + (e - b) * (e' - b') % W)) 0

/-- `get_flop(CSC, CSR)`, multiply.h:136-150 -/
def cscCsr (W : Nat) (A : CSC V) (B : CSR V) (order : List Nat) : Res Nat := do
  let flops ← cscCsrOnce W A B order
  .ok (flops * 2)

/-- `get_flop(CSC, CSC)`, inner_mult.h:38-45 and 12-36 -/
def cscCsc (A B : CSC V) (order : List Nat) : Res Nat := do
  let (_, flop) ← HeapMult.getFlop A B order (List.replicate B.cols 0)
  .ok (flop * 2)

/-- `tmp::getFlop(CSR, CSR, maxnnzc)`, heap_mult_generic.h:14-30 -/
def csrCsrPar (A B : CSR V) (order : List Nat) (maxnnzc : List Nat) : Res (List Nat × Nat) := do
  let (maxnnzc, flop) ← Gen.getFlop A B order maxnnzc
  .ok (maxnnzc, flop * 2)

end Verif.Model.Flops
