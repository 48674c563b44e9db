import Verif.Props.C06

/-!
# C42: heap inspection depths near the integer limit

The full claim, for all inspection depths, is false: `C42_depth_wraps` in `Verif.Props.C06`.
-/

namespace Verif.Props

open Verif.Model Verif.Spec

variable {V : Type}

/-- C42 for depths that are 0, 1, unbounded, or such that the sum with the number of entries of the mask fits in 64 bits: the calls with the heap algorithm
are safe and compute the masked product, in every schedule, for all well-formed sorted inputs. What is missing: finite depths for which a position in the mask plus
the depth wraps around. With them, the search can leave the array of the mask, see `C42_depth_wraps`. -/
theorem C42_partial (mul add : V → V → V) (hadd : AssocComm add) {A B M : CSR V} (h : Valid A B M)
    (sB : B.SortedRows) (sM : M.SortedRows) {insp : Nat}
    (hd : insp ≤ 1 ∨ insp = 2 ^ 64 - 1 ∨ M.nnz + insp < 2 ^ 64)
    (zb : Bool) {numThreads dflt : Nat} (hn : 0 < setNumThreads numThreads dflt) :
    ∃ C, Computes (spgemm1p (Heap.heap insp) mul add A B M zb numThreads dflt) A.rows
        (setNumThreads numThreads dflt) C ∧
      Computes (spgemm2p (Heap.heap insp) mul add A B M zb numThreads dflt) A.rows
        (setNumThreads numThreads dflt) C ∧
      IsMasked mul add A B M C :=
  C06_heap mul add hadd h sB sM hd zb hn

/-- Finite depths close to the largest one are covered: here the mask of `C42_depth_wraps` with the largest depth for which the sum does not wrap around. -/
example : ∃ C, Computes (spgemm1p (Heap.heap (2 ^ 64 - 5)) (· * ·) (· + ·) Ex.A Ex.B wrapMask true 2 1) 3 2 C ∧
    Computes (spgemm2p (Heap.heap (2 ^ 64 - 5)) (· * ·) (· + ·) Ex.A Ex.B wrapMask true 2 1) 3 2 C ∧
    IsMasked (· * ·) (· + ·) Ex.A Ex.B wrapMask C :=
  C42_partial _ _ intAdd C42_depth_wraps.1 Ex.sortedB C42_depth_wraps.2.2.1 (by decide) true (by decide)

end Verif.Props
