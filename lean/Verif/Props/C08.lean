import Verif.Lemmas.InnerDriver
import Verif.Lemmas.SameMat
import Verif.Props.Examples

/-! # C08: the masked multiply by inner products -/

namespace Verif.Props

open Verif.Model Verif.Spec

variable {V : Type}

/-- C08: with `B` stored by columns, the one-phase and the two-phase call compute the masked product, for every
thread count and under every schedule. -/
theorem C08_inner (mul add : V → V → V) {A : CSR V} {B : CSC V} {M : CSR V} (h : ValidC A B M) (nd : M.NodupRows)
    (zb : Bool) {numThreads dflt : Nat} (hn : 0 < setNumThreads numThreads dflt) :
    ∃ C, Computes (Inner.spgemm1p mul add A B M zb numThreads dflt) A.rows (setNumThreads numThreads dflt) C ∧
      Computes (Inner.spgemm2p mul add A B M zb numThreads dflt) A.rows (setNumThreads numThreads dflt) C ∧
      IsMaskedC mul add A B M C :=
  ⟨_, Inner.computes1p mul add h zb hn, Inner.computes2p mul add h zb hn, Inner.isMasked mul add h nd zb⟩

/-- C08, stated with the same specification as the other algorithms: if `Bc` is `B` stored by columns, the result
is the masked product of `A` and `B`. -/
theorem C08_inner_csr (mul add : V → V → V) {A B M : CSR V} {Bc : CSC V} (h : ValidC A Bc M) (hB : B.WF)
    (hs : SameMat B Bc) (ndB : B.NodupRows) (nd : M.NodupRows)
    (zb : Bool) {numThreads dflt : Nat} (hn : 0 < setNumThreads numThreads dflt) :
    ∃ C, Computes (Inner.spgemm1p mul add A Bc M zb numThreads dflt) A.rows (setNumThreads numThreads dflt) C ∧
      Computes (Inner.spgemm2p mul add A Bc M zb numThreads dflt) A.rows (setNumThreads numThreads dflt) C ∧
      IsMasked mul add A B M C :=
  ⟨_, Inner.computes1p mul add h zb hn, Inner.computes2p mul add h zb hn,
    isMasked_of_csc h.wfA h.wfB hB h.wfM (by rw [h.ab, hs.rows]) (by rw [h.mb, hs.cols]) hs ndB h.sortedB
      (Inner.isMasked mul add h nd zb)⟩

/-- `Ex.B` stored by columns: `[(0,1),(1,3)]`, `[(1,4)]`, `[(0,2),(2,5)]`. -/
def Bc : CSC Int :=
  { rows := 3, cols := 3, nnz := 5, colptr := [0, 2, 3, 5], rowids := [0, 1, 1, 0, 2], values := [1, 3, 4, 2, 5] }

theorem validBc : ValidC Ex.A Bc Ex.M :=
  ⟨Ex.wfA, ⟨rfl, rfl, rfl, by decide, rfl, rfl, rfl, by decide⟩, Ex.wfM, rfl, rfl, rfl, by decide, Ex.sortedA,
    by unfold CSC.SortedCols; decide⟩

theorem sameBc : SameMat Ex.B Bc where
  rows := rfl
  cols := rfl
  entries := by
    intro i j v hi hj
    have hi : i < 3 := hi
    have hj : j < 3 := hj
    match i, j with
    | 0, 0 | 0, 1 | 0, 2 | 1, 0 | 1, 1 | 1, 2 | 2, 0 | 2, 1 | 2, 2 =>
      simp [CSR.row, CSC.col, CSR.ptr, CSC.ptr, Ex.B, Bc, slice]
    | 0, k + 3 | 1, k + 3 | 2, k + 3 => omega
    | k + 3, _ => omega

theorem nodupB : Ex.B.NodupRows := by unfold CSR.NodupRows; decide

example : ∃ C, Computes (Inner.spgemm1p (· * ·) (· + ·) Ex.A Bc Ex.M true 2 1) 3 2 C ∧
    Computes (Inner.spgemm2p (· * ·) (· + ·) Ex.A Bc Ex.M true 2 1) 3 2 C ∧
    IsMasked (· * ·) (· + ·) Ex.A Ex.B Ex.M C :=
  C08_inner_csr _ _ validBc Ex.wfB sameBc nodupB Ex.nodupM true (by decide)

/-- Concrete runs return a non-empty matrix. -/
example : Inner.spgemm1p (· * ·) (· + ·) Ex.A Bc Ex.M true 2 1 Ex.sched2 = .ok (some Ex.C) := by
  decide +kernel

example : Inner.spgemm2p (· * ·) (· + ·) Ex.A Bc Ex.M true 2 1 Ex.sched2 = .ok (some Ex.C) := by
  decide +kernel

end Verif.Props
