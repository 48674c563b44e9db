import Verif.Lemmas.Mca
import Verif.Lemmas.Run
import Verif.Props.Examples

/-! # C05: the masked multiply with the mask-compressed accumulator -/

namespace Verif.Props

open Verif.Model Verif.Spec

variable {V : Type}

/-- C05: for sorted `B` and `M` the one-phase and the two-phase call with MCA compute the masked product, for
every thread count and under every schedule. -/
theorem C05_mca (mul add : V → V → V) {A B M : CSR V} (h : Valid A B M) (sB : B.SortedRows) (sM : M.SortedRows)
    (zb : Bool) {numThreads dflt : Nat} (hn : 0 < setNumThreads numThreads dflt) :
    ∃ C, Computes (spgemm1p Mca.mca mul add A B M zb numThreads dflt) A.rows (setNumThreads numThreads dflt) C ∧
      Computes (spgemm2p Mca.mca mul add A B M zb numThreads dflt) A.rows (setNumThreads numThreads dflt) C ∧
      IsMasked mul add A B M C := by
  have hc := Mca.contract (mul := mul) (add := add) ⟨h.wfA, h.wfB, h.wfM, h.shapes, sM.nodup⟩ sB sM
  exact ⟨maskedMat mul add A B M zb,
    computes1p h.wfA h.wfB h.wfM h.shapes hc h.rowsPos zb hn,
    computes2p h.wfA h.wfB h.wfM h.shapes hc h.rowsPos zb hn,
    maskedMat_isMasked h.shapes.ma zb sM.nodup⟩

/-- The hypotheses hold for a mask with an empty row and two threads. -/
example : ∃ C, Computes (spgemm1p Mca.mca (· * ·) (· + ·) Ex.A Ex.B Ex.M true 2 1) 3 2 C ∧
    Computes (spgemm2p Mca.mca (· * ·) (· + ·) Ex.A Ex.B Ex.M true 2 1) 3 2 C ∧
    IsMasked (· * ·) (· + ·) Ex.A Ex.B Ex.M C :=
  C05_mca _ _ Ex.validM Ex.sortedB Ex.sortedM true (by decide)

/-- Concrete runs return a non-empty matrix. -/
example : spgemm1p Mca.mca (· * ·) (· + ·) Ex.A Ex.B Ex.M true 2 1 Ex.sched2 = .ok (some Ex.C) := by
  decide +kernel

example : spgemm2p Mca.mca (· * ·) (· + ·) Ex.A Ex.B Ex.M true 2 1 Ex.sched2 = .ok (some Ex.C) := by
  decide +kernel

end Verif.Props
