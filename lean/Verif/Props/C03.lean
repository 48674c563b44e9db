import Verif.Lemmas.HashAlg
import Verif.Lemmas.Run
import Verif.Props.Examples

/-! # C03, C04: the masked multiply with the hash row algorithms -/

namespace Verif.Props

open Verif.Model Verif.Spec

variable {V : Type}

/-- C03: the one-phase and the two-phase call with the hash algorithm compute the masked product, for every
thread count and under every schedule. `Computes` includes that no probe loops forever. -/
theorem C03_hash (mul add : V → V → V) {A B M : CSR V} (h : Valid A B M) (hnd : M.NodupRows) (zb : Bool)
    {numThreads dflt : Nat} (hn : 0 < setNumThreads numThreads dflt) :
    ∃ C, Computes (spgemm1p Hash.hash mul add A B M zb numThreads dflt) A.rows (setNumThreads numThreads dflt) C ∧
      Computes (spgemm2p Hash.hash mul add A B M zb numThreads dflt) A.rows (setNumThreads numThreads dflt) C ∧
      IsMasked mul add A B M C := by
  have hc := Hash.contract (mul := mul) (add := add) ⟨h.wfA, h.wfB, h.wfM, h.shapes, hnd⟩
  exact ⟨maskedMat mul add A B M zb,
    computes1p h.wfA h.wfB h.wfM h.shapes hc h.rowsPos zb hn,
    computes2p h.wfA h.wfB h.wfM h.shapes hc h.rowsPos zb hn,
    maskedMat_isMasked h.shapes.ma zb hnd⟩

/-- The hypotheses hold for inputs with unsorted mask rows and two threads. -/
example : ∃ C, Computes (spgemm1p Hash.hash (· * ·) (· + ·) Ex.A Ex.B Ex.U true 2 1) 3 2 C ∧
    Computes (spgemm2p Hash.hash (· * ·) (· + ·) Ex.A Ex.B Ex.U true 2 1) 3 2 C ∧
    IsMasked (· * ·) (· + ·) Ex.A Ex.B Ex.U C :=
  C03_hash _ _ Ex.validU Ex.nodupU true (by decide)

/-- Concrete runs return a non-empty matrix. -/
example : spgemm1p Hash.hash (· * ·) (· + ·) Ex.A Ex.B Ex.M true 2 1 Ex.sched2 = .ok (some Ex.C) := by
  decide +kernel

example : spgemm2p Hash.hash (· * ·) (· + ·) Ex.A Ex.B Ex.M true 2 1 Ex.sched2 = .ok (some Ex.C) := by
  decide +kernel

/-- C04: the same for the complemented hash algorithm, sorted or not. -/
theorem C04_hash (sorted : Bool) (mul add : V → V → V) {A B M : CSR V} (h : Valid A B M) (hnd : M.NodupRows)
    (zb : Bool) {numThreads dflt : Nat} (hn : 0 < setNumThreads numThreads dflt) :
    ∃ C, Computes (spgemm1p (Hash.hashC sorted) mul add A B M zb numThreads dflt) A.rows
        (setNumThreads numThreads dflt) C ∧
      Computes (spgemm2p (Hash.hashC sorted) mul add A B M zb numThreads dflt) A.rows
        (setNumThreads numThreads dflt) C ∧
      IsComplMasked mul add A B M C ∧ (sorted = true → C.SortedRows) ∧
      (sorted = false → FirstTouchOrder A B C) := by
  have hc := Hash.contractC (mul := mul) (add := add) ⟨h.wfA, h.wfB, h.wfM, h.shapes, hnd⟩ sorted
  refine ⟨complMat sorted mul add A B M zb,
    computes1p h.wfA h.wfB h.wfM h.shapes hc h.rowsPos zb hn,
    computes2p h.wfA h.wfB h.wfM h.shapes hc h.rowsPos zb hn,
    complMat_isCompl sorted zb, ?_, ?_⟩
  · rintro rfl; exact complMat_sorted zb
  · rintro rfl; exact complMat_firstTouch zb

example : ∃ C, Computes (spgemm1p (Hash.hashC false) (· * ·) (· + ·) Ex.A Ex.B Ex.U true 2 1) 3 2 C ∧
    Computes (spgemm2p (Hash.hashC false) (· * ·) (· + ·) Ex.A Ex.B Ex.U true 2 1) 3 2 C ∧
    IsComplMasked (· * ·) (· + ·) Ex.A Ex.B Ex.U C ∧ (false = true → C.SortedRows) ∧
    (false = false → FirstTouchOrder Ex.A Ex.B C) :=
  C04_hash false _ _ Ex.validU Ex.nodupU true (by decide)

/-- A concrete run returns a non-empty matrix. -/
example : spgemm1p (Hash.hashC true) (· * ·) (· + ·) Ex.A Ex.B Ex.M true 2 1 Ex.sched2 =
    spgemm1p (Msa.msa1C true) (· * ·) (· + ·) Ex.A Ex.B Ex.M true 2 1 Ex.sched2 := by
  decide +kernel

end Verif.Props
