import Verif.Lemmas.MsaAlg
import Verif.Lemmas.Run
import Verif.Props.Examples

/-! # C01, C02: the masked multiply with the MSA row algorithms -/

namespace Verif.Props

open Verif.Model Verif.Spec

variable {V : Type}

/-- C01, one-array accumulator: the one-phase and the two-phase call compute the masked
product, for every thread count and under every schedule. -/
theorem C01_msa1A (mul add : V → V → V) {A B M : CSR V} (h : Valid A B M) (hnd : M.NodupRows) (zb : Bool)
    {numThreads dflt : Nat} (hn : 0 < setNumThreads numThreads dflt) :
    ∃ C, Computes (spgemm1p Msa.msa1 mul add A B M zb numThreads dflt) A.rows (setNumThreads numThreads dflt) C ∧
      Computes (spgemm2p Msa.msa1 mul add A B M zb numThreads dflt) A.rows (setNumThreads numThreads dflt) C ∧
      IsMasked mul add A B M C := by
  have hc := Msa.contract1 (mul := mul) (add := add) ⟨h.wfA, h.wfB, h.wfM, h.shapes, hnd⟩
  exact ⟨maskedMat mul add A B M zb,
    computes1p h.wfA h.wfB h.wfM h.shapes hc h.rowsPos zb hn,
    computes2p h.wfA h.wfB h.wfM h.shapes hc h.rowsPos zb hn,
    maskedMat_isMasked h.shapes.ma zb hnd⟩

/-- C01, two-array accumulator. -/
theorem C01_msa2A (mul add : V → V → V) {A B M : CSR V} (h : Valid A B M) (hnd : M.NodupRows) (zb : Bool)
    {numThreads dflt : Nat} (hn : 0 < setNumThreads numThreads dflt) :
    ∃ C, Computes (spgemm1p Msa.msa2 mul add A B M zb numThreads dflt) A.rows (setNumThreads numThreads dflt) C ∧
      Computes (spgemm2p Msa.msa2 mul add A B M zb numThreads dflt) A.rows (setNumThreads numThreads dflt) C ∧
      IsMasked mul add A B M C := by
  have hc := Msa.contract2 (mul := mul) (add := add) ⟨h.wfA, h.wfB, h.wfM, h.shapes, hnd⟩
  exact ⟨maskedMat mul add A B M zb,
    computes1p h.wfA h.wfB h.wfM h.shapes hc h.rowsPos zb hn,
    computes2p h.wfA h.wfB h.wfM h.shapes hc h.rowsPos zb hn,
    maskedMat_isMasked h.shapes.ma zb hnd⟩

/-- The hypotheses hold for inputs with unsorted mask rows and two threads. -/
example : ∃ C, Computes (spgemm1p Msa.msa1 (· * ·) (· + ·) Ex.A Ex.B Ex.U true 2 1) 3 2 C ∧
    Computes (spgemm2p Msa.msa1 (· * ·) (· + ·) Ex.A Ex.B Ex.U true 2 1) 3 2 C ∧
    IsMasked (· * ·) (· + ·) Ex.A Ex.B Ex.U C :=
  C01_msa1A _ _ Ex.validU Ex.nodupU true (by decide)

/-- A concrete run returns a non-empty matrix. -/
example : spgemm1p Msa.msa1 (· * ·) (· + ·) Ex.A Ex.B Ex.M true 2 1 Ex.sched2 = .ok (some Ex.C) := by
  decide +kernel

example : spgemm2p Msa.msa2 (· * ·) (· + ·) Ex.A Ex.B Ex.M true 2 1 Ex.sched2 = .ok (some Ex.C) := by
  decide +kernel

/-- C02, one-array accumulator: complement-masked product; sorted rows on request. -/
theorem C02_msa1A (sorted : Bool) (mul add : V → V → V) {A B M : CSR V} (h : Valid A B M) (hnd : M.NodupRows)
    (zb : Bool) {numThreads dflt : Nat} (hn : 0 < setNumThreads numThreads dflt) :
    ∃ C, Computes (spgemm1p (Msa.msa1C sorted) mul add A B M zb numThreads dflt) A.rows
        (setNumThreads numThreads dflt) C ∧
      Computes (spgemm2p (Msa.msa1C sorted) mul add A B M zb numThreads dflt) A.rows
        (setNumThreads numThreads dflt) C ∧
      IsComplMasked mul add A B M C ∧ (sorted = true → C.SortedRows) ∧
      (sorted = false → FirstTouchOrder A B C) := by
  have hc := Msa.contract1C (mul := mul) (add := add) ⟨h.wfA, h.wfB, h.wfM, h.shapes, hnd⟩ sorted
  refine ⟨complMat sorted mul add A B M zb,
    computes1p h.wfA h.wfB h.wfM h.shapes hc h.rowsPos zb hn,
    computes2p h.wfA h.wfB h.wfM h.shapes hc h.rowsPos zb hn,
    complMat_isCompl sorted zb, ?_, ?_⟩
  · rintro rfl; exact complMat_sorted zb
  · rintro rfl; exact complMat_firstTouch zb

/-- C02, two-array accumulator. -/
theorem C02_msa2A (sorted : Bool) (mul add : V → V → V) {A B M : CSR V} (h : Valid A B M) (hnd : M.NodupRows)
    (zb : Bool) {numThreads dflt : Nat} (hn : 0 < setNumThreads numThreads dflt) :
    ∃ C, Computes (spgemm1p (Msa.msa2C sorted) mul add A B M zb numThreads dflt) A.rows
        (setNumThreads numThreads dflt) C ∧
      Computes (spgemm2p (Msa.msa2C sorted) mul add A B M zb numThreads dflt) A.rows
        (setNumThreads numThreads dflt) C ∧
      IsComplMasked mul add A B M C ∧ (sorted = true → C.SortedRows) ∧
      (sorted = false → FirstTouchOrder A B C) := by
  have hc := Msa.contract2C (mul := mul) (add := add) ⟨h.wfA, h.wfB, h.wfM, h.shapes, hnd⟩ sorted
  refine ⟨complMat sorted mul add A B M zb,
    computes1p h.wfA h.wfB h.wfM h.shapes hc h.rowsPos zb hn,
    computes2p h.wfA h.wfB h.wfM h.shapes hc h.rowsPos zb hn,
    complMat_isCompl sorted zb, ?_, ?_⟩
  · rintro rfl; exact complMat_sorted zb
  · rintro rfl; exact complMat_firstTouch zb

example : ∃ C, Computes (spgemm1p (Msa.msa1C true) (· * ·) (· + ·) Ex.A Ex.B Ex.U true 2 1) 3 2 C ∧
    Computes (spgemm2p (Msa.msa1C true) (· * ·) (· + ·) Ex.A Ex.B Ex.U true 2 1) 3 2 C ∧
    IsComplMasked (· * ·) (· + ·) Ex.A Ex.B Ex.U C ∧ (true = true → C.SortedRows) ∧
    (true = false → FirstTouchOrder Ex.A Ex.B C) :=
  C02_msa1A true _ _ Ex.validU Ex.nodupU true (by decide)

end Verif.Props
