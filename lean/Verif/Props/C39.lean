import Verif.Lemmas.Poly
import Verif.Props.C09

/-!
# C39: choice of the algorithm per row

The driver of `/repo/spgemm-blocks/masked-spgemm-poly.h` forgets to store the number of entries of the rows it computes, and
reads these numbers afterwards. So whenever there is work to do it uses unset memory before it returns (`C39_violated`).
What is left: the result is right if there is nothing to do (`C39_idle_partial`), and the choice per row would be right if the
numbers were stored (`C39_choice_partial`).
-/

namespace Verif.Props

open Verif.Model Verif.Spec

variable {V : Type}

/-- **C39** fails: if some row has work (a stored product, in a row where the mask stores something), then no execution
returns a matrix: every execution that gets as far as the row offsets uses an unset counter. -/
theorem C39_violated (mul add : V → V → V) {A B M : CSR V} (h : Valid A B M) {i : Nat} (hi : i < A.rows)
    (hw : rowWork false A B M i ≠ 0) (zb : Bool) {nt dflt : Nat} (hn : 0 < setNumThreads nt dflt) :
    ¬ ∃ sch C, Admissible A.rows sch ∧ Poly.spgemm1p mul add A B M zb nt dflt sch = .ok (some C) := by
  rintro ⟨sch, C, ho, e⟩
  exact Poly.spgemm1p_busy h hi (by rw [← rowWork_eq]; exact hw) zb hn sch ho C e

/-- **C39**, if no row has work: the call computes the product (which has no entries). Missing: rows with work. -/
theorem C39_idle_partial (mul add : V → V → V) {A B M : CSR V} (h : Valid A B M) (sB : B.SortedRows) (sM : M.SortedRows)
    (hw : ∀ i < A.rows, rowWork false A B M i = 0) (zb : Bool) {nt dflt : Nat} (hn : 0 < setNumThreads nt dflt) :
    ∃ C, Computes (Poly.spgemm1p mul add A B M zb nt dflt) A.rows (setNumThreads nt dflt) C ∧
      IsMasked mul add A B M C := by
  have hc := computes1p_num h.wfA h.wfB h.wfM h.shapes (Poly.contract (mul := mul) (add := add) h sB sM) h.rowsPos zb hn
  have he : ∀ sch, Admissible A.rows sch → Poly.spgemm1p mul add A B M zb nt dflt sch =
      spgemm1p Poly.poly mul add A B M zb nt dflt sch := fun sch ho =>
    Poly.spgemm1p_idle h (fun i hi => by rw [← rowWork_eq]; exact hw i hi) zb hn sch ho
  refine ⟨_, ⟨fun sch ho => ?_, ?_⟩, maskedMat_isMasked h.shapes.ma zb sM.nodup⟩
  · rw [he sch ho]; exact hc.safe sch ho
  · obtain ⟨K, hK⟩ := hc.live
    exact ⟨K, fun sch ho hf => by rw [he sch ho]; exact hK sch ho hf⟩

/-- **C39** for the corrected driver, that is the generic one-phase driver (which stores the numbers of entries) with the choice
per row: it computes the product. Missing: this is not the code. -/
theorem C39_choice_partial (mul add : V → V → V) {A B M : CSR V} (h : Valid A B M) (sB : B.SortedRows) (sM : M.SortedRows)
    (zb : Bool) {nt dflt : Nat} (hn : 0 < setNumThreads nt dflt) :
    ∃ C, Computes (spgemm1p Poly.poly mul add A B M zb nt dflt) A.rows (setNumThreads nt dflt) C ∧
      IsMasked mul add A B M C :=
  ⟨_, computes1p_num h.wfA h.wfB h.wfM h.shapes (Poly.contract h sB sM) h.rowsPos zb hn,
    maskedMat_isMasked h.shapes.ma zb sM.nodup⟩

/-! ## Examples -/

example := C39_violated (fun a b : Int => a * b) (fun a b => a + b) Ex.validM (i := 0) (by decide) (by decide) true
  (nt := 2) (dflt := 1) (by decide)

/-- A run on the example: an unset counter is used. -/
example : Poly.spgemm1p (fun a b : Int => a * b) (fun a b => a + b) Ex.A Ex.B Ex.M true 2 1 Ex.sched2 = .error .uninit := by
  decide +kernel

/-- Its only non-empty row is row 1, where the mask `Ex.M` is empty. -/
def idleA : CSR Int :=
  { rows := 3, cols := 3, nnz := 2, rowptr := [0, 0, 2, 2], colids := [0, 2], values := [1, 2] }

theorem idleA_wf : idleA.WF := ⟨rfl, rfl, rfl, by decide, rfl, rfl, rfl, by decide⟩

example := C39_idle_partial (fun a b : Int => a * b) (fun a b => a + b) (A := idleA) (B := Ex.B) (M := Ex.M)
  ⟨idleA_wf, Ex.wfB, Ex.wfM, ⟨rfl, rfl, rfl⟩, by decide⟩ Ex.sortedB Ex.sortedM (by decide) true (nt := 2) (dflt := 1) (by decide)

example := C39_choice_partial (fun a b : Int => a * b) (fun a b => a + b) Ex.validM Ex.sortedB Ex.sortedM true
  (nt := 2) (dflt := 1) (by decide)

end Verif.Props
