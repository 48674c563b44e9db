import Verif.Lemmas.HeapMult

/-!
# C54: the older heap kernel

The full claim: for every associative and commutative addition and all matrices of fitting shapes stored by columns (columns of
`A` sorted), the call stores the product in the output, with sorted columns. It fails if `B` has no columns and if it has `2^17 - 1`
or more, see the theorems below. The proved part is the rest.
-/

namespace Verif.Props
open Verif.Model Verif.Spec

variable {V : Type}

/-- C54 in the cases in which it holds: there is one matrix, the product with sorted columns, which every run returns that gives
each thread enough steps. -/
theorem C54_heap_partial (mul add : V → V → V) (hadd : AssocComm add) (zero : V) {A B : CSC V} (h : ValidCols A B)
    (hpos : 0 < B.cols) (hsmall : B.cols + 1 < 2 ^ 17) {n : Nat} (hn : 0 < n) :
    ∃ C, IsColProduct mul add A B C ∧ ∀ sch : HeapMult.Sched, sch.Adm B.cols n →
      (HeapMult.heapSpGEMM mul add zero A B n sch = .ok none ∧
        ∃ t < n, sch.main.count t ≤ B.cols + 1 ∨ sch.copy.count t ≤ B.cols + 1) ∨
      HeapMult.heapSpGEMM mul add zero A B n sch = .ok (some C) :=
  ⟨_, HeapMult.isColProduct h, fun _ hadm => HeapMult.heapSpGEMM_ok hadd h zero hpos hsmall hn hadm⟩

/-- C54, violated for many columns: if `B` has `2^17 - 1` or more columns then no run returns a matrix. -/
theorem C54_violated_cols (mul add : V → V → V) (zero : V) {A B : CSC V} {n : Nat} (hn : 0 < n) (hbig : 2 ^ 17 ≤ B.cols + 1)
    (sch : HeapMult.Sched) (C : CSC V) : HeapMult.heapSpGEMM mul add zero A B n sch ≠ .ok (some C) :=
  HeapMult.heapSpGEMM_big mul add zero hn hbig sch C

/-- C54, violated if `B` has no columns: no run returns. -/
theorem C54_violated_empty (mul add : V → V → V) (zero : V) {A B : CSC V} {n : Nat} (h0 : B.cols = 0)
    (sch : HeapMult.Sched) (r : Option (CSC V)) : HeapMult.heapSpGEMM mul add zero A B n sch ≠ .ok r :=
  HeapMult.heapSpGEMM_empty mul add zero h0 sch r

/-- Examples: `[[1 0 2], [0 3 0], [4 0 0], [0 5 6]]` with 4 rows, and a factor with unsorted columns of which one is empty. -/
def colA : CSC Int :=
  { rows := 4, cols := 3, nnz := 6, colptr := [0, 2, 4, 6], rowids := [0, 2, 1, 3, 0, 3], values := [1, 4, 3, 5, 2, 6] }
def colB : CSC Int :=
  { rows := 3, cols := 3, nnz := 4, colptr := [0, 3, 3, 4], rowids := [2, 0, 1, 1], values := [7, 8, 9, 1] }

theorem colA_wf : colA.WF := ⟨rfl, rfl, rfl, by decide, rfl, rfl, rfl, by decide⟩
theorem colB_wf : colB.WF := ⟨rfl, rfl, rfl, by decide, rfl, rfl, rfl, by decide⟩
theorem col_valid : ValidCols colA colB := ⟨colA_wf, colB_wf, rfl, by unfold CSC.SortedCols; decide⟩

def colSched : HeapMult.Sched :=
  { flop := [2, 0, 1], s1 := [], s2 := [], ends := [1, 0], threads := [1, 0], main := [1, 0, 1, 0, 1, 0, 0, 1], nz := [1, 0, 2],
    s3 := [], s4 := [], copy := [0, 1, 1, 0, 0, 1, 1, 0] }

theorem colSched_adm : colSched.Adm 3 2 := ⟨by decide, by decide, by decide, by decide⟩

example := C54_heap_partial (· * ·) (· + ·) ⟨Int.add_assoc, Int.add_comm⟩ (0 : Int) col_valid (by decide) (by decide)
  (n := 2) (by decide)

/-- The run of the example. -/
theorem C54_run : HeapMult.heapSpGEMM (· * ·) (· + ·) 0 colA colB 2 colSched = .ok (some
    { rows := 4, cols := 3, nnz := 6, colptr := [0, 4, 4, 6], rowids := [0, 1, 2, 3, 1, 3], values := [22, 27, 32, 87, 3, 5] }) := by
  decide +kernel

/-- No columns -/
def noCols : CSC Int := { rows := 3, cols := 0, nnz := 0, colptr := [0], rowids := [], values := [] }

theorem noCols_valid : ValidCols colA noCols :=
  ⟨colA_wf, ⟨rfl, rfl, rfl, by decide, rfl, rfl, rfl, by decide⟩, rfl, by unfold CSC.SortedCols; decide⟩

example : HeapMult.heapSpGEMM (· * ·) (· + ·) 0 colA noCols 2 { colSched with flop := [], ends := [], nz := [] } = .error .oob := by
  decide +kernel

/-- A row of `2^17` zeros -/
def bigCols : CSC Int :=
  { rows := 3, cols := 2 ^ 17, nnz := 0, colptr := List.replicate (2 ^ 17 + 1) 0, rowids := [], values := [] }

theorem bigCols_valid : ValidCols colA bigCols := by
  have hp : ∀ j, bigCols.ptr j = 0 := by
    intro j
    unfold CSC.ptr bigCols
    simp only [List.getD_eq_getElem?_getD, List.getElem?_replicate]
    split <;> rfl
  refine ⟨colA_wf, ⟨rfl, by unfold bigCols; rw [List.length_replicate], hp 0, fun j _ => by rw [hp, hp]; exact Nat.le_refl _,
    hp _, rfl, rfl, by intro x hx; cases hx⟩, rfl, by unfold CSC.SortedCols; decide⟩

example (sch : HeapMult.Sched) (C : CSC Int) : HeapMult.heapSpGEMM (· * ·) (· + ·) 0 colA bigCols 4 sch ≠ .ok (some C) :=
  C54_violated_cols _ _ _ (by decide) (by show 2 ^ 17 ≤ 2 ^ 17 + 1; omega) sch C

end Verif.Props
