import Verif.Run

/-!
# Concrete inputs

Used to show that the hypotheses of the theorems can be met by non-trivial data.
-/

namespace Verif.Ex

open Verif.Model (Scheds)

/-- A 3x3 matrix with sorted rows `[(0,1),(1,2)]`, `[(2,3)]`, `[(0,4),(2,5)]`. -/
def A : CSR Int :=
  { rows := 3, cols := 3, nnz := 5, rowptr := [0, 2, 3, 5], colids := [0, 1, 2, 0, 2], values := [1, 2, 3, 4, 5] }

/-- A 3x3 matrix with sorted rows `[(0,1),(2,2)]`, `[(0,3),(1,4)]`, `[(2,5)]`. -/
def B : CSR Int :=
  { rows := 3, cols := 3, nnz := 5, rowptr := [0, 2, 4, 5], colids := [0, 2, 0, 1, 2], values := [1, 2, 3, 4, 5] }

/-- A mask with sorted rows `[0,1]`, `[]`, `[1,2]`. -/
def M : CSR Int :=
  { rows := 3, cols := 3, nnz := 4, rowptr := [0, 2, 2, 4], colids := [0, 1, 1, 2], values := [1, 1, 1, 1] }

/-- A mask with unsorted rows `[1,0]`, `[2]`, `[2,0]`. -/
def U : CSR Int :=
  { rows := 3, cols := 3, nnz := 5, rowptr := [0, 2, 3, 5], colids := [1, 0, 2, 2, 0], values := [1, 1, 1, 1, 1] }

theorem wfA : A.WF := ⟨rfl, rfl, rfl, by decide, rfl, rfl, rfl, by decide⟩
theorem wfB : B.WF := ⟨rfl, rfl, rfl, by decide, rfl, rfl, rfl, by decide⟩
theorem wfM : M.WF := ⟨rfl, rfl, rfl, by decide, rfl, rfl, rfl, by decide⟩
theorem wfU : U.WF := ⟨rfl, rfl, rfl, by decide, rfl, rfl, rfl, by decide⟩

theorem validM : Spec.Valid A B M := ⟨wfA, wfB, wfM, ⟨rfl, rfl, rfl⟩, by decide⟩
theorem validU : Spec.Valid A B U := ⟨wfA, wfB, wfU, ⟨rfl, rfl, rfl⟩, by decide⟩

theorem sortedA : A.SortedRows := by unfold CSR.SortedRows; decide
theorem sortedB : B.SortedRows := by unfold CSR.SortedRows; decide
theorem sortedM : M.SortedRows := by unfold CSR.SortedRows; decide
theorem nodupM : M.NodupRows := by unfold CSR.NodupRows; decide
theorem nodupU : U.NodupRows := by unfold CSR.NodupRows; decide

/-- A schedule for two threads. -/
def sched2 : Scheds :=
  let l := (List.range 40).flatMap fun _ => [1, 0]
  ⟨[2, 0, 1], l, l, l, l⟩

theorem sched2_admissible : Spec.Admissible 3 sched2 := by unfold Spec.Admissible; decide

/-- The product of `A` and `B` under the mask `M`. -/
def C : CSR Int :=
  { rows := 3, cols := 3, nnz := 3, rowptr := [0, 2, 2, 3], colids := [0, 1, 2], values := [7, 8, 33] }

end Verif.Ex
