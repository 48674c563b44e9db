import Verif.Lemmas.RowData
import Verif.Props.Examples

/-! # C86: the statistics per row -/

namespace Verif.Props
open Verif Model
open _root_.Verif.Spec (StatArgs StatRow maskedProducts touched IsMasked)

variable {V : Type}

/-- The array with the value `f i` for row `i` -/
def perRow (A : CSR V) (f : Nat → Nat) : List (Option Nat) := (List.range A.rows).map fun i => some (f i)

/-- C86: if the columns of mask and products are columns of `A`, and if no row of the mask has a column twice, then every run stores, per row:
the number of columns, the sizes of the rows of `A` and `M`, the number of products and the number of products that the mask allows, unless a
thread does not get enough steps to finish. The sixth array, the number of entries of the result, has the number of products
instead: see `C86_violated_entries`. -/
theorem C86_partial {A B M : CSR V} (h : StatArgs A B M) (hr : ∀ i < A.rows, StatRow A B M i) {n : Nat} (hn : 0 < n) (sched : List Nat) :
    (RowData.setRowData A B M n sched = .ok none ∧ ∃ t < n, sched.count t ≤ 7 * A.rows) ∨
      RowData.setRowData A B M n sched = .ok (some [perRow A fun _ => B.cols, perRow A fun i => (A.rowCols i).length,
        perRow A fun i => (M.rowCols i).length, perRow A fun i => (touched A B i).length, perRow A (maskedProducts A B M),
        perRow A (maskedProducts A B M)]) :=
  RowData.region_ok h hr hn sched

/-- The condition on rows is necessary: otherwise no run returns (an assertion fails). -/
theorem C86_violated_columns {A B M : CSR V} (h : StatArgs A B M) {i : Nat} (hi : i < A.rows) (hbad : ¬ StatRow A B M i) {n : Nat} (hn : 0 < n)
    (sched : List Nat) (d : List (List (Option Nat))) : RowData.setRowData A B M n sched ≠ .ok (some d) :=
  RowData.region_never h hi hbad hn sched d

/-- C86 is violated for the number of entries: in every run that returns, the sixth array has the numbers of entries of the rows of the masked
product if and only if no position that the mask allows gets more than one product. -/
theorem C86_violated_entries {mul add : V → V → V} {A B M C : CSR V} (h : StatArgs A B M) (hr : ∀ i < A.rows, StatRow A B M i) (hC : C.WF)
    (hm : IsMasked mul add A B M C) {n : Nat} (hn : 0 < n) {sched : List Nat} {d : List (List (Option Nat))}
    (e : RowData.setRowData A B M n sched = .ok (some d)) :
    d[5]? = some (perRow A fun i => (C.row i).length) ↔ ∀ i < A.rows, ∀ j ∈ M.rowCols i, (touched A B i).count j ≤ 1 := by
  rcases C86_partial h hr hn sched with ⟨e', _⟩ | e'
  · rw [e'] at e
    cases e
  · rw [e'] at e
    cases e
    show some (perRow A (maskedProducts A B M)) = _ ↔ _
    have key : ∀ i < A.rows, maskedProducts A B M i = (C.row i).length ↔ ∀ j ∈ M.rowCols i, (touched A B i).count j ≤ 1 := by
      intro i hi
      rw [RowData.row_entries hC hm hi (hr i hi).nodup]
      exact (RowData.counts (hr i hi).nodup (touched A B i)).2
    unfold perRow
    rw [Option.some.injEq]
    constructor
    · intro e i hi
      rw [← key i hi]
      have := congrArg (fun l => l[i]?) e
      simpa [List.getElem?_range hi] using this
    · intro hall
      apply List.map_congr_left
      intro i hi
      rw [(key i (List.mem_range.1 hi)).2 (hall i (List.mem_range.1 hi))]

/-! A case that meets the hypotheses: a product position gets two products. -/

def rdA : CSR Nat := ⟨2, 2, 3, [0, 2, 3], [0, 1, 1], [1, 2, 3], true⟩
def rdB : CSR Nat := ⟨2, 2, 3, [0, 2, 3], [0, 1, 1], [4, 5, 6], true⟩
def rdM : CSR Nat := ⟨2, 2, 3, [0, 1, 3], [1, 0, 1], [1, 1, 1], true⟩

theorem rd_args : StatArgs rdA rdB rdM :=
  ⟨⟨rfl, rfl, rfl, by decide, rfl, rfl, rfl, by decide⟩, ⟨rfl, rfl, rfl, by decide, rfl, rfl, rfl, by decide⟩,
    ⟨rfl, rfl, rfl, by decide, rfl, rfl, rfl, by decide⟩, rfl, rfl⟩

theorem rd_rows : ∀ i < rdA.rows, StatRow rdA rdB rdM i := by
  intro i hi
  have : i = 0 ∨ i = 1 := by simp [rdA] at hi; omega
  rcases this with rfl | rfl
  · exact ⟨by decide, by decide, by decide⟩
  · exact ⟨by decide, by decide, by decide⟩

/-- Two threads; row 0 has two products in one position of the mask. -/
example : RowData.setRowData rdA rdB rdM 2 ((List.replicate 15 [0, 1]).flatten) =
    .ok (some [[some 2, some 2], [some 2, some 1], [some 1, some 2], [some 3, some 1], [some 2, some 1], [some 2, some 1]]) := by decide +kernel

example : (touched rdA rdB 0).count 1 = 2 := by decide

/-- All hypotheses of `C86_violated_entries`, with a position that gets two products. -/
example : StatArgs Ex.A Ex.B Ex.M ∧ (∀ i < Ex.A.rows, StatRow Ex.A Ex.B Ex.M i) ∧
    (∃ C : CSR Int, C.WF ∧ IsMasked (· * ·) (· + ·) Ex.A Ex.B Ex.M C) ∧
    (∃ d, RowData.setRowData Ex.A Ex.B Ex.M 1 (List.replicate 22 0) = .ok (some d)) ∧ 0 ∈ Ex.M.rowCols 0 ∧ (touched Ex.A Ex.B 0).count 0 = 2 := by
  have h : StatArgs Ex.A Ex.B Ex.M := ⟨Ex.wfA, Ex.wfB, Ex.wfM, rfl, rfl⟩
  have hr : ∀ i < Ex.A.rows, StatRow Ex.A Ex.B Ex.M i := by
    intro i hi
    have : i = 0 ∨ i = 1 ∨ i = 2 := by simp [Ex.A] at hi; omega
    rcases this with rfl | rfl | rfl <;> exact ⟨by decide, by decide, by decide⟩
  refine ⟨h, hr, ⟨_, maskedMat_wf Ex.wfB, maskedMat_isMasked (A := Ex.A) (B := Ex.B) (M := Ex.M) rfl true Ex.nodupM⟩, ?_, by decide, by decide⟩
  rcases C86_partial h hr (n := 1) (by decide) (List.replicate 22 0) with ⟨_, t, ht, hc⟩ | e
  · have : t = 0 := by omega
    subst this
    simp [Ex.A] at hc
  · exact ⟨_, e⟩

/-- The mask has a column that `A` does not have. -/
example : ∃ A B M : CSR Nat, StatArgs A B M ∧ 0 < A.rows ∧ ¬ StatRow A B M 0 :=
  ⟨⟨1, 1, 1, [0, 1], [0], [1], true⟩, ⟨1, 2, 1, [0, 1], [1], [1], true⟩, ⟨1, 2, 1, [0, 1], [1], [1], true⟩,
    ⟨⟨rfl, rfl, rfl, by decide, rfl, rfl, rfl, by decide⟩, ⟨rfl, rfl, rfl, by decide, rfl, rfl, rfl, by decide⟩,
      ⟨rfl, rfl, rfl, by decide, rfl, rfl, rfl, by decide⟩, rfl, rfl⟩, by decide, fun h => absurd (h.mask 1 (by decide)) (by decide)⟩

end Verif.Props
