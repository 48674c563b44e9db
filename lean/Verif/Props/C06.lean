import Verif.Lemmas.Never
import Verif.Props.Examples

/-! # C06, C07, C38: the masked multiply with the heap row algorithms -/

namespace Verif.Props

open Verif.Model Verif.Spec

variable {V : Type}

/-- C06: for sorted `B` and `M` and an associative and commutative addition, the one-phase and the two-phase call
with the heap algorithm compute the masked product, for every inspection depth for which `maskIdx + Inspect` does not
wrap around (0, 1, unbounded, or any depth below `2^64 - nnz(M)`), every thread count and every schedule. -/
theorem C06_heap (mul add : V → V → V) (hadd : AssocComm add) {A B M : CSR V} (h : Valid A B M)
    (sB : B.SortedRows) (sM : M.SortedRows) {insp : Nat}
    (hd : insp ≤ 1 ∨ insp = 2 ^ 64 - 1 ∨ M.nnz + insp < 2 ^ 64)
    (zb : Bool) {numThreads dflt : Nat} (hn : 0 < setNumThreads numThreads dflt) :
    ∃ C, Computes (spgemm1p (Heap.heap insp) mul add A B M zb numThreads dflt) A.rows
        (setNumThreads numThreads dflt) C ∧
      Computes (spgemm2p (Heap.heap insp) mul add A B M zb numThreads dflt) A.rows
        (setNumThreads numThreads dflt) C ∧
      IsMasked mul add A B M C := by
  have hc := Heap.contract (mul := mul) hadd ⟨h.wfA, h.wfB, h.wfM, h.shapes, sM.nodup⟩ sB sM hd
  exact ⟨maskedMat mul add A B M zb,
    computes1p h.wfA h.wfB h.wfM h.shapes hc h.rowsPos zb hn,
    computes2p h.wfA h.wfB h.wfM h.shapes hc h.rowsPos zb hn,
    maskedMat_isMasked h.shapes.ma zb sM.nodup⟩

theorem intAdd : AssocComm (fun a b : Int => a + b) := ⟨Int.add_assoc, Int.add_comm⟩

/-- The hypotheses hold for a mask with an empty row, depth 2 and two threads. -/
example : ∃ C, Computes (spgemm1p (Heap.heap 2) (· * ·) (· + ·) Ex.A Ex.B Ex.M true 2 1) 3 2 C ∧
    Computes (spgemm2p (Heap.heap 2) (· * ·) (· + ·) Ex.A Ex.B Ex.M true 2 1) 3 2 C ∧
    IsMasked (· * ·) (· + ·) Ex.A Ex.B Ex.M C :=
  C06_heap _ _ intAdd Ex.validM Ex.sortedB Ex.sortedM (by decide) true (by decide)

/-- Concrete runs return a non-empty matrix, for each kind of depth. -/
example : spgemm1p (Heap.heap 0) (· * ·) (· + ·) Ex.A Ex.B Ex.M true 2 1 Ex.sched2 = .ok (some Ex.C) := by
  decide +kernel

example : spgemm2p (Heap.heap 1) (· * ·) (· + ·) Ex.A Ex.B Ex.M true 2 1 Ex.sched2 = .ok (some Ex.C) := by
  decide +kernel

example : spgemm1p (Heap.heap 2) (· * ·) (· + ·) Ex.A Ex.B Ex.M true 2 1 Ex.sched2 = .ok (some Ex.C) := by
  decide +kernel

example : spgemm2p (Heap.heap (2 ^ 64 - 1)) (· * ·) (· + ·) Ex.A Ex.B Ex.M true 2 1 Ex.sched2 = .ok (some Ex.C) := by
  decide +kernel

/-- A mask whose last row `[0,1]` starts at position 2. -/
def wrapMask : CSR Int :=
  { rows := 3, cols := 3, nnz := 4, rowptr := [0, 2, 2, 4], colids := [0, 1, 0, 1], values := [1, 1, 1, 1] }

/-- C42, defect: with depth `2^64 - 2` the sum `maskIdx + Inspect` wraps around and
the search runs out of the mask array. -/
theorem C42_depth_wraps : Valid Ex.A Ex.B wrapMask ∧ Ex.B.SortedRows ∧ wrapMask.SortedRows ∧
    spgemm1p (Heap.heap (2 ^ 64 - 2)) (· * ·) (· + ·) Ex.A Ex.B wrapMask true 2 1 Ex.sched2 = .error .oob := by
  refine ⟨⟨Ex.wfA, Ex.wfB, ⟨rfl, rfl, rfl, by decide, rfl, rfl, rfl, by decide⟩, ⟨rfl, rfl, rfl⟩, by decide⟩,
    Ex.sortedB, by unfold CSR.SortedRows; decide, by decide +kernel⟩

/-- A row of four entries. -/
def row4 : CSR Int :=
  { rows := 1, cols := 4, nnz := 4, rowptr := [0, 4], colids := [0, 1, 2, 3], values := [1, 2, 3, 4] }

/-- A column of four entries. -/
def col4 : CSR Int :=
  { rows := 4, cols := 1, nnz := 4, rowptr := [0, 1, 2, 3, 4], colids := [0, 0, 0, 0], values := [1, 1, 1, 1] }

/-- A full mask of size 1. -/
def mask1 : CSR Int := { rows := 1, cols := 1, nnz := 1, rowptr := [0, 1], colids := [0], values := [1] }

/-- C06, commutativity is needed: with the associative addition "first operand" the heap gives another
value than the sum in the order of `A`. -/
theorem C06_needs_comm : Valid row4 col4 mask1 ∧ col4.SortedRows ∧ mask1.SortedRows ∧
    (∀ a b c : Int, (fun x _ => x : Int → Int → Int) ((fun x _ => x : Int → Int → Int) a b) c =
      (fun x _ => x : Int → Int → Int) a ((fun x _ => x : Int → Int → Int) b c)) ∧
    ¬ ∃ C, Computes (spgemm1p (Heap.heap 0) (· * ·) (fun x _ => x) row4 col4 mask1 true 1 1) 1 1 C ∧
      IsMasked (· * ·) (fun x _ => x) row4 col4 mask1 C := by
  refine ⟨⟨⟨rfl, rfl, rfl, by decide, rfl, rfl, rfl, by decide⟩, ⟨rfl, rfl, rfl, by decide, rfl, rfl, rfl, by decide⟩,
    ⟨rfl, rfl, rfl, by decide, rfl, rfl, rfl, by decide⟩, ⟨rfl, rfl, rfl⟩, by decide⟩,
    by unfold CSR.SortedRows; decide, by unfold CSR.SortedRows; decide, fun _ _ _ => rfl, ?_⟩
  rintro ⟨C, h1, h2⟩
  have hs : Admissible 1 ⟨[0], List.replicate 40 0, List.replicate 40 0, List.replicate 40 0,
      List.replicate 40 0⟩ := by unfold Admissible; decide
  have hr : spgemm1p (Heap.heap 0) (· * ·) (fun x _ => x) row4 col4 mask1 true 1 1
      ⟨[0], List.replicate 40 0, List.replicate 40 0, List.replicate 40 0, List.replicate 40 0⟩ =
      .ok (some { mask1 with values := [2] }) := by decide +kernel
  have := h1.safe _ hs
  rw [hr] at this
  have hC : C = { mask1 with values := [2] } := by
    rcases this with h | h <;> simp at h
    exact h.symm
  have := (h2.entries 0 (by decide) 0 2).1 (by rw [hC]; decide)
  revert this
  decide

/-- C07 for builds without assertions: for sorted `B` and `M` and an associative and commutative addition, the calls
with the complemented heap algorithm compute the complement-masked product in sorted order. -/
theorem C07_heapC (mul add : V → V → V) (hadd : AssocComm add) {A B M : CSR V} (h : Valid A B M)
    (sB : B.SortedRows) (sM : M.SortedRows)
    (zb : Bool) {numThreads dflt : Nat} (hn : 0 < setNumThreads numThreads dflt) :
    ∃ C, Computes (spgemm1p (Heap.heapC true) mul add A B M zb numThreads dflt) A.rows
        (setNumThreads numThreads dflt) C ∧
      Computes (spgemm2p (Heap.heapC true) mul add A B M zb numThreads dflt) A.rows
        (setNumThreads numThreads dflt) C ∧
      IsComplMasked mul add A B M C ∧ C.SortedRows := by
  have hc := Heap.contractC (mul := mul) hadd ⟨h.wfA, h.wfB, h.wfM, h.shapes, sM.nodup⟩ sB sM
    (ndebug := true) (.inl rfl)
  exact ⟨complMat true mul add A B M zb,
    computes1p h.wfA h.wfB h.wfM h.shapes hc h.rowsPos zb hn,
    computes2p h.wfA h.wfB h.wfM h.shapes hc h.rowsPos zb hn,
    complMat_isCompl true zb, complMat_sorted zb⟩

/-- C07 for builds with assertions, when every row with products has a non-empty mask row. -/
theorem C07_heapC_asserts (mul add : V → V → V) (hadd : AssocComm add) {A B M : CSR V} (h : Valid A B M)
    (sB : B.SortedRows) (sM : M.SortedRows)
    (hne : ∀ i < A.rows, touched A B i ≠ [] → M.rowCols i ≠ [])
    (zb : Bool) {numThreads dflt : Nat} (hn : 0 < setNumThreads numThreads dflt) :
    ∃ C, Computes (spgemm1p (Heap.heapC false) mul add A B M zb numThreads dflt) A.rows
        (setNumThreads numThreads dflt) C ∧
      Computes (spgemm2p (Heap.heapC false) mul add A B M zb numThreads dflt) A.rows
        (setNumThreads numThreads dflt) C ∧
      IsComplMasked mul add A B M C ∧ C.SortedRows := by
  have hc := Heap.contractC (mul := mul) hadd ⟨h.wfA, h.wfB, h.wfM, h.shapes, sM.nodup⟩ sB sM
    (ndebug := false) (.inr fun i hi hf => hne i hi (by
      intro ht
      apply hf
      rw [touched_eq] at ht
      have : visits A B i = [] := List.map_eq_nil_iff.1 ht
      simp [flopsOf, this]))
  exact ⟨complMat true mul add A B M zb,
    computes1p h.wfA h.wfB h.wfM h.shapes hc h.rowsPos zb hn,
    computes2p h.wfA h.wfB h.wfM h.shapes hc h.rowsPos zb hn,
    complMat_isCompl true zb, complMat_sorted zb⟩

example : ∃ C, Computes (spgemm1p (Heap.heapC true) (· * ·) (· + ·) Ex.A Ex.B Ex.M true 2 1) 3 2 C ∧
    Computes (spgemm2p (Heap.heapC true) (· * ·) (· + ·) Ex.A Ex.B Ex.M true 2 1) 3 2 C ∧
    IsComplMasked (· * ·) (· + ·) Ex.A Ex.B Ex.M C ∧ C.SortedRows :=
  C07_heapC _ _ intAdd Ex.validM Ex.sortedB Ex.sortedM true (by decide)

/-- A mask with sorted, non-empty rows `[1]`, `[0]`, `[0,2]`. -/
def fullMask : CSR Int :=
  { rows := 3, cols := 3, nnz := 4, rowptr := [0, 1, 2, 4], colids := [1, 0, 0, 2], values := [1, 1, 1, 1] }

theorem fullMask_valid : Valid Ex.A Ex.B fullMask :=
  ⟨Ex.wfA, Ex.wfB, ⟨rfl, rfl, rfl, by decide, rfl, rfl, rfl, by decide⟩, ⟨rfl, rfl, rfl⟩, by decide⟩

theorem fullMask_sorted : fullMask.SortedRows := by unfold CSR.SortedRows; decide

theorem fullMask_rows : ∀ i < Ex.A.rows, touched Ex.A Ex.B i ≠ [] → fullMask.rowCols i ≠ [] := by decide

example : ∃ C, Computes (spgemm1p (Heap.heapC false) (· * ·) (· + ·) Ex.A Ex.B fullMask true 2 1) 3 2 C ∧
    Computes (spgemm2p (Heap.heapC false) (· * ·) (· + ·) Ex.A Ex.B fullMask true 2 1) 3 2 C ∧
    IsComplMasked (· * ·) (· + ·) Ex.A Ex.B fullMask C ∧ C.SortedRows :=
  C07_heapC_asserts _ _ intAdd fullMask_valid Ex.sortedB fullMask_sorted fullMask_rows true (by decide)

/-- A concrete run returns a non-empty matrix. -/
example : spgemm1p (Heap.heapC true) (· * ·) (· + ·) Ex.A Ex.B Ex.M true 2 1 Ex.sched2 =
    .ok (some { rows := 3, cols := 3, nnz := 3, rowptr := [0, 1, 2, 3], colids := [2, 2, 0], values := [2, 15, 4] }) := by
  decide +kernel

/-- C38: without assertions a row with an empty mask row is the plain product row (a consequence of C07). -/
theorem C38_ndebug_partial (mul add : V → V → V) (hadd : AssocComm add) {A B M : CSR V} (h : Valid A B M)
    (sB : B.SortedRows) (sM : M.SortedRows)
    (zb : Bool) {numThreads dflt : Nat} (hn : 0 < setNumThreads numThreads dflt) :
    ∃ C, Computes (spgemm1p (Heap.heapC true) mul add A B M zb numThreads dflt) A.rows
        (setNumThreads numThreads dflt) C ∧
      Computes (spgemm2p (Heap.heapC true) mul add A B M zb numThreads dflt) A.rows
        (setNumThreads numThreads dflt) C ∧
      ∀ i < A.rows, M.rowCols i = [] → ∀ j v, (j, v) ∈ C.row i ↔ dot mul add A B i j = some v := by
  obtain ⟨C, h1, h2, h3, -⟩ := C07_heapC mul add hadd h sB sM zb hn
  refine ⟨C, h1, h2, ?_⟩
  intro i hi hm j v
  rw [h3.entries i hi j v, hm]
  simp

/-- C38, defect: with assertions a run on valid sorted inputs with an empty mask row (row 1 of `Ex.M`) stops with a
failing assertion, one-phase and two-phase. -/
theorem C38_assert_fails : Valid Ex.A Ex.B Ex.M ∧ Ex.B.SortedRows ∧ Ex.M.SortedRows ∧
    spgemm1p (Heap.heapC false) (· * ·) (· + ·) Ex.A Ex.B Ex.M true 2 1 Ex.sched2 = .error .assertion ∧
    spgemm2p (Heap.heapC false) (· * ·) (· + ·) Ex.A Ex.B Ex.M true 2 1 Ex.sched2 = .error .assertion :=
  ⟨Ex.validM, Ex.sortedB, Ex.sortedM, by decide +kernel, by decide +kernel⟩

/-- C38, defect for all inputs: with assertions the row functions fail on every empty mask row. -/
theorem C38_row_fails (mul add : V → V → V) {A B M : CSR V} (hM : M.WF) {i : Nat} (hi : i < M.rows)
    (hm : M.rowCols i = []) (s : Heap.HP) :
    Heap.numericRowC false mul add A B M i s = .error .assertion ∧
      Heap.symbolicRowC false A B M i s = .error .assertion :=
  heapC_row_fails mul add hM hi hm s

/-- C38, defect for all inputs: with assertions no call returns when a row of the product has a term and the mask has no entry in that row,
one-phase and two-phase, for every number of threads and every schedule. -/
theorem C38_never (mul add : V → V → V) {A B M : CSR V} (h : Valid A B M) {i : Nat} (hi : i < A.rows) (ht : touched A B i ≠ [])
    (hm : M.rowCols i = []) (zb : Bool) {numThreads dflt : Nat} (hn : 0 < setNumThreads numThreads dflt) (sch : Scheds)
    (hs : Admissible A.rows sch) (C : CSR V) :
    spgemm1p (Heap.heapC false) mul add A B M zb numThreads dflt sch ≠ .ok (some C) ∧
      spgemm2p (Heap.heapC false) mul add A B M zb numThreads dflt sch ≠ .ok (some C) :=
  heapC_never h hi ht hm zb hn sch hs C

example := C38_never (· * ·) (· + ·) Ex.validM (i := 1) (by decide) (by decide) (by decide) true (numThreads := 2) (dflt := 1) (by decide)

end Verif.Props
