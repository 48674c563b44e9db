import Verif.Lemmas.Reorder
import Verif.Lemmas.Dot
import Verif.Lemmas.MatObj
import Verif.Props.C21

/-! # C58: sorting, shuffling and testing the order of entries -/

namespace Verif.Props
open Verif Reorder Model
open _root_.Verif.Spec (SortsBy SameRows)

variable {V : Type}

/-- C58, sorting: for every well-formed matrix, every sorting function that meets the contract of `std::sort` and every
order of the iterations, `sortIds` ends, only rearranges the entries inside the rows (values stay with their
columns), and leaves every row in column order. -/
theorem C58_sort {sortf : List (Nat × V) → List (Nat × V)} (hs : SortsBy Prod.fst sortf) {A : CSR V} (h : A.WF)
    {order : List Nat} (ho : order.Perm (List.range A.rows)) :
    ∃ C, sortIds sortf order A = .ok C ∧ SameRows A C ∧
      (∀ i < A.rows, (C.rowCols i).Pairwise (· ≤ ·)) ∧ (A.NodupRows → C.SortedRows) := by
  obtain ⟨L, e, h1, h2⟩ := sortIds_ok hs h ho
  have hp : ∀ i < A.rows, (slice L (A.ptr i) (A.ptr (i + 1))).Perm (A.row i) := by
    intro i hi
    rw [h2 i hi]
    exact hs.perm _
  have hw := withEntries_wf h h1 hp
  have hle : ∀ i < A.rows, ((withEntries A L).rowCols i).Pairwise (· ≤ ·) := by
    intro i hi
    rw [← CSR.row_map_fst hw, withEntries_row, h2 i hi, List.pairwise_map]
    exact hs.sorted _
  refine ⟨_, e, ⟨hw, rfl, rfl, rfl, fun i hi => ?_⟩, hle, fun hn i hi => ?_⟩
  · rw [withEntries_row]
    exact hp i hi
  · have h3 : ((withEntries A L).rowCols i).Nodup := by
      have h4 : ((withEntries A L).rowCols i).Perm (A.rowCols i) := by
        rw [← CSR.row_map_fst hw, ← CSR.row_map_fst h, withEntries_row]
        exact (hp i hi).map _
      exact h4.nodup_iff.2 (hn i hi)
    exact List.Pairwise.imp₂ (fun a b h1 h2 => Nat.lt_of_le_of_ne h1 h2) (hle i hi) h3

/-- C58, shuffling: whatever the random numbers, `shuffleIds` ends and only rearranges the entries inside the rows.
What is missing for the full claim are matrices with empty rows and a signed index type, see
`C58_violated_empty_row`. -/
theorem C58_shuffle_partial {signed : Bool} (rnd : Nat → Nat) {A : CSR V} (h : A.WF)
    (hs : signed = true → ∀ i < A.rows, A.row i ≠ []) :
    ∃ C, shuffleIds signed rnd A = .ok C ∧ SameRows A C := by
  have hs' : signed = true → ∀ i < A.rows, A.ptr i < A.ptr (i + 1) := by
    intro e i hi
    have := List.length_pos_iff.2 (hs e i hi)
    rw [CSR.row_length h hi] at this
    omega
  obtain ⟨L, e, h1, h2⟩ := shuffleIds_ok rnd h hs'
  refine ⟨_, e, withEntries_wf h h1 h2, rfl, rfl, rfl, fun i hi => ?_⟩
  rw [withEntries_row]
  exact h2 i hi

/-- C58, shuffling a CSC matrix: the same inside the columns. -/
theorem C58_shuffle_csc_partial {signed : Bool} (rnd : Nat → Nat) {B : CSC V} (h : B.WF)
    (hs : signed = true → ∀ j < B.cols, B.col j ≠ []) :
    ∃ C, shuffleIdsC signed rnd B = .ok C ∧ C.WF ∧ C.rows = B.rows ∧ C.cols = B.cols ∧
      ∀ j < B.cols, (C.col j).Perm (B.col j) := by
  obtain ⟨C, e, hC⟩ := C58_shuffle_partial rnd (asRows_wf.2 h) hs
  unfold shuffleIds at e
  obtain ⟨⟨ids, vals⟩, e1, e2⟩ := MatObj.bind_eq_ok e
  obtain rfl := Except.ok.inj e2
  refine ⟨{ B with rowids := ids, values := vals }, ?_, asRows_wf.1 hC.wf, rfl, rfl, hC.perm⟩
  unfold shuffleIdsC
  exact (congrArg (· >>= _) e1).trans rfl

/-- The claim fails for a signed index type as soon as one row is empty: the random distribution is constructed with the upper
bound -1 below its lower bound 0. -/
theorem C58_violated_empty_row (rnd : Nat → Nat) {A : CSR V} (h : A.WF) {i : Nat} (hi : i < A.rows)
    (he : A.row i = []) : ∃ e, shuffleIds true rnd A = .error e := by
  have hlen := CSR.row_length h hi
  rw [he] at hlen
  have h0 : A.ptr (i + 1) - A.ptr i = 0 := hlen.symm
  obtain ⟨e, h1⟩ := Dot.foldlM_fails (f := shuffleRow true rnd A.rowptr) (l := List.range A.rows)
    ⟨i, List.mem_range.2 hi, fun s => ⟨.assertion, by
      unfold shuffleRow
      rw [CSR.rd_ptr h (by omega), ok_bind, CSR.rd_ptr h (by omega), ok_bind, h0]
      rfl⟩⟩ (A.colids, A.values)
  refine ⟨e, ?_⟩
  unfold shuffleIds
  rw [h1]
  rfl

theorem csr_ext_rows {A C : CSR V} (hA : A.WF) (hC : C.WF) (h1 : C.rows = A.rows) (h2 : C.cols = A.cols)
    (h3 : ∀ i < A.rows, C.row i = A.row i) : C = A := by
  have hptr : ∀ i ≤ A.rows, C.ptr i = A.ptr i := by
    intro i
    induction i with
    | zero => intro _; rw [hC.ptrFirst, hA.ptrFirst]
    | succ i ih =>
      intro hi
      have e := congrArg List.length (h3 i hi)
      rw [CSR.row_length hC (by omega), CSR.row_length hA hi] at e
      have := ih (by omega)
      have := hA.ptrMono i hi
      have := hC.ptrMono i (by omega)
      omega
  have hn : C.nnz = A.nnz := by rw [← hC.ptrLast, ← hA.ptrLast, h1]; exact hptr _ (Nat.le_refl _)
  have hrp : C.rowptr = A.rowptr := by
    apply List.ext_getElem?
    intro i
    by_cases hi : i < A.rows + 1
    · have := hptr i (by omega)
      unfold CSR.ptr at this
      have l1 : i < C.rowptr.length := by rw [hC.ptrLen]; omega
      have l2 : i < A.rowptr.length := by rw [hA.ptrLen]; omega
      simp only [List.getD_eq_getElem?_getD, List.getElem?_eq_getElem l1, List.getElem?_eq_getElem l2,
        Option.getD_some] at this
      rw [List.getElem?_eq_getElem l1, List.getElem?_eq_getElem l2, this]
    · rw [List.getElem?_eq_none (by rw [hC.ptrLen]; omega), List.getElem?_eq_none (by rw [hA.ptrLen]; omega)]
  have hz : C.colids.zip C.values = A.colids.zip A.values := by
    apply List.ext_getElem?
    intro k
    by_cases hk : k < A.nnz
    · obtain ⟨r, hr, h4, h5⟩ := cover_of (Q := A.ptr) hA.ptrFirst A.rows k (by rw [hA.ptrLast]; exact hk)
      have e := congrArg (fun l => l[k - A.ptr r]?) (h3 r hr)
      simp only [CSR.row] at e
      rw [hptr r (by omega), hptr (r + 1) (by omega), slice_getElem? (by omega), slice_getElem? (by omega),
        show A.ptr r + (k - A.ptr r) = k by omega] at e
      exact e
    · rw [List.getElem?_eq_none (by rw [CSR.zip_length hC]; omega),
        List.getElem?_eq_none (by rw [CSR.zip_length hA]; omega)]
  have e1 := unz_zip (hA.colLen.trans hA.valLen.symm)
  have e2 := unz_zip (hC.colLen.trans hC.valLen.symm)
  rw [hz, e1] at e2
  obtain ⟨e3, e4⟩ := Prod.mk.inj e2
  have h7 := hA.zero
  have h8 := hC.zero
  cases A
  cases C
  simp_all

/-- C58: sorting undoes shuffling. -/
theorem C58_restore_partial {sortf : List (Nat × V) → List (Nat × V)} (hs : SortsBy Prod.fst sortf)
    {signed : Bool} (rnd : Nat → Nat) {A : CSR V} (h : A.WF) (hsort : A.SortedRows)
    (hne : signed = true → ∀ i < A.rows, A.row i ≠ []) {order : List Nat} (ho : order.Perm (List.range A.rows)) :
    (shuffleIds signed rnd A >>= sortIds sortf order) = .ok A := by
  obtain ⟨B, e1, hB⟩ := C58_shuffle_partial rnd h hne
  have hnd : B.NodupRows := by
    intro i hi
    rw [hB.rows] at hi
    have h4 : (B.rowCols i).Perm (A.rowCols i) := by
      rw [← CSR.row_map_fst hB.wf, ← CSR.row_map_fst h]
      exact (hB.perm i hi).map _
    exact h4.nodup_iff.2 ((hsort i hi).imp (fun h => Nat.ne_of_lt h))
  obtain ⟨C, e2, hC, _, h3⟩ := C58_sort hs hB.wf (order := order) (by rw [hB.rows]; exact ho)
  rw [e1, ok_bind, e2]
  congr 1
  refine csr_ext_rows h hC.wf (hC.rows.trans hB.rows) (hC.cols.trans hB.cols) fun i hi => ?_
  have hp : (C.row i).Perm (A.row i) := (hC.perm i (by rw [hB.rows]; exact hi)).trans (hB.perm i hi)
  have s1 : (C.row i).Pairwise (fun a b => a.1 < b.1) := by
    have := h3 hnd i (by rw [hC.rows, hB.rows]; exact hi)
    rwa [← CSR.row_map_fst hC.wf, List.pairwise_map] at this
  have s2 : (A.row i).Pairwise (fun a b => a.1 < b.1) := by
    have := hsort i hi
    rwa [← CSR.row_map_fst h, List.pairwise_map] at this
  exact hp.eq_of_pairwise (fun a b _ _ h1 h2 => absurd (Nat.lt_trans h1 h2) (Nat.lt_irrefl _)) s1 s2

/-- C58, testing: the flag that `Sorted` prints is true exactly if no row has a column id smaller than its
predecessor. Repeated column ids count as sorted. -/
theorem C58_test {A : CSR V} (h : A.WF) :
    ∃ b, sortedFlag A.rows A.rowptr A.colids = .ok b ∧
      (b = true ↔ ∀ i < A.rows, (A.rowCols i).Pairwise (· ≤ ·)) := sortedFlag_ok h

/-- C58, testing, by columns. -/
theorem C58_test_csc {B : CSC V} (h : B.WF) :
    ∃ b, sortedFlag B.cols B.colptr B.rowids = .ok b ∧
      (b = true ↔ ∀ j < B.cols, (B.colRows j).Pairwise (· ≤ ·)) := sortedFlag_ok (asRows_wf.2 h)

/-- a matrix with three rows of three, two and one entries -/
def reA : CSR Int := ⟨3, 4, 6, [0, 3, 5, 6], [0, 2, 3, 1, 3, 2], [1, 2, 3, 4, 5, 6], true⟩

theorem reA_wf : reA.WF := ⟨rfl, rfl, rfl, by decide, rfl, rfl, rfl, by decide⟩
theorem reA_sorted : reA.SortedRows := by unfold CSR.SortedRows; decide
theorem reA_rows : ∀ i < reA.rows, reA.row i ≠ [] := by decide

/-- The hypotheses are met; the shuffle of the example changes the matrix. -/
example := C58_restore_partial (isort_sorts Prod.fst) (signed := true) (fun j => 7 * j + 1) reA_wf reA_sorted
  (fun _ => reA_rows) (order := [2, 0, 1]) (by decide)

example : shuffleIds true (fun j => 7 * j + 1) reA =
    .ok ⟨3, 4, 6, [0, 3, 5, 6], [0, 3, 2, 1, 3, 2], [1, 3, 2, 4, 5, 6], true⟩ := by decide +kernel

example : shuffleIds true (fun j => j) (⟨2, 2, 1, [0, 0, 1], [1], [5], true⟩ : CSR Int) = .error .assertion := by
  decide +kernel

end Verif.Props
