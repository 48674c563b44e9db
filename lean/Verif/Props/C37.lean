import Verif.Props.C09

/-! # C37: matrices without rows, and empty results -/

namespace Verif.Props

open Verif.Model Verif.Spec

variable {V : Type}

theorem exclusiveScan_zero (src : List (Option Nat)) (n : Nat) (s1 s2 : List Nat) :
    Scan.exclusiveScan src 0 [] n s1 s2 = .error .oob := rfl

/-- C37 is violated by every algorithm: a call on matrices with zero rows writes out of bounds, with every thread
count and under every schedule (the scan of the work per row stores to the first cell of an array of length zero). -/
theorem C37_zero_rows_violated (a : Algo) (two : Bool) (mul add : V → V → V) {A B M : CSR V} {Bc : CSC V}
    (hs : Shapes A B M) (hB : Bc.rows = B.rows ∧ Bc.cols = B.cols) (h0 : A.rows = 0) (zb : Bool) (nt dflt : Nat)
    (sch : Scheds) (ha : Admissible A.rows sch) :
    a.call two mul add A B Bc M zb nt dflt sch = .error .oob := by
  have hf : sch.flops = [] := by
    unfold Admissible at ha
    rw [h0] at ha
    exact List.perm_nil.1 ha
  have hM0 : M.rows = 0 := by rw [hs.ma, h0]
  have hp : ∀ c, prepare c A B M (setNumThreads nt dflt) sch = .error .oob := by
    intro c
    unfold prepare verifyInputs calculateFlops
    simp [hs.ab, hs.ma, hs.mb, hf, h0, exclusiveScan_zero]
  have hq : Inner.prepare A Bc M (setNumThreads nt dflt) sch = .error .oob := by
    unfold Inner.prepare Inner.verifyInputs Inner.calculateWork
    simp [hs.ab, hs.ma, hs.mb, hB.1, hB.2, hf, h0, exclusiveScan_zero]
  cases a with
  | gen k =>
    cases two
    · show spgemm1p _ _ _ _ _ _ _ _ _ _ = _
      unfold spgemm1p
      simp only [hp, error_bind]
    · show spgemm2p _ _ _ _ _ _ _ _ _ _ = _
      unfold spgemm2p
      simp only [hp, error_bind]
  | inner =>
    cases two
    · show Inner.spgemm1p _ _ _ _ _ _ _ _ _ = _
      unfold Inner.spgemm1p
      simp only [hq, error_bind]
    · show Inner.spgemm2p _ _ _ _ _ _ _ _ _ = _
      unfold Inner.spgemm2p
      simp only [hq, error_bind]

/-- The hypotheses can be met: well-formed matrices without rows. -/
def zeroA : CSR Int := { rows := 0, cols := 3, nnz := 0, rowptr := [0], colids := [], values := [] }

example : zeroA.WF := ⟨rfl, rfl, rfl, by decide, rfl, rfl, rfl, by decide⟩

example (a : Algo) := C37_zero_rows_violated a true (fun a b : Int => a * b) (fun a b => a + b) (A := zeroA)
  (B := Ex.B) (M := zeroA) (Bc := Bc) ⟨rfl, rfl, rfl⟩ ⟨rfl, rfl⟩ rfl true 4 1 ⟨[], [], [], [], []⟩ (List.Perm.refl _)

theorem ofRows_empty {rows cols : Nat} {zb : Bool} {exp : Nat → List (Nat × V)} (h : ∀ i < rows, exp i = []) :
    (ofRows rows cols zb exp).nnz = 0 ∧ (ofRows rows cols zb exp).colids = [] ∧ (ofRows rows cols zb exp).values = [] := by
  have hp : ∀ r, r ≤ rows → psum (lens exp) r = 0 := by
    intro r
    induction r with
    | zero => intro _; rfl
    | succ r ih =>
      intro hr
      simp only [psum]
      rw [ih (by omega)]
      simp [lens, h r (by omega)]
  have hseg : seg exp 0 rows = [] := by
    have := seg_length exp (Nat.zero_le rows)
    rw [hp rows (Nat.le_refl _)] at this
    exact List.length_eq_zero_iff.1 (by simpa using this)
  refine ⟨hp rows (Nat.le_refl _), ?_, ?_⟩
  · show (seg exp 0 rows).map Prod.fst = []
    rw [hseg]; rfl
  · show (seg exp 0 rows).map Prod.snd = []
    rw [hseg]; rfl

theorem row_of_nnz_zero {X : CSR V} (h : X.WF) (h0 : X.nnz = 0) (i : Nat) : X.row i = [] := by
  have h1 : X.colids = [] := List.length_eq_zero_iff.1 (by rw [h.colLen, h0])
  unfold CSR.row
  rw [h1]
  simp [slice]

/-- C37, what holds: with at least one row, a call whose product has no entries because `A`, `B` or (without
complement) the mask has none - in particular when one of them has zero columns, or `B` has zero rows - returns the
empty matrix. Missing: matrices with zero rows, where the statement is false (`C37_zero_rows_violated`). -/
theorem C37_empty_partial (a : Algo) (two : Bool) (mul add : V → V → V) {A B M : CSR V} {Bc : CSC V}
    (h : Valid A B M) (hr : a.Req add A B Bc M) (h0 : A.nnz = 0 ∨ B.nnz = 0 ∨ (a.compl = false ∧ M.nnz = 0))
    (zb : Bool) {nt dflt : Nat} (hn : 0 < setNumThreads nt dflt) :
    ∃ C, Computes (a.call two mul add A B Bc M zb nt dflt) A.rows (setNumThreads nt dflt) C ∧
      C.rows = A.rows ∧ C.cols = B.cols ∧ C.nnz = 0 ∧ C.colids = [] ∧ C.values = [] := by
  have hdot : (A.nnz = 0 ∨ B.nnz = 0) → ∀ i j, Spec.dot mul add A B i j = none := by
    intro h0 i j
    rw [dot_eq, sum1_eq_none, pick_eq_nil]
    intro p hp
    unfold prods visits at hp
    rcases h0 with h0 | h0
    · rw [row_of_nnz_zero h.wfA h0] at hp; simp at hp
    · simp [row_of_nnz_zero h.wfB h0] at hp
  refine ⟨_, algo_computes a two mul add h hr zb hn, ?_⟩
  unfold algoMat
  split
  · rename_i hc
    have := ofRows_empty (rows := A.rows) (cols := B.cols) (zb := zb) (exp := complRow a.sorted mul add A B M) (by
      intro i _
      rw [List.eq_nil_iff_forall_not_mem]
      rintro ⟨j, v⟩ hx
      have hx := (mem_complRow.1 hx).2
      rw [hdot (h0.elim .inl fun h => h.elim .inr fun h => by simp [hc] at h)] at hx
      cases hx)
    exact ⟨rfl, rfl, this⟩
  · have := ofRows_empty (rows := A.rows) (cols := B.cols) (zb := zb) (exp := maskedRow mul add A B M) (by
      intro i hi
      rw [List.eq_nil_iff_forall_not_mem]
      rintro ⟨j, v⟩ hx
      obtain ⟨h1, h2⟩ := mem_maskedRow.1 hx
      rcases h0 with h0 | h0 | ⟨_, h0⟩
      · rw [hdot (.inl h0)] at h2; cases h2
      · rw [hdot (.inr h0)] at h2; cases h2
      · rw [← CSR.row_map_fst h.wfM, row_of_nnz_zero h.wfM h0] at h1
        simp at h1)
    exact ⟨rfl, rfl, this⟩

/-- A mask with three rows and no entries. -/
def emptyM : CSR Int := { rows := 3, cols := 3, nnz := 0, rowptr := [0, 0, 0, 0], colids := [], values := [] }

example := C37_empty_partial (.gen .hash) true (fun a b : Int => a * b) (fun a b => a + b) (A := Ex.A) (B := Ex.B)
  (M := emptyM) (Bc := Bc)
  ⟨Ex.wfA, Ex.wfB, ⟨rfl, rfl, rfl, by decide, rfl, rfl, rfl, by decide⟩, ⟨rfl, rfl, rfl⟩, by decide⟩
  (show emptyM.NodupRows by unfold CSR.NodupRows; decide) (.inr (.inr ⟨rfl, rfl⟩)) true (nt := 2) (dflt := 1) (by decide)

end Verif.Props
