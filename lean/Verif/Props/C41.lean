import Verif.Lemmas.MsaNd
import Verif.Lemmas.HashAlg
import Verif.Lemmas.HashDup
import Verif.Lemmas.Run
import Verif.Props.Examples

/-! # C41: masks with repeated columns

`IsMasked` and `IsComplMasked` speak about which columns a mask row lists, not how often, and
require that the result lists every column once. So for a mask with repeated columns they say
that the result is that of the mask without the repetitions.

The property is false for the hash algorithms (non-termination of the masked one, wrong counts
in the two-phase complemented one) and, with assertions enabled, for MSA. It holds for MSA
compiled with `NDEBUG` and for the one-phase complemented hash call. -/

namespace Verif.Props

open Verif.Model Verif.Spec

variable {V : Type}

/-! ## What holds -/

/-- C41 for MSA with the one-array accumulator, compiled with `NDEBUG`; no condition on the mask rows. -/
theorem C41_msa1A_ndebug_partial (mul add : V → V → V) {A B M : CSR V} (h : Valid A B M) (zb : Bool)
    {numThreads dflt : Nat} (hn : 0 < setNumThreads numThreads dflt) :
    ∃ C, Computes (spgemm1p Msa.msa1Nd mul add A B M zb numThreads dflt) A.rows (setNumThreads numThreads dflt) C ∧
      Computes (spgemm2p Msa.msa1Nd mul add A B M zb numThreads dflt) A.rows (setNumThreads numThreads dflt) C ∧
      IsMasked mul add A B M C := by
  have hi : Msa.InputsD A B M := ⟨h.wfA, h.wfB, h.wfM, h.shapes⟩
  have hc := Msa.contract1Nd (mul := mul) (add := add) hi
  exact ⟨maskedMat mul add A B (Msa.dedup M) zb,
    computes1p h.wfA h.wfB h.wfM h.shapes hc h.rowsPos zb hn,
    computes2p h.wfA h.wfB h.wfM h.shapes hc h.rowsPos zb hn,
    Msa.isMasked_dedup hi (maskedMat_isMasked (M := Msa.dedup M) h.shapes.ma zb hi.dedup.nodup)⟩

/-- C41 for MSA with the two-array accumulator, compiled with `NDEBUG`. -/
theorem C41_msa2A_ndebug_partial (mul add : V → V → V) {A B M : CSR V} (h : Valid A B M) (zb : Bool)
    {numThreads dflt : Nat} (hn : 0 < setNumThreads numThreads dflt) :
    ∃ C, Computes (spgemm1p Msa.msa2Nd mul add A B M zb numThreads dflt) A.rows (setNumThreads numThreads dflt) C ∧
      Computes (spgemm2p Msa.msa2Nd mul add A B M zb numThreads dflt) A.rows (setNumThreads numThreads dflt) C ∧
      IsMasked mul add A B M C := by
  have hi : Msa.InputsD A B M := ⟨h.wfA, h.wfB, h.wfM, h.shapes⟩
  have hc := Msa.contract2Nd (mul := mul) (add := add) hi
  exact ⟨maskedMat mul add A B (Msa.dedup M) zb,
    computes1p h.wfA h.wfB h.wfM h.shapes hc h.rowsPos zb hn,
    computes2p h.wfA h.wfB h.wfM h.shapes hc h.rowsPos zb hn,
    Msa.isMasked_dedup hi (maskedMat_isMasked (M := Msa.dedup M) h.shapes.ma zb hi.dedup.nodup)⟩

/-- C41 for the complemented MSA algorithms, compiled with `NDEBUG`. -/
theorem C41_msaC_ndebug_partial (sorted : Bool) (mul add : V → V → V) {A B M : CSR V} (h : Valid A B M) (zb : Bool)
    {numThreads dflt : Nat} (hn : 0 < setNumThreads numThreads dflt) :
    ∃ C, Computes (spgemm1p (Msa.msa1CNd sorted) mul add A B M zb numThreads dflt) A.rows
        (setNumThreads numThreads dflt) C ∧
      Computes (spgemm2p (Msa.msa1CNd sorted) mul add A B M zb numThreads dflt) A.rows
        (setNumThreads numThreads dflt) C ∧
      Computes (spgemm1p (Msa.msa2CNd sorted) mul add A B M zb numThreads dflt) A.rows
        (setNumThreads numThreads dflt) C ∧
      Computes (spgemm2p (Msa.msa2CNd sorted) mul add A B M zb numThreads dflt) A.rows
        (setNumThreads numThreads dflt) C ∧
      IsComplMasked mul add A B M C ∧ (sorted = true → C.SortedRows) := by
  have hi : Msa.InputsD A B M := ⟨h.wfA, h.wfB, h.wfM, h.shapes⟩
  have h1 := Msa.contract1CNd (mul := mul) (add := add) hi sorted
  have h2 := Msa.contract2CNd (mul := mul) (add := add) hi sorted
  refine ⟨complMat sorted mul add A B (Msa.dedup M) zb,
    computes1p h.wfA h.wfB h.wfM h.shapes h1 h.rowsPos zb hn,
    computes2p h.wfA h.wfB h.wfM h.shapes h1 h.rowsPos zb hn,
    computes1p h.wfA h.wfB h.wfM h.shapes h2 h.rowsPos zb hn,
    computes2p h.wfA h.wfB h.wfM h.shapes h2 h.rowsPos zb hn,
    Msa.isCompl_dedup hi (complMat_isCompl sorted zb), ?_⟩
  rintro rfl
  exact complMat_sorted zb

/-- C41 for the one-phase complemented hash call (assertions or not); no condition on the mask rows. -/
theorem C41_hashC_one_phase_partial (sorted : Bool) (mul add : V → V → V) {A B M : CSR V} (h : Valid A B M) (zb : Bool)
    {numThreads dflt : Nat} (hn : 0 < setNumThreads numThreads dflt) :
    ∃ C, Computes (spgemm1p (Hash.hashC sorted) mul add A B M zb numThreads dflt) A.rows
        (setNumThreads numThreads dflt) C ∧
      IsComplMasked mul add A B M C ∧ (sorted = true → C.SortedRows) ∧ (sorted = false → FirstTouchOrder A B C) := by
  have hc : Contract1 (Hash.hashC sorted) mul add A B M (complRow sorted mul add A B M) :=
    { bound := fun _ _ => complRow_bound
      num := fun sz => ⟨Hash.Clean (Hash.adjustSize (sz.maxM + sz.maxFlops)), Hash.fresh_clean _ _, by
        intro i hi hcov _ f hf acc hacc
        have hb : (complRow sorted mul add A B M i).length ≤ flopsOf true A B M i :=
          Nat.le_trans complRow_bound (boundOf_le _ _ _ _ _)
        have hf : f = flopsOf true A B M i ∨ f = (complRow sorted mul add A B M i).length ∧ f ≠ 0 := hf
        have hf' : (complCols A B M i).length ≤ f ∧ f ≤ flopsOf true A B M i := by
          rw [Msa.complRow_length] at hb
          rcases hf with rfl | ⟨rfl, _⟩
          · exact ⟨hb, Nat.le_refl _⟩
          · rw [Msa.complRow_length]; exact ⟨Nat.le_refl _, hb⟩
        have h1 : (M.row i).length ≤ sz.maxM := hcov.m rfl
        have h2 : flopsOf true A B M i ≤ sz.maxFlops := hcov.f rfl
        refine Hash.numericRowC_okD h.wfA h.wfB h.wfM h.shapes hi sorted mul add (Hash.adjustSize_mono ?_) hf'.1 hacc
        rw [Hash.rowCols_row_length h.wfM]; omega⟩ }
  have hcomp := computes1p_num h.wfA h.wfB h.wfM h.shapes hc h.rowsPos zb hn
  refine ⟨complMat sorted mul add A B M zb, hcomp, complMat_isCompl sorted zb, ?_, ?_⟩
  · rintro rfl; exact complMat_sorted zb
  · rintro rfl; exact complMat_firstTouch zb

/-! ## What does not hold -/

/-- The masked hash algorithm never finishes a row whose mask row lists a column twice: it looks for a key it has
just removed and the loop has no other exit. -/
theorem C41_hash_diverges {A B M : CSR V} (h : Valid A B M) {row : Nat} (hr : row < A.rows)
    (hdup : ¬ (M.rowCols row).Nodup) (mul add : V → V → V) {sz : Sizes} (hsz : (M.rowCols row).length ≤ sz.maxM)
    (flops : Nat) :
    (Hash.hash : RowAlg V).numRow mul add A B M row flops ((Hash.hash : RowAlg V).initN B.cols sz) =
      .error .diverge :=
  Hash.numericRow_dup h.wfA h.wfB h.wfM h.shapes hr hdup mul add (Hash.adjustSize_mono hsz) (Hash.fresh_clean _ _)

/-- The symbolic phase of the complemented hash algorithm subtracts a touched mask column as often as the mask lists
it, so that the count is too small whenever a touched column is listed twice. -/
theorem C41_hashC_count_too_small {A B M : CSR V} (h : Valid A B M) {row : Nat} (hr : row < A.rows)
    {c : Nat} (hc : c ∈ touched A B row) (hdup : 1 < (M.rowCols row).count c) (sorted : Bool) (mul add : V → V → V)
    {sz : Sizes} (hsz : (M.rowCols row).length + (touched A B row).length ≤ sz.maxM + sz.maxFlops) :
    ∃ t n, Hash.symbolicRowC A B M row (touched A B row).length (Hash.fresh () (sz.maxM + sz.maxFlops)) = .ok (t, n) ∧
      n < (complRow sorted mul add A B M row).length := by
  have hv : (visits A B row).length = (touched A B row).length := by rw [touched_eq, List.length_map]
  obtain ⟨t, r1, _⟩ := Hash.symbolicRowC_okD h.wfA h.wfB h.wfM h.shapes hr (flops := (touched A B row).length)
    (Hash.adjustSize_mono hsz) (Nat.le_of_eq hv) (Hash.fresh_clean () (sz.maxM + sz.maxFlops))
  refine ⟨t, _, r1, ?_⟩
  rw [Msa.complRow_length]
  have hs := Msa.firsts_split (firsts (M.rowCols row)) ((visits A B row).map (·.1)) (firsts_nodup _)
  have e1 : (complCols A B M row).length =
      (firsts (((visits A B row).map (·.1)).filter fun c => c ∉ firsts (M.rowCols row))).length := by
    unfold complCols; simp only [mem_firsts]
  rw [e1]
  rw [touched_eq] at hc
  have hlt : ((firsts (M.rowCols row)).filter fun c => c ∈ (visits A B row).map (·.1)).length <
      ((M.rowCols row).filter fun c => c ∈ (visits A B row).map (·.1)).length := by
    have h1 : ((firsts (M.rowCols row)).filter fun c => c ∈ (visits A B row).map (·.1)).Nodup :=
      (firsts_nodup _).filter _
    have h3 : 1 < ((M.rowCols row).filter fun c => c ∈ (visits A B row).map (·.1)).count c := by
      rw [List.count_filter (by simpa using hc)]; exact hdup
    have h4 : ((firsts (M.rowCols row)).filter fun c => c ∈ (visits A B row).map (·.1)).length ≤
        (((M.rowCols row).filter fun c => c ∈ (visits A B row).map (·.1)).erase c).length := by
      apply nodup_length_le h1
      intro x hx
      rw [List.mem_filter, mem_firsts] at hx
      have hx' : x ∈ (M.rowCols row).filter fun c => c ∈ (visits A B row).map (·.1) := List.mem_filter.2 hx
      by_cases hxc : x = c
      · subst hxc
        rw [← List.count_pos_iff, List.count_erase_self]
        omega
      · exact (List.mem_erase_of_ne hxc).2 hx'
    rw [List.length_erase_of_mem (List.count_pos_iff.1 (by omega))] at h4
    have := List.count_le_length (a := c) (l := (M.rowCols row).filter fun c => c ∈ (visits A B row).map (·.1))
    omega
  omega

/-- A mask whose first row lists column 0 twice. -/
def dupM : CSR Int :=
  { rows := 3, cols := 3, nnz := 4, rowptr := [0, 2, 2, 4], colids := [0, 0, 1, 2], values := [1, 1, 1, 1] }

theorem wfDup : dupM.WF := ⟨rfl, rfl, rfl, by decide, rfl, rfl, rfl, by decide⟩

theorem validDup : Valid Ex.A Ex.B dupM := ⟨Ex.wfA, Ex.wfB, wfDup, ⟨rfl, rfl, rfl⟩, by decide⟩

/-- A whole one-phase call with the masked hash algorithm does not end. -/
theorem C41_hash_violated :
    spgemm1p Hash.hash (· * ·) (· + ·) Ex.A Ex.B dupM true 2 1 Ex.sched2 = .error .diverge := by
  decide +kernel

/-- A schedule for one thread. -/
def sched1 : Scheds :=
  let l := List.replicate 60 0
  ⟨[2, 0, 1], l, l, l, l⟩

/-- A whole two-phase call with the complemented hash algorithm writes out of bounds. -/
theorem C41_hashC_two_phase_violated :
    spgemm2p (Hash.hashC false) (· * ·) (· + ·) Ex.A Ex.B dupM true 1 1 sched1 = .error .oob := by
  decide +kernel

/-- With assertions enabled a whole call with MSA fails. -/
theorem C41_msa_assertion :
    spgemm1p Msa.msa1 (· * ·) (· + ·) Ex.A Ex.B dupM true 2 1 Ex.sched2 = .error .assertion := by
  decide +kernel

/-- The hypotheses of the theorems above hold for this mask. -/
example := C41_msa1A_ndebug_partial (· * ·) (· + ·) validDup true (numThreads := 2) (dflt := 1) (by decide)

example : spgemm2p Msa.msa2Nd (· * ·) (· + ·) Ex.A Ex.B dupM true 2 1 Ex.sched2 =
    .ok (some { rows := 3, cols := 3, nnz := 2, rowptr := [0, 1, 1, 2], colids := [0, 2], values := [7, 33] }) := by
  decide +kernel

example := C41_hash_diverges validDup (row := 0) (by decide) (by decide) (· * ·) (· + ·) (sz := { maxM := 2 })
  (by decide) 4

example := C41_hashC_count_too_small validDup (row := 0) (c := 0) (by decide) (by decide) (by decide) true
  (fun a b : Int => a * b) (fun a b => a + b) (sz := { maxM := 2, maxFlops := 4 }) (by decide)

end Verif.Props
