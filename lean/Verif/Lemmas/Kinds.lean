import Verif.Kinds
import Verif.Lemmas.Run
import Verif.Lemmas.MsaAlg
import Verif.Lemmas.HashAlg
import Verif.Lemmas.Mca
import Verif.Lemmas.HeapCompl
import Verif.Lemmas.InnerDriver
import Verif.Lemmas.SameMat

/-! # Facts about all algorithms -/

namespace Verif.Model

open Spec

variable {V : Type} {mul add : V → V → V} {A B M : CSR V}

theorem rowWork_eq (compl : Bool) (A B M : CSR V) (i : Nat) : rowWork compl A B M i = flopsOf compl A B M i := by
  unfold rowWork flopsOf
  rw [touched_eq, List.length_map]
  cases compl <;> by_cases h : M.rowCols i = [] <;> simp [h]

theorem kind_compl (k : Kind) : (k.alg : RowAlg V).compl = k.compl := by cases k <;> rfl

theorem _root_.Verif.Spec.Kind.Req.nodup {k : Kind} (h : k.Req add A B M) : M.NodupRows := by
  cases k <;> first | exact h | exact h.2.nodup | exact h.2.2.1.nodup

/-- The rows to be produced by an algorithm of kind `k`. -/
def kindRow (k : Kind) (mul add : V → V → V) (A B M : CSR V) : Nat → List (Nat × V) :=
  if k.compl then complRow k.sorted mul add A B M else maskedRow mul add A B M

theorem heapC_req {nd : Bool} (h : nd = true ∨ ∀ i < A.rows, touched A B i ≠ [] → M.rowCols i ≠ []) :
    nd = true ∨ ∀ i < A.rows, flopsOf true A B M i ≠ 0 → M.rowCols i ≠ [] := by
  refine h.imp id fun h i hi hf => h i hi ?_
  intro ht
  rw [touched_eq] at ht
  apply hf
  unfold flopsOf
  simpa using ht

/-- Like `Contract`, with the invariants named. -/
structure ContractI (alg : RowAlg V) (mul add : V → V → V) (A B M : CSR V) (exp : Nat → List (Nat × V))
    (InvN : Sizes → alg.N → Prop) (InvS : Sizes → alg.S → Prop) : Prop where
  bound : ∀ i < A.rows, (exp i).length ≤ boundOf alg.compl A B M i
  initN : ∀ sz, InvN sz (alg.initN B.cols sz)
  num : ∀ sz, ∀ i < A.rows, Covers alg.compl alg.calcA alg.calcM alg.calcF A B M sz i →
    flopsOf alg.compl A B M i ≠ 0 →
    ∀ f, (f = flopsOf alg.compl A B M i ∨ f = (exp i).length ∧ f ≠ 0) → ∀ acc, InvN sz acc →
    ∃ acc', alg.numRow mul add A B M i f acc = .ok (acc', exp i) ∧ InvN sz acc'
  initS : ∀ sz, InvS sz (alg.initS B.cols sz)
  sym : ∀ sz, ∀ i < A.rows, Covers alg.compl alg.calcA alg.calcM alg.calcF A B M sz i →
    flopsOf alg.compl A B M i ≠ 0 → ∀ acc, InvS sz acc →
    ∃ acc', alg.symRow A B M i (flopsOf alg.compl A B M i) acc = .ok (acc', (exp i).length) ∧ InvS sz acc'

theorem ContractI.contract {alg : RowAlg V} {exp : Nat → List (Nat × V)} {InvN : Sizes → alg.N → Prop}
    {InvS : Sizes → alg.S → Prop} (h : ContractI alg mul add A B M exp InvN InvS) :
    Contract alg mul add A B M exp :=
  ⟨⟨h.bound, fun sz => ⟨InvN sz, h.initN sz, h.num sz⟩⟩, fun sz => ⟨InvS sz, h.initS sz, h.sym sz⟩⟩

theorem emptyTable_iff {P : Type} {n : Nat} {t : Hash.Tbl P} :
    EmptyTable n t ↔ Hash.Clean (Hash.adjustSize n) t := by
  constructor
  · rintro ⟨h1, h2, h3, h4⟩
    cases ht : t.table with
    | nil =>
      have : Hash.adjustSize n = 0 := by rw [← h3, ht]; rfl
      have h16 := Hash.adjustSize_ge16 n
      omega
    | cons e0 es =>
      refine ⟨t.size, fun i => t.table.getD i e0, ?_, ?_⟩
      · unfold Hash.mkT
        have : t.table = tab (Hash.adjustSize n) (fun i => t.table.getD i e0) := by
          apply List.ext_getElem?
          intro i
          by_cases hi : i < Hash.adjustSize n
          · rw [tab_getElem? hi, List.getElem?_eq_getElem (by omega), List.getD_eq_getElem?_getD,
              List.getElem?_eq_getElem (by omega)]
            rfl
          · rw [List.getElem?_eq_none (by omega), List.getElem?_eq_none (by simp [tab]; omega)]
        cases t
        simp only [Hash.Tbl.mk.injEq] at *
        exact ⟨h2, trivial, this, h1⟩
      · intro i hi
        show (t.table.getD i e0).key = none
        rw [List.getD_eq_getElem?_getD, List.getElem?_eq_getElem (by omega)]
        exact h4 _ (List.getElem_mem _)
  · rintro ⟨N, f, rfl, hf⟩
    refine ⟨rfl, rfl, by simp [Hash.mkT, tab], ?_⟩
    intro e he
    simp only [Hash.mkT, tab, List.mem_map, List.mem_range] at he
    obtain ⟨i, hi, rfl⟩ := he
    exact hf i hi

/-- Every kind of row algorithm meets the contract, and leaves its accumulators clean. -/
theorem kind_contract (k : Kind) (h : Valid A B M) (hr : k.Req add A B M) :
    ContractI k.alg mul add A B M (kindRow k mul add A B M) (k.CleanN B.cols) (k.CleanS B.cols) := by
  have hin : Msa.Inputs A B M := ⟨h.wfA, h.wfB, h.wfM, h.shapes, hr.nodup⟩
  have hb : ∀ i < A.rows, (maskedRow mul add A B M i).length ≤ boundOf false A B M i :=
    fun i hi => maskedRow_bound h.wfM (hin.nodup i (h.shapes.ma ▸ hi))
  cases k with
  | msa1 =>
    refine ⟨hb, fun _ => rfl, ?_, fun _ => rfl, ?_⟩
    · rintro sz i hi - - f - acc rfl
      simp only [Kind.alg, Msa.msa1, Msa.fresh1_eq]
      exact ⟨_, Msa.numericRow1_eq (hin.ok hi) mul add, by simp [Kind.CleanN, Kind.alg, Msa.msa1, Msa.fresh1_eq]⟩
    · rintro sz i hi - - acc rfl
      simp only [Kind.alg, Msa.msa1, Msa.freshS_eq]
      exact ⟨_, Msa.symbolicRow_eq (hin.ok hi) mul add, by simp [Kind.CleanS, Kind.alg, Msa.msa1, Msa.freshS_eq]⟩
  | msa2 =>
    refine ⟨hb, fun _ => rfl, ?_, fun _ => rfl, ?_⟩
    · rintro sz i hi - - f - acc rfl
      simp only [Kind.alg, Msa.msa2, Msa.fresh2_eq]
      exact ⟨_, Msa.numericRow2_eq (hin.ok hi) mul add, by simp [Kind.CleanN, Kind.alg, Msa.msa2, Msa.fresh2_eq]⟩
    · rintro sz i hi - - acc rfl
      simp only [Kind.alg, Msa.msa2, Msa.freshS_eq]
      exact ⟨_, Msa.symbolicRow_eq (hin.ok hi) mul add, by simp [Kind.CleanS, Kind.alg, Msa.msa2, Msa.freshS_eq]⟩
  | msa1C s =>
    refine ⟨fun i _ => complRow_bound, fun _ => rfl, ?_, fun _ => rfl, ?_⟩
    · rintro sz i hi - - f - acc rfl
      simp only [Kind.alg, Msa.msa1C, Msa.fresh1_eq]
      exact ⟨_, Msa.numericRow1C_eq (hin.ok hi) s mul add, by simp [Kind.CleanN, Kind.alg, Msa.msa1C, Msa.fresh1_eq]⟩
    · rintro sz i hi - - acc rfl
      simp only [Kind.alg, Msa.msa1C, Msa.freshS_eq]
      exact ⟨_, Msa.symC hin s hi, by simp [Kind.CleanS, Kind.alg, Msa.msa1C, Msa.freshS_eq]⟩
  | msa2C s =>
    refine ⟨fun i _ => complRow_bound, fun _ => rfl, ?_, fun _ => rfl, ?_⟩
    · rintro sz i hi - - f - acc rfl
      simp only [Kind.alg, Msa.msa2C, Msa.fresh2_eq]
      exact ⟨_, Msa.numericRow2C_eq (hin.ok hi) s mul add, by simp [Kind.CleanN, Kind.alg, Msa.msa2C, Msa.fresh2_eq]⟩
    · rintro sz i hi - - acc rfl
      simp only [Kind.alg, Msa.msa2C, Msa.freshS_eq]
      exact ⟨_, Msa.symC hin s hi, by simp [Kind.CleanS, Kind.alg, Msa.msa2C, Msa.freshS_eq]⟩
  | hash =>
    refine ⟨hb, fun sz => emptyTable_iff.2 (Hash.fresh_clean _ _), ?_,
      fun sz => emptyTable_iff.2 (Hash.fresh_clean _ _), ?_⟩
    · intro sz i hi hcov _ f _ acc hacc
      obtain ⟨acc', e1, e2⟩ := Hash.numericRow_ok (hin.ok hi) mul add (Hash.adjustSize_mono (by
        rw [Hash.rowCols_row_length h.wfM]; exact hcov.m rfl)) (emptyTable_iff.1 hacc)
      exact ⟨acc', e1, emptyTable_iff.2 e2⟩
    · intro sz i hi hcov _ acc hacc
      obtain ⟨acc', e1, e2⟩ := Hash.symbolicRow_ok (hin.ok hi) mul add (Hash.adjustSize_mono (by
        rw [Hash.rowCols_row_length h.wfM]; exact hcov.m rfl)) (emptyTable_iff.1 hacc)
      exact ⟨acc', e1, emptyTable_iff.2 e2⟩
  | hashC s =>
    refine ⟨fun i _ => complRow_bound, fun sz => emptyTable_iff.2 (Hash.fresh_clean _ _), ?_,
      fun sz => emptyTable_iff.2 (Hash.fresh_clean _ _), ?_⟩
    · intro sz i hi hcov _ f hf acc hacc
      obtain ⟨acc', e1, e2⟩ := Hash.numC hin s sz i hi hcov f hf acc (emptyTable_iff.1 hacc)
      exact ⟨acc', e1, emptyTable_iff.2 e2⟩
    · intro sz i hi hcov _ acc hacc
      obtain ⟨acc', e1, e2⟩ := Hash.symC hin s sz i hi hcov acc (emptyTable_iff.1 hacc)
      exact ⟨acc', e1, emptyTable_iff.2 e2⟩
  | mca =>
    obtain ⟨sB, sM⟩ := hr
    refine ⟨hb, fun _ => rfl, ?_, fun _ => rfl, ?_⟩
    · rintro sz i hi hcov hf f - acc rfl
      simp only [Kind.CleanN, Kind.alg, Mca.mca, Mca.fresh_eq]
      refine ⟨_, Mca.numericRow_eq (hin.ok hi) sB (sM i (h.shapes.ma ▸ hi)) (Mca.mask_ne_nil hf) mul add ?_, rfl⟩
      rw [← CSR.row_map_fst h.wfM, List.length_map]; exact hcov.m rfl
    · rintro sz i hi hcov hf acc rfl
      simp only [Kind.CleanS, Kind.alg, Mca.mca, Mca.fresh_eq]
      refine ⟨_, Mca.symbolicRow_eq (hin.ok hi) sB (sM i (h.shapes.ma ▸ hi)) (Mca.mask_ne_nil hf) mul add ?_, rfl⟩
      rw [← CSR.row_map_fst h.wfM, List.length_map]; exact hcov.m rfl
  | heap d =>
    obtain ⟨hadd, sB, sM, hd⟩ := hr
    refine ⟨hb, fun _ => rfl, ?_, fun _ => rfl, ?_⟩
    · rintro sz i hi hcov hf f - acc rfl
      exact ⟨_, Heap.numericRow_eq hadd (Heap.hok hin sB sM hi) hd (Mca.mask_ne_nil hf) (hcov.a rfl), rfl⟩
    · rintro sz i hi hcov hf acc rfl
      exact ⟨_, Heap.symbolicRow_of_num (Heap.numericRow_eq hadd (Heap.hok hin sB sM hi) hd (Mca.mask_ne_nil hf)
        (hcov.a rfl)), rfl⟩
  | heapC nd =>
    obtain ⟨hadd, sB, sM, hd⟩ := hr
    have hne := heapC_req hd
    refine ⟨fun i _ => complRow_bound, fun _ => rfl, ?_, fun _ => rfl, ?_⟩
    · rintro sz i hi hcov hf f - acc rfl
      exact ⟨_, Heap.numericRowC_eq hadd (Heap.hok hin sB sM hi) (hne.imp id fun h => h i hi hf) (hcov.a rfl), rfl⟩
    · rintro sz i hi hcov hf acc rfl
      exact ⟨_, Heap.symbolicRowC_of_num (Heap.numericRowC_eq hadd (Heap.hok hin sB sM hi)
        (hne.imp id fun h => h i hi hf) (hcov.a rfl)), rfl⟩

/-! ## Calls -/

/-- The matrix computed by algorithm `a`. -/
def algoMat (a : Algo) (mul add : V → V → V) (A B M : CSR V) (zb : Bool) : CSR V :=
  if a.compl then complMat a.sorted mul add A B M zb else maskedMat mul add A B M zb

theorem validC_of {Bc : CSC V} (h : Valid A B M) (hs : SameMat B Bc) (sA : A.SortedRows) (wB : Bc.WF)
    (sB : Bc.SortedCols) : ValidC A Bc M :=
  ⟨h.wfA, wB, h.wfM, by rw [hs.rows, h.shapes.ab], h.shapes.ma, by rw [hs.cols, h.shapes.mb], h.rowsPos, sA, sB⟩

theorem innerRow_eq {Bc : CSC V} (h : Valid A B M) (hs : SameMat B Bc) (wB : Bc.WF) (sB : Bc.SortedCols)
    (nB : B.NodupRows) (i : Nat) : Inner.innerRow mul add A Bc M i = maskedRow mul add A B M i := by
  unfold Inner.innerRow maskedRow
  apply Heap.filterMap_congr_mem
  intro j hj
  rw [dotC_eq mul add h.wfA wB h.wfB h.shapes.ab hs nB sB (by rw [← h.shapes.mb]; exact CSR.rowCols_lt h.wfM hj)]

/-- Every call computes its matrix. -/
theorem algo_computes (a : Algo) (two : Bool) (mul add : V → V → V) {A B M : CSR V} {Bc : CSC V} (h : Valid A B M)
    (hr : a.Req add A B Bc M) (zb : Bool) {nt dflt : Nat} (hn : 0 < setNumThreads nt dflt) :
    Computes (a.call two mul add A B Bc M zb nt dflt) A.rows (setNumThreads nt dflt) (algoMat a mul add A B M zb) := by
  cases a with
  | gen k =>
    have hc := (kind_contract (mul := mul) k h hr).contract
    have e : algoMat (.gen k) mul add A B M zb = ofRows A.rows B.cols zb (kindRow k mul add A B M) := by
      unfold algoMat kindRow complMat maskedMat
      simp only [Algo.compl, Algo.sorted]
      by_cases hc : k.compl = true <;> simp only [hc, if_true, if_false, Bool.false_eq_true]
    rw [e]
    cases two
    · exact computes1p h.wfA h.wfB h.wfM h.shapes hc h.rowsPos zb hn
    · exact computes2p h.wfA h.wfB h.wfM h.shapes hc h.rowsPos zb hn
  | inner =>
    obtain ⟨sA, nB, wB, sB, hs, -⟩ := hr
    have e : algoMat .inner mul add A B M zb = ofRows A.rows Bc.cols zb (Inner.innerRow mul add A Bc M) := by
      have : Inner.innerRow mul add A Bc M = maskedRow mul add A B M :=
        funext fun i => innerRow_eq h hs wB sB nB i
      rw [this, hs.cols]
      rfl
    rw [e]
    have hv := validC_of h hs sA wB sB
    cases two
    · exact Inner.computes1p mul add hv zb hn
    · exact Inner.computes2p mul add hv zb hn

theorem _root_.Verif.Spec.Algo.Req.nodup {a : Algo} {Bc : CSC V} (h : a.Req add A B Bc M) : M.NodupRows := by
  cases a with
  | gen k => exact Kind.Req.nodup (k := k) h
  | inner => exact h.2.2.2.2.2

/-! ## Sequences of rows -/

/-- A thread's rows, started from an accumulator that meets the invariant. -/
theorem runNum_ok {alg : RowAlg V} {exp : Nat → List (Nat × V)} {InvN : Sizes → alg.N → Prop}
    {InvS : Sizes → alg.S → Prop} (hc : ContractI alg mul add A B M exp InvN InvS) {sz : Sizes} {fl : Nat → Nat}
    (rs : List Nat) (hrs : ∀ r ∈ rs, r < A.rows ∧ Covers alg.compl alg.calcA alg.calcM alg.calcF A B M sz r ∧
      flopsOf alg.compl A B M r ≠ 0 ∧ (fl r = flopsOf alg.compl A B M r ∨ fl r = (exp r).length ∧ fl r ≠ 0)) :
    ∀ acc, InvN sz acc → ∃ acc', runNum alg mul add A B M fl rs acc = .ok (acc', rs.map exp) ∧ InvN sz acc' := by
  induction rs with
  | nil => intro acc h; exact ⟨acc, rfl, h⟩
  | cons r rs ih =>
    intro acc h
    obtain ⟨h1, h2, h3, h4⟩ := hrs r (by simp)
    obtain ⟨a1, e1, i1⟩ := hc.num sz r h1 h2 h3 (fl r) h4 acc h
    obtain ⟨a2, e2, i2⟩ := ih (fun x hx => hrs x (by simp [hx])) a1 i1
    refine ⟨a2, ?_, i2⟩
    simp only [runNum, e1, ok_bind, e2, List.map_cons]

theorem runSym_ok {alg : RowAlg V} {exp : Nat → List (Nat × V)} {InvN : Sizes → alg.N → Prop}
    {InvS : Sizes → alg.S → Prop} (hc : ContractI alg mul add A B M exp InvN InvS) {sz : Sizes}
    (rs : List Nat) (hrs : ∀ r ∈ rs, r < A.rows ∧ Covers alg.compl alg.calcA alg.calcM alg.calcF A B M sz r ∧
      flopsOf alg.compl A B M r ≠ 0) :
    ∀ acc, InvS sz acc → ∃ acc', runSym alg A B M rs acc = .ok (acc', rs.map fun r => (exp r).length) ∧
      InvS sz acc' := by
  induction rs with
  | nil => intro acc h; exact ⟨acc, rfl, h⟩
  | cons r rs ih =>
    intro acc h
    obtain ⟨h1, h2, h3⟩ := hrs r (by simp)
    obtain ⟨a1, e1, i1⟩ := hc.sym sz r h1 h2 h3 acc h
    obtain ⟨a2, e2, i2⟩ := ih (fun x hx => hrs x (by simp [hx])) a1 i1
    refine ⟨a2, ?_, i2⟩
    simp only [runSym, rowWork_eq, e1, ok_bind, e2, List.map_cons]

end Verif.Model
