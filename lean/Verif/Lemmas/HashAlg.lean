import Verif.Lemmas.HashNum
import Verif.Lemmas.MsaAlg

/-! # The hash algorithms meet the contract of the drivers -/

namespace Verif.Model.Hash

open Msa (Inputs)

variable {V P : Type}

theorem fresh_clean (p : P) (n : Nat) : Clean (adjustSize n) (fresh p n) := by
  refine ⟨0, fun _ => ⟨none, p⟩, ?_, fun _ _ => rfl⟩
  unfold fresh mkT tab
  simp [List.map_const']

theorem rowCols_row_length {M : CSR V} (hM : M.WF) (i : Nat) : (M.rowCols i).length = (M.row i).length := by
  rw [← CSR.row_map_fst hM, List.length_map]

variable {mul add : V → V → V} {A B M : CSR V}

theorem contract (h : Inputs A B M) : Contract hash mul add A B M (maskedRow mul add A B M) where
  bound := fun i hi => maskedRow_bound h.wfM (h.nodup i (h.sh.ma ▸ hi))
  num := fun sz => ⟨Clean (adjustSize sz.maxM), fresh_clean _ _, by
    intro i hi hcov _ f _ acc hacc
    exact numericRow_ok (h.ok hi) mul add (adjustSize_mono (by
      rw [rowCols_row_length h.wfM]; exact hcov.m rfl)) hacc⟩
  sym := fun sz => ⟨Clean (adjustSize sz.maxM), fresh_clean _ _, by
    intro i hi hcov _ acc hacc
    exact symbolicRow_ok (h.ok hi) mul add (adjustSize_mono (by
      rw [rowCols_row_length h.wfM]; exact hcov.m rfl)) hacc⟩

theorem numC (h : Inputs A B M) (sorted : Bool) (sz : Sizes) (i : Nat) (hi : i < A.rows)
    (hcov : Covers true false true true A B M sz i) (f : Nat)
    (hf : f = flopsOf true A B M i ∨ f = (complRow sorted mul add A B M i).length ∧ f ≠ 0)
    (acc : Tbl (Val V)) (hacc : Clean (adjustSize (sz.maxM + sz.maxFlops)) acc) :
    ∃ acc', numericRowC sorted mul add A B M i f acc = .ok (acc', complRow sorted mul add A B M i) ∧
      Clean (adjustSize (sz.maxM + sz.maxFlops)) acc' := by
  have hb : (complRow sorted mul add A B M i).length ≤ flopsOf true A B M i :=
    Nat.le_trans complRow_bound (boundOf_le _ _ _ _ _)
  have hf' : (complCols A B M i).length ≤ f ∧ f ≤ flopsOf true A B M i := by
    rw [Msa.complRow_length] at hb
    rcases hf with rfl | ⟨rfl, _⟩
    · exact ⟨hb, Nat.le_refl _⟩
    · rw [Msa.complRow_length]; exact ⟨Nat.le_refl _, hb⟩
  have h1 : (M.row i).length ≤ sz.maxM := hcov.m rfl
  have h2 : flopsOf true A B M i ≤ sz.maxFlops := hcov.f rfl
  refine numericRowC_ok (h.ok hi) sorted mul add (adjustSize_mono ?_) hf'.1 hacc
  rw [rowCols_row_length h.wfM]; omega

theorem symC (h : Inputs A B M) (sorted : Bool) (sz : Sizes) (i : Nat) (hi : i < A.rows)
    (hcov : Covers true false true true A B M sz i)
    (acc : Tbl Unit) (hacc : Clean (adjustSize (sz.maxM + sz.maxFlops)) acc) :
    ∃ acc', (hashC sorted : RowAlg V).symRow A B M i (flopsOf true A B M i) acc =
        .ok (acc', (complRow sorted mul add A B M i).length) ∧
      Clean (adjustSize (sz.maxM + sz.maxFlops)) acc' := by
  have h1 : (M.row i).length ≤ sz.maxM := hcov.m rfl
  have h2 : flopsOf true A B M i ≤ sz.maxFlops := hcov.f rfl
  obtain ⟨t', r1, r2⟩ := symbolicRowC_ok (h.ok hi) sorted mul add (flops := flopsOf true A B M i)
    (cap := adjustSize (sz.maxM + sz.maxFlops)) (adjustSize_mono (by
      rw [rowCols_row_length h.wfM]; omega)) (by simp [flopsOf]) hacc
  refine ⟨t', ?_, r2⟩
  show (do let r ← symbolicRowC A B M i (flopsOf true A B M i) acc
           Msa.toCount r : Res _) = _
  rw [r1]
  simp [Msa.toCount]
  rfl

theorem contractC (h : Inputs A B M) (sorted : Bool) :
    Contract (hashC sorted) mul add A B M (complRow sorted mul add A B M) where
  bound := fun _ _ => complRow_bound
  num := fun sz => ⟨Clean (adjustSize (sz.maxM + sz.maxFlops)), fresh_clean _ _,
    fun i hi hcov _ f hf acc hacc => numC h sorted sz i hi hcov f hf acc hacc⟩
  sym := fun sz => ⟨Clean (adjustSize (sz.maxM + sz.maxFlops)), fresh_clean _ _,
    fun i hi hcov _ acc hacc => symC h sorted sz i hi hcov acc hacc⟩

end Verif.Model.Hash
