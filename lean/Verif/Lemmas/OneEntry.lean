import Verif.Props.C58
import Verif.Lemmas.OuterMain

/-! # Matrices with at most one entry in each row (column) are determined by their entries -/

namespace Verif.Model.OneEntry

open Verif.Spec Verif.Model.SampleMain

variable {V : Type}

theorem triples_row_aux (A : CSR V) (i n : Nat) :
    ((((List.range n).flatMap fun j => (A.row j).map fun x => (j, x.1, x.2)).filter fun e => decide (e.1 = i)).map fun e => e.2) = if i < n then A.row i else [] := by
  induction n with
  | zero => rfl
  | succ n ih =>
    rw [List.range_succ, List.flatMap_append, List.filter_append, List.map_append, ih]
    simp only [List.flatMap_cons, List.flatMap_nil, List.append_nil, List.filter_map, List.map_map]
    rcases Nat.lt_trichotomy i n with h | h | h
    · rw [if_pos h, if_pos (by omega), List.filter_eq_nil_iff.2 (by intro a _; simp; omega)]
      simp
    · subst h
      rw [if_neg (by omega), if_pos (by omega), List.filter_eq_self.2 (by intro a _; simp)]
      simp [Function.comp_def]
    · rw [if_neg (by omega), if_neg (by omega), List.filter_eq_nil_iff.2 (by intro a _; simp; omega)]
      rfl

theorem triples_row {A : CSR V} {i : Nat} (hi : i < A.rows) : (((triples A).filter fun e => decide (e.1 = i)).map fun e => e.2) = A.row i := by
  unfold triples
  rw [triples_row_aux, if_pos hi]

/-- Two matrices by rows with the same entries are equal, if one of them has at most one entry in each row. -/
theorem csr_one {A B : CSR V} (wA : A.WF) (wB : B.WF) (hr : A.rows = B.rows) (hc : A.cols = B.cols) (hp : (triples A).Perm (triples B))
    (h1 : ∀ i < B.rows, (B.row i).length ≤ 1) : A = B := by
  refine Props.csr_ext_rows wB wA hr hc fun i hi => ?_
  have := (hp.filter fun e => decide (e.1 = i)).map fun e => e.2
  rw [triples_row (hr ▸ hi), triples_row hi] at this
  have hl := h1 i hi
  match h : B.row i, hl with
  | [], _ => rw [h] at this; exact this.eq_nil
  | [x], _ => rw [h] at this; exact List.perm_singleton.1 this

/-- The same for matrices by columns -/
theorem csc_one {A B : CSC V} (wA : A.WF) (wB : B.WF) (hr : A.rows = B.rows) (hc : A.cols = B.cols) (hp : (triplesC A).Perm (triplesC B))
    (h1 : ∀ j < B.cols, (B.col j).length ≤ 1) : A = B := by
  have e : flipM A = flipM B := csr_one (OuterMain.flip_wf wA) (OuterMain.flip_wf wB) hc hr
    ((OuterMain.flip_perm hp).trans (OuterMain.flip_perm (List.Perm.refl (triplesC B))).symm) h1
  obtain ⟨_, _, _, _, _, _, _⟩ := A
  obtain ⟨_, _, _, _, _, _, _⟩ := B
  simp only [flipM, CSR.mk.injEq] at e
  obtain ⟨rfl, rfl, rfl, rfl, rfl, rfl, rfl⟩ := e
  rfl

end Verif.Model.OneEntry
