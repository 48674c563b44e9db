import Verif.Lemmas.WidthInner
import Verif.Lemmas.HeapGenNeg
import Verif.Lemmas.Kinds
import Mathlib.Data.List.Perm.Subperm

/-! # Index types of limited width: sizes that always fit, and a buffer that is too small -/

namespace Verif.Model.Wid

open Scan (rdu)

variable {V : Type}

/-! ## The number of products of a row -/

theorem psum_rows {B : CSR V} (hB : B.WF) : ∀ k, k ≤ B.rows → psum (fun i => (B.row i).length) k = B.ptr k
  | 0, _ => by
    exact hB.ptrFirst.symm
  | k + 1, hk => by
    have h1 := psum_rows hB k (by omega)
    have h2 := hB.ptrMono k (by omega)
    have h3 := CSR.row_length hB (show k < B.rows by omega)
    simp only [psum]
    omega

theorem sublist_sum {l l' : List Nat} (h : l.Sublist l') : l.sum ≤ l'.sum := by
  induction h with
  | slnil => exact Nat.le_refl _
  | cons a _ ih => simp only [List.sum_cons]; omega
  | cons_cons a _ ih => simp only [List.sum_cons]; omega

/-- Without repeated columns in the row of `A` there are at most as many products as `B` has entries. -/
theorem visits_le {A B : CSR V} (hA : A.WF) (hB : B.WF) (hAB : A.cols = B.rows) {i : Nat}
    (hnd : (A.rowCols i).Nodup) : (visits A B i).length ≤ B.nnz := by
  have e1 : (visits A B i).length = ((A.rowCols i).map fun k => (B.row k).length).sum := by
    unfold visits
    rw [List.length_flatMap, ← CSR.row_map_fst hA i, List.map_map]
    simp [Function.comp_def]
  have hsub : (A.rowCols i).Subperm (List.range B.rows) :=
    List.Nodup.subperm hnd (fun k hk => by
      have := CSR.rowCols_lt hA hk
      simpa [← hAB] using this)
  obtain ⟨l, hl1, hl2⟩ := hsub
  have e2 : ((A.rowCols i).map fun k => (B.row k).length).sum = (l.map fun k => (B.row k).length).sum :=
    (List.Perm.sum_nat (hl1.map _)).symm
  have e3 : (l.map fun k => (B.row k).length).sum ≤ ((List.range B.rows).map fun k => (B.row k).length).sum :=
    sublist_sum (hl2.map _)
  rw [sum_map_range, psum_rows hB _ (Nat.le_refl _)] at e3
  have := CSR.ptr_le_nnz hB (Nat.le_refl B.rows)
  omega

theorem flops_le {A B M : CSR V} (hA : A.WF) (hB : B.WF) (sh : Spec.Shapes A B M) (compl : Bool)
    (hnd : A.NodupRows) {i : Nat} (hi : i < A.rows) : flopsOf compl A B M i ≤ B.nnz := by
  have := visits_le hA hB sh.ab (hnd i hi)
  unfold flopsOf
  split
  · exact this
  · split
    · exact Nat.zero_le _
    · exact this

/-- The buffers of the masked multiply need no more than `M.nnz` cells. -/
theorem bound_le {A B M : CSR V} (hM : M.WF) : ∀ k, k ≤ M.rows → psum (boundOf false A B M) k ≤ M.ptr k := by
  intro k hk
  rw [← psum_rows hM k hk]
  induction k with
  | zero => exact Nat.le_refl _
  | succ k ih =>
    have := ih (by omega)
    have h2 : boundOf false A B M k ≤ (M.row k).length := by
      unfold boundOf; simp only [Bool.false_eq_true, if_false]; exact Nat.min_le_right _ _
    simp only [psum]; omega

/-! ## One thread with a buffer that is too small -/

section Main
variable {alg : RowAlg V} {mul add : V → V → V} {A B M : CSR V} {exp : Nat → List (Nat × V)}

/-- One thread: if the sum of the row bounds, reduced, is less than the number of entries of the result, the buffer
is too small and the call does not return. -/
theorem never1p (hA : A.WF) (hB : B.WF) (hM : M.WF) (sh : Spec.Shapes A B M)
    (hc : Contract1 alg mul add A B M exp) (hrows : 0 < A.rows) (zb : Bool) {nt dflt : Nat}
    (hn : setNumThreads nt dflt = 1) (sch : Scheds) (ho : sch.flops.Perm (List.range A.rows))
    {W : Nat} (hfl : ∀ i < A.rows, flopsOf alg.compl A B M i < W)
    (hsmall : psum (boundOf alg.compl A B M) A.rows % W < psum (lens exp) A.rows) (C : CSR V) :
    spgemm1p W alg mul add A B M zb nt dflt sch ≠ .ok (some C) := by
  unfold spgemm1p
  rw [hn]
  simp only
  rcases prepare_ok hA hB hM sh alg.compl (Nat.one_pos) hrows sch ho hfl with ⟨h, _⟩ | h
  · rw [h]; simp
  rw [h]
  simp only [ok_bind]
  have hW : 0 < W := Nat.lt_of_le_of_lt (Nat.zero_le _) (hfl 0 hrows)
  have hPW : pw W (flopsOf alg.compl A B M) A.rows < W := Nat.mod_lt _ hW
  generalize pw W (flopsOf alg.compl A B M) = P at hPW ⊢
  have hf : ∀ i < A.rows, Has (tab A.rows fun i => some (flopsOf alg.compl A B M i)) (flopsOf alg.compl A B M) i :=
    fun i hi => has_tab hi
  have hcum : ∀ i < A.rows, Has (tab A.rows fun i => some (P i)) P i := fun i hi => has_tab hi
  have hdw : distributeWork W (P A.rows) (tab A.rows fun i => some (P i)) A.rows 1 0 = .ok (0, A.rows) :=
    distributeWork_cut (n := 1) (t := 0) Nat.one_pos hPW hcum
  have hsz : ∃ sz, scanInputs W alg.compl true alg.calcA alg.calcM alg.calcF 0 A.rows
      (tab A.rows fun i => some (flopsOf alg.compl A B M i)) A M = .ok sz ∧
      sz.sizeC = psum (boundOf alg.compl A B M) A.rows % W ∧
      ∀ i < A.rows, Covers alg.compl alg.calcA alg.calcM alg.calcF A B M sz i := by
    obtain ⟨sz, s1, s2, s3⟩ := Model.scanInputs_ok hA hM sh.ma alg.compl true alg.calcA alg.calcM alg.calcF
      (Nat.zero_le A.rows) (Nat.le_refl _) hf
    rw [scanInputs_sim, s1]
    refine ⟨_, rfl, ?_, fun i hi => ⟨(s3 i (Nat.zero_le _) hi).1, (s3 i (Nat.zero_le _) hi).2,
      (s3 i (Nat.zero_le _) hi).3⟩⟩
    show sz.sizeC % W = _
    rw [s2 rfl]; rfl
  obtain ⟨sz, s1, hcap, hcov⟩ := hsz
  obtain ⟨Inv, hI0, hInv⟩ := hc.num sz
  have hls : setup 1 (init1 W alg A B M 1 (tab A.rows fun i => some (flopsOf alg.compl A B M i)) (P A.rows)
      (tab A.rows fun i => some (P i))) = .ok [l1init alg B (fun t => if t = 0 then 0 else A.rows) (fun _ => sz) 0] := by
    show (List.range 1).mapM _ = _
    rw [mapM_ok (g := fun _ => l1init alg B (fun t => if t = 0 then 0 else A.rows) (fun _ => sz) 0)]
    · rfl
    · intro t ht
      have : t = 0 := by simpa using ht
      subst this
      unfold init1
      rw [hdw]
      simp only [ok_bind]
      rw [s1]; rfl
  have hrg : setup 1 (distributeWork W (P A.rows) (tab A.rows fun i => some (P i)) A.rows 1) = .ok [(0, A.rows)] := by
    show (List.range 1).mapM _ = _
    rw [mapM_ok (g := fun _ => (0, A.rows))]
    · rfl
    · intro t ht
      have : t = 0 := by simpa using ht
      subst this
      exact hdw
  rw [hls, hrg]
  simp only [ok_bind]
  intro hret
  obtain ⟨r, hr, hret⟩ := Heap.bind_ok hret
  cases r with
  | none => cases hret
  | some r =>
    refine phase_never (n := 1) (t := 0) Nat.one_pos
      (P := fun x : L1 alg.N V => x.done = false ∧ x.stop = A.rows ∧ x.row ≤ A.rows ∧ x.out = seg exp 0 x.row ∧
        x.out.length ≤ x.cap ∧ x.cap = sz.sizeC ∧ Inv x.acc)
      (fun x h => h.1) ?_ _ _ _ ?_ r hr
    · rintro g x r ⟨h1, h2, h3, h4, h5, h6, h7⟩ e
      unfold step1 at e
      by_cases hrow : x.row < x.stop
      · rw [if_pos hrow] at e
        have hrA : x.row < A.rows := h2 ▸ hrow
        rw [(hf _ hrA).rdu] at e
        simp only [ok_bind] at e
        by_cases hz : flopsOf alg.compl A B M x.row = 0
        · simp only [hz, ne_eq, not_true_eq_false, if_false] at e
          obtain ⟨rn, _, e⟩ := Heap.bind_ok e
          cases e
          have hnil : exp x.row = [] := by
            have h8 := hc.bound x.row hrA
            have h9 := boundOf_le alg.compl A B M x.row
            exact List.length_eq_zero_iff.1 (by omega)
          refine ⟨h1, h2, hrA, ?_, h5, h6, h7⟩
          show x.out = seg exp 0 (x.row + 1)
          rw [h4, seg_snoc exp (Nat.zero_le _), hnil, List.append_nil]
        · obtain ⟨acc', e1, e2⟩ := hInv x.row hrA (hcov _ hrA) hz _ (Or.inl rfl) x.acc h7
          simp only [ne_eq, hz, not_false_eq_true, if_true, e1, ok_bind] at e
          by_cases hfit : x.out.length + (exp x.row).length ≤ x.cap
          · rw [if_pos hfit] at e
            obtain ⟨rn, _, e⟩ := Heap.bind_ok e
            cases e
            refine ⟨h1, h2, hrA, ?_, ?_, h6, e2⟩
            · show x.out ++ exp x.row = seg exp 0 (x.row + 1)
              rw [h4, seg_snoc exp (Nat.zero_le _)]
            · show (x.out ++ exp x.row).length ≤ x.cap
              rw [List.length_append]; exact hfit
          · rw [if_neg hfit] at e; cases e
      · exfalso
        have hre : x.row = A.rows := by omega
        rw [h4, hre, seg_length exp (Nat.zero_le _)] at h5
        have h8 : psum (lens exp) 0 = 0 := rfl
        omega
    · exact ⟨rfl, rfl, Nat.zero_le _, (seg_self _ _).symm, Nat.zero_le _, rfl, hI0⟩

end Main

end Verif.Model.Wid
