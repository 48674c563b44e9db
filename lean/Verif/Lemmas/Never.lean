import Verif.Lemmas.Kinds
import Verif.Lemmas.HeapGenNeg

/-! # A row on which the row algorithm always fails: the drivers do not return -/

namespace Verif.Model

open Spec

variable {V : Type} {mul add : V → V → V} {A B M : CSR V} {alg : RowAlg V}

theorem mapM_getD {α β : Type} {f : α → Res β} (d : α) (e : β) : ∀ {l : List α} {ys : List β}, l.mapM f = .ok ys → ∀ t < l.length,
    f (l.getD t d) = .ok (ys.getD t e) := by
  intro l
  induction l with
  | nil => intro ys _ t ht; exact absurd ht (Nat.not_lt_zero t)
  | cons a l ih =>
    intro ys h t ht
    rw [List.mapM_cons] at h
    obtain ⟨b, h1, h⟩ := Heap.bind_ok h
    obtain ⟨bs, h2, h⟩ := Heap.bind_ok h
    cases h
    cases t with
    | zero => exact h1
    | succ t => exact ih h2 t (by simpa using ht)

theorem setup_getD {β : Type} {n : Nat} {f : Nat → Res β} {ys : List β} (h : setup n f = .ok ys) (e : β) {t : Nat} (ht : t < n) :
    f t = .ok (ys.getD t e) := by
  have := mapM_getD 0 e h t (by simpa using ht)
  simpa [List.getD_eq_getElem?_getD, ht] using this

theorem spgemm1p_never (h : Valid A B M) {i : Nat} (hi : i < A.rows) (hf : flopsOf alg.compl A B M i ≠ 0)
    (hrow : ∀ f acc r, alg.numRow mul add A B M i f acc ≠ .ok r) (zb : Bool) {nt dflt : Nat}
    (hn : 0 < setNumThreads nt dflt) (sch : Scheds) (ho : sch.flops.Perm (List.range A.rows)) (C : CSR V) :
    spgemm1p alg mul add A B M zb nt dflt sch ≠ .ok (some C) := by
  unfold spgemm1p
  simp only []
  generalize setNumThreads nt dflt = n at hn
  rcases prepare_ok h.wfA h.wfB h.wfM h.shapes alg.compl hn h.rowsPos sch ho with ⟨e, _⟩ | e
  · rw [e]; intro hh; cases hh
  rw [e]
  simp only [ok_bind]
  intro hh
  generalize hP : psum (flopsOf alg.compl A B M) = P at hh
  have hcum : ∀ i < A.rows, Has (tab A.rows fun i => some (P i)) P i := fun i hi => has_tab hi
  have hPm : ∀ i j, i ≤ j → j < A.rows → P i ≤ P j := fun i j h _ => by rw [← hP]; exact psum_mono h
  obtain ⟨ls, hls, hh⟩ := Heap.bind_ok hh
  obtain ⟨rngs, _, hh⟩ := Heap.bind_ok hh
  have hs := split_bnd P (P A.rows) A.rows hn
  obtain ⟨t0, ht0, k1, k2⟩ := hs.row_cover hi
  cases ls with
  | nil => cases hh
  | cons l0 ls1 =>
  simp only [] at hh
  obtain ⟨r, e1, hh⟩ := Heap.bind_ok hh
  cases r with
  | none => cases hh
  | some r =>
  have hini := setup_getD hls l0 ht0
  unfold init1 at hini
  rw [distributeWork_eq _ ht0 hcum hPm, ok_bind] at hini
  simp only [] at hini
  obtain ⟨sz, _, hini⟩ := Heap.bind_ok hini
  have hini := Except.ok.inj hini
  refine phase_never (t := t0) ht0 (P := fun x : L1 alg.N V => x.done = false ∧ x.row ≤ i ∧ i < x.stop) (fun x hx => hx.1) ?_ _ _ _ ?_ r e1
  · rintro g x r ⟨h1, h2, h3⟩ e
    unfold step1 at e
    rw [if_pos (by omega)] at e
    obtain ⟨f, e2, e⟩ := Heap.bind_ok e
    by_cases hz : f = 0
    · rw [if_neg (by simpa using hz)] at e
      obtain ⟨rn, _, e⟩ := Heap.bind_ok e
      cases e
      refine ⟨h1, ?_, h3⟩
      show x.row + 1 ≤ i
      rcases Nat.lt_or_ge x.row i with hlt | hge
      · exact hlt
      · have hx : x.row = i := by omega
        rw [hx, (has_tab (X := fun i => flopsOf alg.compl A B M i) hi).rdu] at e2
        exact absurd (hz ▸ Except.ok.inj e2) hf
    · rw [if_pos hz] at e
      obtain ⟨⟨acc, em⟩, e3, e⟩ := Heap.bind_ok e
      have hx : x.row ≠ i := by
        intro hx
        rw [hx] at e3
        exact hrow _ _ _ e3
      simp only [] at e
      split at e
      · obtain ⟨rn, _, e⟩ := Heap.bind_ok e
        cases e
        exact ⟨h1, show x.row + 1 ≤ i by omega, h3⟩
      · cases e
  · rw [← hini]
    exact ⟨rfl, k1, k2⟩

theorem spgemm2p_never (h : Valid A B M) {i : Nat} (hi : i < A.rows) (hf : flopsOf alg.compl A B M i ≠ 0)
    (hrow : ∀ f acc r, alg.symRow A B M i f acc ≠ .ok r) (zb : Bool) {nt dflt : Nat}
    (hn : 0 < setNumThreads nt dflt) (sch : Scheds) (ho : sch.flops.Perm (List.range A.rows)) (C : CSR V) :
    spgemm2p alg mul add A B M zb nt dflt sch ≠ .ok (some C) := by
  unfold spgemm2p
  simp only []
  generalize setNumThreads nt dflt = n at hn
  rcases prepare_ok h.wfA h.wfB h.wfM h.shapes alg.compl hn h.rowsPos sch ho with ⟨e, _⟩ | e
  · rw [e]; intro hh; cases hh
  rw [e]
  simp only [ok_bind]
  intro hh
  generalize hP : psum (flopsOf alg.compl A B M) = P at hh
  have hcum : ∀ i < A.rows, Has (tab A.rows fun i => some (P i)) P i := fun i hi => has_tab hi
  have hPm : ∀ i j, i ≤ j → j < A.rows → P i ≤ P j := fun i j h _ => by rw [← hP]; exact psum_mono h
  obtain ⟨ls, hls, hh⟩ := Heap.bind_ok hh
  obtain ⟨rngs, _, hh⟩ := Heap.bind_ok hh
  have hs := split_bnd P (P A.rows) A.rows hn
  obtain ⟨t0, ht0, k1, k2⟩ := hs.row_cover hi
  cases ls with
  | nil => cases hh
  | cons l0 ls1 =>
  simp only [] at hh
  obtain ⟨r, e1, hh⟩ := Heap.bind_ok hh
  cases r with
  | none => cases hh
  | some r =>
  have hini := setup_getD hls l0 ht0
  unfold init2 at hini
  rw [distributeWork_eq _ ht0 hcum hPm, ok_bind] at hini
  simp only [] at hini
  obtain ⟨sz, _, hini⟩ := Heap.bind_ok hini
  have hini := Except.ok.inj hini
  refine phase_never (t := t0) ht0 (P := fun x : L2 alg.S => x.done = false ∧ x.row ≤ i ∧ i < x.stop) (fun x hx => hx.1) ?_ _ _ _ ?_ r e1
  · rintro g x r ⟨h1, h2, h3⟩ e
    unfold step2 at e
    rw [if_pos (by omega)] at e
    obtain ⟨f, e2, e⟩ := Heap.bind_ok e
    by_cases hz : f = 0
    · rw [if_neg (by simpa using hz)] at e
      obtain ⟨rn, _, e⟩ := Heap.bind_ok e
      obtain ⟨k, _, e⟩ := Heap.bind_ok e
      cases e
      refine ⟨h1, ?_, h3⟩
      show x.row + 1 ≤ i
      rcases Nat.lt_or_ge x.row i with hlt | hge
      · exact hlt
      · have hx : x.row = i := by omega
        rw [hx, (has_tab (X := fun i => flopsOf alg.compl A B M i) hi).rdu] at e2
        exact absurd (hz ▸ Except.ok.inj e2) hf
    · rw [if_pos hz] at e
      obtain ⟨⟨acc, k⟩, e3, e⟩ := Heap.bind_ok e
      have hx : x.row ≠ i := by
        intro hx
        rw [hx] at e3
        exact hrow _ _ _ e3
      simp only [] at e
      obtain ⟨rn, _, e⟩ := Heap.bind_ok e
      obtain ⟨k, _, e⟩ := Heap.bind_ok e
      cases e
      exact ⟨h1, show x.row + 1 ≤ i by omega, h3⟩
  · rw [← hini]
    exact ⟨rfl, k1, k2⟩

theorem heapC_row_fails (mul add : V → V → V) {A B M : CSR V} (hM : M.WF) {i : Nat} (hi : i < M.rows) (hm : M.rowCols i = []) (s : Heap.HP) :
    Heap.numericRowC false mul add A B M i s = .error .assertion ∧ Heap.symbolicRowC false A B M i s = .error .assertion := by
  have h1 := CSR.rowCols_length hM hi
  have h2 := hM.ptrMono i hi
  rw [hm] at h1
  have h3 : M.ptr (i + 1) = M.ptr i := by simp at h1; omega
  unfold Heap.numericRowC Heap.symbolicRowC
  rw [CSR.rd_ptr hM (Nat.le_of_lt hi), CSR.rd_ptr hM (i := i + 1) hi, h3]
  simp [check]

/-- With assertions the heap algorithm with the complemented mask does not return when a row with products has an empty mask row. -/
theorem heapC_never (h : Valid A B M) {i : Nat} (hi : i < A.rows) (ht : touched A B i ≠ []) (hm : M.rowCols i = []) (zb : Bool) {nt dflt : Nat}
    (hn : 0 < setNumThreads nt dflt) (sch : Scheds) (ho : sch.flops.Perm (List.range A.rows)) (C : CSR V) :
    spgemm1p (Heap.heapC false) mul add A B M zb nt dflt sch ≠ .ok (some C) ∧
      spgemm2p (Heap.heapC false) mul add A B M zb nt dflt sch ≠ .ok (some C) := by
  have hiM : i < M.rows := by rw [h.shapes.ma]; exact hi
  have hf : flopsOf true A B M i ≠ 0 := by
    unfold flopsOf
    rw [touched_eq] at ht
    simpa using ht
  refine ⟨spgemm1p_never (alg := Heap.heapC false) h hi hf (fun f acc r e => ?_) zb hn sch ho C,
    spgemm2p_never (alg := Heap.heapC false) h hi hf (fun f acc r e => ?_) zb hn sch ho C⟩
  · have := (heapC_row_fails mul add (A := A) (B := B) h.wfM hiM hm acc).1.symm.trans e
    cases this
  · have := (heapC_row_fails mul add (A := A) (B := B) h.wfM hiM hm acc).2.symm.trans e
    cases this

end Verif.Model
