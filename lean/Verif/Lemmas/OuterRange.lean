import Verif.Lemmas.OuterProd

/-! # The outer-product kernel with row numbers out of range -/

namespace Verif.Model.Outer

open Verif.Spec

variable {V : Type}

/-- A loop that succeeds has run each of its turns. -/
theorem foldlM_reach {σ α : Type} {f : σ → α → Res σ} (P : σ → Prop) (hstep : ∀ s a s', P s → f s a = .ok s' → P s') :
    ∀ {l : List α} {s s' : σ}, P s → l.foldlM f s = .ok s' → P s' ∧ ∀ a ∈ l, ∃ t t', P t ∧ f t a = .ok t' := by
  intro l
  induction l with
  | nil =>
    intro s s' hs h
    injection h with h
    exact ⟨h ▸ hs, by simp⟩
  | cons b l ih =>
    intro s s' hs h
    rw [List.foldlM_cons] at h
    obtain ⟨t, h1, h2⟩ := MatObj.bind_eq_ok h
    obtain ⟨h3, h4⟩ := ih (hstep _ _ _ hs h1) h2
    refine ⟨h3, fun a ha => ?_⟩
    rcases List.mem_cons.1 ha with rfl | ha
    · exact ⟨s, t, hs, h1⟩
    · exact h4 a ha

theorem forRange_reach {σ : Type} {body : Nat → σ → Res σ} (P : σ → Prop) (hstep : ∀ i s s', P s → body i s = .ok s' → P s') {lo hi : Nat} {s s' : σ}
    (hs : P s) (h : forRange lo hi s body = .ok s') : P s' ∧ ∀ i, lo ≤ i → i < hi → ∃ t t', P t ∧ body i t = .ok t' := by
  obtain ⟨h1, h2⟩ := foldlM_reach P (fun s a s' => hstep a s s') hs h
  refine ⟨h1, fun i hl hh => h2 i ?_⟩
  rw [List.mem_range'_1]
  omega

theorem rd_lt {α : Type} {l : List α} {i : Nat} {x : α} (h : rd l i = .ok x) : l[i]? = some x := by
  unfold rd at h
  split at h
  · injection h with h
    subst h
    assumption
  · cases h

theorem wr_len {α : Type} {l l' : List α} {i : Nat} {x : α} (h : wr l i x = .ok l') : l'.length = l.length := by
  unfold wr at h
  split at h
  · injection h with h
    subst h
    simp
  · cases h

/-- Merging keeps the positions. -/
theorem mem_merged (add : V → V → V) {vec : List (Nat × Nat × V)} {x : Nat × Nat × V} (h : x ∈ vec) :
    ∃ t ∈ merged add vec, t.1 = x.1 ∧ t.2.1 = x.2.1 := by
  induction vec using list_snoc_induction generalizing x with
  | h0 => simp at h
  | h1 vec y ih =>
    have e : merged add (vec ++ [y]) = Conv.joinStep add (merged add vec) (Conv.pairOf y) := by
      unfold merged
      rw [List.map_append, List.foldl_append]
      rfl
    rw [e]
    rcases List.eq_nil_or_concat (merged add vec) with h0 | ⟨P, s, h0⟩
    · rw [h0] at ih ⊢
      rcases List.mem_append.1 h with h | h
      · obtain ⟨t, ht, -⟩ := ih h
        cases ht
      · rw [List.mem_singleton] at h
        subst h
        exact ⟨x, by simp [Conv.joinStep, Conv.pairOf], rfl, rfl⟩
    · rw [List.concat_eq_append] at h0
      rw [h0] at ih
      rw [h0, joinStep_snoc]
      by_cases hk : s.2.1 = y.2.1 ∧ s.1 = y.1
      · rw [if_pos hk]
        rcases List.mem_append.1 h with h | h
        · obtain ⟨t, ht, h'⟩ := ih h
          rcases List.mem_append.1 ht with ht | ht
          · exact ⟨t, by simp [ht], h'⟩
          · rw [List.mem_singleton] at ht
            subst ht
            exact ⟨(t.1, t.2.1, add t.2.2 y.2.2), by simp, h'⟩
        · rw [List.mem_singleton] at h
          subst h
          exact ⟨(s.1, s.2.1, add s.2.2 x.2.2), by simp, hk.2, hk.1⟩
      · rw [if_neg hk]
        rcases List.mem_append.1 h with h | h
        · obtain ⟨t, ht, h'⟩ := ih h
          exact ⟨t, List.mem_append_left _ ht, h'⟩
        · rw [List.mem_singleton] at h
          subst h
          exact ⟨_, by simp, rfl, rfl⟩

theorem flopCol_reach {A : CSC V} {B : CSR V} {npb nb c : Nat} {fl fl' : List Nat} (hf : fl.length = nb) (h : flopCol A B npb fl c = .ok fl') :
    fl'.length = nb ∧ ∀ b e, rd A.colptr c = .ok b → rd A.colptr (c + 1) = .ok e → ∀ j, b ≤ j → j < e → ∃ r, rd A.rowids j = .ok r ∧ 0 < npb ∧ r / npb < nb := by
  unfold flopCol at h
  obtain ⟨_, -, h⟩ := MatObj.bind_eq_ok h
  obtain ⟨_, -, h⟩ := MatObj.bind_eq_ok h
  obtain ⟨b, hb, h⟩ := MatObj.bind_eq_ok h
  obtain ⟨e, he, h⟩ := MatObj.bind_eq_ok h
  obtain ⟨h1, h2⟩ := forRange_reach (fun fl : List Nat => fl.length = nb) (fun i s s' hs h => by
    unfold flopEntry at h
    obtain ⟨_, -, h⟩ := MatObj.bind_eq_ok h
    obtain ⟨_, -, h⟩ := MatObj.bind_eq_ok h
    obtain ⟨_, -, h⟩ := MatObj.bind_eq_ok h
    exact (wr_len h).trans hs) hf h
  refine ⟨h1, fun b' e' hb' he' j hj hj' => ?_⟩
  rw [hb] at hb'
  rw [he] at he'
  injection hb' with hb'
  injection he' with he'
  subst hb' he'
  obtain ⟨t, t', ht, h⟩ := h2 j hj hj'
  unfold flopEntry at h
  obtain ⟨r, hr, h⟩ := MatObj.bind_eq_ok h
  obtain ⟨q, hq, h⟩ := MatObj.bind_eq_ok h
  obtain ⟨x, hx, -⟩ := MatObj.bind_eq_ok h
  refine ⟨r, hr, ?_⟩
  unfold Tuples.div at hq
  split at hq
  · cases hq
  · injection hq with hq
    subst hq
    have := (List.getElem?_eq_some_iff.1 (rd_lt hx)).1
    omega

theorem copyBlock_reach {cum nnz : List Nat} {vecs : List (List (Nat × Nat × V))} {rows b : Nat} {o o' : Out V} (ho : o.byRow.length = rows)
    (h : copyBlock cum nnz vecs o b = .ok o') :
    o'.byRow.length = rows ∧ ∀ vec n, rd vecs b = .ok vec → rd nnz b = .ok n → ∀ i < n, ∃ t, rd vec i = .ok t ∧ t.1 < rows := by
  unfold copyBlock at h
  obtain ⟨_, -, h⟩ := MatObj.bind_eq_ok h
  obtain ⟨vec, hv, h⟩ := MatObj.bind_eq_ok h
  obtain ⟨n, hn, h⟩ := MatObj.bind_eq_ok h
  obtain ⟨h1, h2⟩ := forRange_reach (fun o : Out V => o.byRow.length = rows) (fun i s s' hs h => by
    unfold copyEntry at h
    obtain ⟨_, -, h⟩ := MatObj.bind_eq_ok h
    obtain ⟨_, -, h⟩ := MatObj.bind_eq_ok h
    obtain ⟨_, hw, h⟩ := MatObj.bind_eq_ok h
    obtain ⟨_, -, h⟩ := MatObj.bind_eq_ok h
    obtain ⟨_, -, h⟩ := MatObj.bind_eq_ok h
    injection h with h
    subst h
    exact (wr_len hw).trans hs) ho h
  refine ⟨h1, fun vec' n' hv' hn' i hi => ?_⟩
  rw [hv] at hv'
  rw [hn] at hn'
  injection hv' with hv'
  injection hn' with hn'
  subst hv' hn'
  obtain ⟨s, s', hs, h⟩ := h2 i (by omega) hi
  unfold copyEntry at h
  obtain ⟨t, ht, h⟩ := MatObj.bind_eq_ok h
  obtain ⟨x, hx, -⟩ := MatObj.bind_eq_ok h
  have := (List.getElem?_eq_some_iff.1 (rd_lt hx)).1
  exact ⟨t, ht, by omega⟩

/-- The kernel does not return a result if there is a product in a row out of range. -/
theorem outer_range {mul add : V → V → V} {A : CSC V} {B : CSR V} {H : Nat} (w : CSC.WF { A with rows := H }) (wB : B.WF) (hab : A.cols = B.rows) {n nb width : Nat}
    (hw : 0 < width) {sortf : (Nat × Nat × V → Nat) → List (Nat × Nat × V) → List (Nat × Nat × V)} (hs : SortsBy32 sortf) {sch : Sched}
    (ho1 : sch.flop.Perm (List.range A.cols)) (hasg : ((List.range n).flatMap sch.asg).Perm (List.range A.cols)) (ho2 : sch.sort.Perm (List.range nb))
    (ho3 : sch.copy.Perm (List.range nb)) {t : Nat × Nat × V} (ht : t ∈ prods mul A B (List.range A.cols)) (hr : A.rows ≤ t.1) (mem : List Nat) (C : CSR V) :
    outerSpGEMM mul add sortf A B n nb width mem sch ≠ .ok (some C) := by
  intro h
  unfold outerSpGEMM at h
  obtain ⟨npb, -, h⟩ := MatObj.bind_eq_ok h
  obtain ⟨flops, hfl, h⟩ := MatObj.bind_eq_ok h
  obtain ⟨_, -, h⟩ := MatObj.bind_eq_ok h
  -- all rows belong to blocks
  have hrow : ∀ r ∈ A.rowids, 0 < npb ∧ r / npb < nb := by
    obtain ⟨-, h2⟩ := foldlM_reach (fun fl : List Nat => fl.length = nb) (fun _ _ _ hf h => (flopCol_reach hf h).1) (List.length_replicate ..) hfl
    intro r hm
    obtain ⟨j, hj, rfl⟩ := List.mem_iff_getElem.1 hm
    obtain ⟨c, hc, h3, h4⟩ : ∃ c < A.cols, A.ptr c ≤ j ∧ j < A.ptr (c + 1) := by
      refine cover_of w.ptrFirst A.cols j ?_
      have h1 : A.ptr A.cols = A.nnz := w.ptrLast
      have h2 : A.rowids.length = A.nnz := w.rowLen
      change j < A.ptr A.cols
      rw [h1, ← h2]
      exact hj
    obtain ⟨s, s', hs, h5⟩ := h2 c (ho1.mem_iff.2 (List.mem_range.2 hc))
    obtain ⟨r, hr, h6⟩ := (flopCol_reach hs h5).2 (A.ptr c) (A.ptr (c + 1)) (Inner.rd_cptr w (Nat.le_of_lt hc)) (Inner.rd_cptr w hc) j h3 h4
    rw [rd_of_lt hj] at hr
    injection hr with hr
    rw [hr]
    exact h6
  have hpp : 0 < npb := by
    cases hl : A.rowids with
    | nil => exact absurd (prods_row (mul := mul) (A := { A with rows := 0 }) ⟨{ w with inBounds := fun r hr => by rw [show _ = _ from hl] at hr; cases hr }, wB, hab⟩ ht).1 (Nat.not_lt_zero _)
    | cons r l => exact (hrow r (by rw [hl]; simp)).1
  have hv : ValidOuter { A with rows := nb * npb } B := ⟨{ w with inBounds := fun r hr => (Nat.div_lt_iff_lt_mul hpp).1 (hrow r hr).2 }, wB, hab⟩
  have hpb : ∀ r < nb * npb, r / npb < nb := fun r hr => (Nat.div_lt_iff_lt_mul hpp).2 hr
  have e1 := flops_eq mul hv hpp hpb ho1
  have e2 := region_ok (mul := mul) (width := width) (flops := flops) hv (fun r _ => div_ok hpp) hpb hw hasg sch.main (Except.ok.inj (hfl.symm.trans e1))
  change (phase n (step mul A B (fun r => Tuples.div r npb) nb width sch.asg) (fin nb) sch.main _ _ = .ok none ∧ _) ∨
    ∃ g ls L, phase n (step mul A B (fun r => Tuples.div r npb) nb width sch.asg) (fin nb) sch.main _ _ = .ok (some (g, ls)) ∧ _ at e2
  rcases e2 with ⟨e, -⟩ | ⟨g, ls, L, e, hg, hL⟩
  · rw [e, ok_bind] at h
    cases h
  · rw [e, ok_bind] at h
    obtain ⟨J, eJ⟩ := sortBlocks_ok add (hs _ (key_lt npb)) hg ho2
    simp only at h
    rw [eJ, ok_bind] at h
    unfold finish at h
    obtain ⟨cum, -, h⟩ := MatObj.bind_eq_ok h
    cases cum with
    | none => cases h
    | some cum =>
      simp only at h
      obtain ⟨total, -, h⟩ := MatObj.bind_eq_ok h
      obtain ⟨_, -, h⟩ := MatObj.bind_eq_ok h
      obtain ⟨o, ho, -⟩ := MatObj.bind_eq_ok h
      obtain ⟨-, h2⟩ := foldlM_reach (fun o : Out V => o.byRow.length = A.rows) (fun _ _ _ hf h => (copyBlock_reach hf h).1) (List.length_replicate ..) ho
      have hb := hpb _ (prods_row (mul := mul) hv ht).1
      obtain ⟨s, s', hs', h5⟩ := h2 (t.1 / npb) (ho3.mem_iff.2 (List.mem_range.2 hb))
      have hm : t ∈ sortf (key npb) (L (t.1 / npb)) := by
        rw [((hs _ (key_lt npb)).perm _).mem_iff, (hL _ hb).mem_iff]
        exact List.mem_filter.2 ⟨ht, by simp⟩
      obtain ⟨y, hy, hy1, -⟩ := mem_merged add hm
      obtain ⟨i, hi, rfl⟩ := List.mem_iff_getElem.1 hy
      obtain ⟨z, hz, hz2⟩ := (copyBlock_reach hs' h5).2 _ _ (rd_tab hb) (rd_tab hb) i hi
      rw [rd_of_lt (by rw [List.length_append]; omega), List.getElem_append_left hi] at hz
      injection hz with hz
      rw [← hz] at hz2
      omega

end Verif.Model.Outer
