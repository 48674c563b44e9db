import Verif.Model.Poly
import Verif.Lemmas.Kinds
import Verif.Lemmas.Alias

/-! # The poly-algorithm driver -/

namespace Verif.Model.Poly

open Scan (rdu)
open Spec
open Alias (bind_ok')

variable {V : Type} {mul add : V → V → V} {A B M : CSR V}

theorem rowLen_ok {X : CSR V} (h : X.WF) {i : Nat} (hi : i < X.rows) : ∃ k, rowLen X i = .ok k := by
  unfold rowLen
  rw [CSR.rd_ptr h (i := i + 1) hi, CSR.rd_ptr h (i := i) (Nat.le_of_lt hi)]
  exact ⟨_, rfl⟩

/-- The two row algorithms together meet the contract of the generic driver. -/
theorem contract (h : Valid A B M) (sB : B.SortedRows) (sM : M.SortedRows) :
    Contract1 poly mul add A B M (maskedRow mul add A B M) := by
  have c1 := kind_contract (mul := mul) (add := add) .msa2 h sM.nodup
  have c2 := kind_contract (mul := mul) (add := add) .mca h ⟨sB, sM⟩
  refine ⟨c1.bound, fun sz => ⟨fun acc => Kind.CleanN .msa2 B.cols sz acc.1 ∧ Kind.CleanN .mca B.cols sz acc.2,
    ⟨c1.initN sz, c2.initN sz⟩, ?_⟩⟩
  rintro i hi hcov hf f hff acc ⟨h1, h2⟩
  obtain ⟨m, hm⟩ := rowLen_ok h.wfM (i := i) (by rw [h.shapes.ma]; exact hi)
  obtain ⟨a, ha⟩ := rowLen_ok h.wfA hi
  simp only [poly, hm, ha, ok_bind]
  split
  · obtain ⟨acc', e1, e2⟩ := c2.num sz i hi ⟨fun h => (by cases h), hcov.m, fun h => (by cases h)⟩ hf f hff acc.2 h2
    have e1' : Mca.mca.numRow mul add A B M i f acc.2 = .ok (acc', maskedRow mul add A B M i) := e1
    rw [e1']
    exact ⟨(acc.1, acc'), rfl, h1, e2⟩
  · obtain ⟨acc', e1, e2⟩ := c1.num sz i hi ⟨fun h => (by cases h), fun h => (by cases h), fun h => (by cases h)⟩ hf f hff
      acc.1 h1
    have e1' : Msa.msa2.numRow mul add A B M i f acc.1 = .ok (acc', maskedRow mul add A B M i) := e1
    rw [e1']
    exact ⟨(acc', acc.2), rfl, e2, h2⟩

theorem step1_idle {fpr : List (Option Nat)} (hf : ∀ i f, rdu fpr i = .ok f → f = 0) (t : Nat) (g : Sh V)
    (l : L1 (poly : RowAlg V).N V) : step1 mul add A B M fpr t g l = Model.step1 poly mul add A B M fpr t g l := by
  unfold step1 Model.step1
  split
  · cases h : rdu fpr l.row with
    | error e => rfl
    | ok f =>
      have := hf _ _ h
      subst this
      rfl
  · rfl

theorem spgemm1p_idle (h : Valid A B M) (hf : ∀ i < A.rows, flopsOf false A B M i = 0) (zb : Bool) {nt dflt : Nat}
    (hn : 0 < setNumThreads nt dflt) (sch : Scheds) (ho : sch.flops.Perm (List.range A.rows)) :
    spgemm1p mul add A B M zb nt dflt sch = Model.spgemm1p poly mul add A B M zb nt dflt sch := by
  unfold spgemm1p Model.spgemm1p
  simp only []
  have hc : (poly : RowAlg V).compl = false := rfl
  rw [hc]
  rcases prepare_ok h.wfA h.wfB h.wfM h.shapes false hn h.rowsPos sch ho with ⟨e, _⟩ | e
  · rw [e]; rfl
  · rw [e]
    simp only [ok_bind]
    have hs : step1 mul add A B M (tab A.rows fun i => some (flopsOf false A B M i)) =
        Model.step1 poly mul add A B M (tab A.rows fun i => some (flopsOf false A B M i)) := by
      funext t g l
      apply step1_idle
      intro i f hr
      by_cases hi : i < A.rows
      · unfold rdu at hr
        rw [rd_tab hi] at hr
        simp only [ok_bind, use] at hr
        cases hr
        exact hf i hi
      · unfold rdu rd at hr
        rw [List.getElem?_eq_none (by rw [tab_length]; omega)] at hr
        cases hr
    rw [hs]
    refine congrArg _ (funext fun ls => congrArg _ (funext fun rngs => ?_))
    cases ls with
    | nil => rfl
    | cons l0 ls =>
    simp only []
    refine congrArg _ (funext fun r => ?_)
    cases r with
    | none => rfl
    | some r =>
    obtain ⟨g, ls'⟩ := r
    simp only []
    refine congrArg _ (funext fun g => congrArg _ (funext fun r => ?_))
    cases r <;> rfl

/-! ## Rows with work -/

theorem runs_pres2 {σ l : Type} {n : Nat} {step : Nat → σ → l → Res (σ × l)} {fin : l → Bool} (G : σ → Prop)
    (L : Nat → l → Prop) (hstep : ∀ t g x g' x', G g → L t x → step t g x = .ok (g', x') → G g' ∧ L t x') :
    ∀ (sched : List Nat) (g : σ) (ls : Nat → l) (g' : σ) (ls' : Nat → l), G g → (∀ t, L t (ls t)) →
      runs n step fin sched g ls = .ok (g', ls') → G g' ∧ ∀ t, L t (ls' t) := by
  intro sched
  induction sched with
  | nil => intro g ls g' ls' hG hL h; cases h; exact ⟨hG, hL⟩
  | cons t ts ih =>
    intro g ls g' ls' hG hL h
    unfold runs at h
    split at h
    · cases hs : step t g (ls t) with
      | error e => rw [hs] at h; cases h
      | ok r =>
        rw [hs] at h
        obtain ⟨g1, x1⟩ := r
        obtain ⟨h1, h2⟩ := hstep t g (ls t) g1 x1 hG (hL t) hs
        refine ih g1 (upd ls t x1) g' ls' h1 ?_ h
        intro u
        by_cases hu : u = t
        · subst hu; rw [upd_same]; exact h2
        · rw [upd_ne _ _ hu]; exact hL u
    · exact ih g ls g' ls' hG hL h

theorem phase_pres {σ l : Type} {n : Nat} {step : Nat → σ → l → Res (σ × l)} {fin : l → Bool} (G : σ → Prop)
    (L : Nat → l → Prop) (hstep : ∀ t g x g' x', G g → L t x → step t g x = .ok (g', x') → G g' ∧ L t x')
    {sched : List Nat} {g : σ} {ls : Nat → l} {g' : σ} {ls' : Nat → l} (hG : G g) (hL : ∀ t, L t (ls t))
    (h : phase n step fin sched g ls = .ok (some (g', ls'))) : G g' ∧ ∀ t < n, L t (ls' t) ∧ fin (ls' t) = true := by
  unfold phase at h
  obtain ⟨⟨g1, ls1⟩, e1, e2⟩ := bind_ok' h
  simp only [] at e2
  split at e2
  · rename_i hall
    cases e2
    obtain ⟨h1, h2⟩ := runs_pres2 G L hstep sched g ls g' ls' hG hL e1
    refine ⟨h1, fun t ht => ⟨h2 t, ?_⟩⟩
    rw [List.all_eq_true] at hall
    exact hall t (List.mem_range.2 ht)
  · cases e2

theorem wr_ne {α : Type} {l l' : List α} {i j : Nat} {x : α} (h : wr l i x = .ok l') (hne : i ≠ j) : l'[j]? = l[j]? := by
  unfold wr at h
  split at h
  · cases h
    rw [List.getElem?_set_ne hne]
  · cases h

/-- A row with work keeps its counter unset. -/
theorem step1_unset {fpr : List (Option Nat)} {i f : Nat} (hf : rdu fpr i = .ok f) (hf0 : f ≠ 0) (t : Nat) (g : Sh V)
    (l : L1 (poly : RowAlg V).N V) (g' : Sh V) (l' : L1 (poly : RowAlg V).N V) (hg : g.rowNvals[i]? = some none)
    (h : step1 mul add A B M fpr t g l = .ok (g', l')) : g'.rowNvals[i]? = some none := by
  unfold step1 at h
  split at h
  · obtain ⟨f', e1, e2⟩ := bind_ok' h
    split at e2
    · obtain ⟨⟨acc, em⟩, e3, e4⟩ := bind_ok' e2
      simp only [] at e4
      split at e4
      · cases e4; exact hg
      · cases e4
    · rename_i hz
      obtain ⟨rn, e3, e4⟩ := bind_ok' e2
      cases e4
      have hne : l.row ≠ i := by
        intro he
        rw [he, hf] at e1
        cases e1
        exact hz hf0
      show rn[i]? = _
      rw [wr_ne e3 hne]; exact hg
  · obtain ⟨tn, e3, e4⟩ := bind_ok' h
    cases e4
    exact hg

/-- The owner of a row with an unset counter never gets past it. -/
def Before (i : Nat) : Ctl3 → Prop
  | .start => True
  | .offs k _ => k ≤ i
  | _ => False

theorem step3_unset {rows n i t0 : Nat} {rng : Nat → Nat × Nat} {outs : Nat → List (Nat × V)} (h1 : (rng t0).1 ≤ i)
    (h2 : i < (rng t0).2) (t : Nat) (g : Sh V) (c : Ctl3) (g' : Sh V) (c' : Ctl3) (hg : g.rowNvals[i]? = some none)
    (hc : t = t0 → Before i c) (h : step3 rows n rng outs t g c = .ok (g', c')) :
    g'.rowNvals[i]? = some none ∧ (t = t0 → Before i c') := by
  cases c with
  | start =>
    obtain ⟨off, e1, e2⟩ := bind_ok' h
    cases e2
    exact ⟨hg, fun e => by subst e; exact h1⟩
  | offs k off =>
    unfold step3 at h
    simp only [] at h
    split at h
    · obtain ⟨rp, e1, e2⟩ := bind_ok' h
      obtain ⟨x, e3, e4⟩ := bind_ok' e2
      cases e4
      refine ⟨hg, fun e => ?_⟩
      have hk : k ≤ i := hc e
      have : k ≠ i := by
        rintro rfl
        unfold rdu rd at e3
        rw [hg] at e3
        cases e3
      show k + 1 ≤ i
      omega
    · cases h
      refine ⟨hg, fun e => ?_⟩
      have hk : k ≤ i := hc e
      subst e
      omega
  | last off =>
    refine ⟨?_, fun e => (hc e).elim⟩
    unfold step3 at h
    simp only [] at h
    split at h
    · obtain ⟨rp, e1, e2⟩ := bind_ok' h
      cases e2; exact hg
    · cases h; exact hg
  | baseC =>
    refine ⟨?_, fun e => (hc e).elim⟩
    obtain ⟨rp, e1, e2⟩ := bind_ok' h
    cases e2; exact hg
  | baseV =>
    refine ⟨?_, fun e => (hc e).elim⟩
    obtain ⟨rp, e1, e2⟩ := bind_ok' h
    cases e2; exact hg
  | copyC base k =>
    refine ⟨?_, fun e => (hc e).elim⟩
    obtain ⟨cnt, e1, e2⟩ := bind_ok' h
    split at e2
    · obtain ⟨d, _, e2⟩ := bind_ok' e2
      obtain ⟨x, _, e2⟩ := bind_ok' e2
      obtain ⟨cs, _, e2⟩ := bind_ok' e2
      cases e2; exact hg
    · cases e2; exact hg
  | copyV base k =>
    refine ⟨?_, fun e => (hc e).elim⟩
    obtain ⟨cnt, e1, e2⟩ := bind_ok' h
    split at e2
    · obtain ⟨d, _, e2⟩ := bind_ok' e2
      obtain ⟨x, _, e2⟩ := bind_ok' e2
      obtain ⟨cs, _, e2⟩ := bind_ok' e2
      cases e2; exact hg
    · cases e2; exact hg
  | done =>
    refine ⟨?_, fun e => (hc e).elim⟩
    cases h; exact hg

theorem spgemm1p_busy (h : Valid A B M) {i : Nat} (hi : i < A.rows) (hf : flopsOf false A B M i ≠ 0) (zb : Bool) {nt dflt : Nat}
    (hn : 0 < setNumThreads nt dflt) (sch : Scheds) (ho : sch.flops.Perm (List.range A.rows)) (C : CSR V) :
    spgemm1p mul add A B M zb nt dflt sch ≠ .ok (some C) := by
  unfold spgemm1p
  simp only []
  generalize setNumThreads nt dflt = n at hn
  rcases prepare_ok h.wfA h.wfB h.wfM h.shapes false hn h.rowsPos sch ho with ⟨e, _⟩ | e
  · rw [e]; intro hh; cases hh
  rw [e]
  simp only [ok_bind]
  intro hh
  generalize hP : psum (flopsOf false A B M) = P at hh
  have hcum : ∀ i < A.rows, Has (tab A.rows fun i => some (P i)) P i := fun i hi => has_tab hi
  have hPm : ∀ i j, i ≤ j → j < A.rows → P i ≤ P j := fun i j h _ => by rw [← hP]; exact psum_mono h
  have hrg : setup n (distributeWork (P A.rows) (tab A.rows fun i => some (P i)) A.rows n) =
      .ok ((List.range n).map fun t => (bnd P (P A.rows) A.rows n t, bnd P (P A.rows) A.rows n (t + 1))) := by
    apply mapM_ok
    intro t ht
    exact distributeWork_eq _ (by simpa using ht) hcum hPm
  obtain ⟨ls, _, hh⟩ := bind_ok' hh
  rw [hrg, ok_bind] at hh
  have hs := split_bnd P (P A.rows) A.rows hn
  obtain ⟨t0, ht0, k1, k2⟩ := hs.row_cover hi
  cases ls with
  | nil => cases hh
  | cons l0 ls1 =>
  simp only [] at hh
  obtain ⟨r, e1, hh⟩ := bind_ok' hh
  cases r with
  | none => cases hh
  | some r =>
  obtain ⟨g1, ls2⟩ := r
  simp only [] at hh
  have hrdf : rdu (tab A.rows fun i => some (flopsOf false A B M i)) i = .ok (flopsOf false A B M i) := by
    unfold rdu
    rw [rd_tab hi]; rfl
  obtain ⟨hg1, _⟩ := phase_pres (fun g : Sh V => g.rowNvals[i]? = some none) (fun _ _ => True)
    (fun t g x g' x' hg _ hst => ⟨step1_unset hrdf hf t g x g' x' hg hst, trivial⟩)
    (by simp [hi]) (fun _ => trivial) e1
  obtain ⟨g2, e2, hh⟩ := bind_ok' hh
  have hg2 : g2.rowNvals[i]? = some none := by
    unfold initC at e2
    obtain ⟨nnz, _, e3⟩ := bind_ok' e2
    cases e3
    exact hg1
  obtain ⟨r, e3, hh⟩ := bind_ok' hh
  cases r with
  | none => cases hh
  | some r =>
  obtain ⟨g3, ls3⟩ := r
  have hrng : ((List.range n).map fun t => (bnd P (P A.rows) A.rows n t, bnd P (P A.rows) A.rows n (t + 1))).getD t0 (0, 0) =
      (bnd P (P A.rows) A.rows n t0, bnd P (P A.rows) A.rows n (t0 + 1)) := list_getD_map_range _ _ ht0
  obtain ⟨_, h4⟩ := phase_pres (fun g : Sh V => g.rowNvals[i]? = some none) (fun t c => t = t0 → Before i c)
    (step3_unset (t0 := t0) (by rw [hrng]; exact k1) (by rw [hrng]; exact k2)) hg2 (ls := fun _ => .start)
    (fun _ _ => trivial) e3
  obtain ⟨h5, h6⟩ := h4 t0 ht0
  have : ls3 t0 = .done := by simpa using h6
  have := this ▸ h5 rfl
  exact this

end Verif.Model.Poly
