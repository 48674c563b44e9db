import Verif.Model.OuterProfile
import Verif.Lemmas.Outer2

/-! # The outer-product kernels that measure their parts -/

namespace Verif.Model.Profile
open Verif.Spec
open Verif.Model.Inner
open Outer (Glob GlobOk sel merged)

variable {V : Type}

theorem fullKey_eq {t : Nat × Nat × V} (h : t.2.1 < 2 ^ 32) : fullKey t = t.1 * 2 ^ 32 + t.2.1 := by
  unfold fullKey
  rw [Nat.mod_eq_of_lt h, ← Nat.shiftLeft_add_eq_or_of_lt h, Nat.shiftLeft_eq]

theorem fullKey_iff {s t : Nat × Nat × V} (hs : s.2.1 < 2 ^ 32) (ht : t.2.1 < 2 ^ 32) : fullKey s = fullKey t ↔ s.2.1 = t.2.1 ∧ s.1 = t.1 := by
  rw [fullKey_eq hs, fullKey_eq ht]
  omega

theorem forRange_same {σ : Type} {f g : Nat → σ → Res σ} (P : σ → Prop) {hi : Nat} (h : ∀ i s, P s → f i s = g i s)
    (hp : ∀ i s s', P s → g i s = .ok s' → P s') : ∀ (d lo : Nat) (s : σ), hi - lo = d → P s → forRange lo hi s f = forRange lo hi s g := by
  intro d
  induction d with
  | zero =>
    intro lo s hd _
    rw [forRange_of_le (by omega), forRange_of_le (by omega)]
  | succ d ih =>
    intro lo s hd hs
    rw [forRange_step (by omega), forRange_step (by omega), h lo s hs]
    cases hg : g lo s with
    | error e => rfl
    | ok s' => exact ih (lo + 1) s' (by omega) (hp _ _ _ hs hg)

theorem doMerge_same (add : V → V → V) {vec : List (Nat × Nat × V)} (h : ∀ t ∈ vec, t.2.1 < 2 ^ 32) (len : Nat) :
    doMerge add vec len = Outer.doMerge add vec len := by
  unfold doMerge Outer.doMerge
  split
  · rfl
  · rw [forRange_same (g := Outer.mergeStep add) (fun s : List (Nat × Nat × V) × Nat => ∀ t ∈ s.1, t.2.1 < 2 ^ 32) ?_ ?_ _ 1 (vec, 0) rfl h]
    · rintro j ⟨a, i⟩ ha
      unfold mergeStep Outer.mergeStep
      simp only at ha ⊢
      cases hx : rd a i with
      | error e => rfl
      | ok x =>
        rw [ok_bind, ok_bind]
        cases hy : rd a j with
        | error e => rfl
        | ok y =>
          rw [ok_bind, ok_bind]
          have hx' := ha x (List.mem_of_getElem? ((rd_eq_ok).1 hx))
          have hy' := ha y (List.mem_of_getElem? ((rd_eq_ok).1 hy))
          by_cases hk : x.2.1 = y.2.1 ∧ x.1 = y.1
          · rw [if_pos hk, if_pos ((fullKey_iff hx' hy').2 hk)]
          · rw [if_neg hk, if_neg (fun e => hk ((fullKey_iff hx' hy').1 e))]
    · rintro j ⟨a, i⟩ s' ha e
      unfold Outer.mergeStep at e
      simp only at ha e
      obtain ⟨x, hx, e⟩ := Alias.bind_ok' e
      obtain ⟨y, hy, e⟩ := Alias.bind_ok' e
      have hx' := ha x (List.mem_of_getElem? ((rd_eq_ok).1 hx))
      have hy' := ha y (List.mem_of_getElem? ((rd_eq_ok).1 hy))
      split at e
      · obtain ⟨b, hb, e⟩ := Alias.bind_ok' e
        cases e
        unfold wr at hb
        split at hb
        · cases hb
          intro t ht
          rcases List.mem_or_eq_of_mem_set ht with h1 | h1
          · exact ha t h1
          · rw [h1]; exact hx'
        · cases hb
      · obtain ⟨b, hb, e⟩ := Alias.bind_ok' e
        cases e
        unfold wr at hb
        split at hb
        · cases hb
          intro t ht
          rcases List.mem_or_eq_of_mem_set ht with h1 | h1
          · exact ha t h1
          · rw [h1]; exact hy'
        · cases hb

/-! ### The number of products -/

theorem total_eq (F : Nat → Nat) (nb : Nat) : total (tab nb F) nb = .ok (psum F nb) := Outer2.total_eq F nb

theorem psum_sel (bo : Nat → Nat) {nb : Nat} (W : List (Nat × Nat × V)) (h : ∀ t ∈ W, bo t.1 < nb) : psum (fun b => (sel bo b W).length) nb = W.length := by
  induction W with
  | nil =>
    have : ∀ m, psum (fun b => (sel bo b ([] : List (Nat × Nat × V))).length) m = 0 := by
      intro m
      induction m with
      | zero => rfl
      | succ m ih => rw [psum, ih]; rfl
    exact this nb
  | cons t W ih =>
    have ht := h t (by simp)
    have e : ∀ m, psum (fun b => (sel bo b (t :: W)).length) m = psum (fun b => (sel bo b W).length) m + if bo t.1 < m then 1 else 0 := by
      intro m
      induction m with
      | zero => rfl
      | succ m ihm =>
        rw [psum, ihm, psum, Outer.sel_cons, List.length_append]
        rcases Nat.lt_trichotomy (bo t.1) m with h1 | h1 | h1
        · rw [if_pos h1, if_neg (by omega), if_pos (by omega)]; simp; omega
        · rw [if_neg (by omega), if_pos h1, if_pos (by omega)]; simp; omega
        · rw [if_neg (by omega), if_neg (by omega), if_neg (by omega)]; simp
    rw [e, if_pos ht, ih fun x hx => h x (by simp [hx])]
    rfl

section
variable {mul add : V → V → V} {A : CSC V} {B : CSR V}

theorem flopCol_same {npb i : Nat} (h16 : ∀ r ∈ A.rowids, r / npb < 2 ^ 16) (flops : List Nat) : flopCol A B npb flops i = Outer.flopCol A B npb flops i := by
  unfold flopCol Outer.flopCol
  have : flopEntry A npb = Outer.flopEntry A npb := by
    funext rownnz j fl
    unfold flopEntry Outer.flopEntry
    cases hr : rd A.rowids j with
    | error e => rfl
    | ok r =>
      have hr' := h16 r (List.mem_of_getElem? ((rd_eq_ok).1 hr))
      rw [ok_bind, ok_bind]
      unfold Tuples.div
      split
      · rfl
      · rw [ok_bind, ok_bind, Nat.mod_eq_of_lt hr']
  rw [this]

theorem perBlock_ge {rows nb npb : Nat} (hnb : 0 < nb) (h : Outer.perBlock rows nb = .ok npb) : 64 ≤ npb := by
  unfold Outer.perBlock at h
  split at h
  · cases h; omega
  · rename_i hlt
    rw [Outer.div_ok hnb] at h
    cases h
    rw [Nat.le_div_iff_mul_le hnb]
    have : 64 * nb = nb * 64 := Nat.mul_comm _ _
    omega

/-! ### Sorting and merging -/

theorem sortMerge_ok (add : V → V → V) {sortf : (Nat × Nat × V → Nat) → List (Nat × Nat × V) → List (Nat × Nat × V)}
    {key : Nat × Nat × V → Nat} (hs : SortsBy key (sortf key)) {nb : Nat} {F : Nat → Nat} {g : Glob V} {L : Nat → List (Nat × Nat × V)}
    (hg : GlobOk nb F g L) (hcol : ∀ b < nb, ∀ t ∈ L b, t.2.1 < 2 ^ 32) {o1 o2 : List Nat} (ho1 : o1.Perm (List.range nb)) (ho2 : o2.Perm (List.range nb)) :
    ∃ J : Nat → List (Nat × Nat × V), sortMerge add sortf key nb o1 o2 g =
      .ok (tab nb (fun b => merged add (sortf key (L b)) ++ J b), tab nb (lens fun b => merged add (sortf key (L b)))) := by
  obtain ⟨h1, rest, h2, _⟩ := hg
  choose J hJ using fun b => Outer.doMerge_ok add (sortf key (L b))
  refine ⟨J, ?_⟩
  have split : ∀ {o : List Nat}, o.Perm (List.range nb) → ∀ {pre : List Nat} {b : Nat} {post : List Nat}, o = pre ++ b :: post → b < nb ∧ b ∉ pre := by
    intro o ho pre b post e
    have hnd : o.Nodup := ho.nodup_iff.2 List.nodup_range
    refine ⟨by rw [← List.mem_range, ← ho.mem_iff, e]; simp, fun hm => ?_⟩
    rw [e, List.nodup_append] at hnd
    exact hnd.2.2 b hm b (by simp) rfl
  unfold sortMerge
  have e0 : (List.replicate nb [] : List (List (Nat × Nat × V))) = tab nb (fun b => if b ∈ ([] : List Nat) then sortf key (L b) else []) := by
    rw [Conv.replicate_eq_tab]
    simp
  rw [e0, foldlM_desc (fun pre => tab nb (fun b => if b ∈ pre then sortf key (L b) else []))]
  · rw [ok_bind]
    have e1 : ((tab nb (fun b => if b ∈ o1 then sortf key (L b) else []), List.replicate nb 0) : List (List (Nat × Nat × V)) × List Nat) =
        (tab nb (fun b => if b ∈ ([] : List Nat) then merged add (sortf key (L b)) ++ J b else sortf key (L b)),
          tab nb (fun b => if b ∈ ([] : List Nat) then (merged add (sortf key (L b))).length else 0)) := by
      rw [Conv.replicate_eq_tab]
      congr 1
      apply tab_ext
      intro b hb
      rw [if_pos (ho1.mem_iff.2 (by simpa using hb))]
      simp
    rw [e1, foldlM_desc (fun pre => (tab nb (fun b => if b ∈ pre then merged add (sortf key (L b)) ++ J b else sortf key (L b)),
          tab nb (fun b => if b ∈ pre then (merged add (sortf key (L b))).length else 0)))]
    · congr 2
      · apply tab_ext
        intro b hb
        rw [if_pos (ho2.mem_iff.2 (by simpa using hb))]
      · apply tab_ext
        intro b hb
        rw [if_pos (ho2.mem_iff.2 (by simpa using hb))]
        rfl
    · intro pre b post e
      obtain ⟨hb, hnot⟩ := split ho2 e
      have hlen : (L b).length = (sortf key (L b)).length := (hs.perm _).length_eq.symm
      unfold mergeOne
      simp only
      rw [rd_tab hb, ok_bind, h1, rd_tab hb, ok_bind, if_neg hnot, hlen, doMerge_same add (fun t ht => hcol b hb t (((hs.perm _).mem_iff).1 ht)), hJ, ok_bind]
      simp only
      rw [wr_tab hb, ok_bind, rd_tab hb, ok_bind, wr_tab hb, ok_bind]
      congr 2
      · apply tab_ext
        intro c _
        by_cases ec : c = b
        · subst ec; simp [upd]
        · simp [upd, ec]
      · apply tab_ext
        intro c _
        by_cases ec : c = b
        · subst ec; simp [upd, hnot]
        · simp [upd, ec]
  · intro pre b post e
    obtain ⟨hb, hnot⟩ := split ho1 e
    unfold sortOne
    rw [h1, rd_tab hb, ok_bind, h2, rd_tab hb, ok_bind, Outer.prefixOf_ok, ok_bind, wr_tab hb]
    congr 1
    apply tab_ext
    intro c _
    by_cases ec : c = b
    · subst ec; simp [upd]
    · simp [upd, ec]

/-! ### A stage -/

/-- A stage returns what the kernel of `outer_mult.h` returns, and the number of products. -/
theorem stage_eq (h : ValidOuter A B) {n nb width npb : Nat} (hw : 0 < width) (hnb : 0 < nb) (hnb2 : nb + 1 < 2 ^ 17)
    (hsm : A.rows + 1 < 2 ^ 17) (hc : B.cols ≤ 2 ^ 32) {sortf : (Nat × Nat × V → Nat) → List (Nat × Nat × V) → List (Nat × Nat × V)}
    (hs : SortsBy32 sortf) {mem : List Nat} (hm : mem.length = A.rows + 1) (hp : Outer.perBlock A.rows nb = .ok npb) {sch : Sched}
    (ho1 : sch.base.flop.Perm (List.range A.cols)) (hasg : ((List.range n).flatMap sch.base.asg).Perm (List.range A.cols))
    (ho2 : sch.base.sort.Perm (List.range nb)) (ho3 : sch.base.copy.Perm (List.range nb)) (ho4 : sch.merge.Perm (List.range nb)) :
    stage mul add sortf A B n nb width mem sch = (do
      let r ← Outer.outerSpGEMM mul add sortf A B n nb width mem sch.base
      .ok (r.map fun C => (C, (Outer.prods mul A B (List.range A.cols)).length))) := by
  obtain ⟨hpp, hpb⟩ := Outer.perBlock_pos hnb hp
  have h64 := perBlock_ge hnb hp
  have hfl : sch.base.flop.foldlM (flopCol A B npb) (List.replicate nb 0) = sch.base.flop.foldlM (Outer.flopCol A B npb) (List.replicate nb 0) := by
    congr 1
    funext fl i
    refine flopCol_same (fun r hr => ?_) fl
    have := h.wfA.inBounds r hr
    rw [Nat.div_lt_iff_lt_mul hpp]
    have : 2 ^ 16 * 64 ≤ 2 ^ 16 * npb := Nat.mul_le_mul_left _ h64
    omega
  unfold stage Outer.outerSpGEMM
  rw [hp, ok_bind, hfl, Outer.flops_eq mul h hpp hpb ho1, ok_bind, total_eq, ok_bind, rd_tab hnb, ok_bind]
  simp only [ok_bind]
  rw [Outer.flops_eq mul h hpp hpb ho1, ok_bind, rd_tab hnb, ok_bind, psum_sel _ _ fun t ht => hpb _ (Outer.prods_row h ht).1]
  rcases Outer.region_ok (mul := mul) h (fun r _ => Outer.div_ok hpp) hpb hw hasg sch.base.main rfl with ⟨e, t, ht, hc⟩ | ⟨g, ls, L, e, hg, hL⟩
  · rw [e, ok_bind, ok_bind]
    rfl
  · rw [e, ok_bind, ok_bind]
    have hmem : ∀ b < nb, ∀ t ∈ L b, t ∈ Outer.prods mul A B (List.range A.cols) := fun b hb t ht => by
      rw [(hL b hb).mem_iff] at ht
      exact (List.mem_filter.1 ht).1
    have hrow : ∀ b < nb, ∀ t ∈ merged add (sortf (Outer.key npb) (L b)), t.1 < A.rows := by
      intro b hb t ht
      obtain ⟨x, hx, e1, _⟩ := Outer.merged_mem add ht
      rw [((hs _ (Outer.key_lt npb)).perm _).mem_iff] at hx
      rw [← e1]
      exact (Outer.prods_row h (hmem b hb x hx)).1
    obtain ⟨J, eJ⟩ := Outer.sortBlocks_ok add (hs _ (Outer.key_lt npb)) hg ho2
    obtain ⟨J', eJ'⟩ := sortMerge_ok add (hs _ (Outer.key_lt npb)) hg (fun b hb t ht => by have := (Outer.prods_row h (hmem b hb t ht)).2; omega) ho2 ho4
    simp only
    rw [eJ, ok_bind, eJ', ok_bind, Outer.finish_ok hnb2 hsm hm hrow ho3, Outer.finish_ok hnb2 hsm hm hrow ho3]

/-! ### A stage of the second kernel -/

theorem back_eq (F G : Nat → Nat) (rows : Nat) :
    ∃ rev, forRange 0 rows (0, List.replicate rows 0) (backStep (tab rows F) (tab rows G) rows) = .ok (psum F rows, rev) := by
  obtain ⟨s, e1, e2, _⟩ := forRange_inv (body := backStep (tab rows F) (tab rows G) rows)
    (fun k s => s.1 + psum F (rows - k) = psum F rows ∧ s.2.length = rows) 0 rows (Nat.zero_le _) (0, List.replicate rows 0)
    (by simp) (by
      rintro k ⟨t, rev⟩ _ hk ⟨h1, h2⟩
      have hk' : rows - 1 - k < rows := by omega
      have ep : psum F (rows - k) = psum F (rows - (k + 1)) + F (rows - 1 - k) := by
        rw [show rows - k = (rows - 1 - k) + 1 by omega, psum, show rows - (k + 1) = rows - 1 - k by omega]
      simp only at h1 h2
      unfold backStep
      rw [rd_tab hk', ok_bind, rd_tab hk', ok_bind]
      by_cases h0 : k = 0
      · rw [if_pos h0, wr_of_lt (by rw [h2]; omega), ok_bind]
        exact ⟨_, rfl, by simp only; omega, by simp [h2]⟩
      · rw [if_neg h0]
        simp only
        rw [rd_of_lt (show rows - 1 - k + 1 < rev.length by rw [h2]; omega), ok_bind, wr_of_lt (by rw [h2]; omega), ok_bind]
        exact ⟨_, rfl, by simp only; omega, by simp [h2]⟩)
  obtain ⟨t, rev⟩ := s
  rw [Nat.sub_self] at e2
  refine ⟨rev, ?_⟩
  rw [e1, ← e2]
  rfl

theorem symbolic_eq (h : ValidOuter A B) (hsq : A.rows = A.cols) (n nb : Nat) :
    symbolic A B n nb = (do
      let s ← Outer2.symbolic A B n nb
      .ok (s.1, s.2.1, s.2.2, (Outer.prods mul A B (List.range A.cols)).length)) := by
  unfold symbolic Outer2.symbolic
  have hf := Outer2.flops_eq (mul := mul) h (Nat.le_of_eq hsq.symm)
  rw [hf, ok_bind]
  rw [← hsq] at hf
  rw [hf, ok_bind]
  simp only
  obtain ⟨rev, hr⟩ := back_eq (Outer2.rowF mul A B) (Outer2.colF mul A B) A.rows
  rw [hr, ok_bind, Outer2.total_eq, ok_bind, Outer2.rowF_sum h]
  simp only [bind_assoc, ok_bind]

/-- A stage returns what the kernel of `outer_mult2.h` returns, and the number of products. -/
theorem stage2_eq (h : ValidOuter A B) (hsq : A.rows = A.cols) (h0 : 0 < A.rows) {n nb width : Nat} (hn : 0 < n) (hw : 0 < width) (hnb : 0 < nb) (hnb2 : nb + 1 < 2 ^ 17)
    (hsm : A.rows + 1 < 2 ^ 17) (hc : B.cols ≤ 2 ^ 32) {sortf : (Nat × Nat × V → Nat) → List (Nat × Nat × V) → List (Nat × Nat × V)}
    (hs : SortsBy32 sortf) {mem : List Nat} (hm : mem.length = A.rows + 1) {sch : Sched2}
    (ho2 : sch.base.sort.Perm (List.range nb)) (ho3 : sch.base.copy.Perm (List.range nb)) (ho4 : sch.merge.Perm (List.range nb)) :
    stage2 mul add sortf A B n nb width mem sch = (do
      let r ← Outer2.outerSpGEMM mul add sortf A B n nb width mem sch.base
      .ok (r.map fun C => (C, (Outer.prods mul A B (List.range A.cols)).length))) := by
  obtain ⟨npb, hp⟩ : ∃ npb, Outer.perBlock A.rows nb = .ok npb := by
    unfold Outer.perBlock
    split
    · exact ⟨_, rfl⟩
    · exact ⟨_, Outer.div_ok hnb⟩
  obtain ⟨bl, off, hmo, hb, hcs, e⟩ := Outer2.symbolic_ok mul h (Nat.le_of_eq hsq.symm) h0 hn hnb
  unfold stage2 Outer2.outerSpGEMM
  rw [hp, ok_bind, symbolic_eq (mul := mul) h hsq, e, ok_bind, ok_bind, ok_bind]
  simp only
  rw [rd_tab hnb, ok_bind, ok_bind]
  rcases Outer.region_ok (mul := mul) h (blk := Outer2.blockOf (tab A.rows fun r => some (bl r))) (fun r hr => Outer2.blockOf_ok bl hr) hb hw
    (asg := Outer2.colsOf off) (n := n) (by rw [hcs, hsq]) sch.base.main rfl with ⟨e, t, ht, hc⟩ | ⟨g, ls, L, e, hg, hL⟩
  · rw [e, ok_bind, ok_bind]
    rfl
  · rw [e, ok_bind, ok_bind]
    have hmem : ∀ b < nb, ∀ t ∈ L b, t ∈ Outer.prods mul A B (List.range A.cols) := fun b hb t ht => by
      rw [(hL b hb).mem_iff] at ht
      exact (List.mem_filter.1 ht).1
    have hrow : ∀ b < nb, ∀ t ∈ merged add (sortf Outer2.key (L b)), t.1 < A.rows := by
      intro b hb t ht
      obtain ⟨x, hx, e1, _⟩ := Outer.merged_mem add ht
      rw [((hs _ Outer2.key_lt).perm _).mem_iff] at hx
      rw [← e1]
      exact (Outer.prods_row h (hmem b hb x hx)).1
    obtain ⟨J, eJ⟩ := Outer.sortBlocks_ok add (hs _ Outer2.key_lt) hg ho2
    obtain ⟨J', eJ'⟩ := sortMerge_ok add (hs _ Outer2.key_lt) hg (fun b hb t ht => by have := (Outer.prods_row h (hmem b hb t ht)).2; omega) ho2 ho4
    simp only
    rw [eJ, ok_bind, eJ', ok_bind, Outer.finish_ok hnb2 hsm hm hrow ho3, Outer.finish_ok hnb2 hsm hm hrow ho3]

end

end Verif.Model.Profile
