import Verif.Lemmas.HeapGenMca

/-! # When the generic heap driver does not return -/

namespace Verif.Model

/-- A thread that stays in `P` never reaches the barrier. -/
theorem runs_never {σ l : Type} {n : Nat} {step : Nat → σ → l → Res (σ × l)} {fin : l → Bool} {t : Nat} {P : l → Prop}
    (hstep : ∀ g x r, P x → step t g x = .ok r → P r.2) :
    ∀ (sched : List Nat) (g : σ) (ls : Nat → l) (r : σ × (Nat → l)), P (ls t) → runs n step fin sched g ls = .ok r → P (r.2 t) := by
  intro sched
  induction sched with
  | nil => intro g ls r h e; cases e; exact h
  | cons u us ih =>
    intro g ls r h e
    unfold runs at e
    split at e
    · obtain ⟨⟨g', l'⟩, e1, e2⟩ := Heap.bind_ok e
      refine ih _ _ _ ?_ e2
      by_cases hu : t = u
      · subst hu
        rw [upd_same]
        exact hstep _ _ _ h e1
      · rw [upd_ne _ _ hu]; exact h
    · exact ih _ _ _ h e

theorem phase_never {σ l : Type} {n : Nat} {step : Nat → σ → l → Res (σ × l)} {fin : l → Bool} {t : Nat} (ht : t < n) {P : l → Prop}
    (hfin : ∀ x, P x → fin x = false) (hstep : ∀ g x r, P x → step t g x = .ok r → P r.2)
    (sched : List Nat) (g : σ) (ls : Nat → l) (h0 : P (ls t)) (r : σ × (Nat → l)) :
    phase n step fin sched g ls ≠ .ok (some r) := by
  intro e
  unfold phase at e
  obtain ⟨⟨g', ls'⟩, e1, e2⟩ := Heap.bind_ok e
  have hP := runs_never (P := P) hstep sched g ls _ h0 e1
  have e3 := Except.ok.inj e2
  split at e3
  · rename_i hall
    rw [List.all_eq_true] at hall
    have := hall t (by simpa using ht)
    rw [hfin _ hP] at this
    cases this
  · cases e3

end Verif.Model

namespace Verif.Model.Gen

open Bin (nprod)
open Msa (pr Ok Inputs found)

variable {V : Type} {mul add : V → V → V} {A B M : CSR V} {alg : Alg V}

/-- If the thread that owns row `i` can never step over it then no run returns a matrix. -/
theorem region_never (zero : V) (zb : Bool) {n : Nat} (hn : 0 < n) (sch : Scheds) {i : Nat} (hi : i < A.rows)
    (hst : ∀ lo hi, lo ≤ hi → hi ≤ A.rows → ∃ l, start alg zero A M (tab A.rows (nprod A B)) (lo, hi) = .ok l)
    (P : Nat → Nat → Loc alg.Aux V → Prop)
    (h0 : ∀ lo hi l, lo ≤ i → i < hi → hi ≤ A.rows → start alg zero A M (tab A.rows (nprod A B)) (lo, hi) = .ok l → P lo hi l)
    (hP : ∀ lo hi l, P lo hi l → l.done = false)
    (hstep : ∀ lo hi, lo ≤ i → i < hi → hi ≤ A.rows → ∀ t g l r, P lo hi l → step alg mul add A B M t g l = .ok r → P lo hi r.2)
    (C : CSR V) :
    region alg mul add zero A B M zb n (tab A.rows (nprod A B)) (psum (nprod A B) A.rows) (tab A.rows (psum (nprod A B))) sch ≠
      .ok (some C) := by
  unfold region
  generalize hPs : psum (nprod A B) = P'
  generalize hb : bnd P' (P' A.rows) A.rows n = b
  have hs : Split b A.rows n := hb ▸ split_bnd P' (P' A.rows) A.rows hn
  have hcum : ∀ i < A.rows, Has ((tab A.rows P').map some) P' i := fun i hi => by
    unfold Has; rw [List.getElem?_map, tab_getElem? hi]; rfl
  have hPm : ∀ i j, i ≤ j → j < A.rows → P' i ≤ P' j := fun i j h _ => by rw [← hPs]; exact psum_mono h
  have hdw : ∀ t < n, range (tab A.rows P') (P' A.rows) A.rows n t = .ok (b t, b (t + 1)) := fun t ht => by
    rw [range_eq, distributeWork_eq _ ht hcum hPm, hb]
  have hrg : setup n (range (tab A.rows P') (P' A.rows) A.rows n) = .ok ((List.range n).map fun t => (b t, b (t + 1))) := by
    apply mapM_ok
    intro t ht
    exact hdw t (by simpa using ht)
  rw [hrg]
  simp only [ok_bind]
  obtain ⟨x0, -⟩ := hst 0 0 (Nat.le_refl _) (Nat.zero_le _)
  have hls : ∀ t, ∃ l, t < n → start alg zero A M (tab A.rows (nprod A B)) (b t, b (t + 1)) = .ok l := by
    intro t
    by_cases ht : t < n
    · obtain ⟨l, h⟩ := hst (b t) (b (t + 1)) (hs.mono t ht) (hs.le _)
      exact ⟨l, fun _ => h⟩
    · exact ⟨x0, fun h => absurd h ht⟩
  obtain ⟨f, hf⟩ := Classical.axiomOfChoice hls
  have hmap : ((List.range n).map fun t => (b t, b (t + 1))).mapM (start alg zero A M (tab A.rows (nprod A B))) =
      .ok ((List.range n).map f) := by
    rw [List.mapM_map]
    apply mapM_ok
    intro t ht
    exact hf t (by simpa using ht)
  rw [hmap]
  simp only [ok_bind]
  generalize hl0 : (List.range n).map f = ls0
  cases ls0 with
  | nil => intro e; cases e
  | cons k0 ls1 =>
    simp only
    obtain ⟨t, ht, h3, h4⟩ := hs.row_cover hi
    have hget : (k0 :: ls1).getD t k0 = f t := by
      rw [← hl0, list_getD_map_range _ _ ht]
    intro e
    obtain ⟨r, e1, e2⟩ := Heap.bind_ok e
    cases r with
    | none => cases e2
    | some r =>
      refine phase_never ht (P := P (b t) (b (t + 1))) (hP _ _) (fun g x r h e => hstep _ _ h3 h4 (hs.le _) t g x r h e) _ _ _ ?_ r e1
      rw [hget]
      exact h0 _ _ _ h3 h4 (hs.le _) (hf t ht)

theorem never (hA : A.WF) (hB : B.WF) (hAB : A.cols = B.rows) (zero : V) (zb : Bool) {nt dflt : Nat} (hd : 0 < dflt)
    (hbig : A.rows < 2 ^ 17 ∨ dflt ≤ A.rows) (sch : Scheds) (ho : sch.flops.Perm (List.range A.rows)) {i : Nat} (hi : i < A.rows)
    (hst : ∀ lo hi, lo ≤ hi → hi ≤ A.rows → ∃ l, start alg zero A M (tab A.rows (nprod A B)) (lo, hi) = .ok l)
    (P : Nat → Nat → Loc alg.Aux V → Prop)
    (h0 : ∀ lo hi l, lo ≤ i → i < hi → hi ≤ A.rows → start alg zero A M (tab A.rows (nprod A B)) (lo, hi) = .ok l → P lo hi l)
    (hP : ∀ lo hi l, P lo hi l → l.done = false)
    (hstep : ∀ lo hi, lo ≤ i → i < hi → hi ≤ A.rows → ∀ t g l r, P lo hi l → step alg mul add A B M t g l = .ok r → P lo hi r.2)
    (C : CSR V) : heapSpGEMM alg mul add zero A B M zb nt dflt sch ≠ .ok (some C) := by
  have hn : 0 < setNumThreads nt dflt := by unfold setNumThreads; split <;> omega
  unfold heapSpGEMM
  simp only
  rcases plan_ok hA hB hAB (by omega) hd hbig sch ho with ⟨h, -⟩ | h
  · rw [h]; intro e; cases e
  · rw [h]
    simp only [ok_bind]
    exact region_never zero zb hn sch hi hst P h0 hP hstep C

/-- A row that fails with every buffer -/
theorem never_row (hA : A.WF) (hB : B.WF) (hAB : A.cols = B.rows) (zero : V) (zb : Bool) {nt dflt : Nat} (hd : 0 < dflt)
    (hbig : A.rows < 2 ^ 17 ∨ dflt ≤ A.rows) (sch : Scheds) (ho : sch.flops.Perm (List.range A.rows)) {i : Nat} (hi : i < A.rows)
    (hst : ∀ lo hi, lo ≤ hi → hi ≤ A.rows → ∃ l, start alg zero A M (tab A.rows (nprod A B)) (lo, hi) = .ok l)
    (hrow : ∀ x b r, alg.row mul add A B M i x b ≠ .ok r)
    (C : CSR V) : heapSpGEMM alg mul add zero A B M zb nt dflt sch ≠ .ok (some C) := by
  refine never hA hB hAB zero zb hd hbig sch ho hi hst (fun lo hi l => l.row ≤ i ∧ l.stop = hi ∧ l.done = false) ?_
    (fun lo hi l h => h.2.2) ?_ C
  · intro lo hi l h1 h2 h3 e
    unfold start at e
    obtain ⟨s, -, e⟩ := Heap.bind_ok e
    obtain ⟨x, -, e⟩ := Heap.bind_ok e
    cases e
    exact ⟨h1, rfl, rfl⟩
  · rintro lo hi h1 h2 h3 t g l r ⟨p1, p2, p3⟩ e
    unfold step at e
    rw [if_pos (by omega)] at e
    obtain ⟨⟨x, b, k⟩, e1, e2⟩ := Heap.bind_ok e
    have hne : l.row ≠ i := by
      rintro rfl
      exact hrow _ _ _ e1
    cases k with
    | none => cases e2; exact ⟨by simp only; omega, p2, p3⟩
    | some k =>
      obtain ⟨rn, -, e3⟩ := Heap.bind_ok e2
      cases e3
      exact ⟨by simp only; omega, p2, p3⟩

theorem start_mca (hin : Inputs A B M) (zero : V) (ver : MVer) {lo hi : Nat} (h1 : lo ≤ hi) (h2 : hi ≤ A.rows) :
    ∃ n, start (mca ver) zero A M (tab A.rows (nprod A B)) (lo, hi) = .ok
      { row := lo, stop := hi, aux := List.replicate n false, nvals := 0,
        buf := ⟨List.replicate (psum (fun i => min (nprod A B i) (M.row i).length) hi - psum (fun i => min (nprod A B i) (M.row i).length) lo + 1) 0,
          List.replicate (psum (fun i => min (nprod A B i) (M.row i).length) hi - psum (fun i => min (nprod A B i) (M.row i).length) lo + 1) zero, 0⟩ } := by
  obtain ⟨m, e1, e2⟩ := longest_ok hin.wfM h1 (by rw [hin.sh.ma]; exact h2)
  refine ⟨m, ?_⟩
  unfold start
  have e3 : (mca ver : Alg V).size M (tab A.rows (nprod A B)) lo hi = _ := maskedSize_ok hin.wfM h1 h2 hin.sh.ma.symm
  have e4 : (mca ver : Alg V).aux A M lo hi = .ok (List.replicate m false) := by
    show (do let n ← longest M lo hi; .ok (List.replicate n false) : Res (List Bool)) = _
    rw [e1]; rfl
  simp only [e3, ok_bind]
  rw [e4]
  rfl

/-! ## Rows that fail -/

/-- A loop with a turn that fails in all states -/
theorem forRange_fail {σ : Type} {lo hi j : Nat} {body : Nat → σ → Res σ} (h1 : lo ≤ j) (h2 : j < hi) (hf : ∀ s r, body j s ≠ .ok r) :
    ∀ s r, forRange lo hi s body ≠ .ok r := by
  induction hd : j - lo generalizing lo with
  | zero =>
    have : lo = j := by omega
    subst this
    intro s r e
    rw [forRange_step h2] at e
    obtain ⟨s', e1, -⟩ := Heap.bind_ok e
    exact hf _ _ e1
  | succ n ih =>
    intro s r e
    rw [forRange_step (by omega)] at e
    obtain ⟨s', -, e2⟩ := Heap.bind_ok e
    exact ih (by omega) (by omega) _ _ e2

theorem mcaRow_fail (hA : A.WF) {i j : Nat} (hi : i < A.rows) (hj1 : A.ptr i ≤ j) (hj2 : j < A.ptr (i + 1)) {ver : MVer}
    (hM : M.WF) (hiM : i < M.rows)
    (hf : ∀ pos s r, mcaTurn ver mul add A B M (M.ptr i) (M.ptr (i + 1)) pos j s ≠ .ok r) (x : List Bool) (b : Buf V)
    (r : List Bool × Buf V × Option Nat) : mcaRow ver mul add A B M i x b ≠ .ok r := by
  intro e
  unfold mcaRow at e
  rw [CSR.rd_ptr hM (Nat.le_of_lt hiM), CSR.rd_ptr hM (i := i + 1) hiM] at e
  simp only [ok_bind] at e
  obtain ⟨fl, -, e⟩ := Heap.bind_ok e
  rw [CSR.rd_ptr hA (Nat.le_of_lt hi), CSR.rd_ptr hA (i := i + 1) hi] at e
  simp only [ok_bind] at e
  obtain ⟨s, e1, -⟩ := Heap.bind_ok e
  exact forRange_fail hj1 hj2 (hf b.pos) _ _ e1

theorem rd_row_col (hA : A.WF) {i j : Nat} (hi : i < A.rows) (hj2 : j < A.ptr (i + 1)) :
    rd A.colids j = .ok (A.colids.getD j 0) ∧ A.colids.getD j 0 < A.cols := by
  have hjn : j < A.nnz := Nat.lt_of_lt_of_le hj2 (CSR.ptr_le_nnz hA hi)
  have hjc : j < A.colids.length := by rw [hA.colLen]; exact hjn
  have e1 : A.colids.getD j 0 = A.colids[j] := by simp [hjc]
  rw [e1]
  exact ⟨rd_of_lt hjc, hA.inBounds _ (List.getElem_mem hjc)⟩

/-- Versions 1 and 2 read outside of `A.colids`. -/
theorem turn_key (hA : A.WF) (hB : B.WF) (hAB : A.cols = B.rows) {i j : Nat} (hi : i < A.rows) (hj2 : j < A.ptr (i + 1)) {ver : MVer}
    (hv : ver ≠ .v3) (hbad : A.nnz ≤ B.ptr (A.colids.getD j 0)) (mb me pos : Nat) (s r) :
    mcaTurn ver mul add A B M mb me pos j s ≠ .ok r := by
  obtain ⟨e1, h1⟩ := rd_row_col hA hi hj2
  have hin : A.colids.getD j 0 < B.rows := hAB ▸ h1
  unfold mcaTurn
  rw [e1]
  simp only [ok_bind, CSR.rd_ptr hB (Nat.le_of_lt hin), CSR.rd_ptr hB (i := A.colids.getD j 0 + 1) hin]
  have hoob : rd A.colids (B.ptr (A.colids.getD j 0)) = .error .oob := rd_oob (by rw [hA.colLen]; exact hbad)
  cases ver
  · simp only [hoob]; intro e; cases e
  · simp only [hoob]; intro e; cases e
  · exact absurd rfl hv

/-- Versions 1 and 3 read behind the end of the mask if its row is empty and the last that could have something. -/
theorem turn_mask (hA : A.WF) (hB : B.WF) (hAB : A.cols = B.rows) (hM : M.WF) {i j : Nat} (hi : i < A.rows) (hj2 : j < A.ptr (i + 1)) {ver : MVer}
    (hv : ver ≠ .v2) (hne : B.ptr (A.colids.getD j 0) < B.ptr (A.colids.getD j 0 + 1)) {mb : Nat} (hmb : M.nnz ≤ mb) (me pos : Nat) (s r) :
    mcaTurn ver mul add A B M mb me pos j s ≠ .ok r := by
  obtain ⟨e1, h1⟩ := rd_row_col hA hi hj2
  have hin : A.colids.getD j 0 < B.rows := hAB ▸ h1
  unfold mcaTurn
  rw [e1]
  simp only [ok_bind, CSR.rd_ptr hB (Nat.le_of_lt hin), CSR.rd_ptr hB (i := A.colids.getD j 0 + 1) hin]
  have hoob : rd M.colids mb = .error .oob := rd_oob (by rw [hM.colLen]; exact hmb)
  have hw : ∀ hit fuel key loc m' (s : List V × List Bool) r, walk B M m' mb me hit fuel key loc mb s ≠ .ok r := by
    intro hit fuel key loc m' s r
    cases fuel with
    | zero => intro e; cases e
    | succ fuel =>
      unfold walk
      rw [hoob]; intro e; cases e
  have hlt : ¬ B.ptr (A.colids.getD j 0) = B.ptr (A.colids.getD j 0 + 1) := by omega
  cases ver
  · intro e
    obtain ⟨key, -, e2⟩ := Heap.bind_ok e
    rw [if_neg hlt] at e2
    exact hw _ _ _ _ _ _ _ e2
  · exact absurd rfl hv
  · simp only [if_neg hlt]
    intro e
    obtain ⟨key, -, e2⟩ := Heap.bind_ok e
    exact hw _ _ _ _ _ _ _ e2

/-- No rows: `rowStart[0]` does not exist. -/
theorem no_rows (h0 : A.rows = 0) (zero : V) (zb : Bool) (nt dflt : Nat) (sch : Scheds) (r : Option (CSR V)) :
    heapSpGEMM alg mul add zero A B M zb nt dflt sch ≠ .ok r := by
  unfold heapSpGEMM plan
  intro e
  simp only at e
  obtain ⟨p, e1, -⟩ := Heap.bind_ok e
  obtain ⟨q, -, e2⟩ := Heap.bind_ok e1
  simp only [h0] at e2
  cases e2

/-! ## One row -/

theorem put_fail {ms : List Nat} {pos n : Nat} : ∀ (vs : List (Nat × V × V)) (s : List V × List Bool), s.1.length = n →
    (∃ x ∈ vs, x.1 ∈ ms ∧ n ≤ pos + 1 + ms.idxOf x.1) → ∀ r, vs.foldlM (Mca.onMask ms (put mul add pos)) s ≠ .ok r := by
  intro vs
  induction vs with
  | nil => rintro s - ⟨x, hx, -⟩; cases hx
  | cons a vs ih =>
    rintro s hs ⟨x, hx, hm, hbig⟩ r e
    rw [List.foldlM_cons] at e
    obtain ⟨s', e1, e2⟩ := Heap.bind_ok e
    have hlen : s'.1.length = n := by
      unfold Mca.onMask at e1
      split at e1
      · unfold put at e1
        obtain ⟨f, -, e1⟩ := Heap.bind_ok e1
        split at e1
        · obtain ⟨v, w1, e1⟩ := Heap.bind_ok e1
          obtain ⟨fl, -, e1⟩ := Heap.bind_ok e1
          obtain ⟨-, rfl⟩ := MatObj.wr_ok w1
          cases e1; simpa using hs
        · obtain ⟨v, -, e1⟩ := Heap.bind_ok e1
          obtain ⟨v', w1, e1⟩ := Heap.bind_ok e1
          obtain ⟨-, rfl⟩ := MatObj.wr_ok w1
          cases e1; simpa using hs
      · cases e1; exact hs
    rcases List.mem_cons.1 hx with rfl | hx
    · unfold Mca.onMask at e1
      rw [if_pos hm] at e1
      unfold put at e1
      obtain ⟨f, -, e1⟩ := Heap.bind_ok e1
      split at e1
      · obtain ⟨v, w1, e1⟩ := Heap.bind_ok e1
        have := (MatObj.wr_ok w1).1
        omega
      · obtain ⟨v, -, e1⟩ := Heap.bind_ok e1
        obtain ⟨v', w1, e1⟩ := Heap.bind_ok e1
        have := (MatObj.wr_ok w1).1
        omega
    · exact ih s' hlen ⟨x, hx, hm, hbig⟩ r e2

/-- Too little room for a row: the first of a thread, which has only this row. -/
theorem one_row (hin : Inputs A B M) (sB : B.SortedRows) (sM : M.SortedRows) (h1 : A.rows = 1) (zero : V) (zb : Bool) {nt dflt : Nat}
    (hd : 0 < dflt) (sch : Scheds) (ho : sch.flops.Perm (List.range A.rows)) {ver : MVer} (hk : KeyOk ver A B 0)
    (hbad : ∃ x ∈ visits A B 0, x.1 ∈ M.rowCols 0 ∧ nprod A B 0 ≤ (M.rowCols 0).idxOf x.1) (C : CSR V) :
    heapSpGEMM (mca ver) mul add zero A B M zb nt dflt sch ≠ .ok (some C) := by
  have hi : 0 < A.rows := by omega
  have hok := hin.ok hi
  refine never hin.wfA hin.wfB hin.sh.ab zero zb hd (Or.inl (by omega)) sch ho hi
    (fun lo hi h1 h2 => (start_mca hin zero ver h1 h2).elim fun n h => ⟨_, h⟩)
    (fun lo hi l => l.row = 0 ∧ l.stop = 1 ∧ l.done = false ∧ l.buf.pos = 0 ∧ l.buf.vals.length ≤ nprod A B 0 + 1) ?_
    (fun lo hi l h => h.2.2.1) ?_ C
  · intro lo hi l a1 a2 a3 e
    obtain ⟨n, e'⟩ := start_mca hin zero ver (by omega : lo ≤ hi) a3
    rw [e'] at e
    cases e
    obtain rfl : lo = 0 := by omega
    obtain rfl : hi = 1 := by omega
    refine ⟨rfl, rfl, rfl, rfl, ?_⟩
    simp only [List.length_replicate, psum]
    omega
  · rintro lo hi a1 a2 a3 t g l r ⟨p1, p2, p3, p4, p5⟩ e
    exfalso
    unfold step at e
    rw [if_pos (by omega)] at e
    obtain ⟨⟨x, b, k⟩, e1, -⟩ := Heap.bind_ok e
    rw [p1] at e1
    obtain ⟨y, y1, y2, y3⟩ := hbad
    have hne : M.rowCols 0 ≠ [] := by intro h; rw [h] at y2; cases y2
    have e2 : mcaRow ver mul add A B M 0 l.aux l.buf = .ok (x, b, k) := e1
    unfold mcaRow at e2
    rw [CSR.rd_ptr hok.wfM (Nat.le_of_lt hok.ltM), CSR.rd_ptr hok.wfM (i := 0 + 1) hok.ltM] at e2
    simp only [ok_bind] at e2
    obtain ⟨fl, -, e2⟩ := Heap.bind_ok e2
    rw [CSR.rd_ptr hok.wfA (Nat.le_of_lt hok.lt), CSR.rd_ptr hok.wfA (i := 0 + 1) hok.lt] at e2
    simp only [ok_bind] at e2
    obtain ⟨s, e3, -⟩ := Heap.bind_ok e2
    rw [turns_eq hok sB (sM 0 hok.ltM) hne hk] at e3
    exact put_fail _ _ rfl ⟨y, y1, y2, by simp only; omega⟩ _ e3

end Verif.Model.Gen
