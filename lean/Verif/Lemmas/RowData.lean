import Verif.Model.RowData
import Verif.SpecRowData
import Verif.Lemmas.TwoPass
import Verif.Lemmas.Msa
import Verif.Lemmas.Blocks
import Verif.Lemmas.HeapGenNeg
import Verif.Lemmas.Dot
import Verif.Lemmas.Outer
import Mathlib.Data.Nat.Find

/-! # The statistics per row -/

namespace Verif.Model.RowData
open Verif.Spec
open Msa (SAcc)

variable {V : Type}

/-- State of a column after the mask `ms` was inserted and products in the columns `seen` were counted -/
def st (ms seen : List Nat) (c : Nat) : Nat := if c ∈ ms then if c ∈ seen then 1 else 0 else 255

def acc (n : Nat) (f : Nat → Nat) : SAcc := { states := tab n f, dirty := [] }

theorem getState_acc {n c : Nat} (h : c < n) (f : Nat → Nat) : (acc n f).getState c = .ok (f c) := by
  unfold SAcc.getState acc
  simp only
  rw [show decide (c < (tab n f).length) = true by simpa using h]
  simp only [check, if_true, ok_bind]
  rw [rd_tab h]

theorem putState_acc {n c : Nat} (h : c < n) (f : Nat → Nat) (x : Nat) : (acc n f).putState c x = .ok (acc n (upd f c x)) := by
  unfold SAcc.putState acc
  simp only
  rw [wr_tab h, ok_bind]

theorem getState_ge {n c : Nat} (h : n ≤ c) (f : Nat → Nat) : (acc n f).getState c = .error .assertion := by
  unfold SAcc.getState acc
  simp only
  rw [show decide (c < (tab n f).length) = false by simpa using h]
  rfl

theorem allow_ok {n : Nat} {ms : List Nat} (hn : ms.Nodup) (hlt : ∀ c ∈ ms, c < n) :
    ms.foldlM (fun s c => SAcc.setAllowed false s c) (acc n fun _ => 255) = .ok (acc n (st ms [])) := by
  have h0 : (fun _ => 255 : Nat → Nat) = st [] [] := by funext c; simp [st]
  rw [h0, foldlM_desc (fun pre => acc n (st pre []))]
  intro pre c post e
  have hc : c < n := hlt c (by rw [e]; simp)
  have hnot : c ∉ pre := Msa.not_mem_of_nodup_split hn e
  unfold SAcc.setAllowed
  rw [getState_acc hc, ok_bind, show st pre [] c = 255 by simp [st, hnot]]
  simp only [Msa.NOT_ALLOWED, Bool.not_false, if_true, beq_self_eq_true, check, ok_bind]
  rw [putState_acc hc]
  congr 2
  funext j
  by_cases hj : j = c
  · subst hj; simp [upd, st, Msa.ALLOWED]
  · simp [upd, st, hj]

theorem clear_ok {n : Nat} {ms seen : List Nat} (hlt : ∀ c ∈ ms, c < n) :
    ms.foldlM (fun s c => SAcc.clear false s c) (acc n (st ms seen)) = .ok (acc n fun _ => 255) := by
  have h0 : st ms seen = fun j => if j ∈ ([] : List Nat) then 255 else st ms seen j := by funext c; simp
  have h1 : (fun _ => 255 : Nat → Nat) = fun j => if j ∈ ms then 255 else st ms seen j := by funext c; by_cases hc : c ∈ ms <;> simp [st, hc]
  rw [h1, h0, foldlM_desc (fun pre => acc n fun j => if j ∈ pre then 255 else st ms seen j)]
  · simp
  intro pre c post e
  have hc : c < n := hlt c (by rw [e]; simp)
  have key : ∀ j, (if j ∈ pre ++ [c] then 255 else st ms seen j) = upd (fun j => if j ∈ pre then 255 else st ms seen j) c 255 j := by
    intro j
    by_cases hj : j = c
    · subst hj; simp [upd]
    · simp [upd, hj]
  unfold SAcc.clear
  rw [getState_acc hc, ok_bind, show (acc n fun j => if j ∈ pre ++ [c] then 255 else st ms seen j) =
    acc n (upd (fun j => if j ∈ pre then 255 else st ms seen j) c 255) from congrArg _ (funext key)]
  by_cases h : (if c ∈ pre then 255 else st ms seen c) = Msa.DEFAULT false
  · rw [if_pos h, Msa.upd_self (f := fun j => if j ∈ pre then 255 else st ms seen j) (x := 255) h]
  · rw [if_neg h, putState_acc hc]
    rfl

theorem count_ok {n : Nat} {ms l : List Nat} (hlt : ∀ c ∈ l, c < n) :
    ∃ nv, l.foldlM (fun s c => count c s) (acc n (st ms []), 0, 0) =
      .ok (acc n (st ms l), nv, (l.filter (· ∈ ms)).length) := by
  obtain ⟨s, e, nv, hs⟩ := foldlM_inv (f := fun s c => count c s)
    (fun pre s => ∃ nv, s = (acc n (st ms pre), nv, (pre.filter (· ∈ ms)).length)) l (acc n (st ms []), 0, 0) ⟨0, rfl⟩ (by
      rintro pre c post s e ⟨nv, rfl⟩
      have hc : c < n := hlt c (by rw [e]; simp)
      unfold count
      simp only
      rw [getState_acc hc, ok_bind]
      by_cases hm : c ∈ ms
      · by_cases hp : c ∈ pre
        · rw [show st ms pre c = 1 by simp [st, hm, hp]]
          refine ⟨_, rfl, nv, ?_⟩
          simp only [List.filter_append, List.length_append]
          rw [show [c].filter (· ∈ ms) = [c] by simp [hm], show st ms (pre ++ [c]) = st ms pre by
            funext j
            by_cases hj : j = c
            · subst hj; simp [st, hp]
            · simp [st, hj]]
          rfl
        · rw [show st ms pre c = 0 by simp [st, hm, hp]]
          simp only [Msa.NOT_ALLOWED, Msa.ALLOWED, Bool.not_false, if_true]
          rw [if_neg (by omega), putState_acc hc, ok_bind]
          refine ⟨_, rfl, nv + 1, ?_⟩
          simp only [List.filter_append, List.length_append]
          rw [show [c].filter (· ∈ ms) = [c] by simp [hm], show st ms (pre ++ [c]) = upd (st ms pre) c Msa.INITIALIZED by
            funext j
            by_cases hj : j = c
            · subst hj; simp [st, hm, Msa.INITIALIZED]
            · simp [st, hj, upd]]
          rfl
      · rw [show st ms pre c = 255 by simp [st, hm]]
        refine ⟨_, rfl, nv, ?_⟩
        simp only [List.filter_append, List.length_append]
        rw [show [c].filter (· ∈ ms) = [] by simp [hm], show st ms (pre ++ [c]) = st ms pre by
          funext j
          by_cases hj : j = c
          · subst hj; simp [st, hm]
          · simp [st, hj]]
        rfl)
  exact ⟨nv, by rw [e, hs]⟩

variable {A B M : CSR V}

theorem visits_touched (A B : CSR V) (i : Nat) : (visits A B i).map (·.1) = touched A B i := by
  unfold visits touched
  rw [List.map_flatMap]
  congr 1
  funext ka
  rw [List.map_map]
  rfl

theorem nest_touched (hA : A.WF) (hB : B.WF) (hAB : A.cols = B.rows) {row : Nat} (hrow : row < A.rows) {σ : Type} (s : σ) (body : Nat → σ → Res σ) :
    nest A B row s (fun _ k s => do let c ← rd B.colids k; body c s) = (touched A B row).foldlM (fun s c => body c s) s := by
  rw [nest_eq hA hB hAB hrow s _ (fun s x => body x.1 s), ← visits_touched, foldlM_map]
  intro j k s hj hk _
  rw [rd_of_lt hk, ok_bind]

theorem masked_ok (h : StatArgs A B M) {row : Nat} (hrow : row < A.rows) (hr : StatRow A B M row) :
    masked A B M row (acc A.cols fun _ => 255) =
      .ok (acc A.cols fun _ => 255, ((touched A B row).filter (· ∈ M.rowCols row)).length, ((touched A B row).filter (· ∈ M.rowCols row)).length) := by
  have hM : row < M.rows := by rw [h.ma]; exact hrow
  unfold masked
  rw [maskLoop_eq h.wfM hM, allow_ok hr.nodup hr.mask, ok_bind, nest_touched h.wfA h.wfB h.ab hrow]
  obtain ⟨nv, e⟩ := count_ok (ms := M.rowCols row) (l := touched A B row) (n := A.cols) hr.prod
  rw [e, ok_bind, maskLoop_eq h.wfM hM, clear_ok hr.mask, ok_bind]

theorem allow_inv {n : Nat} {ms : List Nat} : ∀ {s}, ms.foldlM (fun s c => SAcc.setAllowed false s c) (acc n fun _ => 255) = .ok s →
    ms.Nodup ∧ ∀ c ∈ ms, c < n := by
  induction ms using list_snoc_induction with
  | h0 => intro s _; simp
  | h1 pre c ih =>
    intro s e
    rw [List.foldlM_append] at e
    obtain ⟨s1, e1, e2⟩ := Alias.bind_ok' e
    obtain ⟨h1, h2⟩ := ih e1
    rw [allow_ok h1 h2] at e1
    cases e1
    obtain ⟨s2, e3, _⟩ := Alias.bind_ok' e2
    change SAcc.setAllowed false (acc n (st pre [])) c = .ok s2 at e3
    unfold SAcc.setAllowed at e3
    rcases Nat.lt_or_ge c n with hc | hc
    · rw [getState_acc hc, ok_bind] at e3
      obtain ⟨_, e4, _⟩ := Alias.bind_ok' e3
      have hnot : c ∉ pre := by
        intro hm
        rw [show st pre [] c = 0 by simp [st, hm]] at e4
        cases e4
      refine ⟨List.nodup_append.2 ⟨h1, by simp, fun a ha b hb e => hnot (by rw [← List.mem_singleton.1 hb, ← e]; exact ha)⟩, ?_⟩
      intro x hx
      rcases List.mem_append.1 hx with hx | hx
      · exact h2 x hx
      · rw [List.mem_singleton.1 hx]; exact hc
    · rw [getState_ge hc] at e3
      cases e3

theorem count_inv {n : Nat} {ms l : List Nat} : ∀ {s}, l.foldlM (fun s c => count c s) (acc n (st ms []), 0, 0) = .ok s → ∀ c ∈ l, c < n := by
  induction l using list_snoc_induction with
  | h0 => intro s _; simp
  | h1 pre c ih =>
    intro s e
    rw [List.foldlM_append] at e
    obtain ⟨s1, e1, e2⟩ := Alias.bind_ok' e
    have h2 := ih e1
    obtain ⟨nv, e0⟩ := count_ok (ms := ms) h2
    rw [e0] at e1
    cases e1
    obtain ⟨s2, e3, _⟩ := Alias.bind_ok' e2
    intro x hx
    rcases List.mem_append.1 hx with hx | hx
    · exact h2 x hx
    · rw [List.mem_singleton.1 hx]
      by_contra hc
      unfold count at e3
      simp only at e3
      rw [getState_ge (by omega)] at e3
      cases e3

theorem masked_inv (h : StatArgs A B M) {row : Nat} (hrow : row < A.rows) {r} (e : masked A B M row (acc A.cols fun _ => 255) = .ok r) : StatRow A B M row := by
  have hM : row < M.rows := by rw [h.ma]; exact hrow
  unfold masked at e
  rw [maskLoop_eq h.wfM hM] at e
  obtain ⟨s1, e1, e⟩ := Alias.bind_ok' e
  obtain ⟨h1, h2⟩ := allow_inv e1
  rw [allow_ok h1 h2] at e1
  cases e1
  rw [nest_touched h.wfA h.wfB h.ab hrow] at e
  obtain ⟨s2, e2, _⟩ := Alias.bind_ok' e
  exact ⟨h1, h2, count_inv e2⟩

theorem flops_ok (h : StatArgs A B M) {row : Nat} (hrow : row < A.rows) : flops A B row = .ok (touched A B row).length := by
  unfold flops
  rw [CSR.rd_ptr h.wfA (Nat.le_of_lt hrow), ok_bind, CSR.rd_ptr h.wfA hrow, ok_bind]
  have hle := h.wfA.ptrMono row hrow
  have hnnz := CSR.ptr_le_nnz h.wfA hrow
  rw [forRange_eq_slice (L := A.colids) (g := fun s c => .ok (s + (B.rowCols c).length)) (by rw [h.wfA.colLen]; exact hnnz)]
  · show (A.rowCols row).foldlM _ 0 = _
    have key : ∀ (l : List Nat) (s : Nat), l.foldlM (fun s c => (.ok (s + (B.rowCols c).length) : Res Nat)) s = .ok (s + (l.map fun c => (B.rowCols c).length).sum) := by
      intro l
      induction l with
      | nil => intro s; rfl
      | cons c l ih => intro s; rw [List.foldlM_cons, ok_bind, ih]; simp [Nat.add_assoc]
    rw [key, Nat.zero_add, ← CSR.row_map_fst h.wfA]
    unfold touched
    rw [List.length_flatMap, List.map_map]
    congr 3
    funext ka
    simp only [Function.comp_apply]
    rw [CSR.row_map_fst h.wfB]
  · intro j hj h1 h2 s
    have hc : A.colids[j] < B.rows := by rw [← h.ab]; exact h.wfA.inBounds _ (List.getElem_mem _)
    rw [rd_of_lt hj, ok_bind, CSR.rd_ptr h.wfB hc, ok_bind, CSR.rd_ptr h.wfB (Nat.le_of_lt hc), ok_bind, CSR.rowCols_length h.wfB hc]

/-- The values that are stored for a row -/
def vals (A B M : CSR V) (row : Nat) : List Nat :=
  [B.cols, (A.rowCols row).length, (M.rowCols row).length, (touched A B row).length,
    ((touched A B row).filter (· ∈ M.rowCols row)).length, ((touched A B row).filter (· ∈ M.rowCols row)).length]

def want (A B M : CSR V) (a row : Nat) : Nat := (vals A B M row).getD a 0

theorem rowStats_ok (h : StatArgs A B M) {row : Nat} (hrow : row < A.rows) (hr : StatRow A B M row) :
    rowStats A B M row (acc A.cols fun _ => 255) = .ok (acc A.cols fun _ => 255, vals A B M row) := by
  have hM : row < M.rows := by rw [h.ma]; exact hrow
  unfold rowStats
  rw [CSR.rd_ptr h.wfA hrow, ok_bind, CSR.rd_ptr h.wfA (Nat.le_of_lt hrow), ok_bind, CSR.rd_ptr h.wfM hM, ok_bind,
    CSR.rd_ptr h.wfM (Nat.le_of_lt hM), ok_bind, flops_ok h hrow, ok_bind, masked_ok h hrow hr, ok_bind]
  unfold vals
  rw [CSR.rowCols_length h.wfA hrow, CSR.rowCols_length h.wfM hM]

theorem rowStats_inv (h : StatArgs A B M) {row : Nat} (hrow : row < A.rows) {r} (e : rowStats A B M row (acc A.cols fun _ => 255) = .ok r) : StatRow A B M row := by
  unfold rowStats at e
  obtain ⟨_, _, e⟩ := Alias.bind_ok' e
  obtain ⟨_, _, e⟩ := Alias.bind_ok' e
  obtain ⟨_, _, e⟩ := Alias.bind_ok' e
  obtain ⟨_, _, e⟩ := Alias.bind_ok' e
  obtain ⟨_, _, e⟩ := Alias.bind_ok' e
  obtain ⟨_, e1, _⟩ := Alias.bind_ok' e
  exact masked_inv h hrow e1

theorem todo_mem {A B M : CSR V} {row a v : Nat} : (a, v) ∈ (List.range 6).zip (vals A B M row) ↔ a < 6 ∧ v = want A B M a row := by
  have e : (List.range 6).zip (vals A B M row) = (List.range 6).map fun a => (a, want A B M a row) := rfl
  rw [e, List.mem_map]
  constructor
  · rintro ⟨x, hx, e⟩
    cases e
    exact ⟨List.mem_range.1 hx, rfl⟩
  · rintro ⟨h1, rfl⟩
    exact ⟨a, List.mem_range.2 h1, rfl⟩

/-- A thread has stored everything before its row, apart from what it has still to do. -/
structure LocOk (A B M : CSR V) (cell : Nat → Nat → Option Nat) (l : Loc) : Prop where
  acc : l.acc = acc A.cols fun _ => 255
  row : l.row ≤ A.rows
  done : ∀ a < 6, ∀ r < l.row, (r + 1 = l.row ∧ ∃ v, (a, v) ∈ l.todo) ∨ cell a r = some (want A B M a r)
  todo : ∀ a v, (a, v) ∈ l.todo → 0 < l.row ∧ a < 6 ∧ v = want A B M a (l.row - 1)

theorem store_ok {rows a r v : Nat} {cell : Nat → Nat → Option Nat} (ha : a < 6) (hr : r < rows) :
    store (tab 6 fun a => tab rows (cell a)) a r v = .ok (tab 6 fun b => tab rows (upd cell a (upd (cell a) r (some v)) b)) := by
  unfold store
  rw [rd_tab ha, ok_bind, wr_tab hr, ok_bind, wr_tab ha]
  congr 1
  apply tab_ext
  intro b _
  by_cases hb : b = a
  · subst hb; simp [upd]
  · simp [upd, hb]

theorem region_ok (h : StatArgs A B M) (hrows : ∀ i < A.rows, StatRow A B M i) {n : Nat} (hn : 0 < n) (sched : List Nat) :
    (setRowData A B M n sched = .ok none ∧ ∃ t < n, sched.count t ≤ 7 * A.rows) ∨
      setRowData A B M n sched = .ok (some (tab 6 fun a => tab A.rows fun r => some (want A B M a r))) := by
  have key := phase_glob (n := n) (step := step A B M) (fin := fin A)
    (fun g ls => ∃ cell : Nat → Nat → Option Nat, g = (tab 6 fun a => tab A.rows (cell a)) ∧
      (∀ a r, cell a r = none ∨ cell a r = some (want A B M a r)) ∧ ∀ t < n, LocOk A B M cell (ls t))
    (fun _ l => 7 * (A.rows - l.row) + l.todo.length) ?_ sched (List.replicate 6 (List.replicate A.rows none)) (fun _ => start A) ?_
  · unfold setRowData
    rcases key with ⟨e, t, ht, hc⟩ | ⟨g, ls, e, ⟨cell, rfl, h1, h2⟩, h3⟩
    · rw [e]
      exact .inl ⟨rfl, t, ht, by simpa [start] using hc⟩
    · rw [e]
      right
      simp only [ok_bind, Option.map_some]
      congr 2
      apply tab_ext
      intro a ha
      apply tab_ext
      intro r hr
      have hf := h3 0 hn
      unfold fin at hf
      simp only [Bool.and_eq_true, List.isEmpty_iff, decide_eq_true_eq] at hf
      rcases (h2 0 hn).done a ha r (by omega) with ⟨_, v, hv⟩ | hd
      · rw [hf.1] at hv
        cases hv
      · exact hd
  · rintro t g ls ht ⟨cell, rfl, h1, h2⟩ hf
    have hl := h2 t ht
    generalize ls t = l at hl hf ⊢
    unfold step
    match hto : l.todo with
    | [] =>
      have hlt : l.row < A.rows := by
        unfold fin at hf
        rw [hto] at hf
        simpa using hf
      simp only
      rw [hl.acc, rowStats_ok h hlt (hrows _ hlt), ok_bind]
      refine ⟨_, _, rfl, ⟨cell, rfl, h1, ?_⟩, .inr ?_⟩
      · intro u hu
        by_cases hut : u = t
        · subst hut
          rw [upd_same]
          refine ⟨rfl, hlt, ?_, ?_⟩
          · intro a ha r hr
            simp only at hr
            by_cases hrl : r = l.row
            · subst hrl
              exact .inl ⟨rfl, _, todo_mem.2 ⟨ha, rfl⟩⟩
            · rcases hl.done a ha r (by omega) with ⟨_, v, hv⟩ | hd
              · rw [hto] at hv
                cases hv
              · exact .inr hd
          · intro a v hv
            obtain ⟨h1, h2⟩ := todo_mem.1 hv
            exact ⟨Nat.succ_pos _, h1, h2⟩
        · rw [upd_ne _ _ hut]
          exact h2 u hu
      · simp only [List.length_zip, List.length_range, vals, List.length_cons, List.length_nil]
        omega
    | (a, v) :: rest =>
      have hto' := hl.todo a v (by rw [hto]; simp)
      have hrow := hl.row
      simp only
      rw [store_ok hto'.2.1 (by omega), ok_bind]
      have hup : ∀ b r, upd cell a (upd (cell a) (l.row - 1) (some v)) b r = if b = a ∧ r = l.row - 1 then some v else cell b r := by
        intro b r
        by_cases hb : b = a
        · subst hb
          by_cases hr : r = l.row - 1
          · subst hr; simp [upd]
          · simp [upd, hr]
        · simp [upd, hb]
      refine ⟨_, _, rfl, ⟨_, rfl, ?_, ?_⟩, .inr ?_⟩
      · intro b r
        rw [hup]
        split
        · rename_i hbr
          rw [hbr.1, hbr.2, hto'.2.2]
          exact .inr rfl
        · exact h1 b r
      · intro u hu
        by_cases hut : u = t
        · subst hut
          rw [upd_same]
          refine ⟨hl.acc, hrow, ?_, ?_⟩
          · intro b hb r hr
            rw [hup]
            split
            · rename_i hbr
              rw [hbr.1, hbr.2, hto'.2.2]
              exact .inr rfl
            · rename_i hbr
              rcases hl.done b hb r hr with ⟨e, w, hw⟩ | hd
              · rw [hto] at hw
                rcases List.mem_cons.1 hw with hw | hw
                · cases hw
                  exact absurd ⟨rfl, by omega⟩ hbr
                · exact .inl ⟨e, w, hw⟩
              · exact .inr hd
          · intro b w hw
            exact hl.todo b w (by rw [hto]; exact List.mem_cons_of_mem _ hw)
        · rw [upd_ne _ _ hut]
          have hlu := h2 u hu
          refine ⟨hlu.acc, hlu.row, ?_, hlu.todo⟩
          intro b hb r hr
          rw [hup]
          split
          · rename_i hbr
            rw [hbr.1, hbr.2, hto'.2.2]
            exact .inr rfl
          · exact hlu.done b hb r hr
      · simp only [List.length_cons]
        omega
  · refine ⟨fun _ _ => none, ?_, fun _ _ => .inl rfl, ?_⟩
    · rw [Conv.replicate_eq_tab, Conv.replicate_eq_tab]
    · intro t _
      refine ⟨?_, Nat.zero_le _, fun a _ r hr => absurd hr (Nat.not_lt_zero _), fun a v hv => by cases hv⟩
      unfold start
      simp only [Conv.replicate_eq_tab]
      rfl

theorem region_never (h : StatArgs A B M) {i : Nat} (hi : i < A.rows) (hbad : ¬ StatRow A B M i) {n : Nat} (hn : 0 < n) (sched : List Nat) (d) :
    setRowData A B M n sched ≠ .ok (some d) := by
  have hex : ∃ i, i < A.rows ∧ ¬ StatRow A B M i := ⟨i, hi, hbad⟩
  classical
  obtain ⟨k, ⟨hk, hkbad⟩, hmin⟩ : ∃ k, (k < A.rows ∧ ¬ StatRow A B M k) ∧ ∀ m < k, ¬ (m < A.rows ∧ ¬ StatRow A B M m) :=
    ⟨Nat.find hex, Nat.find_spec hex, fun m hm => Nat.find_min hex hm⟩
  intro e
  unfold setRowData at e
  obtain ⟨r, e1, e2⟩ := Alias.bind_ok' e
  cases r with
  | none => cases e2
  | some r =>
    refine phase_never hn (P := fun l : Loc => l.acc = acc A.cols (fun _ => 255) ∧ l.row ≤ k) ?_ ?_ _ _ _ ?_ r e1
    · rintro l ⟨_, hl⟩
      unfold fin
      rw [show decide (A.rows ≤ l.row) = false by simpa using (by omega : l.row < A.rows), Bool.and_false]
    · rintro g l r ⟨h1, h2⟩ e
      unfold step at e
      split at e
      · obtain ⟨_, _, e⟩ := Alias.bind_ok' e
        cases e
        exact ⟨h1, h2⟩
      · obtain ⟨x, e1, e⟩ := Alias.bind_ok' e
        cases e
        rw [h1] at e1
        have hok := rowStats_inv h (by omega) e1
        rw [rowStats_ok h (by omega) hok] at e1
        cases e1
        have hne : l.row ≠ k := by
          intro hlk
          rw [hlk] at hok
          exact hkbad hok
        exact ⟨rfl, by show l.row + 1 ≤ k; omega⟩
    · refine ⟨?_, Nat.zero_le _⟩
      unfold start
      simp only [Conv.replicate_eq_tab]
      rfl

/-! ### Counting entries -/

theorem filter_cons_length {c : Nat} {ms : List Nat} (hc : c ∉ ms) (l : List Nat) :
    (l.filter (· ∈ c :: ms)).length = l.count c + (l.filter (· ∈ ms)).length := by
  induction l with
  | nil => rfl
  | cons x l ih =>
    by_cases hx : x = c
    · subst hx
      rw [List.filter_cons_of_pos (by simp), List.filter_cons_of_neg (by simpa using hc), List.count_cons_self, List.length_cons, ih]
      omega
    · rw [List.count_cons_of_ne hx]
      by_cases hm : x ∈ ms
      · rw [List.filter_cons_of_pos (by simp [hm]), List.filter_cons_of_pos (by simpa using hm), List.length_cons, List.length_cons, ih]
        omega
      · rw [List.filter_cons_of_neg (by simp [hm, hx]), List.filter_cons_of_neg (by simpa using hm), ih]

theorem counts {ms : List Nat} (hn : ms.Nodup) (l : List Nat) :
    (ms.filter (· ∈ l)).length ≤ (l.filter (· ∈ ms)).length ∧
    ((l.filter (· ∈ ms)).length = (ms.filter (· ∈ l)).length ↔ ∀ j ∈ ms, l.count j ≤ 1) := by
  induction ms with
  | nil => simp
  | cons c ms ih =>
    obtain ⟨hc, hn⟩ := List.nodup_cons.1 hn
    obtain ⟨h1, h2⟩ := ih hn
    rw [filter_cons_length hc]
    have h3 : ((c :: ms).filter (· ∈ l)).length = (if c ∈ l then 1 else 0) + (ms.filter (· ∈ l)).length := by
      by_cases hl : c ∈ l
      · rw [List.filter_cons_of_pos (by simpa using hl), List.length_cons, if_pos hl]; omega
      · rw [List.filter_cons_of_neg (by simpa using hl), if_neg hl]; omega
    have h4 : (if c ∈ l then 1 else 0) ≤ l.count c := by
      split
      · exact List.count_pos_iff.2 (by assumption)
      · exact Nat.zero_le _
    have h5 : l.count c ≤ 1 ↔ l.count c = if c ∈ l then 1 else 0 := by
      split
      · have : 0 < l.count c := List.count_pos_iff.2 (by assumption)
        omega
      · have : l.count c = 0 := List.count_eq_zero.2 (by assumption)
        omega
    rw [h3, List.forall_mem_cons, ← h2, h5]
    omega

theorem row_entries {mul add : V → V → V} {C : CSR V} (hC : C.WF) (hm : IsMasked mul add A B M C) {i : Nat} (hi : i < A.rows)
    (hn : (M.rowCols i).Nodup) : (C.row i).length = ((M.rowCols i).filter (· ∈ touched A B i)).length := by
  have h1 : (C.rowCols i).Nodup := hm.nodup i (by rw [hm.rows]; exact hi)
  have hp : (C.rowCols i).Perm ((M.rowCols i).filter (· ∈ touched A B i)) := by
    rw [List.perm_ext_iff_of_nodup h1 (hn.filter _)]
    intro j
    rw [List.mem_filter, ← CSR.row_map_fst hC, List.mem_map, decide_eq_true_eq, ← visits_touched, mem_visits_iff (mul := mul) (add := add)]
    constructor
    · rintro ⟨⟨j', v⟩, hv, rfl⟩
      have := (hm.entries i hi j' v).1 hv
      exact ⟨this.1, v, this.2⟩
    · rintro ⟨h1, v, hv⟩
      exact ⟨(j, v), (hm.entries i hi j v).2 ⟨h1, hv⟩, rfl⟩
  rw [← hp.length_eq, ← CSR.row_map_fst hC, List.length_map]

/-! ### Printing -/

theorem accumulate_eq (ts : List Int) : accumulate ts = Int.bmod ts.sum (2 ^ 32) := by
  unfold accumulate toSigned
  have key : ∀ (ts : List Int) (a : Int), ts.foldl (fun a x => Int.bmod (a + x) (2 ^ 32)) (Int.bmod a (2 ^ 32)) = Int.bmod (a + ts.sum) (2 ^ 32) := by
    intro ts
    induction ts with
    | nil => intro a; simp
    | cons x ts ih =>
      intro a
      rw [List.foldl_cons, Int.bmod_add_bmod, ih, List.sum_cons, Int.add_assoc]
  have := key ts 0
  rw [Int.zero_add, Int.zero_bmod] at this
  exact this

/-- The number that is printed for a sum of `S` over `k` values -/
def printed (S : Int) (k : Nat) : Int := Int.bmod (((Int.bmod S (2 ^ 32) % 2 ^ 64).toNat / k : Nat) : Int) (2 ^ 64)

theorem average_eq {ts : List Int} {k : Nat} (hk : 0 < k) (hle : k ≤ ts.length) : average ts k = .ok (printed (ts.take k).sum k) := by
  unfold average
  rw [if_neg (by omega), Outer.div_ok hk, ok_bind, accumulate_eq]
  rfl

theorem printed_small {S : Int} (h0 : 0 ≤ S) (h : S < 2 ^ 31) (k : Nat) : printed S k = S / k := by
  have h1 : Int.bmod S (2 ^ 32) = S := by rw [Int.bmod_def]; omega
  have h2 : (S % 2 ^ 64).toNat = S.toNat := by omega
  unfold printed
  rw [h1, h2]
  have h3 : S.toNat / k ≤ S.toNat := Nat.div_le_self _ _
  have h4 : Int.bmod ((S.toNat / k : Nat) : Int) (2 ^ 64) = ((S.toNat / k : Nat) : Int) := by
    generalize S.toNat / k = q at h3
    rw [Int.bmod_def]
    omega
  rw [h4, Int.natCast_ediv, Int.toNat_of_nonneg h0]

theorem div_ne {u s k : Nat} (hk : 0 < k) (h : u + k ≤ s ∨ s + k ≤ u) : u / k ≠ s / k := by
  rcases h with h | h
  · have := Nat.div_le_div_right (c := k) h
    rw [Nat.add_div_right _ hk] at this
    omega
  · have := Nat.div_le_div_right (c := k) h
    rw [Nat.add_div_right _ hk] at this
    omega

theorem printed_large {S : Int} (h0 : 2 ^ 31 ≤ S) (h : S < 2 ^ 63) {k : Nat} (hk : 0 < k) (hk2 : k < 2 ^ 32) : printed S k ≠ S / k := by
  obtain ⟨s, rfl⟩ : ∃ s : Nat, S = s := ⟨S.toNat, by omega⟩
  unfold printed
  generalize hu : (Int.bmod (s : Int) (2 ^ 32) % 2 ^ 64).toNat = u
  have h1 : u + 2 ^ 32 ≤ s ∨ s + 2 ^ 32 ≤ u := by
    rw [Int.bmod_def] at hu
    omega
  have h2 := div_ne hk (u := u) (s := s) (by omega)
  have h3 : u / k < 2 ^ 64 := by
    have := Nat.div_le_self u k
    omega
  rw [← Int.natCast_ediv]
  have h4 : s / k ≤ s := Nat.div_le_self _ _
  generalize u / k = q at h2 h3
  generalize s / k = r at h2 h4
  rw [Int.bmod_def]
  omega

theorem sorted_of (ts : List Int) : (ts.mergeSort (fun a b => decide (a ≤ b))).Perm ts ∧ (ts.mergeSort (fun a b => decide (a ≤ b))).Pairwise (· ≤ ·) := by
  refine ⟨List.mergeSort_perm _ _, ?_⟩
  have := List.pairwise_mergeSort (le := fun a b : Int => decide (a ≤ b)) (fun a b c h1 h2 => by simp at *; omega) (fun a b => by simp; omega) ts
  exact this.imp fun h => by simpa using h

theorem sorted_unique {L L' : List Int} (hp : L.Perm L') (h : L.Pairwise (· ≤ ·)) (h' : L'.Pairwise (· ≤ ·)) : L = L' :=
  hp.eq_of_pairwise (fun a b _ _ h1 h2 => Int.le_antisymm h1 h2) h h'

theorem take_sum_nonneg {L : List Int} (h : ∀ x ∈ L, 0 ≤ x) (k : Nat) : 0 ≤ (L.take k).sum := by
  have : ∀ l : List Int, (∀ x ∈ l, 0 ≤ x) → 0 ≤ l.sum := by
    intro l
    induction l with
    | nil => simp
    | cons x l ih =>
      intro h
      rw [List.sum_cons]
      have h1 := h x (by simp)
      have h2 := ih fun y hy => h y (by simp [hy])
      omega
  exact this _ fun x hx => h x (List.mem_of_mem_take hx)

theorem mapM_fails {α β : Type} {f : α → Res β} {e : Err} {l : List α} (h : ∀ a ∈ l, (∃ b, f a = .ok b) ∨ f a = .error e)
    (hex : ∃ a ∈ l, f a = .error e) : l.mapM f = .error e := by
  induction l with
  | nil => obtain ⟨a, ha, _⟩ := hex; cases ha
  | cons x l ih =>
    rw [List.mapM_cons]
    rcases h x (by simp) with ⟨b, hb⟩ | hb
    · rw [hb, ok_bind, ih (fun a ha => h a (by simp [ha]))]
      · rfl
      · obtain ⟨a, ha, hae⟩ := hex
        rcases List.mem_cons.1 ha with rfl | ha
        · rw [hb] at hae; cases hae
        · exact ⟨a, ha, hae⟩
    · rw [hb]; rfl

theorem map_range_getElem {α β : Type} (l : List α) (g : Nat → β) (f : α → β) (h : ∀ j (hj : j < l.length), g j = f l[j]) :
    (List.range l.length).map g = l.map f := by
  apply List.ext_getElem (by simp)
  intro j h1 h2
  simp only [List.getElem_map, List.getElem_range]
  exact h j (by simpa using h1)

/-- The sorted times -/
def sorted (ts : List Int) : List Int := ts.mergeSort (fun a b => decide (a ≤ b))

theorem sorted_length (ts : List Int) : (sorted ts).length = ts.length := (sorted_of ts).1.length_eq

section
variable {hd : List (List Int)} {tms : List (List (List Int))} {nrows niter : Nat}

theorem flatten_length' {α : Type} {n : Nat} {L : List (List α)} (h : ∀ T ∈ L, T.length = n) : L.flatten.length = L.length * n := by
  induction L with
  | nil => simp
  | cons T L ih =>
    rw [List.flatten_cons, List.length_append, h T (by simp), ih fun T hT => h T (by simp [hT]), List.length_cons, Nat.add_mul]
    omega

theorem flatten_at {α : Type} {n : Nat} {L : List (List α)} (h : ∀ T ∈ L, T.length = n) {a j : Nat} (ha : a < L.length) (hj : j < n) :
    L.flatten[a * n + j]? = L[a][j]? := by
  induction L generalizing a with
  | nil => simp at ha
  | cons T L ih =>
    have hT := h T (by simp)
    rw [List.flatten_cons]
    cases a with
    | zero =>
      rw [List.getElem?_append_left (by omega)]
      simp
    | succ a =>
      rw [List.getElem?_append_right (by rw [hT, Nat.add_mul]; omega)]
      have e : (a + 1) * n + j - T.length = a * n + j := by rw [hT, Nat.add_mul]; omega
      rw [e, ih (fun T hT => h T (by simp [hT])) (by simpa using ha)]
      simp

theorem heads_eq (h : Timings hd tms nrows niter) : heads (hd ++ tms.flatten) niter tms.length = hd.length := by
  have := h.size
  unfold heads
  rw [List.length_append, flatten_length' h.runs, Nat.mul_comm tms.length]
  omega

theorem rd_value {x : List Int} {i n : Nat} (h : n ≤ x.length) (hi : i < n) : rd x i = .ok (x.getD i 0) := by
  rw [rd_of_lt (by omega), List.getD_eq_getElem?_getD, List.getElem?_eq_getElem (by omega)]
  rfl

theorem times_eq (h : Timings hd tms nrows niter) {i a : Nat} (hi : i < nrows) (ha : a < tms.length) :
    times (hd ++ tms.flatten) hd.length niter a i = .ok (valuesAt tms[a] i) := by
  have hT := h.runs tms[a] (List.getElem_mem ha)
  unfold times
  rw [mapM_ok (g := fun j => (tms[a].getD j []).getD i 0)]
  · congr 1
    conv => lhs; rw [← hT]
    exact map_range_getElem tms[a] _ _ fun j hj => by simp [List.getD_eq_getElem?_getD, hj]
  · intro j hj
    have hj := List.mem_range.1 hj
    have e : (hd ++ tms.flatten)[hd.length + a * niter + j]? = some (tms[a][j]'(by omega)) := by
      rw [List.getElem?_append_right (by omega)]
      have : hd.length + a * niter + j - hd.length = a * niter + j := by omega
      rw [this, flatten_at h.runs ha hj, List.getElem?_eq_getElem (by omega)]
    rw [rd_of_getElem? e, ok_bind, rd_value (h.timeLen _ (List.getElem_mem ha) _ (List.getElem_mem _)) hi]
    simp [List.getD_eq_getElem?_getD, show j < tms[a].length by omega]

theorem heads_ok (h : Timings hd tms nrows niter) {i : Nat} (hi : i < nrows) :
    (List.range hd.length).mapM (fun j => do let arr ← rd (hd ++ tms.flatten) j; rd arr i) = .ok (valuesAt hd i) := by
  rw [mapM_ok (g := fun j => (hd.getD j []).getD i 0)]
  · congr 1
    exact map_range_getElem hd _ _ fun j hj => by simp [List.getD_eq_getElem?_getD, hj]
  · intro j hj
    have hj := List.mem_range.1 hj
    have e : (hd ++ tms.flatten)[j]? = some hd[j] := by
      rw [List.getElem?_append_left hj, List.getElem?_eq_getElem hj]
    rw [rd_of_getElem? e, ok_bind, rd_value (h.hdLen _ (List.getElem_mem hj)) hi]
    simp [List.getD_eq_getElem?_getD, hj]

/-- The fields of line `i` for the algorithms -/
def means (tms : List (List (List Int))) (k i : Nat) : List Int := tms.map fun T => printed ((sorted (valuesAt T i)).take k).sum k

theorem line_eq (h : Timings hd tms nrows niter) {k i : Nat} (hk : 0 < k) (hle : k ≤ niter) (hi : i < nrows) :
    line (hd ++ tms.flatten) hd.length niter k tms.length i = .ok (valuesAt hd i ++ means tms k i) := by
  unfold line
  rw [heads_ok h hi, ok_bind, mapM_ok (g := fun a => printed ((sorted (valuesAt (tms.getD a []) i)).take k).sum k), ok_bind]
  · congr 2
    exact map_range_getElem tms _ _ fun j hj => by simp [List.getD_eq_getElem?_getD, hj]
  · intro a ha
    have ha := List.mem_range.1 ha
    rw [times_eq h hi ha, ok_bind]
    have hl : k ≤ (sorted (valuesAt tms[a] i)).length := by
      rw [sorted_length, valuesAt, List.length_map, h.runs _ (List.getElem_mem ha)]
      exact hle
    have := average_eq hk hl
    unfold sorted at this ⊢
    rw [this]
    simp [List.getD_eq_getElem?_getD, ha]

theorem line_fails (h : Timings hd tms nrows niter) {k i : Nat} (hi : i < nrows) (ht : tms ≠ []) {e : Err}
    (hbad : (k = 0 ∧ e = .divzero) ∨ (niter < k ∧ e = .oob)) : line (hd ++ tms.flatten) hd.length niter k tms.length i = .error e := by
  unfold line
  rw [heads_ok h hi, ok_bind]
  have hall : ∀ a < tms.length, (do
      let ts ← times (hd ++ tms.flatten) hd.length niter a i
      average (ts.mergeSort (fun a b => decide (a ≤ b))) k) = .error e := by
    intro a ha
    rw [times_eq h hi ha, ok_bind]
    have hl : (sorted (valuesAt tms[a] i)).length = niter := by
      rw [sorted_length, valuesAt, List.length_map, h.runs _ (List.getElem_mem ha)]
    unfold sorted at hl
    unfold average
    rcases hbad with ⟨rfl, rfl⟩ | ⟨hb, rfl⟩
    · rw [if_neg (by omega)]
      rfl
    · rw [if_pos (by omega)]
  rw [mapM_fails (e := e) (fun a ha => .inr (hall a (List.mem_range.1 ha)))
    ⟨0, List.mem_range.2 (List.length_pos_iff.2 ht), hall 0 (List.length_pos_iff.2 ht)⟩]
  rfl

end

theorem heads_short {data : List (List Int)} {niter m : Nat} (h : data.length < niter * m) (hs : niter * m < 2 ^ 64) :
    data.length < heads data niter m := by
  unfold heads
  omega

theorem line_short {data : List (List Int)} {nh niter k m i : Nat} (h : data.length < nh) : line data nh niter k m i = .error .oob := by
  unfold line
  rw [mapM_fails (e := .oob)]
  · rfl
  · intro j _
    by_cases hj : j < data.length
    · rw [rd_of_lt hj, ok_bind]
      by_cases hi : i < data[j].length
      · exact .inl ⟨_, rd_of_lt hi⟩
      · exact .inr (rd_oob (by omega))
    · rw [rd_oob (by omega)]
      exact .inr rfl
  · exact ⟨data.length, List.mem_range.2 h, by rw [rd_oob (by omega)]; rfl⟩

theorem isMean_iff {ts : List Int} {k : Nat} {m : Int} : IsMean ts k m ↔ m = ((sorted ts).take k).sum / k := by
  constructor
  · rintro ⟨L, hp, hs, rfl⟩
    rw [sorted_unique (hp.trans (sorted_of ts).1.symm) hs (sorted_of ts).2]
    rfl
  · intro h
    exact ⟨sorted ts, (sorted_of ts).1, (sorted_of ts).2, h⟩

theorem smallSum_iff {ts : List Int} {k : Nat} : SmallSum ts k ↔ ((sorted ts).take k).sum < 2 ^ 31 := by
  constructor
  · rintro ⟨L, hp, hs, h⟩
    rw [sorted_unique (hp.trans (sorted_of ts).1.symm) hs (sorted_of ts).2] at h
    exact h
  · intro h
    exact ⟨sorted ts, (sorted_of ts).1, (sorted_of ts).2, h⟩

end Verif.Model.RowData
