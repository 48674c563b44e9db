import Verif.Lemmas.HeapGenRow
import Verif.Lemmas.Mca
import Verif.Lemmas.MatObj

/-! # The mask compressed row algorithms of the generic driver -/

namespace Verif.Model.Gen

open Bin (nprod)
open Msa (pr Ok Inputs found)
open Mca (Inc visit posIn onMask)

variable {V : Type} {mul add : V → V → V} {A B M : CSR V}

theorem walk_eq {bend mb me : Nat} {hit : Nat → Nat → List V × List Bool → Res (List V × List Bool)} :
    ∀ (fuel key loc m : Nat) (s : List V × List Bool),
    walk B M bend mb me hit fuel key loc m s = Mca.inter B M bend me (fun loc m => hit loc (m - mb)) fuel loc key m s := by
  intro fuel
  induction fuel with
  | zero => intros; rfl
  | succ fuel ih =>
    intro key loc m s
    unfold walk Mca.inter
    simp only [ih]

theorem skip_eq {bend mc : Nat} {fB : Nat → Nat} (hB : ∀ k < bend, rd B.colids k = .ok (fB k)) :
    ∀ (fuel loc : Nat), loc < bend → bend - loc ≤ fuel →
    (skip B bend mc fuel (fB loc) loc = .ok none ∧ ∀ k, loc ≤ k → k < bend → fB k < mc) ∨
    ∃ k, loc ≤ k ∧ k < bend ∧ skip B bend mc fuel (fB loc) loc = .ok (some (fB k, k)) ∧ mc ≤ fB k ∧
      ∀ k', loc ≤ k' → k' < k → fB k' < mc := by
  intro fuel
  induction fuel with
  | zero => intro loc h1 h2; omega
  | succ fuel ih =>
    intro loc h1 h2
    unfold skip
    by_cases c : fB loc < mc
    · rw [if_pos c]
      by_cases c2 : loc + 1 < bend
      · rw [if_pos c2, hB _ c2]
        simp only [ok_bind]
        rcases ih (loc + 1) c2 (by omega) with ⟨e, h⟩ | ⟨k, k1, k2, e, k3, k4⟩
        · left
          refine ⟨e, fun k h3 h4 => ?_⟩
          rcases Nat.lt_or_ge loc k with h6 | h6
          · exact h k h6 h4
          · have : k = loc := by omega
            subst this; exact c
        · right
          refine ⟨k, by omega, k2, e, k3, fun k' h3 h4 => ?_⟩
          rcases Nat.lt_or_ge loc k' with h | h'
          · exact k4 k' h h4
          · have : k' = loc := by omega
            subst this; exact c
      · rw [if_neg c2]
        left
        refine ⟨rfl, fun k h3 h4 => ?_⟩
        have : k = loc := by omega
        subst this; exact c
    · rw [if_neg c]
      right
      exact ⟨loc, Nat.le_refl _, h1, rfl, by omega, fun k' h3 h4 => by omega⟩

theorem forRange_split {σ : Type} {lo mid hi : Nat} (h1 : lo ≤ mid) (h2 : mid ≤ hi) {s : σ} {body : Nat → σ → Res σ}
    (h : ∀ k, lo ≤ k → k < mid → body k s = .ok s) : forRange lo hi s body = forRange mid hi s body := by
  induction hd : mid - lo generalizing lo with
  | zero => have : lo = mid := by omega
            subst this; rfl
  | succ n ih =>
    rw [forRange_step (by omega), h lo (Nat.le_refl _) (by omega)]
    exact ih (by omega) (fun k k1 k2 => h k (by omega) k2) (by omega)

theorem walk2_eq {klo khi mbeg mend : Nat} {hit : Nat → Nat → List V × List Bool → Res (List V × List Bool)} {fB fM : Nat → Nat}
    {pos : Nat → Option Nat}
    (hB : ∀ k < khi, rd B.colids k = .ok (fB k)) (hM : ∀ m < mend, rd M.colids m = .ok (fM m))
    (iB : Inc fB klo khi) (iM : Inc fM mbeg mend)
    (hpos : ∀ c m, pos c = some m ↔ mbeg ≤ m ∧ m < mend ∧ fM m = c) :
    ∀ (n loc m : Nat) (s : List V × List Bool), klo ≤ loc → loc < khi → mbeg ≤ m → m + n = mend →
      (∀ m', mbeg ≤ m' → m' < m → fM m' < fB loc) →
      walk2 B M khi mbeg hit n (fB loc) loc m s = forRange loc khi s (visit fB pos fun loc m => hit loc (m - mbeg)) := by
  have hnone : ∀ c, (∀ m, mbeg ≤ m → m < mend → fM m ≠ c) → pos c = none := by
    intro c h
    cases hp : pos c with
    | none => rfl
    | some m => obtain ⟨h1, h2, h3⟩ := (hpos c m).1 hp; exact absurd h3 (h m h1 h2)
  have hvis : ∀ k s, (∀ m, mbeg ≤ m → m < mend → fM m ≠ fB k) → visit fB pos (fun loc m => hit loc (m - mbeg)) k s = .ok s := by
    intro k s h
    unfold visit; rw [hnone _ h]
  intro n
  induction n with
  | zero =>
    intro loc m s h1 h2 h3 h4 h5
    unfold walk2
    rw [Mca.forRange_skip]
    intro k hk1 hk2
    apply hvis
    intro m' hm1 hm2 he
    have := h5 m' hm1 (by omega)
    have := iB.le h1 hk1 hk2
    omega
  | succ n ih =>
    intro loc m s h1 h2 h3 h4 h5
    have hm : m < mend := by omega
    unfold walk2
    rw [hM m hm, ok_bind]
    have hbelow : ∀ k, loc ≤ k → k < khi → fB k < fM m → ∀ m', mbeg ≤ m' → m' < mend → fM m' ≠ fB k := by
      intro k hk1 hk2 hk3 m' hm1 hm2 he
      rcases Nat.lt_or_ge m' m with h | h
      · have := h5 m' hm1 h
        have := iB.le h1 hk1 hk2
        omega
      · have := iM.le h3 h hm2; omega
    rcases skip_eq (mc := fM m) hB (khi - loc) loc h2 (Nat.le_refl _) with ⟨e, h⟩ | ⟨k, k1, k2, e, k3, k4⟩
    · rw [e, ok_bind]
      simp only
      rw [Mca.forRange_skip]
      intro k hk1 hk2
      exact hvis _ _ (hbelow k hk1 hk2 (h k hk1 hk2))
    · rw [e, ok_bind]
      simp only
      rw [forRange_split k1 (Nat.le_of_lt k2) (fun k' a1 a2 => hvis _ _ (hbelow k' a1 (by omega) (k4 k' a1 a2)))]
      by_cases c : fB k = fM m
      · rw [if_pos c, forRange_step k2]
        have hp : pos (fB k) = some m := (hpos _ _).2 ⟨h3, hm, c.symm⟩
        have hv : visit fB pos (fun loc m => hit loc (m - mbeg)) k s = hit k (m - mbeg) s := by unfold visit; rw [hp]
        rw [hv]
        congr 1
        funext s'
        by_cases c2 : k + 1 < khi
        · rw [if_pos c2, hB _ c2, ok_bind]
          apply ih <;> try omega
          intro m' hm1 hm2
          have := iM.le hm1 (by omega : m' ≤ m) hm
          have := iB k (k + 1) (by omega) (by omega) c2
          omega
        · rw [if_neg c2, forRange_of_le (by omega)]
      · rw [if_neg c]
        apply ih <;> try omega
        intro m' hm1 hm2
        have := iM.le hm1 (by omega : m' ≤ m) hm
        omega

/-- Where versions 1 and 2 read the first key. -/
def KeyOk (ver : MVer) (A B : CSR V) (i : Nat) : Prop :=
  ver ≠ .v3 → ∀ j, A.ptr i ≤ j → j < A.ptr (i + 1) → B.ptr (A.colids.getD j 0) < A.nnz ∧
    (B.ptr (A.colids.getD j 0) < B.ptr (A.colids.getD j 0 + 1) →
      A.colids.getD (B.ptr (A.colids.getD j 0)) 0 = B.colids.getD (B.ptr (A.colids.getD j 0)) 0)

theorem turn_eq {row : Nat} (h : Ok A B M row) (sB : B.SortedRows) (sM : (M.rowCols row).Pairwise (· < ·)) (hne : M.rowCols row ≠ [])
    {ver : MVer} (hk : KeyOk ver A B row) {pos j : Nat} (hj1 : A.ptr row ≤ j) (hj2 : j < A.ptr (row + 1)) (s : List V × List Bool) :
    mcaTurn ver mul add A B M (M.ptr row) (M.ptr (row + 1)) pos j s = (do
      let inner ← rd A.colids j
      let klo ← rd B.rowptr inner
      let khi ← rd B.rowptr (inner + 1)
      if klo = khi then .ok s
      else do
        let key ← rd B.colids klo
        Mca.inter B M khi (M.ptr (row + 1)) (fun loc m => hit mul add A B pos j loc (m - M.ptr row))
          ((khi - klo) + (M.ptr (row + 1) - M.ptr row)) klo key (M.ptr row) s) := by
  have hmlen : M.ptr (row + 1) ≤ M.colids.length := by
    rw [h.wfM.colLen]; exact CSR.ptr_le_nnz h.wfM h.ltM
  have hmlt : M.ptr row < M.ptr (row + 1) := by
    have := h.wfM.ptrMono row h.ltM
    rcases Nat.lt_or_ge (M.ptr row) (M.ptr (row + 1)) with h' | h'
    · exact h'
    · exact absurd ((rowCols_eq_nil h.wfM h.ltM).2 (by omega)) hne
  have hjn : j < A.nnz := Nat.lt_of_lt_of_le hj2 (CSR.ptr_le_nnz h.wfA h.lt)
  have hjc : j < A.colids.length := by rw [h.wfA.colLen]; exact hjn
  have hrj : rd A.colids j = .ok (A.colids.getD j 0) := by rw [rd_of_lt hjc]; simp [hjc]
  have hin : A.colids.getD j 0 < B.rows := by
    rw [← h.sh.ab]
    have : A.colids.getD j 0 = A.colids[j] := by simp [hjc]
    rw [this]; exact h.wfA.inBounds _ (List.getElem_mem hjc)
  have hk' := fun hv => hk hv j hj1 hj2
  clear hk
  unfold mcaTurn
  rw [hrj]
  generalize A.colids.getD j 0 = inner at hin hk'
  simp only [ok_bind, CSR.rd_ptr h.wfB (Nat.le_of_lt hin), CSR.rd_ptr h.wfB (i := inner + 1) hin]
  have hklen : B.ptr (inner + 1) ≤ B.colids.length := by
    rw [h.wfB.colLen]; exact CSR.ptr_le_nnz h.wfB hin
  have hrB : ∀ k < B.ptr (inner + 1), rd B.colids k = .ok (B.colids.getD k 0) := by
    intro k hk
    have : k < B.colids.length := by omega
    rw [rd_of_lt this]; simp [this]
  have hrM : ∀ k < M.ptr (row + 1), rd M.colids k = .ok (M.colids.getD k 0) := by
    intro k hk
    have : k < M.colids.length := by omega
    rw [rd_of_lt this]; simp [this]
  have hrA : ver ≠ .v3 → rd A.colids (B.ptr inner) = .ok (A.colids.getD (B.ptr inner) 0) := by
    intro hv
    have : B.ptr inner < A.colids.length := by rw [h.wfA.colLen]; exact (hk' hv).1
    rw [rd_of_lt this]; simp [this]
  have hmono := h.wfB.ptrMono _ hin
  have i1 := Mca.inc_of_sorted hklen (sB _ hin)
  have i2 := Mca.inc_of_sorted hmlen sM
  have hp := Mca.posIn_iff hmlen h.nodup
  by_cases he : B.ptr inner = B.ptr (inner + 1)
  · simp only [if_pos he]
    cases ver
    · simp only [hrA (by decide), ok_bind]
    · simp only [hrA (by decide), ok_bind]
    · rfl
  · have hlt : B.ptr inner < B.ptr (inner + 1) := by omega
    simp only [if_neg he, hrB _ hlt, ok_bind]
    rw [Mca.inter_eq hrB hrM i1 i2 hp _ _ _ _ (Nat.le_refl _) hlt (Nat.le_refl _) hmlt (Nat.le_refl _)
      (fun m h1 h2 => by omega)]
    cases ver
    · simp only [hrA (by decide), ok_bind]
      rw [(hk' (by decide)).2 hlt, walk_eq,
        Mca.inter_eq hrB hrM i1 i2 hp _ _ _ _ (Nat.le_refl _) hlt (Nat.le_refl _) hmlt (by omega) (fun m h1 h2 => by omega)]
    · simp only [hrA (by decide), ok_bind]
      rw [(hk' (by decide)).2 hlt]
      exact walk2_eq hrB hrM i1 i2 hp _ _ _ _ (Nat.le_refl _) hlt (Nat.le_refl _) (by omega) (fun m h1 h2 => by omega)
    · rw [walk_eq,
        Mca.inter_eq hrB hrM i1 i2 hp _ _ _ _ (Nat.le_refl _) hlt (Nat.le_refl _) hmlt (by omega) (fun m h1 h2 => by omega)]

/-- The statements for a product on position `idx` of the mask row -/
def put (mul add : V → V → V) (pos : Nat) (s : List V × List Bool) (idx : Nat) (a b : V) : Res (List V × List Bool) := do
  let f ← rd s.2 idx
  if !f then do
    let vals ← wr s.1 (pos + 1 + idx) (mul a b)
    let flags ← wr s.2 idx true
    .ok (vals, flags)
  else do
    let v ← rd s.1 (pos + 1 + idx)
    let vals ← wr s.1 (pos + 1 + idx) (add v (mul a b))
    .ok (vals, s.2)

theorem turns_eq {row : Nat} (h : Ok A B M row) (sB : B.SortedRows) (sM : (M.rowCols row).Pairwise (· < ·)) (hne : M.rowCols row ≠ [])
    {ver : MVer} (hk : KeyOk ver A B row) {pos : Nat} (s : List V × List Bool) :
    forRange (A.ptr row) (A.ptr (row + 1)) s (mcaTurn ver mul add A B M (M.ptr row) (M.ptr (row + 1)) pos) =
      (visits A B row).foldlM (onMask (M.rowCols row) (put mul add pos)) s := by
  rw [← Mca.interAll_eq h sB sM hne (fun j loc m => hit mul add A B pos j loc (m - M.ptr row)) (put mul add pos) (by
    intro j k idx s hj hk
    have : M.ptr row + idx - M.ptr row = idx := by omega
    simp only [hit, put, rd_of_lt hj, rd_of_lt hk, ok_bind, this])]
  unfold Mca.interAll
  rw [CSR.rd_ptr h.wfA (Nat.le_of_lt h.lt), CSR.rd_ptr h.wfA (i := row + 1) h.lt]
  simp only [ok_bind]
  apply forRange_congr
  intro j h1 h2 s
  exact turn_eq h sB sM hne hk h1 h2 s

/-- With an empty mask row nothing happens in version 2, and in the others if there are no products. -/
theorem turns_empty {row : Nat} (h : Ok A B M row) (hnil : M.rowCols row = []) {ver : MVer} (hv : ver = .v2 ∨ visits A B row = [])
    (hk : KeyOk ver A B row) {pos : Nat} (s : List V × List Bool) :
    forRange (A.ptr row) (A.ptr (row + 1)) s (mcaTurn ver mul add A B M (M.ptr row) (M.ptr (row + 1)) pos) = .ok s := by
  have hme := (rowCols_eq_nil h.wfM h.ltM).1 hnil
  apply Mca.forRange_skip
  intro j hj1 hj2
  have hjn : j < A.nnz := Nat.lt_of_lt_of_le hj2 (CSR.ptr_le_nnz h.wfA h.lt)
  have hjc : j < A.colids.length := by rw [h.wfA.colLen]; exact hjn
  have hrj : rd A.colids j = .ok (A.colids.getD j 0) := by rw [rd_of_lt hjc]; simp [hjc]
  have hin : A.colids.getD j 0 < B.rows := by
    rw [← h.sh.ab]
    have : A.colids.getD j 0 = A.colids[j] := by simp [hjc]
    rw [this]; exact h.wfA.inBounds _ (List.getElem_mem hjc)
  have hk' := fun hv => hk hv j hj1 hj2
  have hemp : ver = .v2 ∨ B.ptr (A.colids.getD j 0) = B.ptr (A.colids.getD j 0 + 1) := by
    rcases hv with h1 | h1
    · exact Or.inl h1
    · right
      unfold visits at h1
      rw [List.flatMap_eq_nil_iff] at h1
      have hz : j < (A.colids.zip A.values).length := by rw [CSR.zip_length h.wfA]; exact hjn
      have hmem : (A.colids.zip A.values)[j] ∈ A.row row := by
        unfold CSR.row
        apply List.mem_of_getElem? (i := j - A.ptr row)
        rw [slice_getElem? (by omega), show A.ptr row + (j - A.ptr row) = j by omega]
        exact List.getElem?_eq_getElem hz
      have h2 := h1 _ hmem
      rw [List.map_eq_nil_iff] at h2
      rw [List.getElem_zip] at h2
      have e1 : A.colids.getD j 0 = A.colids[j] := by simp [hjc]
      rw [e1] at hin ⊢
      have h3 := CSR.row_length h.wfB hin
      have h4 := h.wfB.ptrMono _ hin
      simp only at h2
      rw [h2] at h3
      simp at h3
      omega
  clear hk hv
  unfold mcaTurn
  rw [hrj]
  generalize A.colids.getD j 0 = inner at hin hk' hemp
  have hrA : ver ≠ .v3 → rd A.colids (B.ptr inner) = .ok (A.colids.getD (B.ptr inner) 0) := by
    intro hv
    have : B.ptr inner < A.colids.length := by rw [h.wfA.colLen]; exact (hk' hv).1
    rw [rd_of_lt this]; simp [this]
  simp only [ok_bind, CSR.rd_ptr h.wfB (Nat.le_of_lt hin), CSR.rd_ptr h.wfB (i := inner + 1) hin]
  cases ver
  · have he : B.ptr inner = B.ptr (inner + 1) := by simpa using hemp
    simp only [hrA (by decide), ok_bind, if_pos he]
  · simp only [hrA (by decide), ok_bind]
    have : M.ptr (row + 1) - M.ptr row = 0 := by omega
    rw [this]
    unfold walk2
    split <;> rfl
  · have he : B.ptr inner = B.ptr (inner + 1) := by simpa using hemp
    simp only [if_pos he]

/-- The values and flags after the products `vs`: nothing up to position `pos` has changed. -/
structure Acc (add : V → V → V) (ms : List Nat) (pos n : Nat) (vals : List V) (ps : List (Nat × V)) (s : List V × List Bool) : Prop where
  vlen : s.1.length = vals.length
  flen : s.2.length = n
  low : s.1.take (pos + 1) = vals.take (pos + 1)
  off : ∀ idx c : Nat, ms[idx]? = some c → Spec.sum1 add (pick ps c) = none → s.2[idx]? = some false
  on : ∀ (idx c : Nat) (v : V), ms[idx]? = some c → Spec.sum1 add (pick ps c) = some v → s.2[idx]? = some true ∧ s.1[pos + 1 + idx]? = some v

theorem accum_ok {ms : List Nat} (hn : ms.Nodup) {pos n : Nat} {vals : List V} {flags : List Bool} (hf : flags.length = n)
    (hle : ms.length ≤ n) (hfalse : ∀ i < ms.length, flags[i]? = some false) (vs : List (Nat × V × V))
    (hfit : ∀ x ∈ vs, x.1 ∈ ms → pos + 1 + ms.idxOf x.1 < vals.length) :
    ∃ s, vs.foldlM (onMask ms (put mul add pos)) (vals, flags) = .ok s ∧ Acc add ms pos n vals (pr mul vs) s := by
  refine foldlM_inv (f := onMask ms (put mul add pos)) (fun pre s => Acc add ms pos n vals (pr mul pre) s) vs (vals, flags) ?_ ?_
  · refine ⟨rfl, hf, rfl, ?_, ?_⟩
    · intro idx c h1 _
      exact hfalse idx (List.getElem?_eq_some_iff.1 h1).1
    · intro idx c v _ h2
      simp [pr, Spec.sum1] at h2
  · intro pre a post s e hP
    unfold onMask
    have hoth : ∀ idx c : Nat, ms[idx]? = some c → c ≠ a.1 → pick (pr mul (pre ++ [a])) c = pick (pr mul pre) c := by
      intro idx c _ h2
      rw [Msa.pr_snoc, pick_append, pick_cons, if_neg (fun h => h2 h.symm)]
      simp
    by_cases hc : a.1 ∈ ms
    · rw [if_pos hc]
      have hi := Mca.getElem?_idxOf hc
      have hlt : ms.idxOf a.1 < ms.length := List.idxOf_lt_length_of_mem hc
      have hfl : ms.idxOf a.1 < s.2.length := by rw [hP.flen]; omega
      have hvl : pos + 1 + ms.idxOf a.1 < s.1.length := by rw [hP.vlen]; exact hfit a (e ▸ by simp) hc
      have hsame : pick (pr mul (pre ++ [a])) a.1 = pick (pr mul pre) a.1 ++ [mul a.2.1 a.2.2] := by
        rw [Msa.pr_snoc, pick_append, pick_cons, if_pos rfl]; simp
      have hne : ∀ idx c : Nat, ms[idx]? = some c → c ≠ a.1 → ms.idxOf a.1 ≠ idx := by
        rintro idx c h1 h2 rfl
        rw [hi] at h1
        exact h2 (Option.some.inj h1).symm
      unfold put
      cases hs : Spec.sum1 add (pick (pr mul pre) a.1) with
      | none =>
        rw [rd_of_getElem? (hP.off _ _ hi hs), ok_bind]
        simp only [Bool.not_false, if_true, wr_of_lt hvl, wr_of_lt hfl, ok_bind]
        refine ⟨_, rfl, ?_, ?_, ?_, ?_, ?_⟩
        · simpa using hP.vlen
        · simpa using hP.flen
        · simp only [List.take_set_of_le (show pos + 1 ≤ pos + 1 + ms.idxOf a.1 by omega)]; exact hP.low
        · intro idx c h1 h2
          by_cases hca : c = a.1
          · subst hca; rw [hsame, sum1_append_singleton] at h2; cases h2
          · rw [hoth idx c h1 hca] at h2
            simp only [List.getElem?_set_ne (hne idx c h1 hca)]
            exact hP.off idx c h1 h2
        · intro idx c v h1 h2
          by_cases hca : c = a.1
          · subst hca
            have := Mca.idx_unique hn h1
            subst this
            rw [hsame, sum1_append_singleton, hs] at h2
            simp only [List.getElem?_set_self hfl, List.getElem?_set_self hvl]
            exact ⟨trivial, h2⟩
          · rw [hoth idx c h1 hca] at h2
            have := hne idx c h1 hca
            simp only [List.getElem?_set_ne this, List.getElem?_set_ne (show pos + 1 + ms.idxOf a.1 ≠ pos + 1 + idx by omega)]
            exact hP.on idx c v h1 h2
      | some w =>
        obtain ⟨k1, k2⟩ := hP.on _ _ _ hi hs
        rw [rd_of_getElem? k1, ok_bind]
        simp only [Bool.not_true, Bool.false_eq_true, if_false, rd_of_getElem? k2, wr_of_lt hvl, ok_bind]
        refine ⟨_, rfl, ?_, ?_, ?_, ?_, ?_⟩
        · simpa using hP.vlen
        · simpa using hP.flen
        · simp only [List.take_set_of_le (show pos + 1 ≤ pos + 1 + ms.idxOf a.1 by omega)]; exact hP.low
        · intro idx c h1 h2
          by_cases hca : c = a.1
          · subst hca; rw [hsame, sum1_append_singleton] at h2; cases h2
          · rw [hoth idx c h1 hca] at h2
            exact hP.off idx c h1 h2
        · intro idx c v h1 h2
          by_cases hca : c = a.1
          · subst hca
            have := Mca.idx_unique hn h1
            subst this
            rw [hsame, sum1_append_singleton, hs] at h2
            simp only [List.getElem?_set_self hvl]
            exact ⟨k1, h2⟩
          · rw [hoth idx c h1 hca] at h2
            have := hne idx c h1 hca
            simp only [List.getElem?_set_ne (show pos + 1 + ms.idxOf a.1 ≠ pos + 1 + idx by omega)]
            exact hP.on idx c v h1 h2
    · rw [if_neg hc]
      have hca : ∀ idx c : Nat, ms[idx]? = some c → c ≠ a.1 := by
        rintro idx c h1 rfl
        exact hc (List.mem_of_getElem? h1)
      refine ⟨_, rfl, hP.vlen, hP.flen, hP.low, ?_, ?_⟩
      · intro idx c h1 h2
        rw [hoth idx c h1 (hca idx c h1)] at h2
        exact hP.off idx c h1 h2
      · intro idx c v h1 h2
        rw [hoth idx c h1 (hca idx c h1)] at h2
        exact hP.on idx c v h1 h2

/-- Other values behind what is held -/
theorem Holds.vals {b : Buf V} {out : List (Nat × V)} {L : Nat} (h : Holds b out L) {vals : List V} (hl : vals.length = b.vals.length)
    (ht : vals.take (b.pos + 1) = b.vals.take (b.pos + 1)) : Holds ⟨b.cols, vals, b.pos⟩ out L := by
  obtain ⟨c0, v0, rc, rv, h1, h2, h3, h4, h5⟩ := h
  refine ⟨c0, v0, rc, vals.drop (b.pos + 1), h1, ?_, h3, h4, ?_⟩
  · have := List.take_append_drop (b.pos + 1) vals
    rw [ht, h2, h3] at this
    simp only [List.take_succ_cons] at this
    rw [List.take_left' (by simp)] at this
    rw [h3]
    exact this.symm
  · rw [List.length_drop, hl, h2, h3]
    simp
    omega

theorem compress_ok {ms : List Nat} {b : Buf V} {pre : List (Nat × V)} {L n mb : Nat} {ps : List (Nat × V)} {s : List V × List Bool}
    (hb : Holds b pre L) (ha : Acc add ms b.pos n b.vals ps s) (hrM : ∀ i c, ms[i]? = some c → rd M.colids (mb + i) = .ok c)
    (hr : pre.length + (found add ps ms).length ≤ L) :
    ∃ b', compress M mb ms.length b.pos s.2 b.cols s.1 = .ok ((found add ps ms).length, b'.cols, b'.vals) ∧
      b'.pos = b.pos + (found add ps ms).length ∧ Holds b' (pre ++ found add ps ms) L := by
  have hpre : ∀ k, ∃ t, found add ps ms = found add ps (ms.take k) ++ t := by
    intro k
    refine ⟨found add ps (ms.drop k), ?_⟩
    unfold found
    rw [← List.filterMap_append, List.take_append_drop]
  unfold compress
  obtain ⟨⟨dst, cols, vals⟩, h1, h2⟩ := forRange_inv (body := fun src (s' : Nat × List Nat × List V) => (do
    let f ← rd s.2 src
    if f then do
      let c ← rd M.colids (mb + src)
      let cols ← wr s'.2.1 (b.pos + 1 + s'.1) c
      let v ← rd s'.2.2 (b.pos + 1 + src)
      let vals ← wr s'.2.2 (b.pos + 1 + s'.1) v
      .ok (s'.1 + 1, cols, vals)
    else .ok (s'.1, s'.2.1, s'.2.2)))
    (fun k s' => s'.1 = (found add ps (ms.take k)).length ∧ s'.1 ≤ k ∧
      Holds ⟨s'.2.1, s'.2.2, b.pos + s'.1⟩ (pre ++ found add ps (ms.take k)) L ∧
      ∀ i, k ≤ i → s'.2.2[b.pos + 1 + i]? = s.1[b.pos + 1 + i]?) 0 ms.length (Nat.zero_le _) (0, b.cols, s.1)
    ⟨by simp, Nat.le_refl _, by simpa using hb.vals ha.vlen ha.low, fun _ _ => rfl⟩ (by
      rintro k ⟨dst, cols, vals⟩ - hk ⟨p1, p2, p3, p4⟩
      simp only at p1 p2 p3 p4
      have hget : ms[k]? = some ms[k] := List.getElem?_eq_getElem hk
      have hsn := Msa.found_snoc add ps (ms.take k) ms[k]
      rw [← Mca.take_succ_of hget] at hsn
      simp only
      cases hs : Spec.sum1 add (pick ps ms[k]) with
      | none =>
        rw [hs] at hsn
        simp only [List.append_nil] at hsn
        rw [rd_of_getElem? (ha.off k _ hget hs), ok_bind]
        simp only [Bool.false_eq_true, if_false]
        refine ⟨_, rfl, ?_, ?_, ?_, ?_⟩
        · simp only [hsn]; exact p1
        · simp only; omega
        · simp only [hsn]; exact p3
        · intro i hi; exact p4 i (by omega)
      | some v =>
        rw [hs] at hsn
        simp only at hsn
        obtain ⟨f1, f2⟩ := ha.on k _ v hget hs
        rw [rd_of_getElem? f1, ok_bind]
        simp only [if_true]
        have hroom : (pre ++ found add ps (ms.take k)).length < L := by
          obtain ⟨t, ht⟩ := hpre (k + 1)
          rw [hsn] at ht
          have := congrArg List.length ht
          simp only [List.length_append, List.length_singleton] at this ⊢
          omega
        obtain ⟨b', e1, e2⟩ := push_ok p3 hroom 0 ms[k] v
        unfold push at e1
        simp only at e1
        obtain ⟨vals', w1, e1⟩ := Heap.bind_ok e1
        obtain ⟨cols', w2, e1⟩ := Heap.bind_ok e1
        have e1' := Except.ok.inj e1
        have eb : b' = ⟨cols', vals', b.pos + dst + 1⟩ := by
          have := congrArg Prod.fst e1'
          exact this.symm
        subst eb
        have hsh : b.pos + 1 + dst = b.pos + dst + 1 := by omega
        rw [hrM k _ hget, ok_bind, hsh, w2, ok_bind, rd_of_getElem? ((p4 k (Nat.le_refl _)).trans f2), ok_bind, w1, ok_bind]
        refine ⟨_, rfl, ?_, ?_, ?_, ?_⟩
        · simp only [hsn, List.length_append, List.length_singleton, p1]
        · simp only; omega
        · simp only [hsn]
          rw [← List.append_assoc]
          exact e2
        · intro i hi
          obtain ⟨-, rfl⟩ := MatObj.wr_ok w1
          simp only
          rw [List.getElem?_set_ne (by omega)]
          exact p4 i (by omega))
  obtain ⟨p1, p2, p3, p4⟩ := h2
  rw [List.take_length] at p1 p3
  simp only at p1 p3
  subst p1
  refine ⟨⟨cols, vals, b.pos + _⟩, h1, rfl, p3⟩

theorem flags_ok {n k : Nat} (flags : List Bool) (hf : flags.length = n) (hk : k ≤ n) :
    ∃ f, forRange 0 k flags (fun i flags => wr flags i false) = .ok f ∧ f.length = n ∧ ∀ i < k, f[i]? = some false := by
  obtain ⟨f, h1, h2⟩ := forRange_inv (body := fun i flags => wr flags i false)
    (fun k (f : List Bool) => f.length = n ∧ ∀ i < k, f[i]? = some false) 0 k (Nat.zero_le _) flags ⟨hf, fun i h => by omega⟩ (by
      rintro j f - hj ⟨p1, p2⟩
      refine ⟨_, wr_of_lt (by omega), by simpa using p1, ?_⟩
      intro i hi
      by_cases hij : i = j
      · subst hij; rw [List.getElem?_set_self (by omega)]
      · rw [List.getElem?_set_ne (by omega)]; exact p2 i (by omega))
  exact ⟨f, h1, h2⟩

theorem mcaRow_ok {row : Nat} (h : Ok A B M row) (sB : B.SortedRows) (sM : (M.rowCols row).Pairwise (· < ·)) {ver : MVer}
    (hk : KeyOk ver A B row) (hemp : M.rowCols row = [] → ver = .v2 ∨ visits A B row = []) {flags : List Bool} {n L : Nat}
    (hf : flags.length = n) (hn : (M.row row).length ≤ n) {b : Buf V} {pre : List (Nat × V)} (hb : Holds b pre L)
    (hfit : ∀ x ∈ visits A B row, x.1 ∈ M.rowCols row → pre.length + (M.rowCols row).idxOf x.1 < L)
    (hr : pre.length + (Model.maskedRow mul add A B M row).length ≤ L) :
    ∃ f' b', mcaRow ver mul add A B M row flags b = .ok (f', b', some (Model.maskedRow mul add A B M row).length) ∧ f'.length = n ∧
      Holds b' (pre ++ Model.maskedRow mul add A B M row) L := by
  have hlen := CSR.rowCols_length h.wfM h.ltM
  have hlen' : (M.rowCols row).length = (M.row row).length := by rw [← CSR.row_map_fst h.wfM, List.length_map]
  have hmlen : M.ptr (row + 1) ≤ M.colids.length := by
    rw [h.wfM.colLen]; exact CSR.ptr_le_nnz h.wfM h.ltM
  have hm : Model.maskedRow mul add A B M row = found add (pr mul (visits A B row)) (M.rowCols row) := by
    rw [Msa.pr_visits, Msa.found_prods]; rfl
  have hposL : b.pos = pre.length ∧ b.vals.length = L + 1 := by
    obtain ⟨c0, v0, rc, rv, h1, h2, h3, h4, h5⟩ := hb
    refine ⟨h3, ?_⟩
    rw [h2]; simp; omega
  unfold mcaRow
  rw [CSR.rd_ptr h.wfM (Nat.le_of_lt h.ltM), CSR.rd_ptr h.wfM (i := row + 1) h.ltM]
  simp only [ok_bind]
  rw [← hlen]
  obtain ⟨f, e1, f1, f2⟩ := flags_ok (k := (M.rowCols row).length) flags hf (by omega)
  rw [e1, ok_bind, CSR.rd_ptr h.wfA (Nat.le_of_lt h.lt), CSR.rd_ptr h.wfA (i := row + 1) h.lt]
  simp only [ok_bind]
  obtain ⟨s, e2, ha⟩ : ∃ s, forRange (A.ptr row) (A.ptr (row + 1)) (b.vals, f)
      (mcaTurn ver mul add A B M (M.ptr row) (M.ptr (row + 1)) b.pos) = .ok s ∧
      Acc add (M.rowCols row) b.pos n b.vals (pr mul (visits A B row)) s := by
    by_cases hne : M.rowCols row = []
    · rw [turns_empty h hne (hemp hne) hk]
      refine ⟨_, rfl, rfl, f1, rfl, ?_, ?_⟩
      · intro idx c h1; rw [hne] at h1; simp at h1
      · intro idx c v h1; rw [hne] at h1; simp at h1
    · rw [turns_eq h sB sM hne hk]
      exact accum_ok h.nodup f1 (by omega) f2 _ (fun x hx hm => by have := hfit x hx hm; omega)
  rw [e2, ok_bind]
  obtain ⟨b', e3, e4, e5⟩ := compress_ok (M := M) (mb := M.ptr row) hb ha (by
    intro i c hc
    have hi := (List.getElem?_eq_some_iff.1 hc).1
    have hs := Mca.slice_getD (l := M.colids) (lo := M.ptr row) (hi := M.ptr (row + 1)) (i := i) (by omega) hmlen
    have : M.ptr row + i < M.colids.length := by omega
    rw [show slice M.colids (M.ptr row) (M.ptr (row + 1)) = M.rowCols row from rfl, hc] at hs
    rw [rd_of_lt this]
    simp [this] at hs
    rw [hs]) (by rw [← hm]; exact hr)
  rw [e3, ok_bind]
  refine ⟨s.2, b', ?_, ha.flen, by rw [hm]; exact e5⟩
  simp only [← e4, hm]

/-- The room left for a row is at least its bound. -/
theorem room_bound {exp : Nat → List (Nat × V)} {bound : Nat → Nat} {lo i hi : Nat} (hb : ∀ i < hi, (exp i).length ≤ bound i)
    (h1 : lo ≤ i) (h2 : i < hi) : (seg exp lo i).length + bound i ≤ psum bound hi - psum bound lo := by
  have h4 := psum_mono (f := bound) (show i + 1 ≤ hi by omega)
  have h6 := psum_mono (f := bound) h1
  rw [psum_succ] at h4
  rcases Nat.lt_or_ge lo i with h | h
  · obtain ⟨k, rfl⟩ : ∃ k, i = k + 1 := ⟨i - 1, by omega⟩
    have := room (exp := exp) (bound := bound) (lo := lo) (i := k) (hi := k + 1) (fun i hi => hb i (by omega)) (by omega) (by omega)
    rw [seg_snoc exp (by omega), List.length_append]
    omega
  · have : lo = i := by omega
    subst this
    rw [seg_self]; simp; omega

theorem contract_mca (hin : Inputs A B M) (sB : B.SortedRows) (sM : M.SortedRows) (ver : MVer) (hk : ∀ i < A.rows, KeyOk ver A B i)
    (hemp : ∀ i < A.rows, M.rowCols i = [] → ver = .v2 ∨ visits A B i = [])
    (hfit : ∀ i < A.rows, ∀ x ∈ visits A B i, x.1 ∈ M.rowCols i → (M.rowCols i).idxOf x.1 < nprod A B i)
    (hbd : ∀ i < A.rows, (Model.maskedRow mul add A B M i).length ≤ min (nprod A B i) (M.row i).length) :
    Contract (mca ver) mul add A B M (Model.maskedRow mul add A B M) (fun i => min (nprod A B i) (M.row i).length)
      (fun lo hi (f : List Bool) => ∀ i, lo ≤ i → i < hi → (M.row i).length ≤ f.length) where
  size lo hi h1 h2 := maskedSize_ok hin.wfM h1 h2 hin.sh.ma.symm
  aux lo hi h1 h2 := by
    obtain ⟨m, e1, e2⟩ := longest_ok hin.wfM h1 (by rw [hin.sh.ma]; exact h2)
    refine ⟨List.replicate m false, ?_, ?_⟩
    · show (do let n ← longest M lo hi; .ok (List.replicate n false) : Res (List Bool)) = _
      rw [e1]; rfl
    · simpa using e2
  row lo hi i f b h1 h2 h3 hinv hb := by
    have hi : i < A.rows := by omega
    have hr := room_bound (exp := Model.maskedRow mul add A B M) (bound := fun i => min (nprod A B i) (M.row i).length)
      (fun i hi => hbd i (by omega)) h1 h2
    obtain ⟨f', b', e1, e2, e3⟩ := mcaRow_ok (mul := mul) (add := add) (hin.ok hi) sB (sM i (hin.sh.ma ▸ hi)) (ver := ver) (hk i hi) (hemp i hi) rfl (hinv i h1 h2) hb
      (fun x hx hm => by
        have a1 := hfit i hi x hx hm
        have a2 := List.idxOf_lt_length_of_mem hm
        rw [show (M.rowCols i).length = (M.row i).length by rw [← CSR.row_map_fst hin.wfM, List.length_map]] at a2
        omega)
      (by have := hbd i hi; omega)
    exact ⟨f', b', _, e1, fun i k1 k2 => by rw [e2]; exact hinv i k1 k2, by rw [seg_snoc _ h1]; exact e3, Or.inl rfl⟩

end Verif.Model.Gen
