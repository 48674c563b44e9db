import Verif.Model.Mca
import Verif.Lemmas.MsaAlg

/-! # The mask-compressed accumulator produces the expected rows -/

namespace Verif.Model.Mca

open Msa (pr Ok Inputs found)

variable {V σ : Type}

/-- Strictly increasing on a range. -/
def Inc (f : Nat → Nat) (lo hi : Nat) : Prop := ∀ i j, lo ≤ i → i < j → j < hi → f i < f j

theorem Inc.le {f : Nat → Nat} {lo hi i j : Nat} (h : Inc f lo hi) (h1 : lo ≤ i) (h2 : i ≤ j) (h3 : j < hi) :
    f i ≤ f j := by
  rcases Nat.lt_or_ge i j with h' | h'
  · exact Nat.le_of_lt (h i j h1 h' h3)
  · have : i = j := by omega
    subst this; exact Nat.le_refl _

theorem forRange_skip {lo hi : Nat} {s : σ} {body : Nat → σ → Res σ}
    (h : ∀ k, lo ≤ k → k < hi → body k s = .ok s) : forRange lo hi s body = .ok s := by
  induction hd : hi - lo generalizing lo with
  | zero => exact forRange_of_le (by omega) _ _
  | succ n ih =>
    rw [forRange_step (by omega), h lo (Nat.le_refl _) (by omega)]
    exact ih (fun k h1 h2 => h k (by omega) h2) (by omega)

/-- What to do for position `k` of `B` when the mask position of a column is given by `pos`. -/
def visit (fB : Nat → Nat) (pos : Nat → Option Nat) (hit : Nat → Nat → σ → Res σ) (k : Nat) (s : σ) : Res σ :=
  match pos (fB k) with
  | none => .ok s
  | some m => hit k m s

/-- The two-finger merge visits exactly the columns found in both rows, with the right mask position. -/
theorem inter_eq {B M : CSR V} {klo khi mbeg mend : Nat} {hit : Nat → Nat → σ → Res σ} {fB fM : Nat → Nat}
    {pos : Nat → Option Nat}
    (hB : ∀ k < khi, rd B.colids k = .ok (fB k)) (hM : ∀ m < mend, rd M.colids m = .ok (fM m))
    (iB : Inc fB klo khi) (iM : Inc fM mbeg mend)
    (hpos : ∀ c m, pos c = some m ↔ mbeg ≤ m ∧ m < mend ∧ fM m = c) :
    ∀ (fuel loc maskIdx : Nat) (s : σ), klo ≤ loc → loc < khi → mbeg ≤ maskIdx → maskIdx < mend →
      (khi - loc) + (mend - maskIdx) ≤ fuel →
      (∀ m, mbeg ≤ m → m < maskIdx → fM m < fB loc) →
      inter B M khi mend hit fuel loc (fB loc) maskIdx s = forRange loc khi s (visit fB pos hit) := by
  have hnone : ∀ c, (∀ m, mbeg ≤ m → m < mend → fM m ≠ c) → pos c = none := by
    intro c h
    cases hp : pos c with
    | none => rfl
    | some m => obtain ⟨h1, h2, h3⟩ := (hpos c m).1 hp; exact absurd h3 (h m h1 h2)
  intro fuel
  induction fuel with
  | zero => intro loc maskIdx s _ h2 _ h4 h5 _; omega
  | succ fuel ih =>
    intro loc maskIdx s h1 h2 h3 h4 h5 h6
    unfold inter
    rw [hM maskIdx h4, forRange_step h2]
    simp only [ok_bind]
    by_cases c1 : fB loc < fM maskIdx
    · rw [if_pos c1]
      have hp : pos (fB loc) = none := by
        apply hnone
        intro m hm1 hm2 he
        rcases Nat.lt_or_ge m maskIdx with h | h
        · have := h6 m hm1 h; omega
        · have := iM.le h3 h hm2; omega
      have hv : visit fB pos hit loc s = .ok s := by unfold visit; rw [hp]
      rw [hv]
      simp only [ok_bind]
      by_cases c2 : loc + 1 < khi
      · rw [if_pos c2, hB _ c2]
        simp only [ok_bind]
        apply ih <;> try omega
        intro m hm1 hm2
        have := h6 m hm1 hm2
        have := iB loc (loc + 1) h1 (by omega) c2
        omega
      · rw [if_neg c2, forRange_of_le (by omega)]
    · rw [if_neg c1]
      by_cases c2 : fM maskIdx < fB loc
      · rw [if_pos c2]
        rw [← forRange_step h2 s (visit fB pos hit)]
        by_cases c3 : maskIdx + 1 = mend
        · rw [if_pos c3, forRange_skip]
          intro k hk1 hk2
          unfold visit
          rw [hnone]
          intro m hm1 hm2 he
          have := iM.le hm1 (by omega : m ≤ maskIdx) h4
          have := iB.le h1 hk1 hk2
          omega
        · rw [if_neg c3]
          apply ih <;> try omega
          intro m hm1 hm2
          have := iM.le hm1 (by omega : m ≤ maskIdx) h4
          omega
      · rw [if_neg c2]
        have he : fM maskIdx = fB loc := by omega
        have hp : pos (fB loc) = some maskIdx := (hpos _ _).2 ⟨h3, h4, he⟩
        have hv : visit fB pos hit loc s = hit loc maskIdx s := by unfold visit; rw [hp]
        rw [hv]
        congr 1
        funext s'
        by_cases c3 : loc + 1 < khi
        · rw [if_pos c3, hB _ c3]
          simp only [ok_bind]
          by_cases c4 : maskIdx + 1 = mend
          · rw [if_pos c4, forRange_skip]
            intro k hk1 hk2
            unfold visit
            rw [hnone]
            intro m hm1 hm2 he'
            have := iM.le hm1 (by omega : m ≤ maskIdx) h4
            have := iB loc k h1 (by omega) hk2
            omega
          · rw [if_neg c4]
            apply ih <;> try omega
            intro m hm1 hm2
            have := iM.le hm1 (by omega : m ≤ maskIdx) h4
            have := iB loc (loc + 1) h1 (by omega) c3
            omega
        · rw [if_neg c3, forRange_of_le (by omega)]

/-- Position of a column in a mask row. -/
def posIn (ms : List Nat) (mbeg : Nat) (c : Nat) : Option Nat :=
  if c ∈ ms then some (mbeg + ms.idxOf c) else none

theorem slice_getD {l : List Nat} {lo hi i : Nat} (h : i < hi - lo) (hl : hi ≤ l.length) :
    (slice l lo hi)[i]? = some (l.getD (lo + i) 0) := by
  rw [slice_getElem? h]
  have : lo + i < l.length := by omega
  simp [this]

theorem inc_of_sorted {l : List Nat} {lo hi : Nat} (hl : hi ≤ l.length) (h : (slice l lo hi).Pairwise (· < ·)) :
    Inc (fun i => l.getD i 0) lo hi := by
  intro i j h1 h2 h3
  rw [List.pairwise_iff_getElem] at h
  have hlen := slice_length (lo := lo) hl
  have := h (i - lo) (j - lo) (by omega) (by omega) (by omega)
  have e1 := slice_getD (i := i - lo) (by omega : i - lo < hi - lo) hl
  have e2 := slice_getD (i := j - lo) (by omega : j - lo < hi - lo) hl
  rw [List.getElem?_eq_getElem (by omega)] at e1 e2
  have a1 : lo + (i - lo) = i := by omega
  have a2 : lo + (j - lo) = j := by omega
  rw [a1] at e1; rw [a2] at e2
  have e1' := Option.some.inj e1
  have e2' := Option.some.inj e2
  show l.getD i 0 < l.getD j 0
  omega

theorem posIn_iff {l : List Nat} {mbeg mend : Nat} (hl : mend ≤ l.length) (hnd : (slice l mbeg mend).Nodup)
    (c m : Nat) :
    posIn (slice l mbeg mend) mbeg c = some m ↔ mbeg ≤ m ∧ m < mend ∧ l.getD m 0 = c := by
  have hlen := slice_length (lo := mbeg) hl
  unfold posIn
  constructor
  · intro h
    by_cases hc : c ∈ slice l mbeg mend
    · rw [if_pos hc] at h
      have hlt := List.idxOf_lt_length_of_mem hc
      have hm := Option.some.inj h
      have e := slice_getD (i := (slice l mbeg mend).idxOf c) (by omega : _ < mend - mbeg) hl
      rw [List.getElem?_eq_getElem hlt, List.getElem_idxOf hlt, hm] at e
      exact ⟨by omega, by omega, (Option.some.inj e).symm⟩
    · rw [if_neg hc] at h; exact absurd h (by simp)
  · rintro ⟨h1, h2, h3⟩
    have e := slice_getD (i := m - mbeg) (by omega : m - mbeg < mend - mbeg) hl
    have a1 : mbeg + (m - mbeg) = m := by omega
    rw [a1, h3] at e
    have hmem : c ∈ slice l mbeg mend := List.mem_of_getElem? e
    rw [if_pos hmem]
    have hlt := List.idxOf_lt_length_of_mem hmem
    have : (slice l mbeg mend).idxOf c = m - mbeg := by
      have hml : m - mbeg < (slice l mbeg mend).length := by omega
      rw [List.getElem?_eq_getElem hml] at e
      have e' := Option.some.inj e
      have := hnd.idxOf_getElem _ hml
      rw [e'] at this
      exact this
    rw [this]; congr 1

/-- Fold over the products of a row that fall on the mask. -/
def onMask (ms : List Nat) (g : σ → Nat → V → V → Res σ) (s : σ) (x : Nat × V × V) : Res σ :=
  if x.1 ∈ ms then g s (ms.idxOf x.1) x.2.1 x.2.2 else .ok s

theorem interAll_eq {A B M : CSR V} {row : Nat} (h : Ok A B M row) (sB : B.SortedRows)
    (sM : (M.rowCols row).Pairwise (· < ·)) (hne : M.rowCols row ≠ [])
    (hit : Nat → Nat → Nat → σ → Res σ) (g : σ → Nat → V → V → Res σ)
    (hbody : ∀ j k idx s (hj : j < A.values.length) (hk : k < B.values.length),
      hit j k (M.ptr row + idx) s = g s idx A.values[j] B.values[k]) (s : σ) :
    interAll A B M row (M.ptr row) (M.ptr (row + 1)) hit s =
      (visits A B row).foldlM (onMask (M.rowCols row) g) s := by
  have hmlen : M.ptr (row + 1) ≤ M.colids.length := by
    rw [h.wfM.colLen]; exact CSR.ptr_le_nnz h.wfM h.ltM
  have hmlt : M.ptr row < M.ptr (row + 1) := by
    have := h.wfM.ptrMono row h.ltM
    rcases Nat.lt_or_ge (M.ptr row) (M.ptr (row + 1)) with h' | h'
    · exact h'
    · exact absurd ((rowCols_eq_nil h.wfM h.ltM).2 (by omega)) hne
  unfold interAll visits
  rw [CSR.rd_ptr h.wfA (Nat.le_of_lt h.lt), CSR.rd_ptr h.wfA h.lt]
  simp only [ok_bind]
  rw [foldlM_flatMap]
  unfold CSR.row
  apply forRange_eq_slice
  · rw [CSR.zip_length h.wfA]; exact CSR.ptr_le_nnz h.wfA h.lt
  · intro j hj _ _ s
    have hjn : j < A.nnz := by rw [← CSR.zip_length h.wfA]; exact hj
    have hjc : j < A.colids.length := by rw [h.wfA.colLen]; exact hjn
    have hjv : j < A.values.length := by rw [h.wfA.valLen]; exact hjn
    have hin : A.colids[j] < B.rows := by
      rw [← h.sh.ab]; exact h.wfA.inBounds _ (List.getElem_mem hjc)
    rw [rd_of_lt hjc]
    simp only [ok_bind, CSR.rd_ptr h.wfB (Nat.le_of_lt hin), CSR.rd_ptr h.wfB hin]
    simp only [List.getElem_zip]
    rw [foldlM_map]
    have hklen : B.ptr (A.colids[j] + 1) ≤ B.colids.length := by
      rw [h.wfB.colLen]; exact CSR.ptr_le_nnz h.wfB hin
    have hkvlen : B.ptr (A.colids[j] + 1) ≤ B.values.length := by
      rw [h.wfB.valLen]; exact CSR.ptr_le_nnz h.wfB hin
    by_cases hk : B.ptr A.colids[j] = B.ptr (A.colids[j] + 1)
    · rw [if_pos hk, slice_empty (by omega)]; rfl
    · rw [if_neg hk]
      have hklt : B.ptr A.colids[j] < B.ptr (A.colids[j] + 1) := by
        have := h.wfB.ptrMono _ hin; omega
      have hrB : ∀ k < B.ptr (A.colids[j] + 1), rd B.colids k = .ok (B.colids.getD k 0) := by
        intro k hk
        have : k < B.colids.length := by omega
        rw [rd_of_lt this]; simp [this]
      have hrM : ∀ k < M.ptr (row + 1), rd M.colids k = .ok (M.colids.getD k 0) := by
        intro k hk
        have : k < M.colids.length := by omega
        rw [rd_of_lt this]; simp [this]
      rw [hrB _ hklt]
      simp only [ok_bind]
      rw [inter_eq hrB hrM (inc_of_sorted hklen (sB _ hin)) (inc_of_sorted hmlen sM)
        (posIn_iff hmlen h.nodup) _ _ _ _ (Nat.le_refl _) hklt (Nat.le_refl _) hmlt (Nat.le_refl _)
        (fun m h1 h2 => by omega)]
      apply forRange_eq_slice
      · rw [CSR.zip_length h.wfB]; exact CSR.ptr_le_nnz h.wfB hin
      · intro k hk _ hk2 s
        have hkc : k < B.colids.length := by omega
        have hkv : k < B.values.length := by omega
        have e1 : B.colids.getD k 0 = B.colids[k] := by simp [hkc]
        unfold visit posIn onMask
        simp only [e1, List.getElem_zip]
        have hms : slice M.colids (M.ptr row) (M.ptr (row + 1)) = M.rowCols row := rfl
        simp only [hms]
        by_cases hc : B.colids[k] ∈ M.rowCols row
        · simp only [if_pos hc]
          exact hbody j k _ s hjv hkv
        · simp only [if_neg hc]

/-! ## Numeric rows -/

/-- Expected entry at mask position `idx` after the products `ps`. -/
def EN (add : V → V → V) (ms : List Nat) (ps : List (Nat × V)) (idx : Nat) : Entry (Option V) :=
  match ms[idx]? with
  | none => ⟨EMPTY, none⟩
  | some j =>
    match Spec.sum1 add (pick ps j) with
    | none => ⟨EMPTY, none⟩
    | some v => ⟨INITIALIZED, some v⟩

theorem EN_at {add : V → V → V} {ms : List Nat} {ps : List (Nat × V)} {idx j : Nat} (h : ms[idx]? = some j) :
    EN add ms ps idx = match Spec.sum1 add (pick ps j) with
      | none => ⟨EMPTY, none⟩
      | some v => ⟨INITIALIZED, some v⟩ := by
  simp [EN, h]

theorem EN_nil (add : V → V → V) (ms : List Nat) : EN add ms [] = fun _ => ⟨EMPTY, none⟩ := by
  funext i
  unfold EN
  cases ms[i]? <;> simp [Spec.sum1]

theorem EN_other {add : V → V → V} {ms : List Nat} {ps : List (Nat × V)} {c idx : Nat} {w : V}
    (h : ms[idx]? ≠ some c) : EN add ms (ps ++ [(c, w)]) idx = EN add ms ps idx := by
  unfold EN
  cases hj : ms[idx]? with
  | none => rfl
  | some j =>
    have : ¬ (c = j) := by rintro rfl; exact h hj
    simp [pick_append, pick_cons, this]

theorem getElem?_idxOf {ms : List Nat} {c : Nat} (h : c ∈ ms) : ms[ms.idxOf c]? = some c := by
  have hlt := List.idxOf_lt_length_of_mem h
  rw [List.getElem?_eq_getElem hlt, List.getElem_idxOf hlt]

theorem idx_unique {ms : List Nat} {c i : Nat} (hn : ms.Nodup) (h : ms[i]? = some c) : ms.idxOf c = i := by
  obtain ⟨hi, rfl⟩ := List.getElem?_eq_some_iff.1 h
  exact hn.idxOf_getElem _ hi

theorem accum_ok {n : Nat} {mul add : V → V → V} {ms : List Nat} (hn : ms.Nodup) (hle : ms.length ≤ n)
    (vs : List (Nat × V × V)) :
    vs.foldlM (onMask ms (fun acc idx a b => (do
        let e ← rd acc idx
        if e.state = INITIALIZED then do
          let v ← use e.value
          wr acc idx { e with value := some (add v (mul a b)) }
        else wr acc idx { state := INITIALIZED, value := some (mul a b) } : Res _)))
      (tab n fun _ => ⟨EMPTY, none⟩) = .ok (tab n (EN add ms (pr mul vs))) := by
  have e0 : (fun _ => ⟨EMPTY, none⟩ : Nat → Entry (Option V)) = EN add ms (pr mul []) := by
    rw [show pr mul [] = ([] : List (Nat × V)) from rfl, EN_nil]
  rw [e0]
  refine foldlM_desc (fun pre => tab n (EN add ms (pr mul pre))) vs ?_
  intro pre a post _
  simp only [Msa.pr_snoc]
  unfold onMask
  by_cases hc : a.1 ∈ ms
  · rw [if_pos hc]
    have hi := getElem?_idxOf hc
    have hlt : ms.idxOf a.1 < n := Nat.lt_of_lt_of_le (List.idxOf_lt_length_of_mem hc) hle
    have hoth : ∀ w : V, ∀ j, j ≠ ms.idxOf a.1 → EN add ms (pr mul pre ++ [(a.1, w)]) j = EN add ms (pr mul pre) j := by
      intro w j hj
      exact EN_other (fun h => hj (idx_unique hn h).symm)
    simp only [rd_tab hlt, ok_bind]
    cases hs : Spec.sum1 add (pick (pr mul pre) a.1) with
    | none =>
      have he := EN_at (add := add) (ps := pr mul pre) hi
      rw [hs] at he
      rw [he]
      simp only [EMPTY, INITIALIZED, show ¬ (255 = 1) by decide, if_false, wr_tab hlt]
      congr 1
      apply tab_ext
      intro j _
      by_cases hj : j = ms.idxOf a.1
      · subst hj
        rw [upd_same, EN_at hi, pick_append, sum1_eq_none.1 hs]
        simp [pick_cons, Spec.sum1, INITIALIZED]
      · rw [upd_ne _ _ hj, hoth _ _ hj]
    | some v =>
      have he := EN_at (add := add) (ps := pr mul pre) hi
      rw [hs] at he
      rw [he]
      simp only [if_true, use_some, ok_bind, wr_tab hlt]
      congr 1
      apply tab_ext
      intro j _
      by_cases hj : j = ms.idxOf a.1
      · subst hj
        rw [upd_same, EN_at hi, pick_append]
        simp [pick_cons, sum1_append_singleton, hs]
      · rw [upd_ne _ _ hj, hoth _ _ hj]
  · rw [if_neg hc]
    congr 1
    apply tab_ext
    intro j _
    rw [EN_other]
    intro h
    exact hc (List.mem_of_getElem? h)

theorem clearAll_ok {P : Type} {p : P} {n k : Nat} {F : Nat → Entry P} (hk : k ≤ n)
    (hF : ∀ i, k ≤ i → F i = ⟨EMPTY, p⟩) : clearAll p k (tab n F) = .ok (tab n fun _ => ⟨EMPTY, p⟩) := by
  unfold clearAll
  obtain ⟨s, h1, h2⟩ := forRange_inv (body := fun i acc => wr acc i (⟨EMPTY, p⟩ : Entry P))
    (fun i acc => acc = tab n (fun j => if j < i then ⟨EMPTY, p⟩ else F j)) 0 k (Nat.zero_le _) (tab n F)
    (by simp) (by
      rintro i s _ hi rfl
      refine ⟨_, wr_tab (by omega), ?_⟩
      apply tab_ext
      intro j _
      by_cases hj : j = i
      · subst hj; simp
      · rw [upd_ne _ _ hj]
        by_cases hji : j < i
        · rw [if_pos hji, if_pos (by omega)]
        · rw [if_neg hji, if_neg (by omega)])
  rw [h1, h2]
  congr 1
  apply tab_ext
  intro j _
  by_cases hj : j < k
  · rw [if_pos hj]
  · rw [if_neg hj, hF j (by omega)]

theorem take_succ_of {ms : List Nat} {i c : Nat} (h : ms[i]? = some c) : ms.take (i + 1) = ms.take i ++ [c] := by
  rw [List.take_add_one, h]; rfl

theorem numericRow_eq {A B M : CSR V} {row : Nat} (h : Ok A B M row) (sB : B.SortedRows)
    (sM : (M.rowCols row).Pairwise (· < ·)) (hne : M.rowCols row ≠ []) (mul add : V → V → V) {n : Nat}
    (hle : (M.rowCols row).length ≤ n) :
    numericRow mul add A B M row (tab n fun _ => ⟨EMPTY, none⟩) =
      .ok (tab n fun _ => ⟨EMPTY, none⟩, maskedRow mul add A B M row) := by
  have hlen := CSR.rowCols_length h.wfM h.ltM
  have hmlen : M.ptr (row + 1) ≤ M.colids.length := by
    rw [h.wfM.colLen]; exact CSR.ptr_le_nnz h.wfM h.ltM
  unfold numericRow
  rw [CSR.rd_ptr h.wfM (Nat.le_of_lt h.ltM), CSR.rd_ptr h.wfM (i := row + 1) h.ltM]
  simp only [ok_bind]
  rw [interAll_eq h sB sM hne _ (fun acc idx a b => (do
        let e ← rd acc idx
        if e.state = INITIALIZED then do
          let v ← use e.value
          wr acc idx { e with value := some (add v (mul a b)) }
        else wr acc idx { state := INITIALIZED, value := some (mul a b) } : Res _)) (by
      intro j k idx s hj hk
      have : M.ptr row + idx - M.ptr row = idx := by omega
      simp only [rd_of_lt hj, rd_of_lt hk, ok_bind, this])]
  rw [accum_ok h.nodup hle]
  simp only [ok_bind]
  obtain ⟨out, h1, h2⟩ := forRange_inv (body := fun i (out : List (Nat × V)) => (do
    let e ← rd (tab n (EN add (M.rowCols row) (pr mul (visits A B row)))) i
    if e.state = INITIALIZED then do
      let c ← rd M.colids (M.ptr row + i)
      let v ← use e.value
      .ok (out ++ [(c, v)])
    else .ok out))
    (fun i out => out = found add (pr mul (visits A B row)) ((M.rowCols row).take i))
    0 (M.ptr (row + 1) - M.ptr row) (Nat.zero_le _) [] (by simp) (by
      rintro i out _ hi rfl
      have hi' : i < (M.rowCols row).length := by omega
      have hget : (M.rowCols row)[i]? = some (M.colids.getD (M.ptr row + i) 0) := slice_getD hi hmlen
      have hc : rd M.colids (M.ptr row + i) = .ok (M.colids.getD (M.ptr row + i) 0) := by
        have : M.ptr row + i < M.colids.length := by omega
        rw [rd_of_lt this]; simp [this]
      generalize M.colids.getD (M.ptr row + i) 0 = c at hget hc
      rw [rd_tab (by omega), take_succ_of hget, Msa.found_snoc]
      simp only [ok_bind, EN_at hget, hc]
      cases hs : Spec.sum1 add (pick (pr mul (visits A B row)) c) with
      | none => exact ⟨found add (pr mul (visits A B row)) ((M.rowCols row).take i), by simp [EMPTY, INITIALIZED], by simp⟩
      | some v => exact ⟨_, by simp, rfl⟩)
  rw [h1]
  simp only [ok_bind]
  rw [clearAll_ok (by omega) (by
    intro i hi
    have : (M.rowCols row)[i]? = none := by
      rw [List.getElem?_eq_none_iff]; omega
    simp [EN, this])]
  simp only [ok_bind]
  rw [h2, ← hlen, List.take_length, Msa.pr_visits, Msa.found_prods]
  rfl

/-! ## Symbolic rows -/

/-- Expected symbolic entry after the visited columns `vs`. -/
def ES (ms vs : List Nat) (idx : Nat) : Entry Unit :=
  match ms[idx]? with
  | none => ⟨EMPTY, ()⟩
  | some j => if j ∈ vs then ⟨ALLOWED, ()⟩ else ⟨EMPTY, ()⟩

theorem count_ok {n : Nat} {ms : List Nat} (hn : ms.Nodup) (hle : ms.length ≤ n) (vs : List (Nat × V × V)) :
    vs.foldlM (onMask ms (fun (s : List (Entry Unit) × Nat) idx _ _ => (do
        let e ← rd s.1 idx
        if e.state = EMPTY then do
          let acc ← wr s.1 idx { e with state := ALLOWED }
          .ok (acc, s.2 + 1)
        else .ok s : Res _)))
      (tab n fun _ => ⟨EMPTY, ()⟩, 0) =
        .ok (tab n (ES ms (vs.map (·.1))), (Msa.hits ms (vs.map (·.1))).length) := by
  have e0 : ((tab n fun _ => ⟨EMPTY, ()⟩, 0) : List (Entry Unit) × Nat) =
      (tab n (ES ms (([] : List (Nat × V × V)).map (·.1))), (Msa.hits ms (([] : List (Nat × V × V)).map (·.1))).length) := by
    congr 1
    apply tab_ext
    intro i _
    unfold ES
    cases ms[i]? <;> simp
  rw [e0]
  refine foldlM_desc (fun pre => (tab n (ES ms (pre.map (·.1))), (Msa.hits ms (pre.map (·.1))).length)) vs ?_
  intro pre a post _
  simp only [List.map_append, List.map_cons, List.map_nil]
  unfold onMask
  by_cases hc : a.1 ∈ ms
  · rw [if_pos hc]
    have hi := getElem?_idxOf hc
    have hlt : ms.idxOf a.1 < n := Nat.lt_of_lt_of_le (List.idxOf_lt_length_of_mem hc) hle
    have hES : ES ms (pre.map (·.1)) (ms.idxOf a.1) =
        if a.1 ∈ pre.map (·.1) then ⟨ALLOWED, ()⟩ else ⟨EMPTY, ()⟩ := by simp only [ES, hi]
    have hhits : Msa.hits ms (pre.map (·.1) ++ [a.1]) =
        if a.1 ∈ pre.map (·.1) then Msa.hits ms (pre.map (·.1)) else Msa.hits ms (pre.map (·.1)) ++ [a.1] := by
      unfold Msa.hits
      rw [List.filter_append]
      simp only [hc, decide_true, List.filter_cons_of_pos, List.filter_nil, firsts_append_singleton, mem_firsts,
        List.mem_filter, and_true]
    simp only [rd_tab hlt, ok_bind, hES, hhits]
    by_cases hp : a.1 ∈ pre.map (·.1)
    · rw [if_pos hp, if_pos hp]
      simp only [ALLOWED, EMPTY, show ¬ (0 = 255) by decide, if_false]
      congr 2
      apply tab_ext
      intro j _
      unfold ES
      cases hj : ms[j]? with
      | none => rfl
      | some x =>
        by_cases hx : x = a.1
        · subst hx; simp only [hp, List.mem_append, true_or, if_true]
        · simp only [List.mem_append, List.mem_singleton, hx, or_false]
    · rw [if_neg hp, if_neg hp]
      simp only [if_true, wr_tab hlt, ok_bind, List.length_append, List.length_singleton]
      congr 2
      apply tab_ext
      intro j _
      by_cases hj : j = ms.idxOf a.1
      · subst hj
        rw [upd_same]; unfold ES; rw [hi]; simp
      · rw [upd_ne _ _ hj]
        unfold ES
        cases hj' : ms[j]? with
        | none => rfl
        | some x =>
          have hx : x ≠ a.1 := by rintro rfl; exact hj (idx_unique hn hj').symm
          simp only [List.mem_append, List.mem_singleton, hx, or_false]
  · rw [if_neg hc]
    have hh : Msa.hits ms (pre.map (·.1) ++ [a.1]) = Msa.hits ms (pre.map (·.1)) := by
      simp [Msa.hits, List.filter_append, hc]
    rw [hh]
    congr 2
    apply tab_ext
    intro j _
    unfold ES
    cases hj : ms[j]? with
    | none => rfl
    | some x =>
      have hx : x ≠ a.1 := by rintro rfl; exact hc (List.mem_of_getElem? hj)
      simp only [List.mem_append, List.mem_singleton, hx, or_false]

theorem symbolicRow_eq {A B M : CSR V} {row : Nat} (h : Ok A B M row) (sB : B.SortedRows)
    (sM : (M.rowCols row).Pairwise (· < ·)) (hne : M.rowCols row ≠ []) (mul add : V → V → V) {n : Nat}
    (hle : (M.rowCols row).length ≤ n) :
    symbolicRow A B M row (tab n fun _ => ⟨EMPTY, ()⟩) =
      .ok (tab n fun _ => ⟨EMPTY, ()⟩, (maskedRow mul add A B M row).length) := by
  have hlen := CSR.rowCols_length h.wfM h.ltM
  unfold symbolicRow
  rw [CSR.rd_ptr h.wfM (Nat.le_of_lt h.ltM), CSR.rd_ptr h.wfM (i := row + 1) h.ltM]
  simp only [ok_bind]
  rw [interAll_eq h sB sM hne _ (fun (s : List (Entry Unit) × Nat) idx _ _ => (do
        let e ← rd s.1 idx
        if e.state = EMPTY then do
          let acc ← wr s.1 idx { e with state := ALLOWED }
          .ok (acc, s.2 + 1)
        else .ok s : Res _)) (by
      intro j k idx s hj hk
      have : M.ptr row + idx - M.ptr row = idx := by omega
      simp only [this])]
  rw [count_ok h.nodup hle]
  simp only [ok_bind]
  rw [clearAll_ok (by omega) (by
    intro i hi
    have : (M.rowCols row)[i]? = none := by
      rw [List.getElem?_eq_none_iff]; omega
    simp [ES, this])]
  simp only [ok_bind]
  rw [Msa.maskedRow_length, Msa.hits_length h.nodup]

/-! ## Contract -/

theorem fresh_eq {P : Type} (p : P) (n : Nat) : fresh p n = tab n fun _ => ⟨EMPTY, p⟩ := by
  unfold fresh tab
  simp [List.map_const']

variable {mul add : V → V → V} {A B M : CSR V}

theorem mask_ne_nil {i : Nat} (h : flopsOf false A B M i ≠ 0) : M.rowCols i ≠ [] := by
  intro he
  simp [flopsOf, he] at h

theorem contract (h : Inputs A B M) (sB : B.SortedRows) (sM : M.SortedRows) :
    Contract mca mul add A B M (maskedRow mul add A B M) where
  bound := fun i hi => maskedRow_bound h.wfM (h.nodup i (h.sh.ma ▸ hi))
  num := fun sz => ⟨(· = tab sz.maxM fun _ => ⟨EMPTY, none⟩), fresh_eq _ _, by
    rintro i hi hcov hf f - acc rfl
    refine ⟨_, numericRow_eq (h.ok hi) sB (sM i (h.sh.ma ▸ hi)) (mask_ne_nil hf) mul add ?_, rfl⟩
    rw [← CSR.row_map_fst h.wfM, List.length_map]; exact hcov.m rfl⟩
  sym := fun sz => ⟨(· = tab sz.maxM fun _ => ⟨EMPTY, ()⟩), fresh_eq _ _, by
    rintro i hi hcov hf acc rfl
    refine ⟨_, symbolicRow_eq (h.ok hi) sB (sM i (h.sh.ma ▸ hi)) (mask_ne_nil hf) mul add ?_, rfl⟩
    rw [← CSR.row_map_fst h.wfM, List.length_map]; exact hcov.m rfl⟩

end Verif.Model.Mca
