import Verif.Lemmas.HeapAlg

/-! # The rows computed by the heap algorithms -/

namespace Verif.Model.Heap

open Msa (Ok Inputs)
open Mca (Inc)
open List (Perm)

variable {V : Type} {mul add : V → V → V} {A B M : CSR V} {row : Nat}

/-- `maskIdx + Inspect` does not wrap around (not needed for the depths with their own case). -/
def DepthOk (insp : Nat) (M : CSR V) : Prop := insp ≤ 1 ∨ insp = SIZE_MAX ∨ M.nnz + insp < 2 ^ 64

/-- No column of the rest of the row is a mask column before position `m`. -/
def Lower (A B M : CSR V) (row j lo m : Nat) : Prop :=
  ∀ k, lo ≤ k → k < bend A B j → col B k ∈ M.rowCols row → col M m ≤ col B k

theorem HOk.rdM (h : HOk A B M row) {m : Nat} (hm : m < M.ptr (row + 1)) : rd M.colids m = .ok (col M m) :=
  rd_col h.wfM (Nat.lt_of_lt_of_le hm (CSR.ptr_le_nnz h.wfM h.ltM))

theorem HOk.rdB (h : HOk A B M row) {j k : Nat} (hj : j < A.ptr (row + 1)) (hk : k < bend A B j) :
    rd B.colids k = .ok (col B k) :=
  rd_col h.wfB (Nat.lt_of_lt_of_le hk (h.bend_le hj))

/-! ## Searches -/

theorem skipInit_ok (h : HOk A B M row) {j m : Nat} (hj : j < A.ptr (row + 1)) (hm : m < M.ptr (row + 1)) :
    ∀ (fuel loc : Nat), B.ptr (col A j) ≤ loc → loc < bend A B j → bend A B j - loc ≤ fuel →
      Lower A B M row j loc m →
      ∃ key' loc', skipInit B M m (bend A B j) fuel (col B loc) loc = .ok (key', loc') ∧ loc' < bend A B j ∧
        Skip A B (M.rowCols row) j loc (some (key', loc')) := by
  intro fuel
  induction fuel with
  | zero => intro loc _ h1 h2; omega
  | succ fuel ih =>
    intro loc hlo hlt hf hL
    unfold skipInit
    rw [h.rdM hm, ok_bind]
    by_cases c1 : col B loc < col M m
    · rw [if_pos c1]
      by_cases c2 : loc + 1 < bend A B j
      · rw [if_pos c2, h.rdB hj c2, ok_bind]
        obtain ⟨key', loc', h1, h2, h3⟩ := ih (loc + 1) (by omega) c2 (by omega)
          (fun k h1 h2 h3 => hL k (by omega) h2 h3)
        refine ⟨key', loc', h1, h2, by have := h3.1; omega, h3.2.1, h3.2.2.1, ?_⟩
        intro k hk1 hk2
        by_cases hkl : k = loc
        · subst hkl
          intro hmem
          have := hL k (Nat.le_refl _) hlt hmem
          omega
        · exact h3.2.2.2 k (by omega) hk2
      · rw [if_neg c2]
        exact ⟨_, _, rfl, hlt, Nat.le_refl _, hlt, rfl, fun k h1 h2 => by omega⟩
    · rw [if_neg c1]
      exact ⟨_, _, rfl, hlt, Nat.le_refl _, hlt, rfl, fun k h1 h2 => by omega⟩

theorem skipNext_ok (h : HOk A B M row) {j m : Nat} (hj : j < A.ptr (row + 1)) (hm : m < M.ptr (row + 1)) :
    ∀ (fuel key loc : Nat), loc < bend A B j → bend A B j - loc ≤ fuel →
      Lower A B M row j (loc + 1) m →
      ∃ key' loc', skipNext B M m (bend A B j) fuel key loc = .ok (key', loc') ∧
        Skip A B (M.rowCols row) j (loc + 1) (if loc' < bend A B j then some (key', loc') else none) := by
  intro fuel
  induction fuel with
  | zero => intro key loc h1 h2; omega
  | succ fuel ih =>
    intro key loc hlt hf hL
    unfold skipNext
    by_cases c1 : loc + 1 < bend A B j
    · rw [if_pos c1, h.rdB hj c1, ok_bind, h.rdM hm, ok_bind]
      by_cases c2 : col M m ≤ col B (loc + 1)
      · rw [if_pos c2]
        refine ⟨_, _, rfl, ?_⟩
        rw [if_pos c1]
        exact ⟨Nat.le_refl _, c1, rfl, fun k h1 h2 => by omega⟩
      · rw [if_neg c2]
        obtain ⟨key', loc', h1, h2⟩ := ih (col B (loc + 1)) (loc + 1) c1 (by omega)
          (fun k h1 h2 h3 => hL k (by omega) h2 h3)
        refine ⟨key', loc', h1, ?_⟩
        have hmiss : col B (loc + 1) ∉ M.rowCols row := by
          intro hmem
          exact c2 (hL _ (Nat.le_refl _) c1 hmem)
        split
        · rename_i hl
          rw [if_pos hl] at h2
          refine ⟨by have := h2.1; omega, hl, h2.2.2.1, ?_⟩
          intro k hk1 hk2
          by_cases hkl : k = loc + 1
          · rw [hkl]; exact hmiss
          · exact h2.2.2.2 k (by omega) hk2
        · rename_i hl
          rw [if_neg hl] at h2
          intro k hk1 hk2
          by_cases hkl : k = loc + 1
          · rw [hkl]; exact hmiss
          · exact h2 k (by omega) hk2
    · rw [if_neg c1]
      refine ⟨_, _, rfl, ?_⟩
      rw [if_neg c1]
      intro k h1 h2
      omega

theorem search_ok (h : HOk A B M row) {j stop : Nat} (hj : j < A.ptr (row + 1)) (hstop : stop ≤ M.ptr (row + 1)) :
    ∀ (fuel loc m : Nat), B.ptr (col A j) ≤ loc → loc < bend A B j → M.ptr row ≤ m → m < stop →
      (bend A B j - loc) + (M.colids.length - m) ≤ fuel → Lower A B M row j loc m →
      ∃ put key' loc', search B M (bend A B j) stop (M.ptr (row + 1)) fuel (col B loc) loc m = .ok (put, key', loc') ∧
        Skip A B (M.rowCols row) j loc (if put then some (key', loc') else none) := by
  have hnnz : M.ptr (row + 1) ≤ M.colids.length := by rw [h.wfM.colLen]; exact CSR.ptr_le_nnz h.wfM h.ltM
  intro fuel
  induction fuel with
  | zero => intro loc m _ h1 _ h2 h3; omega
  | succ fuel ih =>
    intro loc m hlo hlt hm0 hm hf hL
    unfold search
    rw [h.rdM (Nat.lt_of_lt_of_le hm hstop), ok_bind]
    by_cases c1 : col B loc < col M m
    · rw [if_pos c1]
      have hmiss : col B loc ∉ M.rowCols row := by
        intro hmem
        have := hL loc (Nat.le_refl _) hlt hmem
        omega
      by_cases c2 : loc + 1 < bend A B j
      · rw [if_pos c2, h.rdB hj c2, ok_bind]
        obtain ⟨put, key', loc', h1, h2⟩ := ih (loc + 1) m (by omega) c2 hm0 hm (by omega)
          (fun k h1 h2 h3 => hL k (by omega) h2 h3)
        refine ⟨put, key', loc', h1, ?_⟩
        cases put with
        | true =>
          simp only [if_true] at h2 ⊢
          refine ⟨by have := h2.1; omega, h2.2.1, h2.2.2.1, ?_⟩
          intro k hk1 hk2
          by_cases hkl : k = loc
          · rw [hkl]; exact hmiss
          · exact h2.2.2.2 k (by omega) hk2
        | false =>
          simp only [Bool.false_eq_true, if_false] at h2 ⊢
          intro k hk1 hk2
          by_cases hkl : k = loc
          · rw [hkl]; exact hmiss
          · exact h2 k (by omega) hk2
      · rw [if_neg c2]
        refine ⟨_, _, _, rfl, ?_⟩
        simp only [Bool.false_eq_true, if_false]
        intro k hk1 hk2
        have : k = loc := by omega
        rw [this]; exact hmiss
    · rw [if_neg c1]
      by_cases c2 : col M m < col B loc
      · rw [if_pos c2]
        -- mask columns met by the rest of the row come after position `m`
        have hafter : ∀ k, loc ≤ k → k < bend A B j → ∀ m', M.ptr row ≤ m' → m' < M.ptr (row + 1) →
            col M m' = col B k → m < m' := by
          intro k hk1 hk2 m' hm1 hm2 he
          have h1 := (h.incB hj).le hlo hk1 hk2
          rcases Nat.lt_or_ge m m' with h' | h'
          · exact h'
          · have := h.incM.le hm1 h' (by omega); omega
        by_cases c3 : m + 1 = stop
        · rw [if_pos c3]
          refine ⟨_, _, _, rfl, ?_⟩
          by_cases c4 : m + 1 = M.ptr (row + 1)
          · have : (m + 1 != M.ptr (row + 1)) = false := by simp [c4]
            rw [this]
            simp only [Bool.false_eq_true, if_false]
            intro k hk1 hk2 hmem
            obtain ⟨m', h1, h2, h3⟩ := h.mem_mask.1 hmem
            have := hafter k hk1 hk2 m' h1 h2 h3
            omega
          · have : (m + 1 != M.ptr (row + 1)) = true := by simp [c4]
            rw [this]
            simp only [if_true]
            exact ⟨Nat.le_refl _, hlt, rfl, fun k h1 h2 => by omega⟩
        · rw [if_neg c3]
          apply ih loc (m + 1) hlo hlt (by omega) (by omega) (by omega)
          intro k hk1 hk2 hmem
          obtain ⟨m', h1, h2, h3⟩ := h.mem_mask.1 hmem
          have := hafter k hk1 hk2 m' h1 h2 h3
          rw [← h3]
          exact h.incM.le (by omega) this h2
      · rw [if_neg c2]
        refine ⟨_, _, _, rfl, ?_⟩
        simp only [if_true]
        exact ⟨Nat.le_refl _, hlt, rfl, fun k h1 h2 => by omega⟩

theorem stopOf_ok (h : HOk A B M row) {insp m : Nat} (hd : DepthOk insp M) (h0 : insp ≠ 0) (h1 : insp ≠ 1)
    (hm : m < M.ptr (row + 1)) :
    m < stopOf insp m (M.ptr (row + 1)) ∧ stopOf insp m (M.ptr (row + 1)) ≤ M.ptr (row + 1) := by
  unfold stopOf
  by_cases hs : insp = SIZE_MAX
  · rw [if_pos hs]; omega
  · rw [if_neg hs]
    have hle := CSR.ptr_le_nnz h.wfM (i := row + 1) h.ltM
    rcases hd with hd | hd | hd
    · omega
    · exact absurd hd hs
    · rw [Nat.mod_eq_of_lt (by omega)]
      omega

/-! ## Products of the row -/

theorem flatMap_slice {α β : Type} (L : List α) (f : α → List β) (lo hi : Nat) :
    (slice L lo hi).flatMap f =
      (List.range' lo (hi - lo)).flatMap fun i => match L[i]? with | none => [] | some x => f x := by
  induction hd : hi - lo generalizing lo with
  | zero => rw [slice_empty (by omega)]; rfl
  | succ n ih =>
    by_cases hl : lo < L.length
    · rw [slice_succ (by omega) hl, List.flatMap_cons, ih (lo + 1) (by omega), List.range'_succ, List.flatMap_cons]
      simp [hl]
    · have e1 : slice L lo hi = [] := by simp [slice]; omega
      rw [e1]
      symm
      rw [List.flatMap_nil, List.flatMap_eq_nil_iff]
      intro x hx
      rw [List.mem_range'_1] at hx
      have : L[x]? = none := by simp; omega
      rw [this]

/-- All products of the row by position of `A`. -/
theorem prods_eq (h : HOk A B M row) :
    prods mul A B row =
      (List.range' (A.ptr row) (A.ptr (row + 1) - A.ptr row)).flatMap fun j =>
        pendAt mul A B j (B.ptr (col A j)) := by
  unfold prods visits
  rw [List.map_flatMap]
  unfold CSR.row
  rw [flatMap_slice]
  have hcongr : ∀ {α β : Type} (l : List α) (f g : α → List β), (∀ x ∈ l, f x = g x) → l.flatMap f = l.flatMap g := by
    intro α β l f g hfg
    induction l with
    | nil => rfl
    | cons a l ih =>
      rw [List.flatMap_cons, List.flatMap_cons, hfg a (by simp), ih (fun x hx => hfg x (by simp [hx]))]
  apply hcongr
  intro j hj
  rw [List.mem_range'_1] at hj
  have hj' : j < A.nnz := h.a_lt (by omega)
  have h1 : j < A.values.length := by rw [h.wfA.valLen]; exact hj'
  have h2 : j < A.colids.length := by rw [h.wfA.colLen]; exact hj'
  have h3 : (A.colids.zip A.values)[j]? = some (col A j, A.values[j]) := by
    rw [List.getElem?_eq_getElem (by rw [CSR.zip_length h.wfA]; exact hj')]
    simp [col, h2]
  rw [h3]
  unfold pendAt
  rw [List.getElem?_eq_getElem h1]
  simp only [List.map_map]
  rfl

/-! ## Filling the heap -/

/-- One step of filling the heap. -/
def StepOk (A B : CSR V) (L : List Nat) (j : Nat) (h : HP) (r : Res HP) : Prop :=
  ∃ s, Skip A B L j (B.ptr (col A j)) s ∧ (h.es.length < h.cap →
    r = .ok (match s with | none => h | some (key, loc) => { h with es := h.es ++ [⟨key, j, loc⟩] }))

theorem fill_ok (h : HOk A B M row) {L : List Nat} {cap : Nat} (hcap : (A.row row).length ≤ cap)
    {body : Nat → HP → Res HP}
    (hbody : ∀ j s, A.ptr row ≤ j → j < A.ptr (row + 1) → StepOk A B L j s (body j s)) :
    ∃ es, forRange (A.ptr row) (A.ptr (row + 1)) ⟨cap, []⟩ body = .ok ⟨cap, es⟩ ∧ (∀ x ∈ es, EOk A B row x) ∧
      (∀ c ∈ L, pick (Pend mul A B es) c = pick (prods mul A B row) c) ∧
      (Pend mul A B es).length ≤ (prods mul A B row).length := by
  have hlen := CSR.row_length h.wfA h.lt
  have hmono := h.wfA.ptrMono row h.lt
  obtain ⟨s, h1, h2⟩ := forRange_inv (body := body)
    (fun j s => s.cap = cap ∧ s.es.length ≤ j - A.ptr row ∧ (∀ x ∈ s.es, EOk A B row x) ∧
      (∀ c ∈ L, pick (Pend mul A B s.es) c =
        pick ((List.range' (A.ptr row) (j - A.ptr row)).flatMap fun j => pendAt mul A B j (B.ptr (col A j))) c) ∧
      (Pend mul A B s.es).length ≤
        ((List.range' (A.ptr row) (j - A.ptr row)).flatMap fun j => pendAt mul A B j (B.ptr (col A j))).length)
    (A.ptr row) (A.ptr (row + 1)) hmono ⟨cap, []⟩ (by simp [Pend]) (by
      rintro j s hj1 hj2 ⟨hc, hl, hok, hp, hle⟩
      obtain ⟨r, hr1, hr2⟩ := hbody j s hj1 hj2
      have hr := hr2 (by rw [hc]; omega)
      refine ⟨_, hr, ?_⟩
      have e1 : j + 1 - A.ptr row = (j - A.ptr row) + 1 := by omega
      have e2 : List.range' (A.ptr row) (j + 1 - A.ptr row) = List.range' (A.ptr row) (j - A.ptr row) ++ [j] := by
        rw [e1, List.range'_concat]
        congr 2; omega
      rw [e2]
      simp only [List.flatMap_append, List.flatMap_cons, List.flatMap_nil, List.append_nil]
      cases r with
      | none =>
        refine ⟨hc, by simp only; omega, hok, ?_, ?_⟩
        · intro c hcL
          rw [pick_append, pick_skip_none h hj2 hr1 hcL, List.append_nil]
          exact hp c hcL
        · rw [List.length_append]; simp only; omega
      | some kl =>
        obtain ⟨key, loc⟩ := kl
        refine ⟨hc, by simp only [List.length_append, List.length_singleton]; omega, ?_, ?_, ?_⟩
        · intro x hx
          rcases List.mem_append.1 hx with hx | hx
          · exact hok x hx
          · simp at hx; subst hx
            exact ⟨hj1, hj2, hr1.1, hr1.2.1, hr1.2.2.1⟩
        · intro c hcL
          have : Pend mul A B (s.es ++ [⟨key, j, loc⟩]) = Pend mul A B s.es ++ pendAt mul A B j loc := by
            simp [Pend]
          simp only [this]
          rw [pick_append, pick_append, pick_skip_some h hj2 hr1 hcL, hp c hcL]
        · have : Pend mul A B (s.es ++ [⟨key, j, loc⟩]) = Pend mul A B s.es ++ pendAt mul A B j loc := by
            simp [Pend]
          simp only [this, List.length_append, pendAt_length h hj2]
          have := hr1.1
          omega)
  obtain ⟨hc, -, hok, hp, hle⟩ := h2
  obtain ⟨c', es⟩ := s
  simp only at hc
  subst hc
  refine ⟨es, h1, hok, ?_, ?_⟩
  · intro c hc; rw [prods_eq h]; exact hp c hc
  · rw [prods_eq h]; exact hle

theorem append_eq (h : HP) (key j loc : Nat) (hl : h.es.length < h.cap) :
    h.append key j loc = .ok { h with es := h.es ++ [⟨key, j, loc⟩] } := by
  simp [HP.append, hl]

/-- What filling the heap achieves. -/
structure Filled (mul : V → V → V) (A B : CSR V) (row : Nat) (L : List Nat) (es : List Ent) : Prop where
  heap : IsHeap 0 es
  ok : ∀ x ∈ es, EOk A B row x
  pend : ∀ c ∈ L, (pick (Pend mul A B es) c).Perm (pick (prods mul A B row) c)
  len : (Pend mul A B es).length ≤ (prods mul A B row).length

theorem make_filled (cap : Nat) {L : List Nat} {es : List Ent} (h1 : ∀ x ∈ es, EOk A B row x)
    (h2 : ∀ c ∈ L, pick (Pend mul A B es) c = pick (prods mul A B row) c)
    (h3 : (Pend mul A B es).length ≤ (prods mul A B row).length) :
    ∃ es', HP.make ⟨cap, es⟩ = .ok ⟨cap, es'⟩ ∧ Filled mul A B row L es' := by
  obtain ⟨a, k1, k2, k3⟩ := makeHeap_ok es
  refine ⟨a, by simp [HP.make, k1], k3, fun x hx => h1 x (k2.mem_iff.1 hx), ?_, ?_⟩
  · intro c hc
    exact (pick_perm (Pend_perm k2) c).trans (.of_eq (h2 c hc))
  · rw [(Pend_perm k2).length_eq]; exact h3

/-- What the loop of `initHeap` does with one entry of the row of `A`. -/
theorem initStep_ok (h : HOk A B M row) {insp : Nat} (hd : DepthOk insp M) (hne : M.ptr row < M.ptr (row + 1)) {j : Nat} {s : HP}
    (hj2 : j < A.ptr (row + 1)) : StepOk A B (M.rowCols row) j s (do
    let inner ← rd A.colids j
    let bend ← rd B.rowptr (inner + 1)
    let bbeg ← rd B.rowptr inner
    if bend - bbeg = 0 then .ok s
    else do
      let key ← rd B.colids bbeg
      if insp = 0 then s.append key j bbeg
      else if insp = 1 then do
        let (key, loc) ← skipInit B M (M.ptr row) bend (bend - bbeg) key bbeg
        if loc < bend then s.append key j loc else .ok s
      else do
        let (put, key, loc) ← search B M bend (stopOf insp (M.ptr row) (M.ptr (row + 1))) (M.ptr (row + 1))
          ((bend - bbeg) + (M.colids.length - M.ptr row)) key bbeg (M.ptr row)
        if put then s.append key j loc else .ok s : Res HP) := by
  have hin := h.inner_lt hj2
  have hr1 := CSR.rd_ptr h.wfB (i := col A j + 1) hin
  have hr2 := CSR.rd_ptr h.wfB (i := col A j) (Nat.le_of_lt hin)
  rw [rd_col h.wfA (h.a_lt hj2), ok_bind, hr1, ok_bind, hr2, ok_bind]
  by_cases h0 : B.ptr (col A j + 1) - B.ptr (col A j) = 0
  · rw [if_pos h0]
    exact ⟨none, fun k hk1 hk2 => by simp only [bend] at hk2; omega, fun _ => rfl⟩
  · rw [if_neg h0]
    have hlt : B.ptr (col A j) < bend A B j := by simp only [bend]; omega
    have hlow : Lower A B M row j (B.ptr (col A j)) (M.ptr row) := by
      intro k _ _ hmem
      obtain ⟨m, k1, k2, k3⟩ := h.mem_mask.1 hmem
      rw [← k3]
      exact h.incM.le (Nat.le_refl _) k1 k2
    rw [h.rdB hj2 hlt, ok_bind]
    by_cases i0 : insp = 0
    · rw [if_pos i0]
      exact ⟨some (col B (B.ptr (col A j)), B.ptr (col A j)),
        ⟨Nat.le_refl _, hlt, rfl, fun k h1 h2 => by omega⟩, fun hl => append_eq _ _ _ _ hl⟩
    · rw [if_neg i0]
      by_cases i1 : insp = 1
      · rw [if_pos i1]
        obtain ⟨key', loc', k1, k2, k3⟩ := skipInit_ok h hj2 hne (bend A B j - B.ptr (col A j)) _ (Nat.le_refl _) hlt
          (Nat.le_refl _) hlow
        refine ⟨some (key', loc'), k3, ?_⟩
        intro hl
        rw [k1, ok_bind]
        simp only
        rw [if_pos k2]
        exact append_eq _ _ _ _ hl
      · rw [if_neg i1]
        have hst := stopOf_ok h hd i0 i1 hne
        obtain ⟨put, key', loc', k1, k2⟩ := search_ok h hj2 hst.2 (bend A B j - B.ptr (col A j) +
          (M.colids.length - M.ptr row)) _ _ (Nat.le_refl _) hlt (Nat.le_refl _) hst.1 (Nat.le_refl _) hlow
        refine ⟨_, k2, ?_⟩
        intro hl
        rw [k1, ok_bind]
        cases put with
        | true => simpa using append_eq _ _ _ _ hl
        | false => simp

theorem initHeap_ok (h : HOk A B M row) {insp cap : Nat} (hd : DepthOk insp M) (hne : M.ptr row < M.ptr (row + 1))
    (hcap : (A.row row).length ≤ cap) :
    ∃ es, initHeap insp A B M row (M.ptr row) (M.ptr (row + 1)) ⟨cap, []⟩ = .ok ⟨cap, es⟩ ∧
      Filled mul A B row (M.rowCols row) es := by
  unfold initHeap
  rw [CSR.rd_ptr h.wfA (Nat.le_of_lt h.lt), CSR.rd_ptr h.wfA (i := row + 1) h.lt]
  simp only [ok_bind]
  obtain ⟨es, h1, h2, h3, h4⟩ := fill_ok (mul := mul) h (L := M.rowCols row) hcap (fun j s _ hj2 => initStep_ok h hd hne (s := s) hj2)
  rw [h1, ok_bind]
  exact make_filled cap h2 h3 h4

theorem initStepC_ok (h : HOk A B M row) (L : List Nat) {j : Nat} {s : HP} (hj2 : j < A.ptr (row + 1)) : StepOk A B L j s (do
    let inner ← rd A.colids j
    let bend ← rd B.rowptr (inner + 1)
    let bbeg ← rd B.rowptr inner
    if bend - bbeg = 0 then .ok s
    else do
      let key ← rd B.colids bbeg
      s.append key j bbeg : Res HP) := by
  have hin := h.inner_lt hj2
  have hr1 := CSR.rd_ptr h.wfB (i := col A j + 1) hin
  have hr2 := CSR.rd_ptr h.wfB (i := col A j) (Nat.le_of_lt hin)
  rw [rd_col h.wfA (h.a_lt hj2), ok_bind, hr1, ok_bind, hr2, ok_bind]
  by_cases h0 : B.ptr (col A j + 1) - B.ptr (col A j) = 0
  · rw [if_pos h0]
    exact ⟨none, fun k hk1 hk2 => by simp only [bend] at hk2; omega, fun _ => rfl⟩
  · rw [if_neg h0]
    have hlt : B.ptr (col A j) < bend A B j := by simp only [bend]; omega
    rw [h.rdB hj2 hlt, ok_bind]
    exact ⟨some (col B (B.ptr (col A j)), B.ptr (col A j)),
      ⟨Nat.le_refl _, hlt, rfl, fun k h1 h2 => by omega⟩, fun hl => append_eq _ _ _ _ hl⟩

theorem initHeapC_ok (h : HOk A B M row) {cap : Nat} (hcap : (A.row row).length ≤ cap) (L : List Nat) :
    ∃ es, initHeapC A B row ⟨cap, []⟩ = .ok ⟨cap, es⟩ ∧ Filled mul A B row L es := by
  unfold initHeapC
  rw [CSR.rd_ptr h.wfA (Nat.le_of_lt h.lt), CSR.rd_ptr h.wfA (i := row + 1) h.lt]
  simp only [ok_bind]
  obtain ⟨es, h1, h2, h3, h4⟩ := fill_ok (mul := mul) h (L := L) hcap (fun j s _ hj2 => initStepC_ok h L (s := s) hj2)
  rw [h1, ok_bind]
  exact make_filled cap h2 h3 h4

/-! ## Moving the root on -/

theorem insertNext_ok (h : HOk A B M row) {insp cap m : Nat} (hd : DepthOk insp M) {e : Ent} {rest : List Ent}
    (hh : IsHeap 0 (e :: rest)) (hok : ∀ x ∈ e :: rest, EOk A B row x) (hm0 : M.ptr row ≤ m)
    (hm : m < M.ptr (row + 1)) (hlow : ∀ m', M.ptr row ≤ m' → m' < m → col M m' < e.key) :
    ∃ es, insertNext insp A B M m (M.ptr (row + 1)) ⟨cap, e :: rest⟩ = .ok ⟨cap, es⟩ ∧
      Next mul A B row (M.rowCols row) e rest es := by
  have he := hok e (by simp)
  have hin := h.inner_lt he.hi
  have hr1 := CSR.rd_ptr h.wfB (i := col A e.runr + 1) hin
  have hL : Lower A B M row e.runr (e.loc + 1) m := by
    intro k hk1 hk2 hmem
    obtain ⟨m', k1, k2, k3⟩ := h.mem_mask.1 hmem
    rw [← k3]
    refine h.incM.le hm0 ?_ k2
    rcases Nat.lt_or_ge m' m with h' | h'
    · have h1 := hlow m' k1 h'
      have h2 := h.incB he.hi e.loc k he.blo (by omega) hk2
      rw [he.key] at h1
      omega
    · exact h'
  unfold insertNext
  have hrd : rd (e :: rest) 0 = .ok e := rfl
  simp only [hrd, ok_bind, rd_col h.wfA (h.a_lt he.hi), hr1]
  have hpop : ¬ e.loc + 1 < B.ptr (col A e.runr + 1) → Skip A B (M.rowCols row) e.runr (e.loc + 1) none := by
    intro hl k hk1 hk2
    simp only [bend] at hk2
    omega
  by_cases i0 : insp = 0
  · rw [if_pos i0]
    by_cases hl : e.loc + 1 < B.ptr (col A e.runr + 1)
    · rw [if_pos hl, h.rdB he.hi hl, ok_bind]
      exact finish_ok h cap true _ _ hh hok ⟨Nat.le_refl _, hl, rfl, fun k h1 h2 => by omega⟩
    · rw [if_neg hl]
      exact finish_ok h cap false _ _ hh hok (hpop hl)
  · rw [if_neg i0]
    by_cases i1 : insp = 1
    · rw [if_pos i1]
      obtain ⟨key', loc', k1, k2⟩ := skipNext_ok h he.hi hm (bend A B e.runr - e.loc) e.key e.loc he.bhi
        (Nat.le_refl _) hL
      rw [k1, ok_bind]
      by_cases hl : loc' < bend A B e.runr
      · rw [if_pos hl] at k2
        have := finish_ok (mul := mul) h cap true key' loc' hh hok (by simpa using k2)
        simp only [if_pos (show loc' < B.ptr (col A e.runr + 1) from hl)]
        simpa using this
      · rw [if_neg hl] at k2
        have := finish_ok (mul := mul) h cap false key' loc' hh hok (by simpa using k2)
        simp only [if_neg (show ¬ loc' < B.ptr (col A e.runr + 1) from hl)]
        simpa using this
    · rw [if_neg i1]
      by_cases hl : e.loc + 1 < B.ptr (col A e.runr + 1)
      · rw [if_pos hl, h.rdB he.hi hl, ok_bind]
        have hst := stopOf_ok h hd i0 i1 hm
        obtain ⟨put, key', loc', k1, k2⟩ := search_ok h he.hi hst.2 (bend A B e.runr - (e.loc + 1) +
            (M.colids.length - m)) _ _ (by have := he.blo; omega) hl hm0 hst.1 (Nat.le_refl _) hL
        rw [k1, ok_bind]
        exact finish_ok h cap put key' loc' hh hok k2
      · rw [if_neg hl]
        exact finish_ok h cap false _ _ hh hok (hpop hl)

theorem insertNextC_ok (h : HOk A B M row) {cap : Nat} {e : Ent} {rest : List Ent} (L : List Nat)
    (hh : IsHeap 0 (e :: rest)) (hok : ∀ x ∈ e :: rest, EOk A B row x) :
    ∃ es, insertNextC A B ⟨cap, e :: rest⟩ = .ok ⟨cap, es⟩ ∧ Next mul A B row L e rest es := by
  have he := hok e (by simp)
  have hin := h.inner_lt he.hi
  have hr1 := CSR.rd_ptr h.wfB (i := col A e.runr + 1) hin
  unfold insertNextC
  have hrd : rd (e :: rest) 0 = .ok e := rfl
  simp only [hrd, ok_bind, rd_col h.wfA (h.a_lt he.hi), hr1]
  by_cases hl : e.loc + 1 < B.ptr (col A e.runr + 1)
  · rw [if_pos hl, h.rdB he.hi hl, ok_bind]
    exact finish_ok h cap true _ _ hh hok ⟨Nat.le_refl _, hl, rfl, fun k h1 h2 => by omega⟩
  · rw [if_neg hl]
    exact finish_ok h cap false _ _ hh hok (by
      intro k hk1 hk2
      simp only [bend] at hk2
      omega)

/-- Advancing the mask position. -/
theorem advMask_ok (h : HOk A B M row) (key : Nat) : ∀ (fuel m : Nat), M.ptr row ≤ m → m ≤ M.ptr (row + 1) →
    M.ptr (row + 1) - m ≤ fuel → (∀ m', M.ptr row ≤ m' → m' < m → col M m' < key) →
    ∃ r, advMask M key (M.ptr (row + 1)) fuel m = .ok r ∧ M.ptr row ≤ r ∧ r ≤ M.ptr (row + 1) ∧
      (∀ m', M.ptr row ≤ m' → m' < r → col M m' < key) ∧ (r < M.ptr (row + 1) → key ≤ col M r) := by
  intro fuel
  induction fuel with
  | zero =>
    intro m h1 h2 h3 h4
    unfold advMask
    rw [if_neg (by omega)]
    exact ⟨m, rfl, h1, h2, h4, fun h => by omega⟩
  | succ fuel ih =>
    intro m h1 h2 h3 h4
    unfold advMask
    by_cases c1 : m < M.ptr (row + 1)
    · rw [if_pos c1, h.rdM c1, ok_bind]
      by_cases c2 : col M m < key
      · rw [if_pos c2]
        apply ih (m + 1) (by omega) (by omega) (by omega)
        intro m' k1 k2
        by_cases hm : m' = m
        · rw [hm]; exact c2
        · exact h4 m' k1 (by omega)
      · rw [if_neg c2]
        exact ⟨m, rfl, h1, h2, h4, fun _ => by omega⟩
    · rw [if_neg c1]
      exact ⟨m, rfl, h1, h2, h4, fun h => absurd h c1⟩

/-! ## Main loop, masked -/

theorem numLoop_ok (hadd : Spec.AssocComm add) (h : HOk A B M row) {insp cap : Nat} (hd : DepthOk insp M) {all : List (Nat × V)} :
    ∀ (fuel : Nat) (es : List Ent) (m : Nat) (Q : List (Nat × V)) (prev : Option Nat) (out : List (Nat × V)),
      (Pend mul A B es).length < fuel → St mul add A B row (M.rowCols row) all Q es prev out →
      M.ptr row ≤ m → m ≤ M.ptr (row + 1) → (∀ m', M.ptr row ≤ m' → m' < m → ∀ x ∈ es, col M m' < x.key) →
      numLoop insp mul add A B M (M.ptr (row + 1)) fuel ⟨cap, es⟩ m prev out =
        .ok (⟨cap, []⟩, (M.rowCols row).filterMap fun j => (Spec.sum1 add (pick all j)).map fun v => (j, v)) := by
  intro fuel
  induction fuel with
  | zero => intro es m Q prev out h1; omega
  | succ fuel ih =>
    intro es m Q prev out hf st hm0 hm1 hlow
    unfold numLoop
    cases es with
    | nil =>
      simp only [List.isEmpty_nil, if_true]
      rw [st.done hadd (by intro c _; rfl)]
    | cons e rest =>
      have hrd : rd (e :: rest) 0 = .ok e := rfl
      simp only [List.isEmpty_cons, Bool.false_eq_true, if_false, hrd, ok_bind]
      have he := st.ok e (by simp)
      obtain ⟨r, hr1, hr2, hr3, hr4, hr5⟩ := advMask_ok h e.key (M.ptr (row + 1) - m) m hm0 hm1 (Nat.le_refl _)
        (fun m' k1 k2 => hlow m' k1 k2 e (by simp))
      rw [hr1, ok_bind]
      by_cases hend : M.ptr (row + 1) ≤ r
      · rw [if_pos hend]
        rw [st.done hadd]
        intro c hc
        rw [pick_eq_nil]
        intro p hp hpc
        obtain ⟨m', k1, k2, k3⟩ := h.mem_mask.1 hc
        have h1 := hr4 m' k1 (by omega)
        unfold Pend at hp
        rw [List.mem_flatMap] at hp
        obtain ⟨x, hx, hp⟩ := hp
        have hx' := st.ok x hx
        obtain ⟨k, q1, q2, q3⟩ := mem_pendAt h hx'.hi hp
        have h2 := (h.incB hx'.hi).le hx'.blo q1 q2
        rw [← hx'.key] at h2
        have h3 : e.key ≤ x.key := by
          rcases List.mem_cons.1 hx with rfl | hx
          · exact Nat.le_refl _
          · exact st.heap.top x hx
        omega
      · rw [if_neg hend, h.rdM (by omega), ok_bind]
        obtain ⟨es', hn1, nx⟩ := insertNext_ok (mul := mul) h (cap := cap) hd st.heap st.ok hr2
          (show r < M.ptr (row + 1) by omega) hr4
        have hlow' : ∀ m', M.ptr row ≤ m' → m' < r → ∀ x ∈ es', col M m' < x.key := by
          intro m' k1 k2 x hx
          exact Nat.lt_of_lt_of_le (hr4 m' k1 k2) (nx.key x hx)
        have hlen := nx.len
        by_cases hk : e.key = col M r
        · rw [if_pos hk]
          obtain ⟨a, b, ha, hb, -⟩ := pendAt_cons (mul := mul) h he.hi he.bhi
          obtain ⟨prev', out', k1, k2⟩ := st.hit h h.sM (h.mem_mask.2 ⟨r, hr2, by omega, hk.symm⟩) nx ha hb
          simp only [ha, ok_bind, hb, k1, hn1]
          exact ih es' r _ prev' out' (by omega) k2 hr2 hr3 hlow'
        · rw [if_neg hk]
          simp only [ok_bind, hn1]
          refine ih es' r Q prev out (by omega) (st.miss h ?_ nx) hr2 hr3 hlow'
          intro hmem
          obtain ⟨m', k1, k2, k3⟩ := h.mem_mask.1 hmem
          rcases Nat.lt_or_ge m' r with h' | h'
          · have := hr4 m' k1 h'; omega
          · have h1 := h.incM.le hr2 h' k2
            have h2 := hr5 (by omega)
            omega

theorem turns_eq (A B : CSR V) (row : Nat) : turns A B row = (prods mul A B row).length + 1 := by
  unfold turns prods visits
  simp [List.length_flatMap]

theorem numericRow_eq (hadd : Spec.AssocComm add) (h : HOk A B M row) {insp cap : Nat} (hd : DepthOk insp M)
    (hne : M.rowCols row ≠ []) (hcap : (A.row row).length ≤ cap) :
    numericRow insp mul add A B M row ⟨cap, []⟩ = .ok (⟨cap, []⟩, maskedRow mul add A B M row) := by
  have hlt : M.ptr row < M.ptr (row + 1) := by
    have := CSR.rowCols_length h.wfM h.ltM
    have := List.length_pos_iff.2 hne
    omega
  unfold numericRow
  rw [CSR.rd_ptr h.wfM (Nat.le_of_lt h.ltM), CSR.rd_ptr h.wfM (i := row + 1) h.ltM]
  simp only [ok_bind]
  rw [check_of (by simp; omega), ok_bind]
  obtain ⟨es, h1, h2⟩ := initHeap_ok (mul := mul) h hd hlt hcap
  rw [h1, ok_bind, turns_eq (mul := mul)]
  rw [numLoop_ok hadd h hd (all := prods mul A B row) _ es _ [] none [] (by have := h2.len; omega)
    ⟨h2.heap, h2.ok, by simpa using h2.pend, by simp, by simp, ⟨fun _ => rfl, by simp⟩, by
      symm; apply filterMap_eq_nil_of; intro j _; rfl⟩ (Nat.le_refl _) (by omega)
    (fun m' k1 k2 => by omega)]
  unfold maskedRow
  simp only [dot_eq]

/-! ## Symbolic, masked -/

theorem emit_length {prev : Option Nat} {out : List (Nat × V)} {key : Nat} {w : V}
    {r : Option Nat × List (Nat × V)} (h : emit add prev out key w = .ok r) :
    r.1 = some key ∧ r.2.length = if prev = some key then out.length else out.length + 1 := by
  unfold emit at h
  by_cases hp : prev = some key
  · rw [if_pos hp] at h
    rw [if_pos hp]
    cases hl : out.getLast? with
    | none => rw [hl] at h; cases h
    | some x =>
      rw [hl] at h
      cases h
      refine ⟨hp, ?_⟩
      have : out ≠ [] := by rintro rfl; simp at hl
      have := List.length_pos_iff.2 this
      simp; omega
  · rw [if_neg hp] at h
    rw [if_neg hp]
    cases h
    exact ⟨rfl, by simp⟩

theorem bind_ok {α β : Type} {x : Res α} {f : α → Res β} {b : β} (h : (x >>= f) = .ok b) :
    ∃ a, x = .ok a ∧ f a = .ok b := by
  cases x with
  | error e => cases h
  | ok a => exact ⟨a, rfl, h⟩

theorem symLoop_of_num {insp maskEnd : Nat} : ∀ (fuel : Nat) (s : HP) (m : Nat) (prev : Option Nat)
    (out : List (Nat × V)) (s' : HP) (out' : List (Nat × V)),
    numLoop insp mul add A B M maskEnd fuel s m prev out = .ok (s', out') →
    symLoop insp A B M maskEnd fuel s m prev out.length = .ok (s', out'.length) := by
  intro fuel
  induction fuel with
  | zero => intro s m prev out s' out' h; cases h
  | succ fuel ih =>
    intro s m prev out s' out' h
    unfold numLoop at h
    unfold symLoop
    by_cases he : s.es.isEmpty = true
    · rw [if_pos he] at h ⊢
      cases h; rfl
    · rw [if_neg he] at h ⊢
      obtain ⟨e, h1, h⟩ := bind_ok h
      obtain ⟨r, h2, h⟩ := bind_ok h
      rw [h1, ok_bind, h2, ok_bind]
      by_cases hend : maskEnd ≤ r
      · rw [if_pos hend] at h ⊢
        cases h; rfl
      · rw [if_neg hend] at h ⊢
        obtain ⟨mc, h3, h⟩ := bind_ok h
        rw [h3, ok_bind]
        by_cases hk : e.key = mc
        · rw [if_pos hk] at h
          obtain ⟨a, ha, h⟩ := bind_ok h
          obtain ⟨b, hb, h⟩ := bind_ok h
          obtain ⟨⟨prev', out''⟩, h4, h⟩ := bind_ok h
          obtain ⟨s2, h5, h⟩ := bind_ok h
          obtain ⟨k1, k2⟩ := emit_length h4
          simp only at k1 k2
          rw [h5, ok_bind]
          have := ih _ _ _ _ _ _ h
          rw [k2] at this
          by_cases hp : prev = some e.key
          · rw [if_pos hp] at this
            have e1 : (e.key == mc && prev != some e.key) = false := by simp [hp]
            rw [e1]
            simp only [Bool.false_eq_true, if_false]
            rw [hp, ← k1]; exact this
          · rw [if_neg hp] at this
            have e1 : (e.key == mc && prev != some e.key) = true := by simp [hk]; rw [← hk]; exact hp
            rw [e1]
            simp only [if_true]
            rw [← k1]; exact this
        · rw [if_neg hk] at h
          simp only [ok_bind] at h
          obtain ⟨s2, h5, h⟩ := bind_ok h
          rw [h5, ok_bind]
          have e1 : (e.key == mc && prev != some e.key) = false := by simp [hk]
          rw [e1]
          simp only [Bool.false_eq_true, if_false]
          exact ih _ _ _ _ _ _ h

theorem symbolicRow_of_num {insp : Nat} {s s' : HP} {out : List (Nat × V)}
    (h : numericRow insp mul add A B M row s = .ok (s', out)) :
    symbolicRow insp A B M row s = .ok (s', out.length) := by
  unfold numericRow at h
  unfold symbolicRow
  obtain ⟨a, h1, h⟩ := bind_ok h
  obtain ⟨b, h2, h⟩ := bind_ok h
  obtain ⟨u, h3, h⟩ := bind_ok h
  obtain ⟨t, h4, h⟩ := bind_ok h
  rw [h1, ok_bind, h2, ok_bind, h3, ok_bind, h4, ok_bind]
  exact symLoop_of_num _ _ _ _ [] _ _ h

end Verif.Model.Heap
