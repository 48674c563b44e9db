import Verif.Lemmas.MsaAlg
import Verif.Lemmas.OfRows

/-! # MSA without assertions on masks with repeated columns

A run on the mask `M` is the run on the mask whose rows keep only the first occurrence of
every column. -/

namespace Verif.Model.Msa

variable {V : Type} {σ : Type _}

/-- Visiting an element again does nothing. -/
theorem foldlM_firsts (f : σ → Nat → Res σ) (Done : Nat → σ → Prop)
    (h1 : ∀ s c s', f s c = .ok s' → Done c s')
    (h2 : ∀ s c c' s', Done c s → f s c' = .ok s' → Done c s')
    (h3 : ∀ s c, Done c s → f s c = .ok s) (l : List Nat) (s : σ) :
    l.foldlM f s = (firsts l).foldlM f s ∧ (∀ s', l.foldlM f s = .ok s' → ∀ c ∈ l, Done c s') := by
  induction l using list_snoc_induction with
  | h0 => exact ⟨rfl, fun _ _ c hc => absurd hc (by simp)⟩
  | h1 l a ih =>
    obtain ⟨e, hd⟩ := ih
    constructor
    · rw [firsts_append_singleton]
      split
      · rename_i hm
        rw [List.foldlM_append, ← e]
        cases hr : l.foldlM f s with
        | error x => rfl
        | ok s' =>
          show (f s' a >>= pure) = _
          rw [h3 s' a (hd s' hr a (mem_firsts.1 hm))]; rfl
      · rw [List.foldlM_append, List.foldlM_append, e]
    · intro s' hs c hc
      rw [List.foldlM_append] at hs
      cases hr : l.foldlM f s with
      | error x => rw [hr] at hs; cases hs
      | ok s1 =>
        rw [hr] at hs
        have hs : f s1 a = .ok s' := by
          have : (f s1 a >>= pure) = .ok s' := hs
          cases hf : f s1 a with
          | error x => rw [hf] at this; cases this
          | ok s2 => rw [hf] at this; exact this
        rw [List.mem_append] at hc
        rcases hc with hc | hc
        · exact h2 s1 c a s' (hd s1 hr c hc) hs
        · simp at hc; subst hc; exact h1 s1 c s' hs

/-- A step without an assertion does the same where the assertion holds. -/
theorem foldlM_mono {f g : σ → Nat → Res σ} (h : ∀ s c s', f s c = .ok s' → g s c = .ok s') :
    ∀ (l : List Nat) (s s' : σ), l.foldlM f s = .ok s' → l.foldlM g s = .ok s' := by
  intro l
  induction l with
  | nil => intro s s' h; exact h
  | cons a l ih =>
    intro s s' hs
    rw [List.foldlM_cons] at hs ⊢
    cases hf : f s a with
    | error x => rw [hf] at hs; cases hs
    | ok s1 =>
      rw [hf] at hs
      rw [h s a s1 hf]
      exact ih s1 s' hs

/-! ## The mask without repetitions -/

/-- The first entry of every column. -/
def firstEntries (l : List (Nat × V)) : List (Nat × V) :=
  l.foldl (fun acc x => if x.1 ∈ acc.map Prod.fst then acc else acc ++ [x]) []

theorem firstEntries_map (l : List (Nat × V)) : (firstEntries l).map Prod.fst = firsts (l.map Prod.fst) := by
  induction l using list_snoc_induction with
  | h0 => rfl
  | h1 l a ih =>
    rw [List.map_append, List.map_cons, List.map_nil, firsts_append_singleton]
    unfold firstEntries at ih ⊢
    rw [List.foldl_append, List.foldl_cons, List.foldl_nil, ← ih]
    split
    · rfl
    · rw [List.map_append]; rfl

/-- The mask with the first occurrence of every column. -/
def dedup (M : CSR V) : CSR V := ofRows M.rows M.cols true fun i => firstEntries (M.row i)

theorem dedup_rowCols {M : CSR V} (hM : M.WF) {i : Nat} (hi : i < M.rows) :
    (dedup M).rowCols i = firsts (M.rowCols i) := by
  unfold dedup
  rw [ofRows_rowCols _ _ _ _ hi, firstEntries_map, CSR.row_map_fst hM]

theorem dedup_wf {M : CSR V} (hM : M.WF) : (dedup M).WF := by
  refine ofRows_wf _ _ _ _ rfl ?_
  intro i hi x hx
  have : x.1 ∈ (firstEntries (M.row i)).map Prod.fst := List.mem_map_of_mem hx
  rw [firstEntries_map, mem_firsts, CSR.row_map_fst hM] at this
  exact CSR.rowCols_lt hM this

theorem dedup_nodup {M : CSR V} (hM : M.WF) : (dedup M).NodupRows := by
  intro i hi
  rw [dedup_rowCols hM hi]
  exact firsts_nodup _

/-! ## Steps that set the state of one column -/

/-- Steps that leave the column in state `t`, touch no other column, and do nothing if the
column is in state `t` already. -/
theorem foldlM_state (f : σ → Nat → Res σ) (st : σ → Nat → Option Nat) (t : Nat)
    (h1 : ∀ s c s', f s c = .ok s' → st s' c = some t ∧ ∀ c', c' ≠ c → st s' c' = st s c')
    (h3 : ∀ s c, st s c = some t → f s c = .ok s) (l : List Nat) (s : σ) :
    l.foldlM f s = (firsts l).foldlM f s := by
  refine (foldlM_firsts f (fun c s => st s c = some t) (fun s c s' h => (h1 s c s' h).1) ?_ h3 l s).1
  intro s c c' s' hd hf
  by_cases hc : c = c'
  · subst hc; exact (h1 s c s' hf).1
  · rw [(h1 s c' s' hf).2 c hc]; exact hd

theorem wr_ok {α : Type _} {l l' : List α} {i : Nat} {x : α} (h : wr l i x = .ok l') :
    i < l.length ∧ l' = l.set i x := by
  unfold wr at h
  split at h
  · exact ⟨by assumption, by cases h; rfl⟩
  · cases h

theorem bind_ok' {α β : Type _} {r : Res α} {f : α → Res β} {b : β} (h : (r >>= f) = .ok b) :
    ∃ a, r = .ok a ∧ f a = .ok b := by
  cases r with
  | error e => cases h
  | ok a => exact ⟨a, rfl, h⟩

theorem check_ok {b : Bool} {u : Unit} (h : check b = .ok u) : b = true := by
  cases b
  · cases h
  · rfl

theorem set_self' {α : Type _} {l : List α} {i : Nat} {x : α} (h : l[i]? = some x) : l.set i x = l := by
  apply List.ext_getElem?
  intro k
  rw [List.getElem?_set]
  split
  · rename_i hk
    subst hk
    have : i < l.length := by
      rw [List.getElem?_eq_some_iff] at h; exact h.1
    rw [if_pos this, h]
  · rfl

theorem wr_self {α : Type _} {l : List α} {i : Nat} {x : α} (h : l[i]? = some x) : wr l i x = .ok l := by
  have : i < l.length := by
    rw [List.getElem?_eq_some_iff] at h; exact h.1
  rw [wr_of_lt this, set_self' h]

section S

theorem SAcc.putState_ok {acc acc' : SAcc} {c s : Nat} (h : acc.putState c s = .ok acc') :
    acc'.states[c]? = some s ∧ ∀ c', c' ≠ c → acc'.states[c']? = acc.states[c']? := by
  unfold SAcc.putState at h
  obtain ⟨l, hl, h⟩ := bind_ok' h
  cases h
  obtain ⟨hc, rfl⟩ := wr_ok hl
  refine ⟨by simp [hc], fun c' hc' => ?_⟩
  simp only []
  rw [List.getElem?_set_ne (Ne.symm hc')]

theorem SAcc.putState_self {acc : SAcc} {c s : Nat} (h : acc.states[c]? = some s) :
    acc.putState c s = .ok acc := by
  unfold SAcc.putState
  rw [wr_self h]; rfl

theorem SAcc.getState_of {acc : SAcc} {c s : Nat} (h : acc.states[c]? = some s) : acc.getState c = .ok s := by
  unfold SAcc.getState
  have : c < acc.states.length := by
    rw [List.getElem?_eq_some_iff] at h; exact h.1
  rw [check_of (by simpa using this), rd_eq_ok.2 h]; rfl

theorem SAcc.getState_ok {acc : SAcc} {c s : Nat} (h : acc.getState c = .ok s) : acc.states[c]? = some s := by
  unfold SAcc.getState at h
  obtain ⟨_, _, h⟩ := bind_ok' h
  exact rd_eq_ok.1 h

theorem SAcc.mark_fold (l : List Nat) (acc : SAcc) :
    l.foldlM (fun acc c => acc.setAllowedNd false c) acc =
      (firsts l).foldlM (fun acc c => acc.setAllowedNd false c) acc := by
  refine foldlM_state _ (fun acc c => acc.states[c]?) (ALLOWED false) ?_ ?_ l acc
  · intro s c s' h; exact putState_ok h
  · intro s c h; exact putState_self h

theorem SAcc.mark_mono {acc acc' : SAcc} {c : Nat} (h : acc.setAllowed false c = .ok acc') :
    acc.setAllowedNd false c = .ok acc' := by
  unfold SAcc.setAllowed at h
  obtain ⟨_, _, h⟩ := bind_ok' h
  obtain ⟨_, _, h⟩ := bind_ok' h
  exact h

theorem SAcc.clear_ok {compl : Bool} {acc acc' : SAcc} {c : Nat} (h : acc.clear compl c = .ok acc') :
    acc'.states[c]? = some (DEFAULT compl) ∧ ∀ c', c' ≠ c → acc'.states[c']? = acc.states[c']? := by
  unfold SAcc.clear at h
  obtain ⟨s, hs, h⟩ := bind_ok' h
  split at h
  · rename_i hd
    cases h
    exact ⟨by rw [getState_ok hs, hd], fun _ _ => rfl⟩
  · exact putState_ok h

theorem SAcc.clear_self {compl : Bool} {acc : SAcc} {c : Nat} (h : acc.states[c]? = some (DEFAULT compl)) :
    acc.clear compl c = .ok acc := by
  unfold SAcc.clear
  rw [getState_of h]; simp

theorem SAcc.clear_fold (compl : Bool) (l : List Nat) (acc : SAcc) :
    l.foldlM (fun acc c => acc.clear compl c) acc = (firsts l).foldlM (fun acc c => acc.clear compl c) acc := by
  refine foldlM_state _ (fun acc c => acc.states[c]?) (DEFAULT compl) ?_ ?_ l acc
  · intro s c s' h; exact clear_ok h
  · intro s c h; exact clear_self h

theorem SAcc.erase_fold (l : List Nat) (s : SAcc × Int) :
    l.foldlM (fun s c => (do
      let (acc, erased) ← s.1.erase true c
      .ok (acc, if erased then s.2 - 1 else s.2) : Res (SAcc × Int))) s =
    (firsts l).foldlM (fun s c => (do
      let (acc, erased) ← s.1.erase true c
      .ok (acc, if erased then s.2 - 1 else s.2) : Res (SAcc × Int))) s := by
  refine foldlM_state _ (fun s c => s.1.states[c]?) (DEFAULT true) ?_ ?_ l s
  · intro s c s' h
    obtain ⟨⟨acc, er⟩, he, h⟩ := bind_ok' h
    cases h
    unfold SAcc.erase at he
    obtain ⟨st, hs, he⟩ := bind_ok' he
    split at he
    · rename_i hd
      cases he
      exact ⟨by rw [getState_ok hs, hd], fun _ _ => rfl⟩
    · obtain ⟨acc2, hp, he⟩ := bind_ok' he
      cases he
      exact putState_ok hp
  · intro s c h
    have : s.1.erase true c = .ok (s.1, false) := by
      unfold SAcc.erase
      rw [getState_of h]; simp
    rw [this]; rfl

end S

/-- `symbolicRow` without assertions on `M` does what `symbolicRow` does without repetitions. -/
theorem symbolicRow_nd {A B M : CSR V} (hM : M.WF) {row : Nat} (hr : row < M.rows) {acc : SAcc} {r : SAcc × Nat}
    (h : symbolicRow A B (dedup M) row acc = .ok r) : symbolicRowNd A B M row acc = .ok r := by
  unfold symbolicRow symbolicRowWith at h
  unfold symbolicRowNd symbolicRowWith
  simp only [maskLoop_eq (dedup_wf hM) (show row < (dedup M).rows from hr), dedup_rowCols hM hr] at h
  simp only [maskLoop_eq hM hr]
  obtain ⟨a1, e1, h⟩ := bind_ok' h
  rw [SAcc.mark_fold, foldlM_mono (fun _ _ _ h => SAcc.mark_mono h) _ _ _ e1, ok_bind]
  obtain ⟨⟨a2, n⟩, e2, h⟩ := bind_ok' h
  rw [e2, ok_bind]
  simp only [] at h ⊢
  rw [SAcc.clear_fold]
  exact h

theorem symbolicRowC_nd {A B M : CSR V} (hM : M.WF) {row : Nat} (hr : row < M.rows) (acc : SAcc) :
    symbolicRowC A B M row acc = symbolicRowC A B (dedup M) row acc := by
  unfold symbolicRowC
  simp only [maskLoop_eq (dedup_wf hM) (show row < (dedup M).rows from hr), dedup_rowCols hM hr, maskLoop_eq hM hr]
  congr 1
  funext s
  obtain ⟨acc, n⟩ := s
  refine congrArg (· >>= _) ?_
  exact SAcc.erase_fold _ _

section One

theorem Acc1.put_ok {acc acc' : Acc1 V} {c : Nat} {e : Entry V} (h : acc.put c e = .ok acc') :
    (acc'.entries[c]?).map (·.state) = some e.state ∧
      ∀ c', c' ≠ c → (acc'.entries[c']?).map (·.state) = (acc.entries[c']?).map (·.state) := by
  unfold Acc1.put at h
  obtain ⟨l, hl, h⟩ := bind_ok' h
  cases h
  obtain ⟨hc, rfl⟩ := wr_ok hl
  refine ⟨by simp [hc], fun c' hc' => ?_⟩
  simp only []
  rw [List.getElem?_set_ne (Ne.symm hc')]

theorem Acc1.put_self {acc : Acc1 V} {c : Nat} {e : Entry V} (h : acc.entries[c]? = some e) :
    acc.put c e = .ok acc := by
  unfold Acc1.put
  rw [wr_self h]; rfl

theorem Acc1.get_of {acc : Acc1 V} {c : Nat} {e : Entry V} (h : acc.entries[c]? = some e) : acc.get c = .ok e := by
  unfold Acc1.get
  have : c < acc.entries.length := by
    rw [List.getElem?_eq_some_iff] at h; exact h.1
  rw [check_of (by simpa using this), rd_eq_ok.2 h]; rfl

theorem Acc1.get_ok {acc : Acc1 V} {c : Nat} {e : Entry V} (h : acc.get c = .ok e) : acc.entries[c]? = some e := by
  unfold Acc1.get at h
  obtain ⟨_, _, h⟩ := bind_ok' h
  exact rd_eq_ok.1 h

/-- Writing one state, `t`. -/
def Acc1.setTo (t : Nat) (acc : Acc1 V) (c : Nat) : Res (Acc1 V) := do
  let e ← rd acc.entries c
  acc.put c { e with state := t }

theorem Acc1.setTo_fold (t : Nat) (l : List Nat) (acc : Acc1 V) :
    l.foldlM (fun acc c => acc.setTo t c) acc = (firsts l).foldlM (fun acc c => acc.setTo t c) acc := by
  refine foldlM_state _ (fun acc c => (acc.entries[c]?).map (·.state)) t ?_ ?_ l acc
  · intro s c s' h
    obtain ⟨e, he, h⟩ := bind_ok' h
    exact put_ok h
  · intro s c h
    cases he : s.entries[c]? with
    | none => rw [he] at h; simp at h
    | some e =>
      rw [he] at h
      simp at h
      unfold Acc1.setTo
      rw [rd_eq_ok.2 he, ok_bind]
      refine put_self ?_
      rw [he, ← h]

theorem Acc1.markA_mono {acc acc' : Acc1 V} {c : Nat} (h : acc.setAllowed false c = .ok acc') :
    acc.setAllowedNd false c = .ok acc' := by
  unfold Acc1.setAllowed at h
  obtain ⟨e, he, h⟩ := bind_ok' h
  obtain ⟨_, _, h⟩ := bind_ok' h
  unfold Acc1.setAllowedNd
  rw [rd_eq_ok.2 (get_ok he)]
  exact h

theorem Acc1.markN_mono {acc acc' : Acc1 V} {c : Nat} (h : acc.setNotAllowed true c = .ok acc') :
    acc.setNotAllowedNd true c = .ok acc' := by
  unfold Acc1.setNotAllowed at h
  obtain ⟨e, he, h⟩ := bind_ok' h
  obtain ⟨_, _, h⟩ := bind_ok' h
  unfold Acc1.setNotAllowedNd
  rw [rd_eq_ok.2 (get_ok he)]
  exact h

theorem Acc1.clear_ok {compl : Bool} {acc acc' : Acc1 V} {c : Nat} (h : acc.clear compl c = .ok acc') :
    (acc'.entries[c]?).map (·.state) = some (DEFAULT compl) ∧
      ∀ c', c' ≠ c → (acc'.entries[c']?).map (·.state) = (acc.entries[c']?).map (·.state) := by
  unfold Acc1.clear at h
  obtain ⟨e, he, h⟩ := bind_ok' h
  split at h
  · rename_i hd
    cases h
    exact ⟨by rw [get_ok he, Option.map_some, hd], fun _ _ => rfl⟩
  · exact put_ok h

theorem Acc1.clear_self {compl : Bool} {acc : Acc1 V} {c : Nat}
    (h : (acc.entries[c]?).map (·.state) = some (DEFAULT compl)) : acc.clear compl c = .ok acc := by
  cases he : acc.entries[c]? with
  | none => rw [he] at h; simp at h
  | some e =>
    rw [he] at h
    simp at h
    unfold Acc1.clear
    rw [get_of he, ok_bind, if_pos h]

theorem Acc1.clear_fold (compl : Bool) (l : List Nat) (acc : Acc1 V) :
    l.foldlM (fun acc c => acc.clear compl c) acc = (firsts l).foldlM (fun acc c => acc.clear compl c) acc := by
  refine foldlM_state _ (fun acc c => (acc.entries[c]?).map (·.state)) (DEFAULT compl) ?_ ?_ l acc
  · intro s c s' h; exact clear_ok h
  · intro s c h; exact clear_self h

theorem Acc1.collect_fold (l : List Nat) (s : Acc1 V × List (Nat × V)) :
    l.foldlM (fun s c => (do
      let e ← s.1.get c
      let out ← if e.state = INITIALIZED then do
          let v ← use e.value
          .ok (s.2 ++ [(c, v)])
        else .ok s.2
      let acc ← s.1.clear false c
      .ok (acc, out) : Res (Acc1 V × List (Nat × V)))) s =
    (firsts l).foldlM (fun s c => (do
      let e ← s.1.get c
      let out ← if e.state = INITIALIZED then do
          let v ← use e.value
          .ok (s.2 ++ [(c, v)])
        else .ok s.2
      let acc ← s.1.clear false c
      .ok (acc, out) : Res (Acc1 V × List (Nat × V)))) s := by
  refine foldlM_state _ (fun s c => (s.1.entries[c]?).map (·.state)) (DEFAULT false) ?_ ?_ l s
  · intro s c s' h
    obtain ⟨e, he, h⟩ := bind_ok' h
    split at h
    · obtain ⟨v, hv, h⟩ := bind_ok' h
      obtain ⟨out, ho, h⟩ := bind_ok' h
      obtain ⟨acc, ha, h⟩ := bind_ok' h
      cases h
      exact clear_ok ha
    · obtain ⟨out, ho, h⟩ := bind_ok' h
      obtain ⟨acc, ha, h⟩ := bind_ok' h
      cases h
      exact clear_ok ha
  · intro s c h
    have hcl := clear_self h
    cases he : s.1.entries[c]? with
    | none => rw [he] at h; simp at h
    | some e =>
      rw [he] at h
      simp at h
      have hne : ¬ e.state = INITIALIZED := by rw [h]; decide
      rw [get_of he]
      simp only [ok_bind, if_neg hne, hcl]

theorem Acc1.setTo_markA : (fun (acc : Acc1 V) c => acc.setAllowedNd false c) =
    fun acc c => acc.setTo (ALLOWED false) c := rfl

end One

theorem numericRow1_nd {mul add : V → V → V} {A B M : CSR V} (hM : M.WF) {row : Nat} (hr : row < M.rows)
    {acc : Acc1 V} {r : Acc1 V × List (Nat × V)}
    (h : numericRow1 mul add A B (dedup M) row acc = .ok r) : numericRow1Nd mul add A B M row acc = .ok r := by
  unfold numericRow1 numericRow1With at h
  unfold numericRow1Nd numericRow1With
  simp only [maskLoop_eq (dedup_wf hM) (show row < (dedup M).rows from hr), dedup_rowCols hM hr] at h
  simp only [maskLoop_eq hM hr]
  obtain ⟨a1, e1, h⟩ := bind_ok' h
  have e1 := foldlM_mono (fun _ _ _ h => Acc1.markA_mono h) _ _ _ e1
  have e0 := Acc1.setTo_fold (ALLOWED false) (M.rowCols row) acc
  rw [show (M.rowCols row).foldlM (fun acc c => Acc1.setAllowedNd false acc c) acc = .ok a1 from e0.trans e1, ok_bind]
  obtain ⟨a2, e2, h⟩ := bind_ok' h
  rw [e2, ok_bind]
  exact (Acc1.collect_fold _ _).trans h

theorem numericRow1C_nd {sorted : Bool} {mul add : V → V → V} {A B M : CSR V} (hM : M.WF) {row : Nat} (hr : row < M.rows)
    {acc : Acc1 V} {r : Acc1 V × List (Nat × V)}
    (h : numericRow1C sorted mul add A B (dedup M) row acc = .ok r) :
    numericRow1CNd sorted mul add A B M row acc = .ok r := by
  unfold numericRow1C numericRow1CWith at h
  unfold numericRow1CNd numericRow1CWith
  simp only [maskLoop_eq (dedup_wf hM) (show row < (dedup M).rows from hr), dedup_rowCols hM hr] at h
  simp only [maskLoop_eq hM hr]
  obtain ⟨a1, e1, h⟩ := bind_ok' h
  have e1 := foldlM_mono (fun _ _ _ h => Acc1.markN_mono h) _ _ _ e1
  have e0 := Acc1.setTo_fold (NOT_ALLOWED true) (M.rowCols row) acc
  rw [show (M.rowCols row).foldlM (fun acc c => Acc1.setNotAllowedNd true acc c) acc = .ok a1 from e0.trans e1, ok_bind]
  obtain ⟨a2, e2, h⟩ := bind_ok' h
  rw [e2, ok_bind]
  obtain ⟨⟨a3, out⟩, e3, h⟩ := bind_ok' h
  rw [e3, ok_bind]
  simp only [] at h ⊢
  rw [Acc1.clear_fold]
  exact h

section Two

theorem Acc2.putState_ok {acc acc' : Acc2 V} {c s : Nat} (h : acc.putState c s = .ok acc') :
    acc'.states[c]? = some s ∧ ∀ c', c' ≠ c → acc'.states[c']? = acc.states[c']? := by
  unfold Acc2.putState at h
  obtain ⟨l, hl, h⟩ := bind_ok' h
  cases h
  obtain ⟨hc, rfl⟩ := wr_ok hl
  refine ⟨by simp [hc], fun c' hc' => ?_⟩
  simp only []
  rw [List.getElem?_set_ne (Ne.symm hc')]

theorem Acc2.putState_self {acc : Acc2 V} {c s : Nat} (h : acc.states[c]? = some s) :
    acc.putState c s = .ok acc := by
  unfold Acc2.putState
  rw [wr_self h]; rfl

theorem Acc2.putValue_ok {acc acc' : Acc2 V} {c : Nat} {v : Option V} (h : acc.putValue c v = .ok acc') :
    acc'.states = acc.states := by
  unfold Acc2.putValue at h
  obtain ⟨l, hl, h⟩ := bind_ok' h
  cases h
  rfl

theorem Acc2.getState_of {acc : Acc2 V} {c s : Nat} (h : acc.states[c]? = some s) : acc.getState c = .ok s := by
  unfold Acc2.getState
  have : c < acc.states.length := by
    rw [List.getElem?_eq_some_iff] at h; exact h.1
  rw [check_of (by simpa using this), rd_eq_ok.2 h]; rfl

theorem Acc2.getState_ok {acc : Acc2 V} {c s : Nat} (h : acc.getState c = .ok s) : acc.states[c]? = some s := by
  unfold Acc2.getState at h
  obtain ⟨_, _, h⟩ := bind_ok' h
  exact rd_eq_ok.1 h

theorem Acc2.putState_fold (t : Nat) (l : List Nat) (acc : Acc2 V) :
    l.foldlM (fun acc c => acc.putState c t) acc = (firsts l).foldlM (fun acc c => acc.putState c t) acc := by
  refine foldlM_state _ (fun acc c => acc.states[c]?) t ?_ ?_ l acc
  · intro s c s' h; exact putState_ok h
  · intro s c h; exact putState_self h

theorem Acc2.markA_mono {acc acc' : Acc2 V} {c : Nat} (h : acc.setAllowed false c = .ok acc') :
    acc.setAllowedNd false c = .ok acc' := by
  unfold Acc2.setAllowed at h
  obtain ⟨_, _, h⟩ := bind_ok' h
  obtain ⟨_, _, h⟩ := bind_ok' h
  exact h

theorem Acc2.markN_mono {acc acc' : Acc2 V} {c : Nat} (h : acc.setNotAllowed true c = .ok acc') :
    acc.setNotAllowedNd true c = .ok acc' := by
  unfold Acc2.setNotAllowed at h
  obtain ⟨_, _, h⟩ := bind_ok' h
  obtain ⟨_, _, h⟩ := bind_ok' h
  exact h

theorem Acc2.clear_ok {compl : Bool} {acc acc' : Acc2 V} {c : Nat} (h : acc.clear compl c = .ok acc') :
    acc'.states[c]? = some (DEFAULT compl) ∧ ∀ c', c' ≠ c → acc'.states[c']? = acc.states[c']? := by
  unfold Acc2.clear at h
  obtain ⟨s, hs, h⟩ := bind_ok' h
  split at h
  · obtain ⟨a, ha, h⟩ := bind_ok' h
    rw [putValue_ok h]
    exact putState_ok ha
  · rename_i hd
    cases h
    exact ⟨by rw [getState_ok hs, Decidable.not_not.1 hd], fun _ _ => rfl⟩

theorem Acc2.clear_self {compl : Bool} {acc : Acc2 V} {c : Nat} (h : acc.states[c]? = some (DEFAULT compl)) :
    acc.clear compl c = .ok acc := by
  unfold Acc2.clear
  rw [getState_of h]; simp

theorem Acc2.clear_fold (compl : Bool) (l : List Nat) (acc : Acc2 V) :
    l.foldlM (fun acc c => acc.clear compl c) acc = (firsts l).foldlM (fun acc c => acc.clear compl c) acc := by
  refine foldlM_state _ (fun acc c => acc.states[c]?) (DEFAULT compl) ?_ ?_ l acc
  · intro s c s' h; exact clear_ok h
  · intro s c h; exact clear_self h

theorem Acc2.collect_fold (l : List Nat) (s : Acc2 V × List (Nat × V)) :
    l.foldlM (fun s c => (do
      let st ← s.1.getState c
      let out ← if st = INITIALIZED then do
          let v ← s.1.getValue c
          .ok (s.2 ++ [(c, v)])
        else .ok s.2
      let acc ← s.1.clear false c
      .ok (acc, out) : Res (Acc2 V × List (Nat × V)))) s =
    (firsts l).foldlM (fun s c => (do
      let st ← s.1.getState c
      let out ← if st = INITIALIZED then do
          let v ← s.1.getValue c
          .ok (s.2 ++ [(c, v)])
        else .ok s.2
      let acc ← s.1.clear false c
      .ok (acc, out) : Res (Acc2 V × List (Nat × V)))) s := by
  refine foldlM_state _ (fun s c => s.1.states[c]?) (DEFAULT false) ?_ ?_ l s
  · intro s c s' h
    obtain ⟨e, he, h⟩ := bind_ok' h
    split at h
    · obtain ⟨v, hv, h⟩ := bind_ok' h
      obtain ⟨out, ho, h⟩ := bind_ok' h
      obtain ⟨acc, ha, h⟩ := bind_ok' h
      cases h
      exact clear_ok ha
    · obtain ⟨out, ho, h⟩ := bind_ok' h
      obtain ⟨acc, ha, h⟩ := bind_ok' h
      cases h
      exact clear_ok ha
  · intro s c h
    have hcl := clear_self h
    have hne : ¬ DEFAULT false = INITIALIZED := by decide
    rw [getState_of h]
    simp only [ok_bind, if_neg hne, hcl]

end Two

theorem numericRow2_nd {mul add : V → V → V} {A B M : CSR V} (hM : M.WF) {row : Nat} (hr : row < M.rows)
    {acc : Acc2 V} {r : Acc2 V × List (Nat × V)}
    (h : numericRow2 mul add A B (dedup M) row acc = .ok r) : numericRow2Nd mul add A B M row acc = .ok r := by
  unfold numericRow2 numericRow2With at h
  unfold numericRow2Nd numericRow2With
  simp only [maskLoop_eq (dedup_wf hM) (show row < (dedup M).rows from hr), dedup_rowCols hM hr] at h
  simp only [maskLoop_eq hM hr]
  obtain ⟨a1, e1, h⟩ := bind_ok' h
  have e1 := foldlM_mono (fun _ _ _ h => Acc2.markA_mono h) _ _ _ e1
  have e0 := Acc2.putState_fold (ALLOWED false) (M.rowCols row) acc
  rw [show (M.rowCols row).foldlM (fun acc c => Acc2.setAllowedNd false acc c) acc = .ok a1 from e0.trans e1, ok_bind]
  obtain ⟨a2, e2, h⟩ := bind_ok' h
  rw [e2, ok_bind]
  exact (Acc2.collect_fold _ _).trans h

theorem numericRow2C_nd {sorted : Bool} {mul add : V → V → V} {A B M : CSR V} (hM : M.WF) {row : Nat} (hr : row < M.rows)
    {acc : Acc2 V} {r : Acc2 V × List (Nat × V)}
    (h : numericRow2C sorted mul add A B (dedup M) row acc = .ok r) :
    numericRow2CNd sorted mul add A B M row acc = .ok r := by
  unfold numericRow2C numericRow2CWith at h
  unfold numericRow2CNd numericRow2CWith
  simp only [maskLoop_eq (dedup_wf hM) (show row < (dedup M).rows from hr), dedup_rowCols hM hr] at h
  simp only [maskLoop_eq hM hr]
  obtain ⟨a1, e1, h⟩ := bind_ok' h
  have e1 := foldlM_mono (fun _ _ _ h => Acc2.markN_mono h) _ _ _ e1
  have e0 := Acc2.putState_fold (NOT_ALLOWED true) (M.rowCols row) acc
  rw [show (M.rowCols row).foldlM (fun acc c => Acc2.setNotAllowedNd true acc c) acc = .ok a1 from e0.trans e1, ok_bind]
  obtain ⟨a2, e2, h⟩ := bind_ok' h
  rw [e2, ok_bind]
  obtain ⟨⟨a3, out⟩, e3, h⟩ := bind_ok' h
  rw [e3, ok_bind]
  simp only [] at h ⊢
  rw [Acc2.clear_fold]
  exact h

/-! ## The contracts -/

/-- Inputs without any condition on repetitions. -/
structure InputsD (A B M : CSR V) : Prop where
  wfA : A.WF
  wfB : B.WF
  wfM : M.WF
  sh : Spec.Shapes A B M

theorem InputsD.dedup {A B M : CSR V} (h : InputsD A B M) : Inputs A B (dedup M) :=
  ⟨h.wfA, h.wfB, dedup_wf h.wfM, ⟨h.sh.ab, h.sh.ma, h.sh.mb⟩, dedup_nodup h.wfM⟩

theorem firsts_length_le (l : List Nat) : (firsts l).length ≤ l.length :=
  nodup_length_le (firsts_nodup l) fun _ hx => mem_firsts.1 hx

variable {mul add : V → V → V} {A B M : CSR V}

theorem boundOf_dedup (h : InputsD A B M) {i : Nat} (hi : i < A.rows) :
    boundOf false A B (dedup M) i ≤ boundOf false A B M i := by
  have hr : i < M.rows := h.sh.ma ▸ hi
  have e := dedup_rowCols h.wfM hr
  have h1 : ((dedup M).row i).length ≤ (M.row i).length := by
    have a := congrArg List.length (CSR.row_map_fst (dedup_wf h.wfM) (i := i))
    have b := congrArg List.length (CSR.row_map_fst h.wfM (i := i))
    rw [List.length_map] at a b
    rw [a, b, e]
    exact firsts_length_le _
  have h2 : flopsOf false A B (dedup M) i ≤ flopsOf false A B M i := by
    unfold flopsOf
    simp only [Bool.false_eq_true, if_false]
    by_cases hm : M.rowCols i = []
    · rw [e, hm]; simp
    · rw [if_neg hm]; split <;> omega
  unfold boundOf
  simp only [Bool.false_eq_true, if_false]
  omega

theorem contract1Nd (h : InputsD A B M) : Contract msa1Nd mul add A B M (maskedRow mul add A B (dedup M)) where
  bound := fun i hi => Nat.le_trans ((contract1 h.dedup).bound i hi) (boundOf_dedup h hi)
  num := fun _ => ⟨(· = clean1 B.cols), fresh1_eq _, by
    rintro i hi - - f - acc rfl
    exact ⟨_, numericRow1_nd h.wfM (h.sh.ma ▸ hi) (numericRow1_eq (h.dedup.ok hi) mul add), rfl⟩⟩
  sym := fun _ => ⟨(· = cleanS B.cols), freshS_eq _, by
    rintro i hi - - acc rfl
    exact ⟨_, symbolicRow_nd h.wfM (h.sh.ma ▸ hi) (symbolicRow_eq (h.dedup.ok hi) mul add), rfl⟩⟩

theorem contract2Nd (h : InputsD A B M) : Contract msa2Nd mul add A B M (maskedRow mul add A B (dedup M)) where
  bound := fun i hi => Nat.le_trans ((contract1 h.dedup).bound i hi) (boundOf_dedup h hi)
  num := fun _ => ⟨(· = clean2 B.cols), fresh2_eq _, by
    rintro i hi - - f - acc rfl
    exact ⟨_, numericRow2_nd h.wfM (h.sh.ma ▸ hi) (numericRow2_eq (h.dedup.ok hi) mul add), rfl⟩⟩
  sym := fun _ => ⟨(· = cleanS B.cols), freshS_eq _, by
    rintro i hi - - acc rfl
    exact ⟨_, symbolicRow_nd h.wfM (h.sh.ma ▸ hi) (symbolicRow_eq (h.dedup.ok hi) mul add), rfl⟩⟩

theorem symCNd (h : InputsD A B M) (sorted : Bool) {i : Nat} (hi : i < A.rows) :
    (do let r ← symbolicRowC A B M i (cleanS B.cols)
        toCount r : Res (SAcc × Nat)) =
      .ok (cleanS B.cols, (complRow sorted mul add A B (dedup M) i).length) := by
  rw [symbolicRowC_nd h.wfM (h.sh.ma ▸ hi)]
  exact symC h.dedup sorted hi

theorem contract1CNd (h : InputsD A B M) (sorted : Bool) :
    Contract (msa1CNd sorted) mul add A B M (complRow sorted mul add A B (dedup M)) where
  bound := fun i hi => (contract1C h.dedup sorted).bound i hi
  num := fun _ => ⟨(· = clean1 B.cols), fresh1_eq _, by
    rintro i hi - - f - acc rfl
    exact ⟨_, numericRow1C_nd h.wfM (h.sh.ma ▸ hi) (numericRow1C_eq (h.dedup.ok hi) sorted mul add), rfl⟩⟩
  sym := fun _ => ⟨(· = cleanS B.cols), freshS_eq _, by
    rintro i hi - - acc rfl
    exact ⟨_, symCNd h sorted hi, rfl⟩⟩

theorem contract2CNd (h : InputsD A B M) (sorted : Bool) :
    Contract (msa2CNd sorted) mul add A B M (complRow sorted mul add A B (dedup M)) where
  bound := fun i hi => (contract1C h.dedup sorted).bound i hi
  num := fun _ => ⟨(· = clean2 B.cols), fresh2_eq _, by
    rintro i hi - - f - acc rfl
    exact ⟨_, numericRow2C_nd h.wfM (h.sh.ma ▸ hi) (numericRow2C_eq (h.dedup.ok hi) sorted mul add), rfl⟩⟩
  sym := fun _ => ⟨(· = cleanS B.cols), freshS_eq _, by
    rintro i hi - - acc rfl
    exact ⟨_, symCNd h sorted hi, rfl⟩⟩

/-! ## The results -/

theorem firsts_sublist (l : List Nat) : (firsts l).Sublist l := by
  induction l using list_snoc_induction with
  | h0 => simp
  | h1 l a ih =>
    rw [firsts_append_singleton]
    split
    · exact ih.trans (List.sublist_append_left _ _)
    · exact ih.append (List.Sublist.refl _)

theorem isMasked_dedup (h : InputsD A B M) {C : CSR V} (hC : Spec.IsMasked mul add A B (dedup M) C) :
    Spec.IsMasked mul add A B M C where
  rows := hC.rows
  cols := hC.cols
  entries := by
    intro i hi j v
    rw [hC.entries i hi j v, dedup_rowCols h.wfM (h.sh.ma ▸ hi), mem_firsts]
  nodup := hC.nodup
  order := by
    intro i hi
    have := hC.order i hi
    rw [dedup_rowCols h.wfM (h.sh.ma ▸ hi)] at this
    exact this.trans (firsts_sublist _)

theorem isCompl_dedup (h : InputsD A B M) {C : CSR V} (hC : Spec.IsComplMasked mul add A B (dedup M) C) :
    Spec.IsComplMasked mul add A B M C where
  rows := hC.rows
  cols := hC.cols
  entries := by
    intro i hi j v
    rw [hC.entries i hi j v, dedup_rowCols h.wfM (h.sh.ma ▸ hi), mem_firsts]
  nodup := hC.nodup

end Verif.Model.Msa
