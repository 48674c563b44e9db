import Verif.Lemmas.SubRef
import Verif.SpecSub

/-! # C60: submatrix extraction -/

namespace Verif.Props
open Verif SubRef
open _root_.Verif.Spec (IsSubmatrix Selects Meets)

variable {V : Type}

/-- What all three functions take: a well-formed matrix with sorted columns, increasing rows and columns within it. -/
structure RefArgs (A : CSC V) (ri ci : List Nat) : Prop where
  wf : A.WF
  sorted : A.SortedCols
  ri_sorted : ri.Pairwise (· < ·)
  ri_lt : ∀ r ∈ ri, r < A.rows
  ci_sorted : ci.Pairwise (· < ·)
  ci_lt : ∀ c ∈ ci, c < A.cols

theorem RefArgs.kept_eq {A : CSC V} {ri ci : List Nat} (h : RefArgs A ri ci) {c : Nat} (hc : c ∈ ci) :
    hits ri (A.col c) = kept ri (A.col c) :=
  hits_eq_kept (by rw [Model.Inner.col_map_fst h.wf]; exact h.sorted c (h.ci_lt c hc)) h.ri_sorted

theorem selects_ofCols {A : CSC V} {ri ci : List Nat} (f : Nat → List (Nat × V))
    (hf : ∀ c ∈ ci, f c = kept ri (A.col c)) :
    Selects A ri ci (Conv.ofCols ri.length ci.length (fun q => f (ci.getD q 0))) := by
  refine ⟨rfl, rfl, fun q c hq => ?_⟩
  obtain ⟨hlt, hc⟩ := List.getElem?_eq_some_iff.1 hq
  rw [Conv.ofCols_col _ _ _ hlt]
  simp only [List.getD_eq_getElem?_getD, hq, Option.getD_some]
  exact hf c (List.mem_of_getElem? hq)

theorem meets_iff {A : CSC V} (h : A.WF) {ri ci : List Nat} :
    (ci.flatMap fun c => kept ri (A.col c)).length ≠ 0 ↔ Meets A ri ci := by
  rw [ne_eq, List.length_eq_zero_iff, List.flatMap_eq_nil_iff]
  constructor
  · intro hn
    apply Classical.byContradiction
    intro hm
    apply hn
    intro c hc
    unfold kept
    rw [List.filter_eq_nil_iff]
    intro x hx hd
    refine hm ⟨c, hc, x.1, of_decide_eq_true hd, ?_⟩
    rw [← Model.Inner.col_map_fst h]
    exact List.mem_map_of_mem hx
  · rintro ⟨c, hc, r, hr, hm⟩ hall
    rw [← Model.Inner.col_map_fst h, List.mem_map] at hm
    obtain ⟨x, hx, rfl⟩ := hm
    have := hall c hc
    unfold kept at this
    rw [List.filter_eq_nil_iff] at this
    exact this x hx (decide_eq_true hr)

theorem RefArgs.flat {A : CSC V} {ri ci : List Nat} (h : RefArgs A ri ci) :
    (ci.flatMap fun c => hits ri (A.col c)) = ci.flatMap fun c => kept ri (A.col c) :=
  Conv.flatMap_congr_mem _ _ _ fun _ hc => h.kept_eq hc

/-- C60 for `SpRef`: it selects the right entries, if there are any. What is missing for the full claim: the entries keep their row
numbers in `A` instead of getting those in the submatrix, see `C60_spRef_iff`, and selections without entries fail. -/
theorem C60_spRef_partial {A : CSC V} (dflt : V) {ri ci : List Nat} (h : RefArgs A ri ci) (hm : Meets A ri ci) :
    ∃ C, spRef dflt A ri ci = .ok C ∧ Selects A ri ci C := by
  refine ⟨_, ?_, selects_ofCols (fun c => hits ri (A.col c)) fun c hc => h.kept_eq hc⟩
  rw [spRef_ok h.wf h.sorted dflt (h.ri_sorted.imp Nat.le_of_lt) (fun r hr => Nat.le_of_lt (h.ri_lt r hr)) h.ci_lt,
    if_neg]
  rw [h.flat]
  exact (meets_iff h.wf).2 hm

/-- With repeated rows `SpRef` takes the entry of the row once for every occurrence. -/
theorem C60_spRef_repeats_partial {A : CSC V} (dflt : V) {ri ci : List Nat} (h : A.WF) (hs : A.SortedCols)
    (hri : ri.Pairwise (· ≤ ·)) (hr : ∀ r ∈ ri, r < A.rows) (hci : ∀ c ∈ ci, c < A.cols) (hm : Meets A ri ci) :
    ∃ C, spRef dflt A ri ci = .ok C ∧ C.rows = ri.length ∧ C.cols = ci.length ∧
      ∀ q c, ci[q]? = some c → C.col q = ri.flatMap fun r => (A.col c).filter fun x => x.1 == r := by
  have hone : ∀ (l : List (Nat × V)) (r : Nat), (l.map Prod.fst).Pairwise (· < ·) →
      (look l r).toList = l.filter fun x => x.1 == r := by
    intro l r hl
    induction l with
    | nil => rfl
    | cons x l ih =>
      rw [List.map_cons, List.pairwise_cons] at hl
      by_cases hx : x.1 = r
      · rw [look_cons_self hx, List.filter_cons_of_pos (by simpa using hx)]
        have : (l.filter fun x => x.1 == r) = [] := by
          rw [List.filter_eq_nil_iff]
          intro y hy
          have := hl.1 y.1 (List.mem_map_of_mem hy)
          simp
          omega
        rw [this]
        rfl
      · rw [look_cons_ne hx, List.filter_cons_of_neg (by simpa using hx), ih hl.2]
  have hfm : ∀ (l : List (Nat × V)), (l.map Prod.fst).Pairwise (· < ·) →
      hits ri l = ri.flatMap fun r => l.filter fun x => x.1 == r := by
    intro l hl
    have : ∀ rs : List Nat, rs.filterMap (look l) = rs.flatMap fun r => l.filter fun x => x.1 == r := by
      intro rs
      induction rs with
      | nil => rfl
      | cons r rs ih =>
        rw [List.flatMap_cons, ← hone l r hl, ← ih]
        cases e : look l r with
        | none => rw [List.filterMap_cons_none e]; rfl
        | some x => rw [List.filterMap_cons_some e]; rfl
    exact this ri
  have hcol : ∀ c ∈ ci, hits ri (A.col c) = ri.flatMap fun r => (A.col c).filter fun x => x.1 == r := by
    intro c hc
    apply hfm
    rw [Model.Inner.col_map_fst h]
    exact hs c (hci c hc)
  refine ⟨Conv.ofCols ri.length ci.length (fun q => hits ri (A.col (ci.getD q 0))), ?_, rfl, rfl, fun q c hq => ?_⟩
  · rw [spRef_ok h hs dflt hri (fun r hr' => Nat.le_of_lt (hr r hr')) hci, if_neg]
    obtain ⟨c, hc, r, hr, hx⟩ := hm
    rw [← Model.Inner.col_map_fst h, List.mem_map] at hx
    obtain ⟨x, hx, rfl⟩ := hx
    rw [List.length_eq_zero_iff, List.flatMap_eq_nil_iff]
    intro hall
    have := hall c hc
    rw [hcol c hc, List.flatMap_eq_nil_iff] at this
    have := this x.1 hr
    rw [List.filter_eq_nil_iff] at this
    exact this x hx (by simp)
  · obtain ⟨hlt, _⟩ := List.getElem?_eq_some_iff.1 hq
    rw [Conv.ofCols_col _ _ _ hlt]
    simp only [List.getD_eq_getElem?_getD, hq, Option.getD_some]
    exact hcol c (List.mem_of_getElem? hq)

theorem le_of_increasing {l : List Nat} (h : l.Pairwise (· < ·)) : ∀ p r : Nat, l[p]? = some r → p ≤ r
  | 0, _, _ => Nat.zero_le _
  | p + 1, r, hp => by
    obtain ⟨hlt, e⟩ := List.getElem?_eq_some_iff.1 hp
    have h1 := le_of_increasing h p l[p] (List.getElem?_eq_getElem (by omega))
    have h2 := List.pairwise_iff_getElem.1 h p (p + 1) (by omega) hlt (by omega)
    omega

/-- A selection is the submatrix exactly if every row with selected entries has the same number in `A` and in the submatrix. -/
theorem submatrix_iff {A : CSC V} {ri ci : List Nat} (h : RefArgs A ri ci) :
    IsSubmatrix A ri ci (Conv.ofCols ri.length ci.length (fun q => kept ri (A.col (ci.getD q 0)))) ↔
      ∀ p r, ri[p]? = some r → (∃ c ∈ ci, r ∈ A.colRows c) → r = p := by
  have hmem : ∀ c, ∀ r, r ∈ A.colRows c ↔ ∃ v, (r, v) ∈ A.col c := by
    intro c r
    rw [← Model.Inner.col_map_fst h.wf, List.mem_map]
    constructor
    · rintro ⟨⟨x, v⟩, hx, rfl⟩; exact ⟨v, hx⟩
    · rintro ⟨v, hx⟩; exact ⟨_, hx, rfl⟩
  have hcol : ∀ q c, ci[q]? = some c → ∀ r v,
      (r, v) ∈ (Conv.ofCols ri.length ci.length (fun q => kept ri (A.col (ci.getD q 0)))).col q ↔
        (r, v) ∈ A.col c ∧ r ∈ ri := by
    intro q c hq r v
    rw [(selects_ofCols (fun c => kept ri (A.col c)) fun _ _ => rfl).entries q c hq, List.mem_filter, decide_eq_true_eq]
  constructor
  · intro hS p r hp ⟨c, hc, hr⟩
    obtain ⟨q, hq⟩ := List.getElem?_of_mem hc
    -- every position whose row has an entry in this column
    have key : ∀ n, ∀ p r, p ≤ n → ri[p]? = some r → r ∈ A.colRows c → r = p := by
      intro n
      induction n with
      | zero =>
        intro p r hn hp hr
        obtain ⟨v, hv⟩ := (hmem c r).1 hr
        have h1 := (hcol q c hq p v).1 ((hS.entries q c hq p v).2 ⟨r, hp, hv⟩)
        obtain ⟨p1, hp1⟩ := List.getElem?_of_mem h1.2
        have := le_of_increasing h.ri_sorted _ _ hp1
        have : p1 = p := by omega
        subst this
        rw [hp] at hp1
        exact Option.some.inj hp1
      | succ n ih =>
        intro p r hn hp hr
        obtain ⟨v, hv⟩ := (hmem c r).1 hr
        have h1 := (hcol q c hq p v).1 ((hS.entries q c hq p v).2 ⟨r, hp, hv⟩)
        obtain ⟨p1, hp1⟩ := List.getElem?_of_mem h1.2
        have hle := le_of_increasing h.ri_sorted _ _ hp1
        by_cases he : p1 = p
        · subst he
          rw [hp] at hp1
          exact Option.some.inj hp1
        · have := ih p1 p (by omega) hp1 ((hmem c p).2 ⟨v, h1.1⟩)
          omega
    exact key p p r (Nat.le_refl _) hp hr
  · intro hall
    have hid : ∀ c ∈ ci, ∀ r v, (r, v) ∈ A.col c → r ∈ ri → ri[r]? = some r := by
      intro c hc r v hv hr
      obtain ⟨p, hp⟩ := List.getElem?_of_mem hr
      have := hall p r hp ⟨c, hc, (hmem c r).2 ⟨v, hv⟩⟩
      rw [← this] at hp
      exact hp
    have hD : ∀ q < ci.length, ci.getD q 0 ∈ ci := by
      intro q hq
      simp [List.getD_eq_getElem?_getD, List.getElem?_eq_getElem hq]
    refine ⟨?_, rfl, rfl, fun q c hq p v => ?_, fun q hq => ?_⟩
    · apply Conv.ofCols_wf
      intro q hq x hx
      unfold kept at hx
      rw [List.mem_filter, decide_eq_true_eq] at hx
      have := hid _ (hD q hq) x.1 x.2 hx.1 hx.2
      exact (List.getElem?_eq_some_iff.1 this).1
    · have hc := List.mem_of_getElem? hq
      rw [hcol q c hq]
      constructor
      · rintro ⟨h1, h2⟩
        exact ⟨p, hid c hc p v h1 h2, h1⟩
      · rintro ⟨r, hr, hv⟩
        have := hall p r hr ⟨c, hc, (hmem c r).2 ⟨v, hv⟩⟩
        subst this
        exact ⟨hv, List.mem_of_getElem? hr⟩
    · have hq : q < ci.length := hq
      rw [Conv.ofCols_colRows _ _ _ hq]
      have hs := h.sorted _ (h.ci_lt _ (hD q hq))
      rw [← Model.Inner.col_map_fst h.wf] at hs
      refine List.Pairwise.imp (fun h => Nat.ne_of_lt h) (List.Pairwise.sublist ?_ hs)
      exact List.Sublist.map _ List.filter_sublist

theorem RefArgs.ofCols_eq {A : CSC V} {ri ci : List Nat} (h : RefArgs A ri ci) :
    Conv.ofCols ri.length ci.length (fun q => hits ri (A.col (ci.getD q 0))) =
      Conv.ofCols ri.length ci.length (fun q => kept ri (A.col (ci.getD q 0))) := by
  unfold Conv.ofCols
  have hx : ∀ q < ci.length, hits ri (A.col (ci.getD q 0)) = kept ri (A.col (ci.getD q 0)) := by
    intro q hq
    apply h.kept_eq
    simp [List.getD_eq_getElem?_getD, List.getElem?_eq_getElem hq]
  have h1 : ∀ n ≤ ci.length, Model.psum (Model.lens fun q => hits ri (A.col (ci.getD q 0))) n =
      Model.psum (Model.lens fun q => kept ri (A.col (ci.getD q 0))) n := fun n hn =>
    Model.psum_congr fun q hq => congrArg List.length (hx q (by omega))
  have h2 : Model.seg (fun q => hits ri (A.col (ci.getD q 0))) 0 ci.length =
      Model.seg (fun q => kept ri (A.col (ci.getD q 0))) 0 ci.length := by
    unfold Model.seg
    apply Conv.flatMap_congr_mem
    intro q hq
    apply hx
    simpa using hq
  rw [h1 _ (Nat.le_refl _), h2, tab_ext fun t ht => h1 t (by omega)]

/-- Hence for `SpRef`: correct exactly if every row with selected entries keeps its number. In particular the claim fails for each
selection that leaves out a row before one with entries. -/
theorem C60_spRef_iff {A : CSC V} (dflt : V) {ri ci : List Nat} (h : RefArgs A ri ci) :
    (∃ C, spRef dflt A ri ci = .ok C ∧ IsSubmatrix A ri ci C) ↔
      Meets A ri ci ∧ ∀ p r, ri[p]? = some r → (∃ c ∈ ci, r ∈ A.colRows c) → r = p := by
  have e := spRef_ok h.wf h.sorted dflt (h.ri_sorted.imp Nat.le_of_lt) (fun r hr => Nat.le_of_lt (h.ri_lt r hr)) h.ci_lt
  rw [h.flat] at e
  rw [h.ofCols_eq] at e
  by_cases hm : Meets A ri ci
  · rw [if_neg ((meets_iff h.wf).2 hm)] at e
    rw [e]
    constructor
    · rintro ⟨C, hC, hS⟩
      cases hC
      exact ⟨hm, (submatrix_iff h).1 hS⟩
    · rintro ⟨_, hall⟩
      exact ⟨_, rfl, (submatrix_iff h).2 hall⟩
  · rw [if_pos (by
      apply Classical.byContradiction
      intro h0
      exact hm ((meets_iff h.wf).1 h0))] at e
    rw [e]
    constructor
    · rintro ⟨C, hC, _⟩; cases hC
    · rintro ⟨hm', _⟩; exact absurd hm' hm

/-- The claim fails for selections without entries: the constructor of the result stops the program. -/
theorem C60_violated_empty {A : CSC V} (dflt : V) {ri ci : List Nat} (h : RefArgs A ri ci) (hm : ¬ Meets A ri ci) :
    spRef dflt A ri ci = .error .assertion := by
  rw [spRef_ok h.wf h.sorted dflt (h.ri_sorted.imp Nat.le_of_lt) (fun r hr => Nat.le_of_lt (h.ri_lt r hr)) h.ci_lt, h.flat,
    if_pos]
  apply Classical.byContradiction
  intro h0
  exact hm ((meets_iff h.wf).1 h0)

/-- The bound check lets the column number `cols` pass, which reads past the column pointers. -/
theorem C60_violated_bound {A : CSC V} (dflt : V) {ri ci : List Nat} (h : RefArgs A ri ci) :
    spRef dflt A ri (ci ++ [A.cols]) = .error .oob ∧ spRef2 dflt A ri (ci ++ [A.cols]) = .error .oob := by
  have hck : checkRef A ri (ci ++ [A.cols]) = .ok () := by
    apply checkRef_ok
    · intro c hc
      rcases List.mem_append.1 hc with hc | hc
      · exact Nat.le_of_lt (h.ci_lt c hc)
      · rw [List.mem_singleton] at hc; omega
    · exact fun r hr => Nat.le_of_lt (h.ri_lt r hr)
  have hoob : rd A.colptr (A.cols + 1) = .error .oob := rd_oob (by rw [h.wf.ptrLen]; exact Nat.le_refl _)
  constructor
  · unfold spRef refBody
    rw [hck, ok_bind, foldlM_err (e0 := .oob) (fun _ => True)]
    · rfl
    · intro c hc n _
      rcases List.mem_append.1 hc with hc | hc
      · left
        have := h.ci_lt c hc
        have hp : ri.Pairwise (· ≤ ·) := h.ri_sorted.imp Nat.le_of_lt
        rw [Model.Inner.rd_cptr h.wf (by omega), ok_bind, Model.Inner.rd_cptr h.wf (by omega), ok_bind]
        refine ⟨n + (hits ri (A.col c)).length, ?_, trivial⟩
        · rw [← count_fold]
          exact matchCol h.wf h.sorted (by simpa using hp) this (hit' := fun n _ => .ok (n + 1)) (fun _ _ _ => rfl) n
      · right
        rw [List.mem_singleton] at hc
        rw [hc, Model.Inner.rd_cptr h.wf (Nat.le_refl _), ok_bind, hoob]
        rfl
    · refine ⟨A.cols, by simp, fun n _ => ?_⟩
      rw [Model.Inner.rd_cptr h.wf (Nat.le_refl _), ok_bind, hoob]
      rfl
    · trivial
  · unfold spRef2
    rw [hck, ok_bind, foldlM_err (e0 := .oob) (fun _ => True)]
    · rfl
    · intro c hc n _
      rcases List.mem_append.1 hc with hc | hc
      · left
        have := h.ci_lt c hc
        rw [Model.Inner.rd_cptr h.wf (by omega), ok_bind, Model.Inner.rd_cptr h.wf (by omega), ok_bind]
        exact ⟨_, rfl, trivial⟩
      · right
        rw [List.mem_singleton] at hc
        rw [hc, hoob]
        rfl
    · refine ⟨A.cols, by simp, fun n _ => ?_⟩
      rw [hoob]
      rfl
    · trivial

/-- C60 for `SpRef1`: it agrees with `SpRef` if the rows fit into the bit map, which has `ri.size()` positions, rounded up to a
multiple of 64. What is missing is the rest, see `C60_violated_bitmap`. -/
theorem C60_spRef1_partial {A : CSC V} (dflt : V) {ri ci : List Nat} (h : RefArgs A ri ci)
    (hb : ∀ r ∈ ri, r < 64 * ((ri.length + 63) / 64))
    (hx : ∀ c ∈ ci, ∀ x ∈ A.colRows c, x < 64 * ((ri.length + 63) / 64)) :
    spRef1 dflt A ri ci = spRef dflt A ri ci := by
  rw [spRef1_ok h.wf dflt (fun r hr => Nat.le_of_lt (h.ri_lt r hr)) h.ci_lt hb hx,
    spRef_ok h.wf h.sorted dflt (h.ri_sorted.imp Nat.le_of_lt) (fun r hr => Nat.le_of_lt (h.ri_lt r hr)) h.ci_lt, h.flat,
    h.ofCols_eq]

/-- Rows beyond that: `SpRef1` accesses memory outside the bit map, for every selection with such a row. -/
theorem C60_violated_bitmap {A : CSC V} (dflt : V) {ri ci : List Nat} (h : RefArgs A ri ci) {r : Nat} (hr : r ∈ ri)
    (hb : 64 * ((ri.length + 63) / 64) ≤ r) : spRef1 dflt A ri ci = .error .oob := by
  unfold spRef1
  rw [checkRef_ok (fun c hc => Nat.le_of_lt (h.ci_lt c hc)) (fun r hr => Nat.le_of_lt (h.ri_lt r hr)), ok_bind]
  obtain ⟨r1, r2, _⟩ := BitMap.reset_ok (BitMap.make ri.length)
  have hoob : ∀ (w : BitMap.Words), w.length = (ri.length + 63) / 64 → ∀ p, 64 * w.length ≤ p →
      BitMap.setBit w p = .error .oob := by
    intro w hw p hp
    unfold BitMap.setBit Model.Scan.rdu
    rw [rd_oob (by omega)]
    rfl
  rw [foldlM_err (e0 := .oob) (fun w => w.length = (ri.length + 63) / 64 ∧ Spec.WordsOk w)]
  · rfl
  · rintro p hp w ⟨h1, h2⟩
    by_cases hlt : p < 64 * w.length
    · left
      obtain ⟨w', e, g1, g2, _⟩ := BitMap.setBit_ok h2 hlt
      exact ⟨w', e, g1.trans h1, g2⟩
    · right
      exact hoob w h1 p (by omega)
  · exact ⟨r, hr, fun w hw => hoob w hw.1 r (by rw [hw.1]; exact hb)⟩
  · exact ⟨by rw [r1]; simp [BitMap.make], r2⟩

/-- The search results of `SpRef2` for column `c` fit into its buffer. The buffer has as many cells as the selected columns have
entries, but the results are written at the position of the column in `A`. -/
def FitsBuffer (A : CSC V) (ri ci : List Nat) (c : Nat) : Prop :=
  (∃ r ∈ ri, r ∈ A.colRows c) →
    A.ptr c + ((A.col c).filter fun x => decide (x.1 ∈ ri)).length ≤ (ci.map fun c => (A.col c).length).sum

theorem fits_iff {A : CSC V} {ri ci : List Nat} (h : RefArgs A ri ci) {c : Nat} (hc : c ∈ ci) :
    FitsBuffer A ri ci c ↔ (hits ri (A.col c) ≠ [] → A.ptr c + (hits ri (A.col c)).length ≤ nnzOf A ci) := by
  have hne : hits ri (A.col c) ≠ [] ↔ ∃ r ∈ ri, r ∈ A.colRows c := by
    have := meets_iff h.wf (ri := ri) (ci := [c])
    rw [h.kept_eq hc]
    simp only [List.flatMap_singleton, ne_eq, List.length_eq_zero_iff, Meets, List.mem_singleton, exists_eq_left] at this
    exact this
  unfold FitsBuffer nnzOf
  rw [hne, h.kept_eq hc, List.length_flatMap]
  rfl

/-- C60 for `SpRef2`: it selects the right entries, also if there are none, as long as the results fit into the buffer; otherwise it
writes outside the buffer. What is missing for the full claim: see there and `C60_spRef_iff`. -/
theorem C60_spRef2_partial {A : CSC V} (dflt : V) {ri ci : List Nat} (h : RefArgs A ri ci) :
    ((∀ c ∈ ci, FitsBuffer A ri ci c) → ∃ C, spRef2 dflt A ri ci = .ok C ∧ Selects A ri ci C ∧
      (Meets A ri ci → spRef dflt A ri ci = .ok C)) ∧
    ((∃ c ∈ ci, ¬ FitsBuffer A ri ci c) → spRef2 dflt A ri ci = .error .oob) := by
  constructor
  · intro hf
    refine ⟨_, spRef2_ok h.wf h.sorted dflt h.ri_sorted (fun r hr => Nat.le_of_lt (h.ri_lt r hr)) h.ci_lt
      (fun c hc => (fits_iff h hc).1 (hf c hc)), selects_ofCols (fun c => hits ri (A.col c)) fun c hc => h.kept_eq hc, ?_⟩
    intro hm
    rw [spRef_ok h.wf h.sorted dflt (h.ri_sorted.imp Nat.le_of_lt) (fun r hr => Nat.le_of_lt (h.ri_lt r hr)) h.ci_lt,
      if_neg]
    rw [h.flat]
    exact (meets_iff h.wf).2 hm
  · rintro ⟨c, hc, hn⟩
    rw [fits_iff h hc, Classical.not_imp] at hn
    exact spRef2_oob h.wf h.sorted dflt h.ri_sorted (fun r hr => Nat.le_of_lt (h.ri_lt r hr)) h.ci_lt hc hn.1 (by omega)

/-- The buffer is large enough for the first columns of the matrix. -/
theorem C60_spRef2_prefix_partial {A : CSC V} (dflt : V) {ri : List Nat} {n : Nat} (h : RefArgs A ri (List.range n)) :
    ∃ C, spRef2 dflt A ri (List.range n) = .ok C ∧ Selects A ri (List.range n) C := by
  obtain ⟨C, e, hS, _⟩ := (C60_spRef2_partial dflt h).1 (by
    intro c hc _
    have hcn : c < n := by simpa using hc
    have hA := h.ci_lt c hc
    have hsum : ∀ m ≤ n, ((List.range m).map fun c => (A.col c).length).sum = A.ptr m := by
      intro m
      induction m with
      | zero => intro _; simp [h.wf.ptrFirst]
      | succ m ih =>
        intro hm
        have hm' : m < A.cols := h.ci_lt m (by simp; omega)
        rw [List.range_succ, List.map_append, List.sum_append, ih (by omega), List.map_singleton, List.sum_singleton,
          Model.Inner.col_length h.wf hm']
        have := h.wf.ptrMono m hm'
        omega
    rw [hsum n (Nat.le_refl _)]
    have h1 := List.length_filter_le (fun x => decide (x.1 ∈ ri)) (A.col c)
    have h2 := Model.Inner.col_length h.wf hA
    have h3 := h.wf.ptrMono c hA
    have h4 : A.ptr (c + 1) ≤ A.ptr n := by
      rcases Nat.eq_or_lt_of_le (show c + 1 ≤ n by omega) with he | hl
      · rw [he]; exact Nat.le_refl _
      · have hn : n - 1 < A.cols := h.ci_lt (n - 1) (by simp; omega)
        exact Model.Inner.cptr_le h.wf (by omega) (by omega)
    omega)
  exact ⟨C, e, hS⟩

/-- The matrix with columns (0: 5, 2: 6), (1: 7), (0: 8, 1: 9, 2: 10) of 3 rows. -/
def exRef : CSC Int :=
  { rows := 3, cols := 3, nnz := 6, colptr := [0, 2, 3, 6], rowids := [0, 2, 1, 0, 1, 2], values := [5, 6, 7, 8, 9, 10] }

theorem exRef_wf : exRef.WF :=
  ⟨rfl, rfl, rfl, by decide, rfl, rfl, rfl, by decide⟩

theorem exRef_sorted : exRef.SortedCols := by
  unfold CSC.SortedCols
  decide

/-- rows 0 and 1, columns 0 and 2: correct -/
theorem exRef_good : RefArgs exRef [0, 1] [0, 2] :=
  ⟨exRef_wf, exRef_sorted, by decide, by decide, by decide, by decide⟩

example : Meets exRef [0, 1] [0, 2] ∧
    ∀ p r, [0, 1][p]? = some r → (∃ c ∈ [0, 2], r ∈ exRef.colRows c) → r = p := by
  refine ⟨⟨0, by decide, 0, by decide, by decide⟩, fun p r hp _ => ?_⟩
  match p, hp with
  | 0, hp => exact (Option.some.inj hp).symm
  | 1, hp => exact (Option.some.inj hp).symm
  | p + 2, hp => cases hp

example : spRef 0 exRef [0, 1] [0, 2] = .ok
    { rows := 2, cols := 2, nnz := 3, colptr := [0, 1, 3], rowids := [0, 0, 1], values := [5, 8, 9] } := by decide +kernel

/-- rows 1 and 2: the result has a row number outside the matrix -/
theorem C60_violated_witness :
    RefArgs exRef [1, 2] [0, 2] ∧ Meets exRef [1, 2] [0, 2] ∧
    ∃ C, spRef 0 exRef [1, 2] [0, 2] = .ok C ∧ C.rows = 2 ∧ 2 ∈ C.rowids ∧ ¬ IsSubmatrix exRef [1, 2] [0, 2] C := by
  refine ⟨⟨exRef_wf, exRef_sorted, by decide, by decide, by decide, by decide⟩, ⟨0, by decide, 2, by decide, by decide⟩,
    { rows := 2, cols := 2, nnz := 3, colptr := [0, 1, 3], rowids := [2, 1, 2], values := [6, 9, 10] }, by decide +kernel, rfl,
    by decide, ?_⟩
  intro h
  have := h.wf.inBounds 2 (by decide)
  exact absurd this (by decide)

/-- columns 0 and 2 fit into the buffer of `SpRef2`, column 2 alone does not -/
example : spRef2 0 exRef [0, 1] [0, 2] = spRef 0 exRef [0, 1] [0, 2] ∧ spRef2 0 exRef [0, 1] [2] = .error .oob ∧
    ¬ FitsBuffer exRef [0, 1] [2] 2 := by
  refine ⟨by decide +kernel, by decide +kernel, fun h => ?_⟩
  have := h ⟨0, by decide, by decide⟩
  revert this
  decide

end Verif.Props
