import Verif.Model.TwoPass
import Verif.Lemmas.Bin
import Verif.SpecLegacy

/-! # The frame of the older masked kernels -/

namespace Verif.Model

variable {V α β : Type}

/-- The loops that are not split into blocks run over all their iterations. -/
def TwoPassSched.Adm (rows n : Nat) (sch : TwoPassSched) : Prop := Bin.Adm rows n sch.bin

/-- The rows from `lo` up to `hi` are the block of some thread. -/
def Blk (A B : CSR V) (n lo hi : Nat) : Prop :=
  ∃ t < n, lo = Bin.bound (Bin.nprod A B) (psum (Bin.nprod A B) A.rows) A.rows n t ∧
    hi = Bin.bound (Bin.nprod A B) (psum (Bin.nprod A B) A.rows) A.rows n (t + 1)

theorem Blk.unique {A B : CSR V} {n lo hi lo' hi' i : Nat} (h : Blk A B n lo hi) (h' : Blk A B n lo' hi') (h1 : lo ≤ i)
    (h2 : i < hi) (h1' : lo' ≤ i) (h2' : i < hi') : lo = lo' ∧ hi = hi' := by
  obtain ⟨t, ht, rfl, rfl⟩ := h
  obtain ⟨t', ht', rfl, rfl⟩ := h'
  have ho := Bin.bounds (Bin.nprod A B) (psum (Bin.nprod A B) A.rows) A.rows (n := n) (by omega)
  have := ho.disj ht ht' h1 h2 h1' h2'
  subst this
  exact ⟨rfl, rfl⟩

theorem Blk.exists {A B : CSR V} {n i : Nat} (hn : 0 < n) (hi : i < A.rows) : ∃ lo hi, Blk A B n lo hi ∧ lo ≤ i ∧ i < hi ∧ hi ≤ A.rows := by
  have ho := Bin.bounds (Bin.nprod A B) (psum (Bin.nprod A B) A.rows) A.rows hn
  obtain ⟨t, ht, h1, h2⟩ := ho.cover hi
  exact ⟨_, _, ⟨t, ht, rfl, rfl⟩, h1, h2, ho.le (by omega)⟩

/-- If the first pass counts the entries of the rows `exp` and the second one writes them, the result has these rows. -/
theorem twoPass_ok {A B : CSR V} (hA : A.WF) (hB : B.WF) (hAB : A.cols = B.rows) (hpos : 0 < A.rows)
    (hsmall : A.rows + 1 < 2 ^ 17) {dflt : V} {n nd : Nat} (hn : 0 < n) {init1 : Nat → Nat → Nat → Res α}
    {row1 : Nat → List Nat → α → Res (List Nat × α)} {init2 : Nat → Nat → Nat → Res β}
    {row2 : List Nat → Nat → List Nat × List V → β → Res ((List Nat × List V) × β)} (exp : Nat → List (Nat × V))
    (I1 : Nat → Nat → α → Prop) (I2 : Nat → Nat → β → Prop)
    (hinit1 : ∀ t lo hi, lo ≤ hi → hi ≤ A.rows → ∃ a, init1 t lo hi = .ok a ∧ I1 lo hi a)
    (hrow1 : ∀ lo hi i a, Blk A B n lo hi → lo ≤ i → i < hi → hi ≤ A.rows → I1 lo hi a → ∀ g, ∃ a',
      row1 i (tab A.rows g) a = .ok (tab A.rows (upd g i (exp i).length), a') ∧ I1 lo hi a')
    (hinit2 : ∀ t lo hi, lo ≤ hi → hi ≤ A.rows → ∃ a, init2 t lo hi = .ok a ∧ I2 lo hi a)
    (hrow2 : ∀ lo hi i a, Blk A B n lo hi → lo ≤ i → i < hi → hi ≤ A.rows → I2 lo hi a → ∀ rowptr off, rd rowptr i = .ok off →
      ∀ X : List (Nat × V), off + (exp i).length ≤ X.length → ∃ a', row2 rowptr i (X.map (·.1), X.map (·.2)) a =
        .ok (((X.take off ++ exp i ++ X.drop (off + (exp i).length)).map (·.1),
          (X.take off ++ exp i ++ X.drop (off + (exp i).length)).map (·.2)), a') ∧ I2 lo hi a')
    {sch : TwoPassSched} (hadm : sch.Adm A.rows n) :
    (twoPass A B dflt n nd init1 row1 init2 row2 sch = .ok none ∧
        ∃ t < n, sch.count.count t ≤ A.rows + 1 ∨ sch.fill.count t ≤ A.rows + 1) ∨
      twoPass A B dflt n nd init1 row1 init2 row2 sch = .ok (some (ofRows A.rows B.cols true exp)) := by
  obtain ⟨p, e1, hp⟩ := Bin.setMaxBin_ok hA hB hAB hpos hsmall (cols := B.cols) (min := 8) (by omega) hn nd hadm
  have ho := Bin.bounds (Bin.nprod A B) (psum (Bin.nprod A B) A.rows) A.rows hn
  have hpo := hp.off
  have hblk : ∀ t < n, Blk A B n (Bin.bound (Bin.nprod A B) (psum (Bin.nprod A B) A.rows) A.rows n t)
    (Bin.bound (Bin.nprod A B) (psum (Bin.nprod A B) A.rows) A.rows n (t + 1)) := fun t ht => ⟨t, ht, rfl, rfl⟩
  generalize Bin.bound (Bin.nprod A B) (psum (Bin.nprod A B) A.rows) A.rows n = o at ho hpo hblk
  have hoff : ∀ t ≤ n, p.rowsOffset[t]? = some (o t) := fun t ht => by rw [hpo]; exact tab_getElem? (by omega)
  unfold twoPass
  rw [e1]
  simp only [ok_bind]
  rw [Conv.replicate_eq_tab]
  rcases count_ok ho hoff (cnt := lens exp) (fun t a => I1 (o t) (o (t + 1)) a) (init := init1) (row := row1)
    (fun t ht => hinit1 t _ _ (ho.mono t ht) (ho.le (by omega))) (by
      intro t ht i a hi1 hi2 hI g
      exact hrow1 _ _ i a (hblk t ht) hi1 hi2 (ho.le (by omega)) hI g) (fun _ => 0) sch.count with ⟨e2, t, ht, hc⟩ | ⟨as, e2, _⟩
  · left
    rw [e2]
    exact ⟨rfl, t, ht, Or.inl hc⟩
  · rw [e2]
    simp only [ok_bind]
    rw [scan_small hsmall]
    simp only [ok_bind]
    rw [rd_tab (by omega), ok_bind]
    rcases fill_ok ho hoff (exp := exp) (fun t a => I2 (o t) (o (t + 1)) a) (init := init2)
      (row := row2 (tab (A.rows + 1) (psum (lens exp))))
      (fun t ht => hinit2 t _ _ (ho.mono t ht) (ho.le (by omega))) (by
        intro t ht i a hi1 hi2 hI X hX
        have hle := ho.le (t := t + 1) (by omega)
        exact hrow2 _ _ i a (hblk t ht) hi1 hi2 hle hI _ (psum (lens exp) i) (rd_tab (by omega)) X hX) dflt sch.fill with
      ⟨e3, t, ht, hc⟩ | ⟨as', e3⟩
    · left
      rw [e3]
      exact ⟨rfl, t, ht, Or.inr hc⟩
    · right
      rw [e3]
      rfl

/-- With `2^17 - 1` or more rows no run returns a matrix. -/
theorem twoPass_big {A B : CSR V} {dflt : V} {n nd : Nat} {init1 : Nat → Nat → Nat → Res α}
    {row1 : Nat → List Nat → α → Res (List Nat × α)} {init2 : Nat → Nat → Nat → Res β}
    {row2 : List Nat → Nat → List Nat × List V → β → Res ((List Nat × List V) × β)} {sch : TwoPassSched} {C : CSR V}
    (hbin : ∀ p, Bin.setMaxBin A B A.rows B.cols 8 n nd sch.bin ≠ .ok (some p)) :
    twoPass A B dflt n nd init1 row1 init2 row2 sch ≠ .ok (some C) := by
  intro h
  unfold twoPass at h
  cases e : Bin.setMaxBin A B A.rows B.cols 8 n nd sch.bin with
  | error x => rw [e] at h; cases h
  | ok r =>
    cases r with
    | none => rw [e] at h; cases h
    | some p => exact hbin p e

/-! ## Columns of a row -/

/-- Columns with a product that the mask row allows, in the order of the products. -/
def touchedIn (A B M : CSR V) (i : Nat) : List Nat :=
  firsts (((visits A B i).map (·.1)).filter fun c => decide (c ∈ M.rowCols i))

theorem mem_touchedIn {A B M : CSR V} {i c : Nat} :
    c ∈ touchedIn A B M i ↔ c ∈ (visits A B i).map (·.1) ∧ c ∈ M.rowCols i := by
  unfold touchedIn
  rw [mem_firsts, List.mem_filter]
  simp

theorem mem_visits_iff {mul add : V → V → V} {A B : CSR V} {i c : Nat} :
    c ∈ (visits A B i).map (·.1) ↔ ∃ v, Spec.dot mul add A B i c = some v := by
  have hp : (prods mul A B i).map (·.1) = (visits A B i).map (·.1) := by unfold prods; rw [List.map_map]; rfl
  rw [← hp]
  constructor
  · intro hc
    cases hs : Spec.dot mul add A B i c with
    | none =>
      rw [dot_eq, sum1_eq_none, pick_eq_nil] at hs
      obtain ⟨p, hp, rfl⟩ := List.mem_map.1 hc
      exact absurd rfl (hs p hp)
    | some v => exact ⟨v, rfl⟩
  · rintro ⟨v, h⟩
    rw [dot_eq] at h
    have hne : pick (prods mul A B i) c ≠ [] := by intro h'; rw [h'] at h; cases h
    rw [Ne, pick_eq_nil] at hne
    apply Classical.byContradiction
    intro hno
    apply hne
    intro p hp hpc
    exact hno (List.mem_map.2 ⟨p, hp, hpc⟩)

/-- The number of entries of a row of the masked product. -/
theorem masked_len {mul add : V → V → V} {A B M : CSR V} {i : Nat} {r : List (Nat × V)}
    (h : ∀ c v, (c, v) ∈ r ↔ c ∈ M.rowCols i ∧ Spec.dot mul add A B i c = some v) (hn : (r.map (·.1)).Nodup) :
    r.length = (touchedIn A B M i).length := by
  have h1 : (r.map (·.1)).length ≤ (touchedIn A B M i).length := nodup_length_le hn (by
    intro c hc
    obtain ⟨⟨c', v⟩, hx, rfl⟩ := List.mem_map.1 hc
    rw [mem_touchedIn]
    obtain ⟨h2, h3⟩ := (h c' v).1 hx
    exact ⟨mem_visits_iff.2 ⟨v, h3⟩, h2⟩)
  have h2 : (touchedIn A B M i).length ≤ (r.map (·.1)).length := nodup_length_le (firsts_nodup _) (by
    intro c hc
    obtain ⟨h2, h3⟩ := mem_touchedIn.1 hc
    obtain ⟨v, h4⟩ := mem_visits_iff.1 h2
    exact List.mem_map.2 ⟨(c, v), (h c v).2 ⟨h3, h4⟩, rfl⟩)
  simp only [List.length_map] at h1 h2
  omega

theorem isMaskedSet {mul add : V → V → V} {A B M : CSR V} (hB : B.WF) {exp : Nat → List (Nat × V)}
    (h : ∀ i < A.rows, (∀ c v, (c, v) ∈ exp i ↔ c ∈ M.rowCols i ∧ Spec.dot mul add A B i c = some v) ∧
      ((exp i).map (·.1)).Nodup) : Spec.IsMaskedSet mul add A B M (ofRows A.rows B.cols true exp) := by
  refine ⟨?_, rfl, rfl, ?_, ?_⟩
  · refine ofRows_wf _ _ _ _ rfl ?_
    rintro i hi ⟨c, v⟩ hx
    obtain ⟨x, hy, rfl⟩ := List.mem_map.1 (mem_visits_iff.2 ⟨v, (((h i hi).1 c v).1 hx).2⟩)
    exact visits_lt hB hy
  · intro i hi j v
    rw [ofRows_row _ _ _ _ hi]
    exact (h i hi).1 j v
  · intro i hi
    rw [ofRows_rowCols A.rows _ _ _ hi]
    exact (h i hi).2

end Verif.Model
