import Verif.Lemmas.Place
import Verif.Lemmas.Inner

/-! # CSC to CSR -/

namespace Verif.Conv
open Model Model.Inner

variable {V : Type}

/-- Consecutive slices cover the list. -/
theorem flatMap_slice {α : Type _} (L : List α) (p : Nat → Nat) (h0 : p 0 = 0) : ∀ n,
    (∀ j < n, p j ≤ p (j + 1)) → p n ≤ L.length →
    (List.range n).flatMap (fun j => slice L (p j) (p (j + 1))) = L.take (p n) := by
  intro n
  induction n with
  | zero => intro _ _; simp [h0]
  | succ n ih =>
    intro hm hl
    have h1 := hm n (by omega)
    rw [List.range_succ, List.flatMap_append, ih (fun j hj => hm j (by omega)) (by omega)]
    simp only [List.flatMap_cons, List.flatMap_nil, List.append_nil]
    unfold slice
    have : p (n + 1) = p n + (p (n + 1) - p n) := by omega
    rw [this, List.take_add, show p n + (p (n + 1) - p n) - p n = p (n + 1) - p n by omega]

/-- The entries of a CSC matrix in storage order, keyed by row: (row, (column, value)). -/
def items (csc : CSC V) : List (Nat × (Nat × V)) :=
  (List.range csc.cols).flatMap fun j => (csc.col j).map fun x => (x.1, (j, x.2))

theorem items_zip {csc : CSC V} (h : csc.WF) :
    (items csc).map (fun x => (x.1, x.2.2)) = csc.rowids.zip csc.values := by
  unfold items
  rw [List.map_flatMap]
  have : (fun j => ((csc.col j).map fun x => (x.1, (j, x.2))).map fun x => (x.1, x.2.2)) =
      fun j => slice (csc.rowids.zip csc.values) (csc.ptr j) (csc.ptr (j + 1)) := by
    funext j
    rw [List.map_map]
    unfold CSC.col
    exact List.map_id' _
  rw [this, flatMap_slice _ csc.ptr h.ptrFirst csc.cols h.ptrMono
    (by rw [czip_length h, h.ptrLast]; exact Nat.le_refl _)]
  rw [h.ptrLast, List.take_of_length_le (by rw [czip_length h]; exact Nat.le_refl _)]

theorem items_length {csc : CSC V} (h : csc.WF) : (items csc).length = csc.nnz := by
  have := congrArg List.length (items_zip h)
  rwa [List.length_map, czip_length h] at this

theorem items_keys {csc : CSC V} (h : csc.WF) : (items csc).map (·.1) = csc.rowids := by
  have := congrArg (List.map Prod.fst) (items_zip h)
  rw [List.map_map, List.map_fst_zip (by rw [h.rowLen, h.valLen]; exact Nat.le_refl _)] at this
  exact this

theorem items_lt {csc : CSC V} (h : csc.WF) : ∀ x ∈ items csc, x.1 < csc.rows := by
  intro x hx
  apply h.inBounds
  rw [← items_keys h]
  exact List.mem_map_of_mem hx

theorem mem_items {csc : CSC V} {r j : Nat} {v : V} :
    (r, (j, v)) ∈ items csc ↔ j < csc.cols ∧ (r, v) ∈ csc.col j := by
  unfold items
  rw [List.mem_flatMap]
  constructor
  · rintro ⟨j', h1, h2⟩
    rw [List.mem_map] at h2
    obtain ⟨⟨a, b⟩, h3, h4⟩ := h2
    simp only [Prod.mk.injEq] at h4
    obtain ⟨rfl, rfl, rfl⟩ := h4
    exact ⟨by simpa using h1, h3⟩
  · rintro ⟨h1, h2⟩
    exact ⟨j, by simpa using h1, List.mem_map.2 ⟨(r, v), h2, rfl⟩⟩

/-- Row `r` of the converted matrix: the entries of row `r`, column by column. -/
def cscRow (csc : CSC V) : Nat → List (Nat × V) := bucket (items csc)

theorem placeLoop_eq {csc : CSC V} (h : csc.WF) (s : List Nat × List Nat × List V) :
    forRange 0 csc.cols s (fun i s => do
      let b ← rd csc.colptr i
      let e ← rd csc.colptr (i + 1)
      forRange b e s (fun j (work, colids, values) => do
        let r ← rd csc.rowids j
        let last ← rd work r
        let work ← wr work r (last + 1)
        let colids ← wr colids last i
        let v ← rd csc.values j
        let values ← wr values last v
        .ok (work, colids, values))) = (items csc).foldlM place2 s := by
  unfold items
  rw [foldlM_flatMap, forRange, List.range_eq_range', Nat.sub_zero]
  apply foldlM_congr
  intro i hi s
  rw [List.mem_range'_1] at hi
  rw [rd_cptr h (j := i) (by omega), ok_bind, rd_cptr h (j := i + 1) (by omega), ok_bind, foldlM_map]
  unfold CSC.col
  refine forRange_eq_slice (by rw [czip_length h]; exact cptr_le_nnz h (by omega)) ?_
  intro j hj _ _ s
  rw [czip_length h] at hj
  have h1 : j < csc.rowids.length := by rw [h.rowLen]; exact hj
  have h2 : j < csc.values.length := by rw [h.valLen]; exact hj
  obtain ⟨work, colids, values⟩ := s
  unfold place2
  simp only [List.getElem_zip, rd_of_lt h1, rd_of_lt h2, ok_bind]

theorem csrOfCsc_eq (dflt : V) {csc : CSC V} (h : csc.WF) :
    csrOfCsc dflt csc = .ok (ofRows csc.rows csc.cols true (cscRow csc)) := by
  unfold csrOfCsc
  simp only []
  have hlt := items_lt h
  have hlen := items_length h
  have hcnt := countKeys_eq (n := csc.rows) (items csc) hlt (fun k => rd csc.rowids k) (by
    intro k hk
    have h1 : k < csc.rowids.length := by rw [h.rowLen]; omega
    rw [rd_of_lt h1]
    congr 1
    have := items_keys h
    simp only [← this, List.getElem_map])
  rw [hlen] at hcnt
  rw [hcnt, ok_bind]
  have hl : lens (cscRow csc) = cnt (items csc) := rfl
  have htot := psum_cnt (items csc) hlt
  rw [hlen] at htot
  by_cases hn : csc.nnz > 0
  · rw [if_pos hn, cumulativeSum_eq, ok_bind]
    simp only []
    have hp := ptrArray csc.rows (cnt (items csc))
    cases hw : wr (List.replicate (csc.rows + 1) 0) csc.rows (psum (cnt (items csc)) csc.rows) with
    | error e => rw [hw] at hp; simp at hp
    | ok p =>
      rw [hw, ok_bind] at hp
      rw [ok_bind, hp, ok_bind]
      have hpl := placeLoop_eq h (tab csc.rows (psum (cnt (items csc))),
        List.replicate csc.nnz 0, List.replicate csc.nnz dflt)
      refine (congrArg (· >>= _) hpl).trans ?_
      obtain ⟨w, e1⟩ := place1_fold_seg (n := csc.rows) (items csc) hlt (0, dflt)
      have h2 := place2_fold (items csc) (tab csc.rows (psum (cnt (items csc))))
        (List.replicate (items csc).length (0, dflt))
      rw [e1] at h2
      simp only [List.map_replicate, Except.map, hlen] at h2
      rw [h2, ok_bind]
      simp only []
      congr 1
      unfold ofRows
      rw [hl, htot]
      rfl
  · rw [if_neg hn]
    have h0 : csc.nnz = 0 := by omega
    have hi : items csc = [] := List.eq_nil_of_length_eq_zero (by omega)
    congr 1
    have hb : cscRow csc = fun _ => [] := by
      funext r
      unfold cscRow
      rw [hi]
      rfl
    have hz : ∀ n, psum (cnt (items csc)) n = 0 := by
      intro n
      induction n with
      | zero => rfl
      | succ n ih => simp only [psum, ih]; rw [hi]; rfl
    have hs : seg (cscRow csc) 0 csc.rows = [] := by
      apply List.eq_nil_of_length_eq_zero
      rw [seg_length _ (Nat.zero_le _), hl, hz]
      rfl
    unfold ofRows
    rw [hl, hs, h0, hz, replicate_eq_tab]
    congr 1
    apply tab_ext
    intro i _
    rw [hz]

/-! ## The transposing constructor -/

theorem copyN_full {α : Type} (a : List α) (d : α) :
    copyN a a.length (List.replicate a.length d) = .ok a := by
  rw [replicate_eq_tab]
  have e := eq_tab a d
  have := copyN_eq (n := a.length) (m := a.length) (fun i => a.getD i d) (fun _ => d) (Nat.le_refl _)
  rw [← e] at this
  rw [this]
  congr 1
  refine Eq.trans ?_ e.symm
  apply tab_ext
  intro i hi
  rw [if_pos hi]

/-- Reading the columns of a CSC matrix as the rows of a CSR matrix. -/
def flip (csc : CSC V) : CSR V :=
  { rows := csc.cols, cols := csc.rows, nnz := csc.nnz, rowptr := csc.colptr, colids := csc.rowids,
    values := csc.values, zerobased := true }

theorem csrOfCscT_eq (dflt : V) {csc : CSC V} (h : csc.WF) :
    csrOfCscT dflt csc true = .ok (flip csc) := by
  unfold csrOfCscT
  simp only [Bool.not_true, Bool.false_eq_true, if_false]
  have h1 := copyN_full csc.colptr 0
  rw [h.ptrLen] at h1
  rw [h1, ok_bind]
  obtain ⟨s, e1, e2⟩ := forRange_inv (body := fun k (a : List V × List Nat) => do
      let values ← wr a.1 k (← rd csc.values k)
      let colids ← wr a.2 k (← rd csc.rowids k)
      .ok (values, colids))
    (fun k a => a = (tab csc.nnz (fun i => if i < k then csc.values.getD i dflt else dflt),
      tab csc.nnz (fun i => if i < k then csc.rowids.getD i 0 else 0))) 0 csc.nnz (by omega)
    (List.replicate csc.nnz dflt, List.replicate csc.nnz 0)
    (by
      rw [replicate_eq_tab, replicate_eq_tab]
      congr 1)
    (by
      rintro k s _ hk rfl
      have hv : k < csc.values.length := by rw [h.valLen]; exact hk
      have hr : k < csc.rowids.length := by rw [h.rowLen]; exact hk
      refine ⟨_, by
        rw [rd_of_lt hv, ok_bind, wr_tab hk, ok_bind, rd_of_lt hr, ok_bind, wr_tab hk, ok_bind], ?_⟩
      congr 1
      · apply tab_ext
        intro i _
        unfold upd
        by_cases hik : i = k
        · subst hik; rw [if_pos rfl, if_pos (by omega)]; simp [hv]
        · rw [if_neg hik]
          simp only []
          by_cases hlt : i < k
          · rw [if_pos hlt, if_pos (by omega)]
          · rw [if_neg hlt, if_neg (by omega)]
      · apply tab_ext
        intro i _
        unfold upd
        by_cases hik : i = k
        · subst hik; rw [if_pos rfl, if_pos (by omega)]; simp [hr]
        · rw [if_neg hik]
          simp only []
          by_cases hlt : i < k
          · rw [if_pos hlt, if_pos (by omega)]
          · rw [if_neg hlt, if_neg (by omega)])
  refine (congrArg (· >>= _) e1).trans ?_
  rw [e2, ok_bind]
  simp only []
  congr 1
  unfold flip
  have ev := eq_tab csc.values dflt
  have er := eq_tab csc.rowids 0
  rw [h.valLen] at ev
  rw [h.rowLen] at er
  congr 1
  · refine Eq.trans ?_ er.symm
    apply tab_ext
    intro i hi
    rw [if_pos hi]
  · refine Eq.trans ?_ ev.symm
    apply tab_ext
    intro i hi
    rw [if_pos hi]

end Verif.Conv
