import Verif.Model.Transpose
import Verif.Lemmas.Triples

/-! # Transposition with atomic counters -/

namespace Verif.Model.Transpose
open Conv

variable {V : Type}

theorem cells_eq {A : CSR V} (h : A.WF) :
    cells A = (List.range A.rows).flatMap fun i => (slice (List.range A.nnz) (A.ptr i) (A.ptr (i + 1))).map fun j => (i, j) := by
  unfold cells
  apply flatMap_congr_mem
  intro i hi
  rw [List.mem_range] at hi
  have h1 : A.ptr (i + 1) ≤ A.nnz := CSR.ptr_le_nnz h hi
  congr 1
  unfold slice
  have h0 := h.ptrMono i hi
  apply List.ext_getElem?
  intro k
  rw [List.getElem?_take]
  by_cases hk : k < A.ptr (i + 1) - A.ptr i
  · rw [if_pos hk, List.getElem?_drop, List.getElem?_range (by omega), List.getElem?_range' hk, Nat.one_mul]
  · rw [if_neg hk, List.getElem?_eq_none (by simp; omega)]

theorem cells_snd {A : CSR V} (h : A.WF) : (cells A).map (·.2) = List.range A.nnz := by
  rw [cells_eq h, List.map_flatMap]
  have : (fun i => ((slice (List.range A.nnz) (A.ptr i) (A.ptr (i + 1))).map fun j => (i, j)).map (·.2)) =
      fun i => slice (List.range A.nnz) (A.ptr i) (A.ptr (i + 1)) := by
    funext i; rw [List.map_map]; exact List.map_id' _
  rw [this, flatMap_slice _ A.ptr h.ptrFirst A.rows h.ptrMono (by rw [h.ptrLast]; simp), h.ptrLast]
  simp

theorem cells_fst {A : CSR V} {p : Nat × Nat} (hp : p ∈ cells A) : p.1 < A.rows := by
  unfold cells at hp
  rw [List.mem_flatMap] at hp
  obtain ⟨i, hi, hp⟩ := hp
  rw [List.mem_map] at hp
  obtain ⟨j, _, rfl⟩ := hp
  exact List.mem_range.1 hi

/-- Column of a position. -/
def colOf (A : CSR V) (j : Nat) : Nat := A.colids.getD j 0

def keyed (A : CSR V) (l : List (Nat × Nat)) : List (Nat × (Nat × Nat)) := l.map fun p => (colOf A p.2, p)

theorem rd_col {A : CSR V} (h : A.WF) {j : Nat} (hj : j < A.nnz) : rd A.colids j = .ok (colOf A j) := by
  have hl : j < A.colids.length := by rw [h.colLen]; exact hj
  rw [rd_of_lt hl]
  unfold colOf
  rw [List.getD_eq_getElem?_getD, List.getElem?_eq_getElem hl]
  rfl

theorem colOf_lt {A : CSR V} (h : A.WF) {j : Nat} (hj : j < A.nnz) : colOf A j < A.cols := by
  have hl : j < A.colids.length := by rw [h.colLen]; exact hj
  unfold colOf
  rw [List.getD_eq_getElem?_getD, List.getElem?_eq_getElem hl]
  exact h.inBounds _ (List.getElem_mem hl)

theorem count_loop {A : CSR V} (h : A.WF) (past : List Nat) (order : List (Nat × Nat)) (hj : ∀ p ∈ order, p.2 < A.nnz)
    (hn : (order.map (·.2)).Nodup) :
    ∃ d, order.foldlM (count A) (List.replicate A.cols 0 ++ past, List.replicate A.nnz 0) =
        .ok (tab A.cols (cnt (keyed A order)) ++ past, d) ∧
      ∀ a p b, order = a ++ p :: b → d[p.2]? = some (cnt (keyed A a) (colOf A p.2)) := by
  obtain ⟨s, e1, d, rfl, e2, e3⟩ := foldlM_inv (f := count A)
    (fun pre s => ∃ d, s = (tab A.cols (cnt (keyed A pre)) ++ past, d) ∧ d.length = A.nnz ∧
      ∀ a p b, pre = a ++ p :: b → d[p.2]? = some (cnt (keyed A a) (colOf A p.2))) order
    (List.replicate A.cols 0 ++ past, List.replicate A.nnz 0)
    ⟨List.replicate A.nnz 0, by rw [replicate_eq_tab A.cols]; rfl, by simp, by
      intro a p b he; exact absurd he (by simp)⟩ (by
    rintro pre p post s hl ⟨d, rfl, hd, hpre⟩
    have hp := hj p (by simp [hl])
    have hc := colOf_lt h hp
    have hlen : colOf A p.2 < (tab A.cols (cnt (keyed A pre))).length := by rw [tab_length]; exact hc
    have hrd : rd (tab A.cols (cnt (keyed A pre)) ++ past) (colOf A p.2) = .ok (cnt (keyed A pre) (colOf A p.2)) := by
      apply rd_of_getElem?
      rw [List.getElem?_append_left hlen, tab_getElem? hc]
    unfold count
    simp only [rd_col h hp, ok_bind, hrd]
    rw [wr_of_lt (by rw [List.length_append]; omega), ok_bind, wr_of_lt (by rw [hd]; exact hp), ok_bind]
    refine ⟨_, rfl, d.set p.2 (cnt (keyed A pre) (colOf A p.2)), ?_, by simpa using hd, ?_⟩
    · rw [List.set_append_left _ _ hlen, tab_set]
      congr 2
      apply tab_ext
      intro k _
      unfold keyed
      rw [List.map_append, List.map_cons, List.map_nil, cnt_snoc]
      by_cases hk : k = colOf A p.2
      · subst hk; rw [upd_same, if_pos rfl]
      · rw [upd_ne _ _ hk, if_neg (fun e => hk e.symm)]; rfl
    · intro a q b he
      rcases List.eq_nil_or_concat b with rfl | ⟨b', x, rfl⟩
      · have := List.append_inj he (by have := congrArg List.length he; simp at this; omega)
        obtain ⟨rfl, h2⟩ := this
        cases h2
        rw [List.getElem?_set_self (by rw [hd]; exact hp)]
      · have he' : pre ++ [p] = (a ++ q :: b') ++ [x] := by rw [he]; simp
        have := List.append_inj he' (by have := congrArg List.length he'; simp at this ⊢; omega)
        obtain ⟨h1, h2⟩ := this
        cases h2
        have hne : p.2 ≠ q.2 := by
          rw [hl, List.map_append, List.nodup_append] at hn
          intro e
          refine hn.2.2 q.2 ?_ p.2 (by simp) e.symm
          rw [h1]; simp
        rw [List.getElem?_set_ne hne]
        exact hpre a q b' h1)
  exact ⟨d, e1, e3⟩

theorem ptr_loop {n : Nat} (f : Nat → Nat) (x : Nat) (past colptr : List Nat) (hl : n + 2 ≤ colptr.length) :
    ∃ cp, (do
        let colptr ← wr colptr 0 0
        forRange 0 (n + 1) colptr fun i colptr => do
          let x ← rd (tab n f ++ x :: past) i
          let y ← rd colptr i
          wr colptr (i + 1) (x + y)) = .ok cp ∧ cp.length = colptr.length ∧ ∀ i ≤ n, cp[i]? = some (psum f i) := by
  rw [wr_of_lt (by omega), ok_bind]
  obtain ⟨cp, e1, e2, e3⟩ := forRange_inv (body := fun i (colptr : List Nat) => (do
          let x ← rd (tab n f ++ x :: past) i
          let y ← rd colptr i
          wr colptr (i + 1) (x + y) : Res (List Nat)))
    (fun k cp => cp.length = colptr.length ∧ ∀ i ≤ n, i ≤ k → cp[i]? = some (psum f i)) 0 (n + 1) (Nat.zero_le _)
    (colptr.set 0 0) ⟨by simp, by
      intro i _ hi
      have : i = 0 := by omega
      subst this
      rw [List.getElem?_set_self (by omega)]
      rfl⟩ (by
    rintro k cp _ hk ⟨h1, h2⟩
    have hrd : ∃ y, rd (tab n f ++ x :: past) k = .ok y ∧ (k < n → y = f k) := by
      by_cases hkn : k < n
      · refine ⟨f k, rd_of_getElem? ?_, fun _ => rfl⟩
        rw [List.getElem?_append_left (by rw [tab_length]; exact hkn), tab_getElem? hkn]
      · have : k = n := by omega
        subst this
        refine ⟨x, rd_of_getElem? ?_, fun h => absurd h hkn⟩
        rw [List.getElem?_append_right (by rw [tab_length]; exact Nat.le_refl _), tab_length, Nat.sub_self]
        rfl
    obtain ⟨y, hy, hy'⟩ := hrd
    rw [hy, ok_bind, rd_of_getElem? (h2 k (by omega) (Nat.le_refl _)), ok_bind, wr_of_lt (by omega)]
    refine ⟨_, rfl, by simpa using h1, ?_⟩
    intro i hi hik
    by_cases hik' : i = k + 1
    · subst hik'
      rw [List.getElem?_set_self (by omega), hy' (by omega)]
      simp only [psum]
      congr 1
      omega
    · rw [List.getElem?_set_ne (by omega)]
      exact h2 i hi (by omega))
  exact ⟨cp, e1, e2, fun i hi => e3 i hi (by omega)⟩

/-- Column `c` of the result, if the counters are incremented in the given order. -/
def column (A : CSR V) (dflt : V) (order : List (Nat × Nat)) (c : Nat) : List (Nat × V) :=
  (bucket (keyed A order) c).map fun p => (p.1, A.values.getD p.2 dflt)

theorem lens_column (A : CSR V) (dflt : V) (order : List (Nat × Nat)) : lens (column A dflt order) = cnt (keyed A order) := by
  funext c
  unfold lens column cnt
  rw [List.length_map]

/-- The place of a pair in the result. -/
theorem column_at {A : CSR V} (h : A.WF) (dflt : V) {order a b : List (Nat × Nat)} {p : Nat × Nat} (he : order = a ++ p :: b)
    (hp : p.2 < A.nnz) :
    (seg (column A dflt order) 0 A.cols)[psum (cnt (keyed A order)) (colOf A p.2) + cnt (keyed A a) (colOf A p.2)]? =
      some (p.1, A.values.getD p.2 dflt) := by
  have hc := colOf_lt h hp
  have hb : bucket (keyed A order) (colOf A p.2) =
      bucket (keyed A a) (colOf A p.2) ++ p :: bucket (keyed A b) (colOf A p.2) := by
    rw [he]
    unfold keyed
    rw [List.map_append, bucket_append, List.map_cons]
    congr 1
    unfold bucket
    rw [List.filterMap_cons]
    simp
  have hcol : column A dflt order (colOf A p.2) = (bucket (keyed A a) (colOf A p.2)).map (fun p => (p.1, A.values.getD p.2 dflt)) ++
      (p.1, A.values.getD p.2 dflt) :: (bucket (keyed A b) (colOf A p.2)).map (fun p => (p.1, A.values.getD p.2 dflt)) := by
    unfold column
    rw [hb, List.map_append, List.map_cons]
  have hlen : cnt (keyed A a) (colOf A p.2) < (seg (column A dflt order) (colOf A p.2) (colOf A p.2 + 1)).length := by
    rw [exp_eq_seg, hcol]
    unfold cnt
    simp
  rw [← lens_column A dflt order, seg_getElem? (column A dflt order) (Nat.le_succ _) hc hlen, exp_eq_seg, hcol,
    List.getElem?_append_right (by unfold cnt; simp)]
  unfold cnt
  simp

/-- Every place of the result belongs to a pair. -/
theorem place_exists {A : CSR V} {order : List (Nat × Nat)} {q : Nat}
    (hq : q < psum (cnt (keyed A order)) A.cols) :
    ∃ a p b, order = a ++ p :: b ∧ psum (cnt (keyed A order)) (colOf A p.2) + cnt (keyed A a) (colOf A p.2) = q := by
  obtain ⟨c, hc, h1, h2⟩ := cover_of (Q := psum (cnt (keyed A order))) rfl A.cols q hq
  have key : ∀ (l : List (Nat × Nat)) (k : Nat), k < cnt (keyed A l) c → ∃ a p b, l = a ++ p :: b ∧ colOf A p.2 = c ∧
      cnt (keyed A a) c = k := by
    intro l
    induction l using list_snoc_induction with
    | h0 => intro k hk; exact absurd hk (by unfold keyed cnt bucket; simp)
    | h1 l p ih =>
      intro k hk
      by_cases hlt : k < cnt (keyed A l) c
      · obtain ⟨a, p', b, h3, h4, h5⟩ := ih k hlt
        exact ⟨a, p', b ++ [p], by rw [h3]; simp, h4, h5⟩
      · unfold keyed at hk
        rw [List.map_append, List.map_cons, List.map_nil, cnt_snoc] at hk
        by_cases hcp : colOf A p.2 = c
        · rw [if_pos hcp] at hk
          refine ⟨l, p, [], rfl, hcp, ?_⟩
          have : cnt (keyed A l) c = cnt (l.map fun p => (colOf A p.2, p)) c := rfl
          omega
        · rw [if_neg hcp] at hk
          exact absurd hk hlt
  obtain ⟨a, p, b, h3, h4, h5⟩ := key order (q - psum (cnt (keyed A order)) c) (by
    simp only [psum] at h2; omega)
  refine ⟨a, p, b, h3, ?_⟩
  rw [h4, h5]
  omega

theorem place_loop {A : CSR V} (h : A.WF) (dflt : V) {order1 order2 : List (Nat × Nat)} (hp : order2.Perm order1)
    (hj : ∀ p ∈ order1, p.2 < A.nnz) {cp d : List Nat}
    (hcp : ∀ i ≤ A.cols, cp[i]? = some (psum (cnt (keyed A order1)) i))
    (hd : ∀ a p b, order1 = a ++ p :: b → d[p.2]? = some (cnt (keyed A a) (colOf A p.2)))
    (X : List (Nat × V)) (hX : X.length = psum (cnt (keyed A order1)) A.cols) :
    order2.foldlM (place A cp d) (X.map (·.1), X.map (·.2)) =
      .ok ((seg (column A dflt order1) 0 A.cols).map (·.1), (seg (column A dflt order1) 0 A.cols).map (·.2)) := by
  have hT : (seg (column A dflt order1) 0 A.cols).length = psum (cnt (keyed A order1)) A.cols := by
    rw [seg_length _ (Nat.zero_le _), lens_column]; simp [psum]
  obtain ⟨s, e1, Y, rfl, e2, e3⟩ := foldlM_inv (f := place A cp d)
    (fun pre s => ∃ Y : List (Nat × V), s = (Y.map (·.1), Y.map (·.2)) ∧ Y.length = X.length ∧
      ∀ a p b, order1 = a ++ p :: b → p ∈ pre →
        Y[psum (cnt (keyed A order1)) (colOf A p.2) + cnt (keyed A a) (colOf A p.2)]? = some (p.1, A.values.getD p.2 dflt))
    order2 (X.map (·.1), X.map (·.2)) ⟨X, rfl, rfl, by intro a p b _ hp; cases hp⟩ (by
    rintro pre p post s hl ⟨Y, rfl, hY, hpre⟩
    have hmem : p ∈ order1 := hp.mem_iff.1 (by rw [hl]; simp)
    have hpj := hj p hmem
    obtain ⟨a, b, hs⟩ := List.append_of_mem hmem
    have hat := column_at h dflt hs hpj
    have hlt : psum (cnt (keyed A order1)) (colOf A p.2) + cnt (keyed A a) (colOf A p.2) < Y.length := by
      rw [hY, hX, ← hT]
      exact (List.getElem?_eq_some_iff.1 hat).1
    have hv : rd A.values p.2 = .ok (A.values.getD p.2 dflt) := by
      have hl : p.2 < A.values.length := by rw [h.valLen]; exact hpj
      rw [rd_of_lt hl, List.getD_eq_getElem?_getD, List.getElem?_eq_getElem hl]
      rfl
    unfold place
    simp only [rd_col h hpj, ok_bind, rd_of_getElem? (hcp _ (Nat.le_of_lt (colOf_lt h hpj))), rd_of_getElem? (hd a p b hs)]
    rw [wr_of_lt (by rw [List.length_map]; exact hlt), ok_bind, hv, ok_bind, wr_of_lt (by rw [List.length_map]; exact hlt), ok_bind]
    refine ⟨_, rfl, Y.set (psum (cnt (keyed A order1)) (colOf A p.2) + cnt (keyed A a) (colOf A p.2))
      (p.1, A.values.getD p.2 dflt), by rw [List.map_set, List.map_set], by simpa using hY, ?_⟩
    intro a' p' b' hs' hp'
    have hp'j := hj p' (by rw [hs']; simp)
    have hat' := column_at h dflt hs' hp'j
    by_cases he : psum (cnt (keyed A order1)) (colOf A p.2) + cnt (keyed A a) (colOf A p.2) =
        psum (cnt (keyed A order1)) (colOf A p'.2) + cnt (keyed A a') (colOf A p'.2)
    · rw [← he, List.getElem?_set_self hlt, ← hat, he, hat']
    · rw [List.getElem?_set_ne he]
      rw [List.mem_append, List.mem_singleton] at hp'
      rcases hp' with hp' | rfl
      · exact hpre a' p' b' hs' hp'
      · have e : some (cnt (keyed A a) (colOf A p'.2)) = some (cnt (keyed A a') (colOf A p'.2)) :=
          (hd a p' b hs).symm.trans (hd a' p' b' hs')
        exact absurd (by rw [Option.some.inj e]) he)
  have : Y = seg (column A dflt order1) 0 A.cols := by
    apply List.ext_getElem?
    intro q
    by_cases hq : q < psum (cnt (keyed A order1)) A.cols
    · obtain ⟨a, p, b, hs, rfl⟩ := place_exists hq
      rw [e3 a p b hs (hp.mem_iff.2 (by rw [hs]; simp)), column_at h dflt hs (hj p (by rw [hs]; simp))]
    · rw [List.getElem?_eq_none (by omega), List.getElem?_eq_none (by omega)]
  rw [e1, this]

theorem triples_cells {A : CSR V} (h : A.WF) (dflt : V) :
    (cells A).map (fun p => (p.1, colOf A p.2, A.values.getD p.2 dflt)) = Spec.triples A := by
  rw [cells_eq h, List.map_flatMap]
  unfold Spec.triples
  apply flatMap_congr_mem
  intro i hi
  have hz : A.colids.zip A.values = (List.range A.nnz).map fun j => (colOf A j, A.values.getD j dflt) := by
    apply List.ext_getElem?
    intro j
    by_cases hj : j < A.nnz
    · have h1 : j < A.colids.length := by rw [h.colLen]; exact hj
      have h2 : j < A.values.length := by rw [h.valLen]; exact hj
      have h3 : (A.colids.zip A.values)[j]? = some (A.colids[j], A.values[j]) :=
        List.getElem?_zip_eq_some.2 ⟨List.getElem?_eq_getElem h1, List.getElem?_eq_getElem h2⟩
      rw [List.getElem?_map, List.getElem?_range hj, h3]
      unfold colOf
      rw [Option.map_some, List.getD_eq_getElem?_getD, List.getD_eq_getElem?_getD, List.getElem?_eq_getElem h1,
        List.getElem?_eq_getElem h2]
      rfl
    · rw [List.getElem?_eq_none (by rw [CSR.zip_length h]; omega), List.getElem?_eq_none (by simp; omega)]
  unfold CSR.row
  rw [hz, ← slice_map (fun j => (colOf A j, A.values.getD j dflt)), List.map_map, List.map_map]
  rfl

theorem triples_column {A : CSR V} (h : A.WF) (dflt : V) {order : List (Nat × Nat)} (ho : order.Perm (cells A)) :
    (Spec.triplesC (ofCols A.rows A.cols (column A dflt order))).Perm (Spec.triples A) := by
  have hj : ∀ p ∈ order, p.2 < A.nnz := by
    intro p hp
    have : p.2 ∈ (cells A).map (·.2) := List.mem_map_of_mem (ho.mem_iff.1 hp)
    rw [cells_snd h] at this
    exact List.mem_range.1 this
  have e1 : Spec.triplesC (ofCols A.rows A.cols (column A dflt order)) =
      ((List.range A.cols).flatMap fun r => (bucket (keyed A order) r).map fun x => (r, x)).map
        fun y => (y.2.1, y.1, A.values.getD y.2.2 dflt) := by
    rw [List.map_flatMap]
    unfold Spec.triplesC
    apply flatMap_congr_mem
    intro c hc
    rw [ofCols_col A.rows A.cols _ (List.mem_range.1 hc)]
    unfold column
    rw [List.map_map, List.map_map]
    rfl
  rw [e1, ← triples_cells h dflt]
  refine ((bucket_perm (n := A.cols) (keyed A order) ?_).map _).trans ?_
  · intro x hx
    unfold keyed at hx
    obtain ⟨p, hp, rfl⟩ := List.mem_map.1 hx
    exact colOf_lt h (hj p hp)
  · unfold keyed
    rw [List.map_map]
    exact ho.map _

theorem csr2csc_ok {A : CSR V} (h : A.WF) (dflt : V) {order1 order2 : List (Nat × Nat)} (h1 : order1.Perm (cells A))
    (h2 : order2.Perm (cells A)) (x : Nat) (past colptr rowidx : List Nat) (val : List V) (hc : A.cols + 2 ≤ colptr.length)
    (hr : rowidx.length = A.nnz) (hv : val.length = A.nnz) :
    ∃ cp, csr2csc A (x :: past) colptr rowidx val order1 order2 = .ok (cp, (ofCols A.rows A.cols (column A dflt order1)).rowids,
        (ofCols A.rows A.cols (column A dflt order1)).values) ∧
      cp.take (A.cols + 1) = (ofCols A.rows A.cols (column A dflt order1)).colptr ∧
      (ofCols A.rows A.cols (column A dflt order1)).nnz = A.nnz := by
  have hj : ∀ p ∈ order1, p.2 < A.nnz := by
    intro p hp
    have : p.2 ∈ (cells A).map (·.2) := List.mem_map_of_mem (h1.mem_iff.1 hp)
    rw [cells_snd h] at this
    exact List.mem_range.1 this
  have hn : (order1.map (·.2)).Nodup := by
    refine (List.Perm.nodup_iff (h1.map _)).2 ?_
    rw [cells_snd h]
    exact List.nodup_range
  have hN : psum (cnt (keyed A order1)) A.cols = A.nnz := by
    rw [psum_cnt _ (by
      intro y hy
      unfold keyed at hy
      obtain ⟨p, hp, rfl⟩ := List.mem_map.1 hy
      exact colOf_lt h (hj p hp))]
    unfold keyed
    rw [List.length_map, h1.length_eq]
    have := congrArg List.length (cells_snd h)
    simpa using this
  obtain ⟨d, e1, hd⟩ := count_loop h (x :: past) order1 hj hn
  obtain ⟨cp, e2, hl, hcp⟩ := ptr_loop (cnt (keyed A order1)) x past colptr hc
  have e3 := place_loop h dflt (h2.trans h1.symm) hj hcp hd (rowidx.zip val) (by
    rw [List.length_zip, hr, hv, hN]; simp)
  rw [List.map_fst_zip (by omega), List.map_snd_zip (by omega)] at e3
  refine ⟨cp, ?_, ?_, ?_⟩
  · unfold csr2csc
    rw [e1, ok_bind]
    simp only []
    rw [wr_of_lt (by omega), ok_bind] at e2 ⊢
    refine (congrArg (· >>= _) e2).trans ?_
    rw [ok_bind, e3]
    rfl
  · apply List.ext_getElem?
    intro i
    show _ = (tab (A.cols + 1) (psum (lens (column A dflt order1))))[i]?
    by_cases hi : i < A.cols + 1
    · rw [List.getElem?_take_of_lt hi, hcp i (by omega), tab_getElem? hi, lens_column]
    · rw [List.getElem?_eq_none (by rw [List.length_take]; omega), List.getElem?_eq_none (by rw [tab_length]; omega)]
  · show psum (lens (column A dflt order1)) A.cols = _
    rw [lens_column, hN]

theorem column_lt {A : CSR V} (dflt : V) {order : List (Nat × Nat)} (ho : order.Perm (cells A)) :
    ∀ j < A.cols, ∀ x ∈ column A dflt order j, x.1 < A.rows := by
  intro j _ x hx
  unfold column at hx
  obtain ⟨p, hp, rfl⟩ := List.mem_map.1 hx
  rw [mem_bucket] at hp
  unfold keyed at hp
  obtain ⟨q, hq, e⟩ := List.mem_map.1 hp
  cases e
  exact cells_fst (ho.mem_iff.1 hq)

/-- Without cells behind the counters the loop over the counters leaves its array. -/
theorem csr2csc_oob {A : CSR V} (h : A.WF) {order1 : List (Nat × Nat)} (h1 : order1.Perm (cells A)) (order2 : List (Nat × Nat))
    (colptr rowidx : List Nat) (val : List V) : csr2csc A [] colptr rowidx val order1 order2 = .error .oob := by
  have hj : ∀ p ∈ order1, p.2 < A.nnz := by
    intro p hp
    have : p.2 ∈ (cells A).map (·.2) := List.mem_map_of_mem (h1.mem_iff.1 hp)
    rw [cells_snd h] at this
    exact List.mem_range.1 this
  have hn : (order1.map (·.2)).Nodup := by
    refine (List.Perm.nodup_iff (h1.map _)).2 ?_
    rw [cells_snd h]
    exact List.nodup_range
  obtain ⟨d, e1, _⟩ := count_loop h [] order1 hj hn
  unfold csr2csc
  rw [e1, ok_bind]
  simp only [List.append_nil]
  have main : ∀ k (cp : List Nat), k ≤ A.cols →
      forRange (A.cols - k) (A.cols + 1) cp (fun i (colptr : List Nat) => (do
        let x ← rd (tab A.cols (cnt (keyed A order1))) i
        let y ← rd colptr i
        wr colptr (i + 1) (x + y) : Res (List Nat))) = .error .oob := by
    intro k
    induction k with
    | zero =>
      intro cp _
      rw [forRange_step (by omega)]
      have : rd (tab A.cols (cnt (keyed A order1))) (A.cols - 0) = .error .oob := by
        unfold rd
        rw [List.getElem?_eq_none (by rw [tab_length]; omega)]
      rw [this]
      rfl
    | succ k ih =>
      intro cp hk
      rw [forRange_step (by omega)]
      rw [rd_tab (by omega : A.cols - (k + 1) < A.cols), ok_bind]
      rcases hy : rd cp (A.cols - (k + 1)) with e | y
      · have : e = .oob := by
          unfold rd at hy
          split at hy <;> cases hy
          rfl
        rw [this]; rfl
      · rw [ok_bind]
        rcases hw : wr cp (A.cols - (k + 1) + 1) (cnt (keyed A order1) (A.cols - (k + 1)) + y) with e | cp'
        · have : e = .oob := by
            unfold wr at hw
            split at hw <;> first | cases hw | skip
            rfl
          rw [this]; rfl
        · rw [ok_bind]
          have e : A.cols - (k + 1) + 1 = A.cols - k := by omega
          rw [e]
          exact ih cp' (by omega)
  rcases hw : wr colptr 0 0 with e | cp
  · have : e = .oob := by
      unfold wr at hw
      split at hw <;> first | cases hw | skip
      rfl
    rw [this]; rfl
  · rw [ok_bind]
    have := main A.cols cp (Nat.le_refl _)
    rw [Nat.sub_self] at this
    exact (congrArg (· >>= _) this).trans rfl

end Verif.Model.Transpose
