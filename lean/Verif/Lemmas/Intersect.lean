import Verif.Model.Intersect
import Verif.Lemmas.Assemble
import Verif.Lemmas.Inner

/-! # Intersection of two matrices: proofs -/

namespace Verif.Model.Intersect
open Inner (Inc)

variable {V : Type}

/-- The combined entries of two rows. -/
def sect (add : V → V → V) (xs ys : List (Nat × V)) : List (Nat × V) :=
  xs.flatMap fun x => ys.filterMap fun y => if y.1 = x.1 then some (x.1, add x.2 y.2) else none

theorem sect_nil_right (add : V → V → V) (xs : List (Nat × V)) : sect add xs [] = [] := by
  simp [sect]

theorem mem_sect {add : V → V → V} {xs ys : List (Nat × V)} {c : Nat} {v : V} :
    (c, v) ∈ sect add xs ys ↔ ∃ a b, (c, a) ∈ xs ∧ (c, b) ∈ ys ∧ v = add a b := by
  unfold sect
  rw [List.mem_flatMap]
  constructor
  · rintro ⟨⟨c', a⟩, h1, h2⟩
    rw [List.mem_filterMap] at h2
    obtain ⟨⟨c'', b⟩, h3, h4⟩ := h2
    simp only at h4
    split at h4
    · rename_i he
      subst he
      simp only [Option.some.injEq, Prod.mk.injEq] at h4
      obtain ⟨rfl, rfl⟩ := h4
      exact ⟨a, b, h1, h3, rfl⟩
    · cases h4
  · rintro ⟨a, b, h1, h2, rfl⟩
    exact ⟨(c, a), h1, List.mem_filterMap.2 ⟨(c, b), h2, by simp⟩⟩

theorem filterMap_none {x : Nat × V} {add : V → V → V} {ys : List (Nat × V)} (h : ∀ y ∈ ys, y.1 ≠ x.1) :
    (ys.filterMap fun y => if y.1 = x.1 then some (x.1, add x.2 y.2) else none) = [] := by
  rw [List.filterMap_eq_nil_iff]
  intro y hy
  rw [if_neg (h y hy)]

theorem sect_skip_left {add : V → V → V} {x : Nat × V} {xs ys : List (Nat × V)} (h : ∀ y ∈ ys, y.1 ≠ x.1) :
    sect add (x :: xs) ys = sect add xs ys := by
  unfold sect
  rw [List.flatMap_cons, filterMap_none h, List.nil_append]

theorem sect_skip_right {add : V → V → V} {y : Nat × V} {xs ys : List (Nat × V)} (h : ∀ x ∈ xs, y.1 ≠ x.1) :
    sect add xs (y :: ys) = sect add xs ys := by
  unfold sect
  rw [List.flatMap_def, List.flatMap_def]
  congr 1
  apply List.map_congr_left
  intro x hx
  rw [List.filterMap_cons, if_neg (h x hx)]

theorem sect_hit {add : V → V → V} {c : Nat} {a b : V} {xs ys : List (Nat × V)} (hx : ∀ x ∈ xs, c < x.1)
    (hy : ∀ y ∈ ys, c < y.1) : sect add ((c, a) :: xs) ((c, b) :: ys) = (c, add a b) :: sect add xs ys := by
  have h1 := sect_skip_right (add := add) (y := (c, b)) (xs := xs) (ys := ys) (by
    intro x hx'; have := hx x hx'; simp only; omega)
  unfold sect at h1 ⊢
  rw [List.flatMap_cons, h1, List.filterMap_cons]
  simp only [if_true]
  rw [filterMap_none (x := (c, a)) (by intro y hy'; have := hy y hy'; simp only; omega)]
  rfl

theorem merge_eq {add : V → V → V} {A B : CSR V} {ae be : Nat}
    (hA : A.colids.length = A.values.length) (hB : B.colids.length = B.values.length)
    (hae : ae ≤ A.colids.length) (hbe : be ≤ B.colids.length) :
    ∀ (fuel ia ib : Nat) (out : List (Nat × V)), ia ≤ ae → ib ≤ be → (ae - ia) + (be - ib) < fuel →
      Inc (slice (A.colids.zip A.values) ia ae) → Inc (slice (B.colids.zip B.values) ib be) →
      merge add A B ae be fuel ia ib out =
        .ok (out ++ sect add (slice (A.colids.zip A.values) ia ae) (slice (B.colids.zip B.values) ib be)) := by
  intro fuel
  induction fuel with
  | zero => intro ia ib v h1 h2 h3; omega
  | succ fuel ih =>
    intro ia ib out h1 h2 h3 iA iB
    unfold merge
    by_cases hc : ia ≠ ae ∧ ib ≠ be
    · rw [if_pos hc]
      have h1 : ia < ae := by omega
      have h2 : ib < be := by omega
      have ha : ia < (A.colids.zip A.values).length := by simp; omega
      have hb : ib < (B.colids.zip B.values).length := by simp; omega
      have ha1 : ia < A.colids.length := by omega
      have ha2 : ia < A.values.length := by omega
      have hb1 : ib < B.colids.length := by omega
      have hb2 : ib < B.values.length := by omega
      have eA := slice_succ h1 ha
      have eB := slice_succ h2 hb
      have iA' := iA
      have iB' := iB
      rw [eA] at iA
      rw [eB] at iB
      have gA := iA.head
      have gB := iB.head
      have tA := iA.tail
      have tB := iB.tail
      rw [List.getElem_zip] at eA gA
      rw [List.getElem_zip] at eB gB
      rw [rd_of_lt ha1, rd_of_lt hb1]
      simp only [ok_bind]
      by_cases c1 : A.colids[ia] < B.colids[ib]
      · rw [if_pos c1, ih _ _ _ (by omega) (by omega) (by omega) tA iB', eA, sect_skip_left]
        rw [eB]
        intro y hy
        rcases List.mem_cons.1 hy with rfl | hy
        · simp only; omega
        · have := gB y hy; simp only at this ⊢; omega
      · rw [if_neg c1]
        by_cases c2 : B.colids[ib] < A.colids[ia]
        · rw [if_pos c2, ih _ _ _ (by omega) (by omega) (by omega) iA' tB, eB, sect_skip_right]
          rw [eA]
          intro y hy
          rcases List.mem_cons.1 hy with rfl | hy
          · simp only; omega
          · have := gA y hy; simp only at this ⊢; omega
        · rw [if_neg c2, rd_of_lt ha2, rd_of_lt hb2]
          simp only [ok_bind]
          rw [ih _ _ _ (by omega) (by omega) (by omega) tA tB, eA, eB]
          have he : B.colids[ib] = A.colids[ia] := by omega
          rw [he] at gB ⊢
          rw [sect_hit gA gB]
          simp
    · rw [if_neg hc]
      congr 1
      by_cases h : ia = ae
      · rw [slice_empty (lo := ia) (by omega)]; simp [sect]
      · rw [slice_empty (lo := ib) (by omega), sect_nil_right]; simp

theorem incRow {A : CSR V} (hA : A.WF) (sA : A.SortedRows) {i : Nat} (hi : i < A.rows) : Inc (A.row i) := by
  unfold Inc; rw [CSR.row_map_fst hA]; exact sA i hi

theorem mergeRow_eq {add : V → V → V} {A B : CSR V} (hA : A.WF) (hB : B.WF) (sA : A.SortedRows) (sB : B.SortedRows)
    (hr : A.rows = B.rows) {i : Nat} (hi : i < A.rows) :
    mergeRow add A B i = .ok (sect add (A.row i) (B.row i)) := by
  unfold mergeRow
  rw [CSR.rd_ptr hA (i := i) (by omega), ok_bind, CSR.rd_ptr hA (i := i + 1) (by omega), ok_bind,
    CSR.rd_ptr hB (i := i) (by omega), ok_bind, CSR.rd_ptr hB (i := i + 1) (by omega), ok_bind,
    merge_eq (by rw [hA.colLen, hA.valLen]) (by rw [hB.colLen, hB.valLen])
      (by rw [hA.colLen]; exact CSR.ptr_le_nnz hA (by omega)) (by rw [hB.colLen]; exact CSR.ptr_le_nnz hB (by omega))
      _ _ _ _ (hA.ptrMono i hi) (hB.ptrMono i (by omega)) (by omega) (incRow hA sA hi)
      (incRow hB sB (by omega))]
  rfl

theorem sect_cols {add : V → V → V} {xs ys : List (Nat × V)} {x : Nat × V} (h : x ∈ sect add xs ys) :
    ∃ a, (x.1, a) ∈ xs := by
  obtain ⟨c, v⟩ := x
  obtain ⟨a, _, h1, _⟩ := mem_sect.1 h
  exact ⟨a, h1⟩

theorem sect_sorted {add : V → V → V} {xs ys : List (Nat × V)} (hx : Inc xs) (hy : Inc ys) :
    ((sect add xs ys).map Prod.fst).Pairwise (· < ·) := by
  induction xs with
  | nil => simp [sect]
  | cons x xs ih =>
    have e : sect add (x :: xs) ys =
      (ys.filterMap fun y => if y.1 = x.1 then some (x.1, add x.2 y.2) else none) ++ sect add xs ys := by
      simp [sect]
    rw [e, List.map_append, List.pairwise_append]
    refine ⟨?_, ih hx.tail, ?_⟩
    · clear e ih
      induction ys with
      | nil => simp
      | cons y ys ih =>
        rw [List.filterMap_cons]
        by_cases h : y.1 = x.1
        · simp only [if_pos h]
          rw [filterMap_none (by intro z hz; have := hy.head z hz; omega)]
          simp
        · simp only [if_neg h]
          exact ih hy.tail
    · intro a ha b hb
      rw [List.mem_map] at ha hb
      obtain ⟨p, hp, rfl⟩ := ha
      obtain ⟨q, hq, rfl⟩ := hb
      rw [List.mem_filterMap] at hp
      obtain ⟨y, _, hy2⟩ := hp
      split at hy2
      · cases hy2
        obtain ⟨a, ha⟩ := sect_cols hq
        exact hx.head (q.1, a) ha
      · cases hy2

/-- The intersection matrix. -/
def sectMat (add : V → V → V) (A B : CSR V) : CSR V :=
  ofRows A.rows A.cols A.zerobased fun i => sect add (A.row i) (B.row i)

theorem intersect_eq {add : V → V → V} {A B : CSR V} (hA : A.WF) (hB : B.WF) (sA : A.SortedRows) (sB : B.SortedRows)
    (hr : A.rows = B.rows) (hc : A.cols = B.cols) (dflt : V) {n : Nat} {order1 order2 : List Nat} (s1 s2 : List Nat)
    (hsmall : A.rows + 1 < 2 ^ 17) (hn : 0 < n)
    (ho1 : order1.Perm (List.range A.rows)) (ho2 : order2.Perm (List.range A.rows)) :
    intersect add A B dflt n order1 s1 s2 order2 = .ok (some (sectMat add A B)) := by
  unfold intersect
  rw [if_neg (by omega)]
  obtain ⟨exp, hexp⟩ : ∃ exp, exp = fun i => sect add (A.row i) (B.row i) := ⟨_, rfl⟩
  have h1 := fillOrder (n := A.rows) (fun (s : List Nat × List (List (Nat × V))) i => do
      let xs ← mergeRow add A B i
      let vecs ← wr s.2 i xs
      let rowNz ← wr s.1 i xs.length
      .ok (rowNz, vecs))
    (fun D => (tab A.rows fun i => if D i then lens exp i else 0, tab A.rows fun i => if D i then exp i else []))
    order1 ho1 (by
      intro D i hi _
      simp only []
      rw [mergeRow_eq hA hB sA sB hr hi, ok_bind, wr_tab hi, ok_bind, wr_tab hi, ok_bind]
      congr 2
      · apply tab_ext
        intro j _
        by_cases hj : j = i
        · subst hj; rw [upd_same]; simp [lens, hexp]
        · rw [upd_ne _ _ hj]; simp [hj]
      · apply tab_ext
        intro j _
        by_cases hj : j = i
        · subst hj; rw [upd_same]; simp [hexp]
        · rw [upd_ne _ _ hj]; simp [hj])
  have e0 : ((List.replicate A.rows 0, List.replicate A.rows []) : List Nat × List (List (Nat × V))) =
      (tab A.rows fun i => if (fun _ => false : Nat → Bool) i then lens exp i else 0,
        tab A.rows fun i => if (fun _ => false : Nat → Bool) i then exp i else []) := by
    rw [Conv.replicate_eq_tab, Conv.replicate_eq_tab]; rfl
  rw [e0]
  refine (congrArg (· >>= _) h1).trans ?_
  simp only [ok_bind]
  have hs := UtilScan.scan_spec (inp := tab A.rows fun i => if decide (i < A.rows) then lens exp i else 0)
    (out := List.replicate (A.rows + 1) 0) (N := A.rows + 1) (f := lens exp) (by omega) hn (Or.inl hsmall)
    (by
      intro i hi
      have hi : i < A.rows := by omega
      rw [tab_getElem? hi]; simp [hi]) (by simp) s1 s2
  have hs2 : UtilScan.scan (tab A.rows fun i => if decide (i < A.rows) then lens exp i else 0) (A.rows + 1)
      (List.replicate (A.rows + 1) 0) n s1 s2 = .ok (some (tab (A.rows + 1) (psum (lens exp)))) := by
    rcases hs with ⟨h, -⟩ | h
    · unfold UtilScan.scan at h
      rw [if_pos hsmall] at h
      cases hq : UtilScan.seqScan (tab A.rows fun i => if decide (i < A.rows) then lens exp i else 0) (A.rows + 1)
          (List.replicate (A.rows + 1) 0) with
      | error e => rw [hq] at h; simp at h
      | ok d => rw [hq] at h; simp at h
    · exact h
  rw [hs2]
  simp only [ok_bind]
  rw [rd_tab (by omega)]
  simp only [ok_bind]
  have h2 := fillOrder (n := A.rows) (fun (s : List Nat × List V) i => do
      let xs ← rd (tab A.rows fun i => if decide (i < A.rows) then exp i else []) i
      let off ← rd (tab (A.rows + 1) (psum (lens exp))) i
      copyRow off xs s)
    (fun D => ((partly exp (0, dflt) D A.rows).map (·.1), (partly exp (0, dflt) D A.rows).map (·.2)))
    order2 ho2 (by
      intro D i hi _
      rw [rd_tab hi, ok_bind, rd_tab (by omega), ok_bind]
      simp only [hi, decide_true, if_true]
      have hm : psum (lens exp) i + (exp i).length = psum (lens exp) (i + 1) := rfl
      unfold copyRow
      rw [copyAt_eq _ _ _ (by rw [partly_length, hm]; exact psum_mono hi), hm, partly_add _ _ _ hi])
  have e1 : ((List.replicate (psum (lens exp) A.rows) 0, List.replicate (psum (lens exp) A.rows) dflt) : List Nat × List V) =
      ((partly exp (0, dflt) (fun _ => false) A.rows).map (·.1), (partly exp (0, dflt) (fun _ => false) A.rows).map (·.2)) := by
    rw [partly_none]; simp
  rw [e1]
  refine (congrArg (· >>= _) h2).trans ?_
  simp only [ok_bind]
  rw [partly_all]
  unfold sectMat ofRows
  rw [← hexp]

end Verif.Model.Intersect
