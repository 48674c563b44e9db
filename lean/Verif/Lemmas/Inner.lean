import Verif.Model.Inner
import Verif.SpecCsc
import Verif.Lemmas.Masked

/-! # Inner product: the row functions produce the expected rows -/

namespace Verif.Model.Inner

open Spec (contribsC dotC ValidC)

variable {V : Type}

/-! ## Columns -/

section Col
variable {B : CSC V}

theorem rd_cptr (h : B.WF) {j : Nat} (hj : j ≤ B.cols) : rd B.colptr j = .ok (B.ptr j) := by
  rw [rd_of_lt (by rw [h.ptrLen]; omega)]
  simp [CSC.ptr, List.getD_eq_getElem?_getD, List.getElem?_eq_getElem (show j < B.colptr.length by rw [h.ptrLen]; omega)]

theorem cptr_le (h : B.WF) {i j : Nat} (hij : i ≤ j) (hj : j ≤ B.cols) : B.ptr i ≤ B.ptr j := by
  induction j with
  | zero => have : i = 0 := by omega
            subst this; exact Nat.le_refl _
  | succ j ih =>
    rcases Nat.lt_or_ge i (j + 1) with h1 | h1
    · have := ih (by omega) (by omega)
      have := h.ptrMono j (by omega)
      omega
    · have : i = j + 1 := by omega
      subst this; exact Nat.le_refl _

theorem cptr_le_nnz (h : B.WF) {j : Nat} (hj : j ≤ B.cols) : B.ptr j ≤ B.nnz := by
  rw [← h.ptrLast]; exact cptr_le h hj (Nat.le_refl _)

theorem czip_length (h : B.WF) : (B.rowids.zip B.values).length = B.nnz := by
  simp [h.rowLen, h.valLen]

theorem col_map_fst (h : B.WF) (j : Nat) : (B.col j).map Prod.fst = B.colRows j := by
  unfold CSC.col CSC.colRows
  rw [slice_map, List.map_fst_zip (by rw [h.rowLen, h.valLen]; exact Nat.le_refl _)]

theorem col_length (h : B.WF) {j : Nat} (hj : j < B.cols) : (B.col j).length = B.ptr (j + 1) - B.ptr j := by
  unfold CSC.col
  rw [slice_length (by rw [czip_length h]; exact cptr_le_nnz h hj)]

end Col

/-! ## The merge -/

/-- Products of two lists of pairs with the same key. -/
def common (mul : V → V → V) (xs ys : List (Nat × V)) : List V :=
  xs.flatMap fun ka => ys.filterMap fun kb => if kb.1 = ka.1 then some (mul ka.2 kb.2) else none

/-- Sum that continues a previous one. -/
def sumFrom (add : V → V → V) (v : Option V) (l : List V) : Option V :=
  match v with
  | none => Spec.sum1 add l
  | some w => some (l.foldl add w)

theorem common_skip_left {mul : V → V → V} {x : Nat × V} {xs ys : List (Nat × V)} (h : ∀ y ∈ ys, y.1 ≠ x.1) :
    common mul (x :: xs) ys = common mul xs ys := by
  unfold common
  rw [List.flatMap_cons]
  have : (ys.filterMap fun kb => if kb.1 = x.1 then some (mul x.2 kb.2) else none) = [] := by
    rw [List.filterMap_eq_nil_iff]
    intro y hy
    rw [if_neg (h y hy)]
  rw [this]; rfl

theorem common_skip_right {mul : V → V → V} {y : Nat × V} {xs ys : List (Nat × V)} (h : ∀ x ∈ xs, y.1 ≠ x.1) :
    common mul xs (y :: ys) = common mul xs ys := by
  induction xs with
  | nil => rfl
  | cons x xs ih =>
    have h1 := ih (fun x hx => h x (by simp [hx]))
    unfold common at *
    rw [List.flatMap_cons, List.flatMap_cons, h1, List.filterMap_cons, if_neg (h x (by simp))]

theorem common_hit {mul : V → V → V} {x y : Nat × V} {xs ys : List (Nat × V)} (he : y.1 = x.1)
    (hx : ∀ z ∈ xs, x.1 < z.1) (hy : ∀ z ∈ ys, y.1 < z.1) :
    common mul (x :: xs) (y :: ys) = mul x.2 y.2 :: common mul xs ys := by
  have h1 : common mul xs (y :: ys) = common mul xs ys :=
    common_skip_right fun z hz => by have := hx z hz; omega
  rw [← h1]
  unfold common
  rw [List.flatMap_cons, List.filterMap_cons, if_pos he]
  have : (ys.filterMap fun kb => if kb.1 = x.1 then some (mul x.2 kb.2) else none) = [] := by
    rw [List.filterMap_eq_nil_iff]
    intro z hz
    rw [if_neg (by have := hy z hz; omega)]
  simp [this]

theorem common_nil_right {mul : V → V → V} {xs : List (Nat × V)} : common mul xs [] = [] := by
  unfold common; simp

/-- Strictly increasing keys. -/
abbrev Inc (l : List (Nat × V)) : Prop := (l.map Prod.fst).Pairwise (· < ·)

theorem Inc.head {x : Nat × V} {l : List (Nat × V)} (h : Inc (x :: l)) : ∀ z ∈ l, x.1 < z.1 := by
  intro z hz
  unfold Inc at h
  rw [List.map_cons, List.pairwise_cons] at h
  exact h.1 _ (List.mem_map.2 ⟨z, hz, rfl⟩)

theorem Inc.tail {x : Nat × V} {l : List (Nat × V)} (h : Inc (x :: l)) : Inc l := by
  unfold Inc at *
  rw [List.map_cons, List.pairwise_cons] at h
  exact h.2

theorem mergeNum_eq {mul add : V → V → V} {A : CSR V} {B : CSC V} {ae be : Nat}
    (hA : A.colids.length = A.values.length) (hB : B.rowids.length = B.values.length)
    (hae : ae ≤ A.colids.length) (hbe : be ≤ B.rowids.length) :
    ∀ (fuel ia ib : Nat) (v : Option V), ia < ae → ib < be → (ae - ia) + (be - ib) ≤ fuel →
      Inc (slice (A.colids.zip A.values) ia ae) → Inc (slice (B.rowids.zip B.values) ib be) →
      mergeNum mul add A B ae be fuel ia ib v =
        .ok (sumFrom add v (common mul (slice (A.colids.zip A.values) ia ae) (slice (B.rowids.zip B.values) ib be))) := by
  intro fuel
  induction fuel with
  | zero => intro ia ib v h1 h2 h3; omega
  | succ fuel ih =>
    intro ia ib v h1 h2 h3 iA iB
    have ha : ia < (A.colids.zip A.values).length := by simp; omega
    have hb : ib < (B.rowids.zip B.values).length := by simp; omega
    have ha1 : ia < A.colids.length := by omega
    have ha2 : ia < A.values.length := by omega
    have hb1 : ib < B.rowids.length := by omega
    have hb2 : ib < B.values.length := by omega
    have eA := slice_succ h1 ha
    have eB := slice_succ h2 hb
    rw [eA] at iA
    rw [eB] at iB
    have gA := iA.head
    have gB := iB.head
    have tA := iA.tail
    have tB := iB.tail
    rw [List.getElem_zip] at eA gA
    rw [List.getElem_zip] at eB gB
    unfold mergeNum
    rw [rd_of_lt ha1, rd_of_lt hb1]
    simp only [ok_bind]
    by_cases c1 : A.colids[ia] < B.rowids[ib]
    · rw [if_pos c1]
      have hs : common mul (slice (A.colids.zip A.values) ia ae) (slice (B.rowids.zip B.values) ib be) =
          common mul (slice (A.colids.zip A.values) (ia + 1) ae) (slice (B.rowids.zip B.values) ib be) := by
        rw [eA]
        apply common_skip_left
        rw [eB]
        intro y hy
        rcases List.mem_cons.1 hy with rfl | hy
        · simp only; omega
        · have := gB y hy; simp only at this ⊢; omega
      rw [hs]
      by_cases c2 : ia + 1 = ae
      · rw [if_pos c2, slice_empty (lo := ia + 1) (by omega)]
        cases v <;> rfl
      · rw [if_neg c2]
        exact ih (ia + 1) ib v (by omega) h2 (by omega) tA (by rw [slice_succ h2 hb]; exact iB)
    · rw [if_neg c1]
      by_cases c2 : B.rowids[ib] < A.colids[ia]
      · rw [if_pos c2]
        have hs : common mul (slice (A.colids.zip A.values) ia ae) (slice (B.rowids.zip B.values) ib be) =
            common mul (slice (A.colids.zip A.values) ia ae) (slice (B.rowids.zip B.values) (ib + 1) be) := by
          rw [eB]
          apply common_skip_right
          rw [eA]
          intro y hy
          rcases List.mem_cons.1 hy with rfl | hy
          · simp only; omega
          · have := gA y hy; simp only at this ⊢; omega
        rw [hs]
        by_cases c3 : ib + 1 = be
        · rw [if_pos c3, slice_empty (lo := ib + 1) (by omega), common_nil_right]
          cases v <;> rfl
        · rw [if_neg c3]
          exact ih ia (ib + 1) v h1 (by omega) (by omega) (by rw [slice_succ h1 ha]; exact iA) tB
      · rw [if_neg c2]
        have he : B.rowids[ib] = A.colids[ia] := by omega
        rw [eA, eB, common_hit he gA gB, rd_of_lt ha2, rd_of_lt hb2]
        simp only [ok_bind]
        have hv : ∀ l, sumFrom add v (mul A.values[ia] B.values[ib] :: l) =
            sumFrom add (some (match v with
              | some w => add w (mul A.values[ia] B.values[ib])
              | none => mul A.values[ia] B.values[ib])) l := by
          intro l; cases v <;> rfl
        rw [hv]
        by_cases c3 : ia + 1 = ae
        · rw [if_pos c3, slice_empty (lo := ia + 1) (by omega)]
          rfl
        · rw [if_neg c3]
          by_cases c4 : ib + 1 = be
          · rw [if_pos c4, slice_empty (l := B.rowids.zip B.values) (lo := ib + 1) (by omega), common_nil_right]
            rfl
          · rw [if_neg c4]
            exact ih (ia + 1) (ib + 1) _ (by omega) (by omega) (by omega) tA tB

theorem mergeSym_eq (mul : V → V → V) {A : CSR V} {B : CSC V} {ae be : Nat}
    (hA : A.colids.length = A.values.length) (hB : B.rowids.length = B.values.length)
    (hae : ae ≤ A.colids.length) (hbe : be ≤ B.rowids.length) :
    ∀ (fuel ia ib : Nat), ia < ae → ib < be → (ae - ia) + (be - ib) ≤ fuel →
      Inc (slice (A.colids.zip A.values) ia ae) → Inc (slice (B.rowids.zip B.values) ib be) →
      mergeSym A B ae be fuel ia ib =
        .ok (!(common mul (slice (A.colids.zip A.values) ia ae) (slice (B.rowids.zip B.values) ib be)).isEmpty) := by
  intro fuel
  induction fuel with
  | zero => intro ia ib h1 h2 h3; omega
  | succ fuel ih =>
    intro ia ib h1 h2 h3 iA iB
    have ha : ia < (A.colids.zip A.values).length := by simp; omega
    have hb : ib < (B.rowids.zip B.values).length := by simp; omega
    have ha1 : ia < A.colids.length := by omega
    have hb1 : ib < B.rowids.length := by omega
    have eA := slice_succ h1 ha
    have eB := slice_succ h2 hb
    rw [eA] at iA
    rw [eB] at iB
    have gA := iA.head
    have gB := iB.head
    have tA := iA.tail
    have tB := iB.tail
    rw [List.getElem_zip] at eA gA
    rw [List.getElem_zip] at eB gB
    unfold mergeSym
    rw [rd_of_lt ha1, rd_of_lt hb1]
    simp only [ok_bind]
    by_cases c1 : A.colids[ia] < B.rowids[ib]
    · rw [if_pos c1]
      have hs : common mul (slice (A.colids.zip A.values) ia ae) (slice (B.rowids.zip B.values) ib be) =
          common mul (slice (A.colids.zip A.values) (ia + 1) ae) (slice (B.rowids.zip B.values) ib be) := by
        rw [eA]
        apply common_skip_left
        rw [eB]
        intro y hy
        rcases List.mem_cons.1 hy with rfl | hy
        · simp only; omega
        · have := gB y hy; simp only at this ⊢; omega
      rw [hs]
      by_cases c2 : ia + 1 = ae
      · rw [if_pos c2, slice_empty (lo := ia + 1) (by omega)]
        rfl
      · rw [if_neg c2]
        exact ih (ia + 1) ib (by omega) h2 (by omega) tA (by rw [slice_succ h2 hb]; exact iB)
    · rw [if_neg c1]
      by_cases c2 : B.rowids[ib] < A.colids[ia]
      · rw [if_pos c2]
        have hs : common mul (slice (A.colids.zip A.values) ia ae) (slice (B.rowids.zip B.values) ib be) =
            common mul (slice (A.colids.zip A.values) ia ae) (slice (B.rowids.zip B.values) (ib + 1) be) := by
          rw [eB]
          apply common_skip_right
          rw [eA]
          intro y hy
          rcases List.mem_cons.1 hy with rfl | hy
          · simp only; omega
          · have := gA y hy; simp only at this ⊢; omega
        rw [hs]
        by_cases c3 : ib + 1 = be
        · rw [if_pos c3, slice_empty (lo := ib + 1) (by omega), common_nil_right]
          rfl
        · rw [if_neg c3]
          exact ih ia (ib + 1) h1 (by omega) (by omega) (by rw [slice_succ h1 ha]; exact iA) tB
      · rw [if_neg c2]
        have he : B.rowids[ib] = A.colids[ia] := by omega
        rw [eA, eB, common_hit he gA gB]
        rfl

/-! ## Rows -/

/-- The row to be produced. -/
def innerRow (mul add : V → V → V) (A : CSR V) (B : CSC V) (M : CSR V) (i : Nat) : List (Nat × V) :=
  (M.rowCols i).filterMap fun j => (dotC mul add A B i j).map fun v => (j, v)

section Row
variable {A : CSR V} {B : CSC V} {M : CSR V}

theorem incA (h : ValidC A B M) {i : Nat} (hi : i < A.rows) : Inc (A.row i) := by
  unfold Inc; rw [CSR.row_map_fst h.wfA]; exact h.sortedA i hi

theorem incB (h : ValidC A B M) {j : Nat} (hj : j < B.cols) : Inc (B.col j) := by
  unfold Inc; rw [col_map_fst h.wfB]; exact h.sortedB j hj

theorem mask_lt (h : ValidC A B M) {i j : Nat} (hj : j ∈ M.rowCols i) : j < B.cols := by
  rw [← h.mb]; exact CSR.rowCols_lt h.wfM hj

theorem dotC_nilA {mul add : V → V → V} {i j : Nat} (h : A.row i = []) : dotC mul add A B i j = none := by
  unfold dotC contribsC; rw [h]; rfl

theorem dotC_nilB {mul add : V → V → V} {i j : Nat} (h : B.col j = []) : dotC mul add A B i j = none := by
  have : contribsC mul A B i j = [] := by unfold contribsC; rw [h]; simp
  unfold dotC; rw [this]; rfl

theorem numericRow_eq (mul add : V → V → V) (h : ValidC A B M) {i : Nat} (hi : i < A.rows) :
    numericRow mul add A B M i = .ok (innerRow mul add A B M i) := by
  have hiM : i < M.rows := h.ma ▸ hi
  unfold numericRow
  rw [CSR.rd_ptr h.wfM (Nat.le_of_lt hiM), CSR.rd_ptr h.wfM hiM]
  simp only [ok_bind]
  rw [forRange_eq_slice (L := M.colids) (g := fun out c => .ok (out ++ ((dotC mul add A B i c).map fun v => (c, v)).toList))
    (by rw [h.wfM.colLen]; exact CSR.ptr_le_nnz h.wfM hiM)]
  · show (M.rowCols i).foldlM _ [] = _
    unfold innerRow
    refine (foldlM_desc (fun pre => pre.filterMap fun j => (dotC mul add A B i j).map fun v => (j, v)) _ ?_)
    intro pre a post _
    rw [List.filterMap_append]
    cases hd : dotC mul add A B i a <;> simp [hd]
  · intro k hk k1 k2 out
    have hc : M.colids[k] < B.cols := by
      rw [← h.mb]; exact h.wfM.inBounds _ (List.getElem_mem hk)
    rw [CSR.rd_ptr h.wfA (Nat.le_of_lt hi), CSR.rd_ptr h.wfA (i := i + 1) hi, rd_of_lt hk]
    simp only [ok_bind]
    by_cases c1 : A.ptr i = A.ptr (i + 1)
    · rw [if_pos c1]
      have hn : A.row i = [] := by
        rw [← List.length_eq_zero_iff, CSR.row_length h.wfA hi]; omega
      rw [dotC_nilA hn]; simp
    · rw [if_neg c1, rd_cptr h.wfB (Nat.le_of_lt hc), rd_cptr h.wfB (j := M.colids[k] + 1) hc]
      simp only [ok_bind]
      by_cases c2 : B.ptr M.colids[k] = B.ptr (M.colids[k] + 1)
      · rw [if_pos c2]
        have hn : B.col M.colids[k] = [] := by
          rw [← List.length_eq_zero_iff, col_length h.wfB hc]; omega
        rw [dotC_nilB hn]; simp
      · rw [if_neg c2]
        have m1 := h.wfA.ptrMono i hi
        have m2 := h.wfB.ptrMono _ hc
        rw [mergeNum_eq (by rw [h.wfA.colLen, h.wfA.valLen]) (by rw [h.wfB.rowLen, h.wfB.valLen])
          (by rw [h.wfA.colLen]; exact CSR.ptr_le_nnz h.wfA hi) (by rw [h.wfB.rowLen]; exact cptr_le_nnz h.wfB hc)
          _ _ _ _ (by omega) (by omega) (Nat.le_refl _) (incA h hi) (incB h hc)]
        simp only [ok_bind]
        have : sumFrom add none (common mul (slice (A.colids.zip A.values) (A.ptr i) (A.ptr (i + 1)))
            (slice (B.rowids.zip B.values) (B.ptr M.colids[k]) (B.ptr (M.colids[k] + 1)))) =
            dotC mul add A B i M.colids[k] := rfl
        rw [this]
        cases hd : dotC mul add A B i M.colids[k] <;> simp

theorem symbolicRow_eq (mul add : V → V → V) (h : ValidC A B M) {i : Nat} (hi : i < A.rows) :
    symbolicRow A B M i = .ok (innerRow mul add A B M i).length := by
  have hiM : i < M.rows := h.ma ▸ hi
  unfold symbolicRow
  rw [CSR.rd_ptr h.wfM (Nat.le_of_lt hiM), CSR.rd_ptr h.wfM hiM]
  simp only [ok_bind]
  rw [forRange_eq_slice (L := M.colids)
    (g := fun cnt c => .ok (cnt + ((dotC mul add A B i c).map fun v => (c, v)).toList.length))
    (by rw [h.wfM.colLen]; exact CSR.ptr_le_nnz h.wfM hiM)]
  · show (M.rowCols i).foldlM _ 0 = _
    unfold innerRow
    refine (foldlM_desc (fun pre => (pre.filterMap fun j => (dotC mul add A B i j).map fun v => (j, v)).length) _ ?_)
    intro pre a post _
    rw [List.filterMap_append, List.length_append]
    cases hd : dotC mul add A B i a <;> simp [hd]
  · intro k hk k1 k2 cnt
    have hc : M.colids[k] < B.cols := by
      rw [← h.mb]; exact h.wfM.inBounds _ (List.getElem_mem hk)
    rw [CSR.rd_ptr h.wfA (Nat.le_of_lt hi), CSR.rd_ptr h.wfA (i := i + 1) hi, rd_of_lt hk]
    simp only [ok_bind]
    by_cases c1 : A.ptr i = A.ptr (i + 1)
    · rw [if_pos c1]
      have hn : A.row i = [] := by
        rw [← List.length_eq_zero_iff, CSR.row_length h.wfA hi]; omega
      rw [dotC_nilA hn]; simp
    · rw [if_neg c1, rd_cptr h.wfB (Nat.le_of_lt hc), rd_cptr h.wfB (j := M.colids[k] + 1) hc]
      simp only [ok_bind]
      by_cases c2 : B.ptr M.colids[k] = B.ptr (M.colids[k] + 1)
      · rw [if_pos c2]
        have hn : B.col M.colids[k] = [] := by
          rw [← List.length_eq_zero_iff, col_length h.wfB hc]; omega
        rw [dotC_nilB hn]; simp
      · rw [if_neg c2]
        have m1 := h.wfA.ptrMono i hi
        have m2 := h.wfB.ptrMono _ hc
        rw [mergeSym_eq mul (by rw [h.wfA.colLen, h.wfA.valLen]) (by rw [h.wfB.rowLen, h.wfB.valLen])
          (by rw [h.wfA.colLen]; exact CSR.ptr_le_nnz h.wfA hi) (by rw [h.wfB.rowLen]; exact cptr_le_nnz h.wfB hc)
          _ _ _ (by omega) (by omega) (Nat.le_refl _) (incA h hi) (incB h hc)]
        simp only [ok_bind]
        have e : common mul (slice (A.colids.zip A.values) (A.ptr i) (A.ptr (i + 1)))
            (slice (B.rowids.zip B.values) (B.ptr M.colids[k]) (B.ptr (M.colids[k] + 1))) =
            contribsC mul A B i M.colids[k] := rfl
        rw [e]
        unfold dotC
        cases hd : contribsC mul A B i M.colids[k] <;> simp [Spec.sum1]

theorem innerRow_length_le (mul add : V → V → V) (h : ValidC A B M) {i : Nat} (hi : i < A.rows) :
    (innerRow mul add A B M i).length ≤ M.ptr (i + 1) - M.ptr i := by
  rw [← CSR.rowCols_length h.wfM (h.ma ▸ hi)]
  exact List.length_filterMap_le _ _

/-- Work of a row. -/
def workOf (A : CSR V) (B : CSC V) (M : CSR V) (i : Nat) : Nat :=
  ((M.rowCols i).map fun c =>
    if (A.row i).length ≠ 0 ∧ (B.col c).length ≠ 0 then (A.row i).length + (B.col c).length else 0).sum

theorem workRow_eq (h : ValidC A B M) {i : Nat} (hi : i < A.rows) : workRow A B M i = .ok (workOf A B M i) := by
  have hiM : i < M.rows := h.ma ▸ hi
  unfold workRow
  rw [CSR.rd_ptr h.wfM (Nat.le_of_lt hiM), CSR.rd_ptr h.wfM hiM]
  simp only [ok_bind]
  rw [forRange_eq_slice (L := M.colids)
    (g := fun w c => .ok (w + (if (A.row i).length ≠ 0 ∧ (B.col c).length ≠ 0 then
      (A.row i).length + (B.col c).length else 0)))
    (by rw [h.wfM.colLen]; exact CSR.ptr_le_nnz h.wfM hiM)]
  · show (M.rowCols i).foldlM _ 0 = _
    unfold workOf
    refine (foldlM_desc (fun pre => (pre.map fun c =>
      if (A.row i).length ≠ 0 ∧ (B.col c).length ≠ 0 then (A.row i).length + (B.col c).length else 0).sum) _ ?_)
    intro pre a post _
    rw [List.map_append, List.sum_append]
    simp
  · intro k hk k1 k2 w
    have hc : M.colids[k] < B.cols := by
      rw [← h.mb]; exact h.wfM.inBounds _ (List.getElem_mem hk)
    rw [rowLen_eq h.wfA hi, rd_of_lt hk]
    simp only [ok_bind]
    rw [rd_cptr h.wfB (Nat.le_of_lt hc), rd_cptr h.wfB (j := M.colids[k] + 1) hc]
    simp only [ok_bind, ← col_length h.wfB hc]
    split <;> simp

theorem le_sum_of_mem {l : List Nat} {x : Nat} (h : x ∈ l) : x ≤ l.sum := by
  induction l with
  | nil => cases h
  | cons y l ih =>
    rw [List.sum_cons]
    rcases List.mem_cons.1 h with rfl | h
    · omega
    · have := ih h; omega

theorem innerRow_nil (mul add : V → V → V) {i : Nat} (hw : workOf A B M i = 0) : innerRow mul add A B M i = [] := by
  unfold innerRow
  rw [List.filterMap_eq_nil_iff]
  intro c hc
  unfold workOf at hw
  have := le_sum_of_mem (List.mem_map.2 ⟨c, hc, rfl⟩ : _ ∈ (M.rowCols i).map fun c =>
    if (A.row i).length ≠ 0 ∧ (B.col c).length ≠ 0 then (A.row i).length + (B.col c).length else 0)
  rw [hw] at this
  by_cases hA : A.row i = []
  · rw [dotC_nilA hA]; rfl
  · by_cases hB : B.col c = []
    · rw [dotC_nilB hB]; rfl
    · have h1 : (A.row i).length ≠ 0 := fun h => hA (List.length_eq_zero_iff.1 h)
      have h2 : (B.col c).length ≠ 0 := fun h => hB (List.length_eq_zero_iff.1 h)
      rw [if_pos ⟨h1, h2⟩] at this
      omega

theorem verifyInputs_ok (h : ValidC A B M) : verifyInputs A B M = .ok () := by
  unfold verifyInputs
  simp [h.ab, h.ma, h.mb]

theorem calculateWork_eq (h : ValidC A B M) {order : List Nat} (ho : order.Perm (List.range M.rows)) :
    calculateWork A B M order =
      .ok (tab M.rows (fun i => some (workOf A B M i)), psum (workOf A B M) M.rows) := by
  unfold calculateWork
  have hlt : ∀ i ∈ order, i < M.rows := fun i hi => by simpa using ho.mem_iff.1 hi
  have := foldlM_desc (f := fun (x : List (Option Nat) × Nat) i => (do
      let f ← workRow A B M i
      let fpr ← wr x.1 i (some f)
      .ok (fpr, x.2 + f) : Res (List (Option Nat) × Nat)))
    (fun pre => (tab M.rows (fun i => if i ∈ pre then some (workOf A B M i) else none),
      (pre.map (workOf A B M)).sum)) order (by
    intro pre a post hl
    have ha : a < M.rows := hlt a (by simp [hl])
    have h3 : tab M.rows (upd (fun i => if i ∈ pre then some (workOf A B M i) else none) a
        (some (workOf A B M a))) =
        tab M.rows (fun i => if i ∈ pre ++ [a] then some (workOf A B M i) else none) := by
      congr 1; funext i
      by_cases hi : i = a <;> simp [upd, hi]
    simp only [workRow_eq h (show a < A.rows from h.ma ▸ ha), ok_bind, wr_tab ha, h3]
    simp)
  have e0 : (List.replicate M.rows none, 0) =
      ((tab M.rows (fun i => if i ∈ ([] : List Nat) then some (workOf A B M i) else none),
      ((([] : List Nat)).map (workOf A B M)).sum) : List (Option Nat) × Nat) := by
    congr 1
    apply List.ext_getElem?
    intro i
    by_cases hi : i < M.rows
    · rw [tab_getElem? hi]; simp [hi]
    · simp [tab, hi]
  rw [e0]
  refine this.trans ?_
  congr 2
  · apply tab_ext
    intro i hi
    rw [if_pos (ho.mem_iff.2 (by simpa using hi))]
  · rw [← sum_map_range]
    exact (ho.map _).sum_nat

end Row

end Verif.Model.Inner
