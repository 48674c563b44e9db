import Verif.Lemmas.Driver
import Verif.Lemmas.Expected

/-! # The matrix of the expected rows meets the specification -/

namespace Verif.Model

variable {V : Type}

theorem nodup_length_le {α : Type} : ∀ {l l' : List α}, l.Nodup → (∀ x ∈ l, x ∈ l') → l.length ≤ l'.length := by
  intro l
  induction l with
  | nil => intro l' _ _; simp
  | cons a l ih =>
    intro l' hn hs
    obtain ⟨s, t, rfl⟩ := List.append_of_mem (hs a (by simp))
    rw [List.nodup_cons] at hn
    have := ih (l' := s ++ t) hn.2 (by
      intro x hx
      have h1 := hs x (by simp [hx])
      have h2 : x ≠ a := fun h => hn.1 (h ▸ hx)
      simpa [h2] using h1)
    simp at this ⊢; omega

theorem dot_mem_visits {mul add : V → V → V} {A B : CSR V} {i j : Nat} {v : V}
    (h : Spec.dot mul add A B i j = some v) : j ∈ (visits A B i).map (·.1) := by
  rw [dot_eq] at h
  have hne : pick (prods mul A B i) j ≠ [] := by
    intro h'; rw [h'] at h; simp [Spec.sum1] at h
  rw [Ne, pick_eq_nil] at hne
  by_cases hm : j ∈ (visits A B i).map (·.1)
  · exact hm
  · exfalso
    apply hne
    intro p hp hpj
    apply hm
    unfold prods at hp
    rw [List.mem_map] at hp
    obtain ⟨x, hx, rfl⟩ := hp
    rw [List.mem_map]
    exact ⟨x, hx, hpj⟩

theorem mem_visits_dot (mul add : V → V → V) {A B : CSR V} {i j : Nat} (h : j ∈ (visits A B i).map (·.1)) :
    ∃ v, Spec.dot mul add A B i j = some v := by
  cases hd : Spec.dot mul add A B i j with
  | some v => exact ⟨v, rfl⟩
  | none =>
    exfalso
    rw [dot_eq, sum1_eq_none, pick_eq_nil] at hd
    rw [List.mem_map] at h
    obtain ⟨x, hx, rfl⟩ := h
    exact hd (x.1, mul x.2.1 x.2.2) (by unfold prods; rw [List.mem_map]; exact ⟨x, hx, rfl⟩) rfl

theorem mem_maskedRow {mul add : V → V → V} {A B M : CSR V} {i j : Nat} {v : V} :
    (j, v) ∈ maskedRow mul add A B M i ↔ j ∈ M.rowCols i ∧ Spec.dot mul add A B i j = some v := by
  unfold maskedRow
  rw [List.mem_filterMap]
  constructor
  · rintro ⟨k, hk, h⟩
    cases hd : Spec.dot mul add A B i k with
    | none => rw [hd] at h; simp at h
    | some w =>
      rw [hd] at h
      simp at h
      obtain ⟨rfl, rfl⟩ := h
      exact ⟨hk, hd⟩
  · rintro ⟨h1, h2⟩
    exact ⟨j, h1, by rw [h2]; rfl⟩

theorem filterMap_fst_sublist {f : Nat → Option V} : ∀ (l : List Nat),
    ((l.filterMap fun j => (f j).map fun v => (j, v)).map Prod.fst).Sublist l := by
  intro l
  induction l with
  | nil => simp
  | cons a l ih =>
    rw [List.filterMap_cons]
    cases h : f a with
    | none => simp only [Option.map_none]; exact ih.cons a
    | some v => simp only [Option.map_some, List.map_cons]; exact ih.cons_cons a

theorem maskedRow_sublist (mul add : V → V → V) (A B M : CSR V) (i : Nat) :
    ((maskedRow mul add A B M i).map Prod.fst).Sublist (M.rowCols i) :=
  filterMap_fst_sublist _

theorem mem_complRow {sorted : Bool} {mul add : V → V → V} {A B M : CSR V} {i j : Nat} {v : V} :
    (j, v) ∈ complRow sorted mul add A B M i ↔ j ∉ M.rowCols i ∧ Spec.dot mul add A B i j = some v := by
  unfold complRow
  rw [List.mem_filterMap]
  have hm : ∀ k, k ∈ (if sorted = true then (complCols A B M i).mergeSort (· ≤ ·) else complCols A B M i) ↔
      k ∈ (visits A B i).map (·.1) ∧ k ∉ M.rowCols i := by
    intro k
    have : k ∈ complCols A B M i ↔ k ∈ (visits A B i).map (·.1) ∧ k ∉ M.rowCols i := by
      unfold complCols; rw [mem_firsts, List.mem_filter]; simp
    cases sorted
    · simpa using this
    · simpa using this
  constructor
  · rintro ⟨k, hk, h⟩
    cases hd : Spec.dot mul add A B i k with
    | none => rw [hd] at h; simp at h
    | some w =>
      rw [hd] at h
      simp at h
      obtain ⟨rfl, rfl⟩ := h
      exact ⟨((hm k).1 hk).2, hd⟩
  · rintro ⟨h1, h2⟩
    exact ⟨j, (hm j).2 ⟨dot_mem_visits h2, h1⟩, by rw [h2]; rfl⟩

theorem complCols_nodup (A B M : CSR V) (i : Nat) : (complCols A B M i).Nodup := firsts_nodup _

theorem sortedCols_nodup (sorted : Bool) (A B M : CSR V) (i : Nat) :
    (if sorted = true then (complCols A B M i).mergeSort (· ≤ ·) else complCols A B M i).Nodup := by
  cases sorted
  · simpa using complCols_nodup A B M i
  · simp only [if_true]
    exact ((List.mergeSort_perm _ _).nodup_iff).2 (complCols_nodup A B M i)

theorem complRow_nodup (sorted : Bool) (mul add : V → V → V) (A B M : CSR V) (i : Nat) :
    ((complRow sorted mul add A B M i).map Prod.fst).Nodup :=
  (filterMap_fst_sublist _).nodup (sortedCols_nodup sorted A B M i)

/-- Sorted complement rows are strictly increasing. -/
theorem complRow_sorted (mul add : V → V → V) (A B M : CSR V) (i : Nat) :
    ((complRow true mul add A B M i).map Prod.fst).Pairwise (· < ·) := by
  have h1 : ((complCols A B M i).mergeSort (· ≤ ·)).Pairwise (· ≤ ·) := by
    have := List.pairwise_mergeSort (le := fun a b : Nat => decide (a ≤ b))
      (fun a b c => by simp; omega) (fun a b => by simp; omega) (complCols A B M i)
    exact this.imp (by simp)
  have h2 := sortedCols_nodup true A B M i
  simp only [if_true] at h2
  have h3 : ((complCols A B M i).mergeSort (· ≤ ·)).Pairwise (· < ·) := by
    have := h1.and h2
    exact this.imp (by rintro a b ⟨h, h'⟩; omega)
  have h4 : ((complRow true mul add A B M i).map Prod.fst).Sublist ((complCols A B M i).mergeSort (· ≤ ·)) :=
    filterMap_fst_sublist _
  exact h3.sublist h4

theorem maskedRow_bound {mul add : V → V → V} {A B M : CSR V} (hM : M.WF) {i : Nat}
    (hnd : (M.rowCols i).Nodup) :
    (maskedRow mul add A B M i).length ≤ boundOf false A B M i := by
  have h1 : (maskedRow mul add A B M i).length ≤ (M.row i).length := by
    have := (maskedRow_sublist mul add A B M i).length_le
    rw [← CSR.row_map_fst hM] at this
    simpa using this
  have h2 : (maskedRow mul add A B M i).length ≤ flopsOf false A B M i := by
    unfold flopsOf
    simp only [Bool.false_eq_true, if_false]
    by_cases h : M.rowCols i = []
    · simp [h, maskedRow]
    · rw [if_neg h]
      have := nodup_length_le (l := (maskedRow mul add A B M i).map Prod.fst) (l' := (visits A B i).map (·.1))
        ((maskedRow_sublist mul add A B M i).nodup hnd) (by
          intro j hj
          rw [List.mem_map] at hj
          obtain ⟨⟨j', v⟩, hx, rfl⟩ := hj
          exact dot_mem_visits (mem_maskedRow.1 hx).2)
      simpa using this
  unfold boundOf
  simp only [Bool.false_eq_true, if_false]
  omega

theorem complRow_bound {sorted : Bool} {mul add : V → V → V} {A B M : CSR V} {i : Nat} :
    (complRow sorted mul add A B M i).length ≤ boundOf true A B M i := by
  have := nodup_length_le (l := (complRow sorted mul add A B M i).map Prod.fst) (l' := (visits A B i).map (·.1))
    (complRow_nodup sorted mul add A B M i) (by
      intro j hj
      rw [List.mem_map] at hj
      obtain ⟨⟨j', v⟩, hx, rfl⟩ := hj
      exact dot_mem_visits (mem_complRow.1 hx).2)
  simpa [boundOf, flopsOf] using this

theorem dot_lt {mul add : V → V → V} {A B : CSR V} (hB : B.WF) {i j : Nat} {v : V}
    (h : Spec.dot mul add A B i j = some v) : j < B.cols := by
  have := dot_mem_visits h
  rw [List.mem_map] at this
  obtain ⟨x, hx, rfl⟩ := this
  exact visits_lt hB hx

/-- The masked result as a matrix. -/
def maskedMat (mul add : V → V → V) (A B M : CSR V) (zb : Bool) : CSR V :=
  ofRows A.rows B.cols zb (maskedRow mul add A B M)

/-- The complement-masked result as a matrix. -/
def complMat (sorted : Bool) (mul add : V → V → V) (A B M : CSR V) (zb : Bool) : CSR V :=
  ofRows A.rows B.cols zb (complRow sorted mul add A B M)

theorem maskedMat_isMasked {mul add : V → V → V} {A B M : CSR V} (hMA : M.rows = A.rows) (zb : Bool)
    (hnd : M.NodupRows) : Spec.IsMasked mul add A B M (maskedMat mul add A B M zb) where
  rows := rfl
  cols := rfl
  entries := by
    intro i hi j v
    unfold maskedMat
    rw [ofRows_row _ _ _ _ hi, mem_maskedRow]
  nodup := by
    intro i hi
    have hi' : i < A.rows := hi
    unfold maskedMat
    rw [ofRows_rowCols _ _ _ _ hi']
    exact (maskedRow_sublist mul add A B M i).nodup (hnd i (hMA ▸ hi'))
  order := by
    intro i hi
    unfold maskedMat
    rw [ofRows_rowCols _ _ _ _ hi]
    exact maskedRow_sublist mul add A B M i

theorem complMat_isCompl (sorted : Bool) {mul add : V → V → V} {A B M : CSR V} (zb : Bool) :
    Spec.IsComplMasked mul add A B M (complMat sorted mul add A B M zb) where
  rows := rfl
  cols := rfl
  entries := by
    intro i hi j v
    unfold complMat
    rw [ofRows_row _ _ _ _ hi, mem_complRow]
  nodup := by
    intro i hi
    have hi' : i < A.rows := hi
    unfold complMat
    rw [ofRows_rowCols _ _ _ _ hi']
    exact complRow_nodup sorted mul add A B M i

theorem complMat_sorted {mul add : V → V → V} {A B M : CSR V} (zb : Bool) :
    (complMat true mul add A B M zb).SortedRows := by
  intro i hi
  have hi' : i < A.rows := hi
  unfold complMat
  rw [ofRows_rowCols _ _ _ _ hi']
  exact complRow_sorted mul add A B M i

theorem idxOf_append_mem {l : List Nat} {x : Nat} (l' : List Nat) (h : x ∈ l) : (l ++ l').idxOf x = l.idxOf x := by
  rw [List.idxOf_append, if_pos h]

theorem idxOf_append_notMem {l : List Nat} {x : Nat} (l' : List Nat) (h : x ∉ l) :
    (l ++ l').idxOf x = l'.idxOf x + l.length := by
  rw [List.idxOf_append, if_neg h]

theorem firsts_order (p : Nat → Bool) (l : List Nat) :
    (firsts (l.filter p)).Pairwise fun j j' => l.idxOf j < l.idxOf j' := by
  induction l using list_snoc_induction with
  | h0 => simp
  | h1 l a ih =>
    have hmem : ∀ j ∈ firsts (l.filter p), j ∈ l := fun j hj => (List.mem_filter.1 (mem_firsts.1 hj)).1
    have hsame : (firsts (l.filter p)).Pairwise fun j j' => (l ++ [a]).idxOf j < (l ++ [a]).idxOf j' := by
      refine List.Pairwise.imp_of_mem ?_ ih
      intro j j' h1 h2 h
      rw [idxOf_append_mem _ (hmem j h1), idxOf_append_mem _ (hmem j' h2)]
      exact h
    rw [List.filter_append]
    by_cases hp : p a = true
    · have : [a].filter p = [a] := by simp [hp]
      rw [this, firsts_append_singleton]
      split
      · exact hsame
      · rename_i hn
        rw [List.pairwise_append]
        refine ⟨hsame, by simp, ?_⟩
        intro x hx y hy
        simp at hy; subst hy
        have hy' : y ∉ l := fun h => hn (mem_firsts.2 (List.mem_filter.2 ⟨h, hp⟩))
        rw [idxOf_append_mem _ (hmem x hx), idxOf_append_notMem _ hy']
        have := List.idxOf_lt_length_of_mem (hmem x hx)
        omega
    · have : [a].filter p = [] := by simp [hp]
      rw [this, List.append_nil]
      exact hsame

theorem touched_eq (A B : CSR V) (i : Nat) : Spec.touched A B i = (visits A B i).map (·.1) := by
  unfold Spec.touched visits
  rw [List.map_flatMap]
  simp only [List.map_map]
  rfl

theorem complMat_firstTouch {mul add : V → V → V} {A B M : CSR V} (zb : Bool) :
    Spec.FirstTouchOrder A B (complMat false mul add A B M zb) := by
  intro i hi
  have hi' : i < A.rows := hi
  unfold complMat
  rw [ofRows_rowCols _ _ _ _ hi', touched_eq]
  have h1 := firsts_order (fun c => c ∉ M.rowCols i) ((visits A B i).map (·.1))
  have h2 : ((complRow false mul add A B M i).map Prod.fst).Sublist (complCols A B M i) :=
    filterMap_fst_sublist _
  exact List.Pairwise.sublist h2 h1

theorem maskedMat_wf {mul add : V → V → V} {A B M : CSR V} (hB : B.WF) :
    (maskedMat mul add A B M true).WF :=
  ofRows_wf _ _ _ _ rfl (fun _ _ x hx => dot_lt hB (mem_maskedRow (v := x.2).1 hx).2)

theorem complMat_wf {sorted : Bool} {mul add : V → V → V} {A B M : CSR V} (hB : B.WF) :
    (complMat sorted mul add A B M true).WF :=
  ofRows_wf _ _ _ _ rfl (fun _ _ x hx => dot_lt hB (mem_complRow (v := x.2).1 hx).2)

end Verif.Model
