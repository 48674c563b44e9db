import Verif.SpecCsc
import Verif.Lemmas.Inner

/-! # The two forms of the specification agree -/

namespace Verif.Model

open Spec (contribs contribsC dot dotC SameMat)

variable {V : Type}

/-- A filterMap that keeps a key that occurs at most once. -/
theorem filterMap_key {f : V → V} {l : List (Nat × V)} {j : Nat} (hn : (l.map Prod.fst).Nodup) :
    (∀ v, (j, v) ∈ l → (l.filterMap fun p => if p.1 = j then some (f p.2) else none) = [f v]) ∧
    ((∀ v, (j, v) ∉ l) → (l.filterMap fun p => if p.1 = j then some (f p.2) else none) = []) := by
  have none_of : ∀ l : List (Nat × V), (∀ v, (j, v) ∉ l) →
      (l.filterMap fun p => if p.1 = j then some (f p.2) else none) = [] := by
    intro l h
    rw [List.filterMap_eq_nil_iff]
    intro p hp
    by_cases hj : p.1 = j
    · exact absurd (show (j, p.2) ∈ l by rw [← hj]; exact hp) (h _)
    · rw [if_neg hj]
  refine ⟨?_, none_of l⟩
  induction l with
  | nil => intro v h; cases h
  | cons p l ih =>
    intro v hv
    rw [List.map_cons, List.nodup_cons] at hn
    rw [List.filterMap_cons]
    rcases List.mem_cons.1 hv with h | h
    · subst h
      simp only [if_true]
      rw [none_of l (fun w hw => hn.1 (List.mem_map.2 ⟨_, hw, rfl⟩))]
    · have : p.1 ≠ j := fun e => hn.1 (List.mem_map.2 ⟨_, h, e.symm⟩)
      rw [if_neg this]
      exact ih hn.2 v h

theorem contribsC_eq {A B : CSR V} {Bc : CSC V} (mul : V → V → V) (hA : A.WF) (hBc : Bc.WF) (hB : B.WF)
    (hAB : A.cols = B.rows) (h : SameMat B Bc) (nd : B.NodupRows) (sc : Bc.SortedCols) {i j : Nat}
    (hj : j < B.cols) : contribsC mul A Bc i j = contribs mul A B i j := by
  unfold contribsC contribs
  have key : ∀ ka ∈ A.row i, ((Bc.col j).filterMap fun kb => if kb.1 = ka.1 then some (mul ka.2 kb.2) else none) =
      ((B.row ka.1).filterMap fun jb => if jb.1 = j then some (mul ka.2 jb.2) else none) := by
    intro ka hka
    have hk : ka.1 < B.rows := by
      rw [← hAB]
      have : ka.1 ∈ A.rowCols i := by rw [← CSR.row_map_fst hA]; exact List.mem_map.2 ⟨ka, hka, rfl⟩
      exact CSR.rowCols_lt hA this
    have n1 : ((Bc.col j).map Prod.fst).Nodup := by
      rw [Inner.col_map_fst hBc]
      exact (sc j (by rw [h.cols]; exact hj)).imp (fun hab => by omega)
    have n2 : ((B.row ka.1).map Prod.fst).Nodup := by
      rw [CSR.row_map_fst hB]; exact nd _ hk
    have f1 := filterMap_key (f := fun x => mul ka.2 x) (j := ka.1) n1
    have f2 := filterMap_key (f := fun x => mul ka.2 x) (j := j) n2
    by_cases hex : ∃ v, (j, v) ∈ B.row ka.1
    · obtain ⟨v, hv⟩ := hex
      rw [f2.1 v hv, f1.1 v ((h.entries _ _ _ hk hj).1 hv)]
    · rw [f2.2 (fun v hv => hex ⟨v, hv⟩), f1.2 (fun v hv => hex ⟨v, (h.entries _ _ _ hk hj).2 hv⟩)]
  generalize A.row i = l at key
  induction l with
  | nil => rfl
  | cons a l ih =>
    rw [List.flatMap_cons, List.flatMap_cons, key a (by simp), ih (fun x hx => key x (by simp [hx]))]

theorem dotC_eq {A B : CSR V} {Bc : CSC V} (mul add : V → V → V) (hA : A.WF) (hBc : Bc.WF) (hB : B.WF)
    (hAB : A.cols = B.rows) (h : SameMat B Bc) (nd : B.NodupRows) (sc : Bc.SortedCols) {i j : Nat}
    (hj : j < B.cols) : dotC mul add A Bc i j = dot mul add A B i j := by
  unfold dotC dot; rw [contribsC_eq mul hA hBc hB hAB h nd sc hj]

/-- The masked product with the columns of `B` is the masked product with its rows. -/
theorem isMasked_of_csc {A B M C : CSR V} {Bc : CSC V} {mul add : V → V → V} (hA : A.WF) (hBc : Bc.WF) (hB : B.WF)
    (hM : M.WF) (hAB : A.cols = B.rows) (hMB : M.cols = B.cols) (h : SameMat B Bc) (nd : B.NodupRows)
    (sc : Bc.SortedCols) (hC : Spec.IsMaskedC mul add A Bc M C) : Spec.IsMasked mul add A B M C where
  rows := hC.rows
  cols := by rw [hC.cols, h.cols]
  entries := by
    intro i hi j v
    rw [hC.entries i hi j v]
    constructor
    · rintro ⟨h1, h2⟩
      exact ⟨h1, by rw [← dotC_eq mul add hA hBc hB hAB h nd sc (by rw [← hMB]; exact CSR.rowCols_lt hM h1)]; exact h2⟩
    · rintro ⟨h1, h2⟩
      exact ⟨h1, by rw [dotC_eq mul add hA hBc hB hAB h nd sc (by rw [← hMB]; exact CSR.rowCols_lt hM h1)]; exact h2⟩
  nodup := hC.nodup
  order := hC.order

end Verif.Model
