import Verif.Lemmas.Flops
import Verif.Props.C77

/-! # C83: the counts of operations -/

namespace Verif.Props

open Verif.Model Verif.Spec

variable {V : Type}

/-- C83 for two matrices by rows: the sequential count is twice the number of products. -/
theorem C83_rows {A B : CSR V} (hA : A.WF) (hB : B.WF) (hAB : A.cols = B.rows) :
    Flops.csrCsr A B = .ok (2 * pairings (triples A) (triples B)) := by
  rw [Flops.csrCsr_eq hA hB hAB, Nat.mul_comm]

example := C83_rows Ex.wfA Ex.wfB rfl

example : Flops.csrCsr Ex.A Ex.B = .ok 16 ∧ pairings (triples Ex.A) (triples Ex.B) = 8 := by decide +kernel

/-- C83 for two matrices by rows: the parallel count gives the same total, in every order of the iterations, and the products of each row. -/
theorem C83_rows_parallel {A B : CSR V} (hA : A.WF) (hB : B.WF) (hAB : A.cols = B.rows) {order : List Nat}
    (ho : order.Perm (List.range A.rows)) :
    ∃ c, Flops.csrCsrPar A B order (List.replicate A.rows 0) = .ok (c, 2 * pairings (triples A) (triples B)) ∧ c.length = A.rows ∧
      ∀ i < A.rows, c[i]? = some (pairings ((triples A).filter fun e => decide (e.1 = i)) (triples B)) := by
  refine ⟨_, by rw [Flops.csrCsrPar_eq hA hB hAB ho, Nat.mul_comm], tab_length _ _, ?_⟩
  intro i hi
  rw [tab_getElem? hi, Flops.pairings_left, Flops.nprod_eq]
  congr 2
  rw [← Graph.bucket_triples A hi]
  unfold Conv.bucket
  have key : ∀ l : List (Nat × Nat × V), (∀ e ∈ l, e.2.1 < B.rows) →
      (l.filterMap fun x => if x.1 = i then some x.2 else none).map (fun x => (B.row x.1).length) =
        (l.filter fun e => decide (e.1 = i)).map fun a => (triples B).countP fun b => decide (a.2.1 = b.1) := by
    intro l
    induction l with
    | nil => intro _; rfl
    | cons e l ih =>
      intro h
      by_cases he : e.1 = i
      · rw [List.filterMap_cons_some (b := e.2) (by simp [he]), List.map_cons, List.filter_cons_of_pos (by simp [he]), List.map_cons, ih fun x hx => h x (by simp [hx]),
          Flops.countP_row B (h e (by simp))]
      · rw [List.filterMap_cons_none (by simp [he]), List.filter_cons_of_neg (by simp [he]), ih fun x hx => h x (by simp [hx])]
  refine key _ fun e he => ?_
  rw [← hAB]
  exact CSR.row_lt hA (Graph.mem_triples.1 he).2

example := C83_rows_parallel Ex.wfA Ex.wfB rfl (order := [2, 0, 1]) (by decide)

/-- C83 for two matrices by columns, in every order of the iterations. -/
theorem C83_columns {A B : CSC V} (hA : A.WF) (hB : B.WF) (hAB : A.cols = B.rows) {order : List Nat} (ho : order.Perm (List.range B.cols)) :
    Flops.cscCsc A B order = .ok (2 * pairings (triplesC A) (triplesC B)) := by
  rw [Flops.cscCsc_eq hA hB hAB ho, Nat.mul_comm]

example := C83_columns (fullC_wf 2 3) (fullC_wf 3 4) rfl (order := [3, 1, 0, 2]) (by decide)

/-- C83 for a matrix by columns and one by rows, index types with `W` values: the count is right exactly if for every `k` the product of
the numbers of entries in column `k` of the first and row `k` of the second matrix is less than `W`. -/
theorem C83_mixed_iff {W : Nat} (hW : 0 < W) {A : CSC V} {B : CSR V} (hA : A.WF) (hB : B.WF) (hAB : A.cols = B.rows) {order : List Nat}
    (ho : order.Perm (List.range A.cols)) :
    Flops.cscCsr W A B order = .ok (2 * pairings (triplesC A) (triples B)) ↔ ∀ k < A.cols, (A.col k).length * (B.row k).length < W := by
  unfold Flops.cscCsr
  rw [Flops.cscCsrOnce_eq W hA hB hAB ho, ok_bind, ← Flops.pairings_mixed A hAB]
  have := (Flops.sum_mod_iff W (fun k => (A.col k).length * (B.row k).length) (List.range A.cols)).2
  simp only [List.mem_range] at this
  constructor
  · intro h
    have h := Except.ok.inj h
    intro k hk
    rw [← this.1 (by omega) k hk]
    exact Nat.mod_lt _ hW
  · intro h
    rw [this.2 fun k hk => Nat.mod_eq_of_lt (h k hk), Nat.mul_comm]

/-- C83 for a matrix by columns and one by rows, in the case that no product overflows: then both functions are right. -/
theorem C83_mixed_partial {W : Nat} {A : CSC V} {B : CSR V} (hA : A.WF) (hB : B.WF) (hAB : A.cols = B.rows) {order : List Nat}
    (ho : order.Perm (List.range A.cols)) (h : ∀ k < A.cols, (A.col k).length * (B.row k).length < W) :
    Flops.cscCsr W A B order = .ok (2 * pairings (triplesC A) (triples B)) ∧
      Flops.cscCsrOnce W A B order = .ok (pairings (triplesC A) (triples B)) := by
  have e := (Flops.sum_mod_iff W (fun k => (A.col k).length * (B.row k).length) (List.range A.cols)).2.2 fun k hk => Nat.mod_eq_of_lt (h k (List.mem_range.1 hk))
  rw [Flops.pairings_mixed A hAB] at e
  have e' := Flops.cscCsrOnce_eq W hA hB hAB ho
  rw [e] at e'
  refine ⟨?_, e'⟩
  unfold Flops.cscCsr
  rw [e', ok_bind, Nat.mul_comm]

example := C83_mixed_partial (W := 100) (fullC_wf 2 3) (full_wf 3 4) rfl (order := [2, 1, 0]) (by decide) (by decide +kernel)

/-- C83, violated: a column with `p` entries and a row with `q` entries, if `p * q` does not fit into the index type. -/
theorem C83_violated {W p q : Nat} (hW : 0 < W) (h : W ≤ p * q) :
    Flops.cscCsr W (fullC p 1) (full 1 q) [0] ≠ .ok (2 * pairings (triplesC (fullC p 1)) (triples (full 1 q))) := by
  intro e
  have := (C83_mixed_iff hW (fullC_wf p 1) (full_wf 1 q) rfl (order := [0]) (List.Perm.refl _)).1 e 0 Nat.zero_lt_one
  rw [full_row Nat.zero_lt_one, fullC_col Nat.zero_lt_one] at this
  simp only [List.length_map, List.length_range] at this
  omega

/-- With unsigned 32-bit indices, 65536 entries each. -/
example := C83_violated (W := 2 ^ 32) (p := 65536) (q := 65536) (by decide) (by decide)

example : Flops.cscCsr 8 (fullC 3 1) (full 1 3) [0] = .ok 2 := by decide +kernel

end Verif.Props
