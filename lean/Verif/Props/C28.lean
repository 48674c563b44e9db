import Verif.SpecDense
import Verif.Props.C20

/-! # C28: the masked multiply over a semiring is the Hadamard product of the mask pattern with the matrix product -/

namespace Verif.Props

open Verif.Model Verif.Spec Matrix

variable {R : Type} [Semiring R]

theorem sum1_add (l : List R) (x : R) : (sum1 (fun a b => a + b) l = none → l.sum = 0) ∧
    (sum1 (fun a b => a + b) l = some x → l.sum = x) := by
  cases l with
  | nil => simp [sum1]
  | cons a l =>
    simp only [sum1, reduceCtorEq, false_implies, Option.some.injEq, true_and]
    rintro rfl
    have : ∀ (l : List R) (a : R), l.foldl (fun a b => a + b) a = a + l.sum := by
      intro l
      induction l with
      | nil => simp
      | cons b l ih => intro a; simp only [List.foldl_cons, List.sum_cons]; rw [ih, add_assoc]
    rw [this, List.sum_cons]

theorem sum_by_key {n : Nat} (g : Nat → R) (l : List (Nat × R)) (h : ∀ e ∈ l, e.1 < n) :
    ∑ k : Fin n, (l.filterMap fun e => if e.1 = k.val then some e.2 else none).sum * g k =
      (l.map fun e => e.2 * g e.1).sum := by
  induction l with
  | nil => simp
  | cons e l ih =>
    have h1 : e.1 < n := h e (by simp)
    rw [List.map_cons, List.sum_cons, ← ih fun x hx => h x (by simp [hx])]
    have : ∀ k : Fin n, ((e :: l).filterMap fun e => if e.1 = k.val then some e.2 else none).sum * g k =
        (if k = ⟨e.1, h1⟩ then e.2 * g e.1 else 0) +
          (l.filterMap fun e => if e.1 = k.val then some e.2 else none).sum * g k := by
      intro k
      by_cases hk : e.1 = k.val
      · have : k = ⟨e.1, h1⟩ := Fin.ext hk.symm
        simp [this, add_mul]
      · have : k ≠ ⟨e.1, h1⟩ := fun he => hk (by rw [he])
        simp [hk, this]
    rw [Finset.sum_congr rfl fun k _ => this k, Finset.sum_add_distrib]
    simp

/-- The sum of the contributions is the entry of the matrix product. -/
theorem contribs_sum {A B : CSR R} (hA : A.WF) (hAB : A.cols = B.rows) (i : Fin A.rows) (j : Fin B.cols) :
    (contribs (fun a b => a * b) A B i j).sum = (dense A.rows A.cols A * dense A.cols B.cols B) i j := by
  have e : (dense A.rows A.cols A * dense A.cols B.cols B) i j =
      ((A.row i).map fun e => e.2 * ((B.row e.1).filterMap fun x => if x.1 = j.val then some x.2 else none).sum).sum := by
    rw [Matrix.mul_apply]
    exact sum_by_key (n := A.cols)
      (fun k => ((B.row k).filterMap fun x => if x.1 = j.val then some x.2 else none).sum) (A.row i)
      fun e he => CSR.row_lt hA he
  rw [e]
  unfold contribs
  rw [List.flatMap_def, List.sum_flatten, List.map_map]
  congr 1
  refine List.map_congr_left fun ka _ => ?_
  simp only [Function.comp_apply]
  generalize B.row ka.1 = l
  induction l with
  | nil => simp
  | cons x l ih => by_cases hx : x.1 = j.val <;> simp [hx, ih, mul_add]

omit [Semiring R] in
theorem filterMap_key {l : List (Nat × R)} (hd : (l.map (·.1)).Nodup) {j : Nat} {v : R} (h : (j, v) ∈ l) :
    (l.filterMap fun e => if e.1 = j then some e.2 else none) = [v] := by
  induction l with
  | nil => simp at h
  | cons e l ih =>
    rw [List.map_cons, List.nodup_cons] at hd
    rcases List.mem_cons.1 h with rfl | h
    · have : (l.filterMap fun e => if e.1 = j then some e.2 else none) = [] := by
        rw [List.filterMap_eq_nil_iff]
        intro x hx
        rw [if_neg]
        rintro rfl
        exact hd.1 (List.mem_map_of_mem (f := (·.1)) hx)
      simp [this]
    · have : e.1 ≠ j := by
        rintro rfl
        exact hd.1 (List.mem_map_of_mem (f := (·.1)) h)
      simp [this, ih hd.2 h]

/-- Dense view of a matrix that stores exactly the values `some v` of `f` at the positions `S`. -/
theorem dense_of {C : CSR R} (hw : { C with zerobased := true }.WF) {r c : Nat} (hC : C.rows = r) (hnd : C.NodupRows) {i : Fin r} {j : Fin c} {S : Prop}
    [Decidable S] {o : Option R} {x : R} (hn : o = none → x = 0) (hs : ∀ v, o = some v → x = v)
    (h : ∀ v, (j.val, v) ∈ C.row i ↔ S ∧ o = some v) : dense r c C i j = if S then x else 0 := by
  have hd : ((C.row i).map (·.1)).Nodup := by
    have := hnd i (hC ▸ i.2)
    exact (CSR.row_map_fst hw (i := i)).symm ▸ this
  change ((C.row i).filterMap fun e => if e.1 = j.val then some e.2 else none).sum = _
  have none_case : (∀ v, (j.val, v) ∉ C.row i) →
      ((C.row i).filterMap fun e => if e.1 = j.val then some e.2 else none) = [] := by
    intro hno
    rw [List.filterMap_eq_nil_iff]
    intro e he
    rw [if_neg]
    rintro h1
    exact hno e.2 (by rw [← h1]; exact he)
  by_cases hS : S
  · rw [if_pos hS]
    rcases ho : o with _ | v
    · have hno : ∀ v, (j.val, v) ∉ C.row i := fun v hv => by
        have := ((h v).1 hv).2
        rw [ho] at this; cases this
      rw [none_case hno, hn ho, List.sum_nil]
    · rw [filterMap_key hd ((h v).2 ⟨hS, ho⟩), hs v ho, List.sum_singleton]
  · rw [if_neg hS, none_case fun v hv => hS ((h v).1 hv).1, List.sum_nil]

/-- C28: whatever the semiring, the algorithm, the kind of call, the thread count and the schedule, the result read as a
dense matrix is the pattern of the mask (of its complement, for the complemented algorithms) times, entry by entry, the
matrix product. -/
theorem C28_hadamard (a : Algo) (two : Bool) {A B M : CSR R} {Bc : CSC R} (h : Valid A B M)
    (hr : a.Req (fun a b => a + b) A B Bc M) (zb : Bool) {nt dflt : Nat} (hn : 0 < setNumThreads nt dflt) :
    ∃ C, Computes (a.call two (fun a b => a * b) (fun a b => a + b) A B Bc M zb nt dflt) A.rows
        (setNumThreads nt dflt) C ∧
      dense A.rows B.cols C =
        pattern a.compl A.rows B.cols M ⊙ (dense A.rows A.cols A * dense A.cols B.cols B) := by
  refine ⟨_, algo_computes a two _ _ h hr zb hn, ?_⟩
  have hw : { algoMat a (fun a b : R => a * b) (fun a b => a + b) A B M zb with zerobased := true }.WF := by
    obtain ⟨C, h1, h2, -⟩ := C23_well_formed a two (fun a b : R => a * b) (fun a b => a + b) h hr zb hn
    rwa [h1.unique (algo_computes a two _ _ h hr zb hn)] at h2
  have hp := algoMat_isProduct (mul := fun a b : R => a * b) h hr zb
  ext i j
  rw [Matrix.hadamard_apply, ← contribs_sum h.wfA h.shapes.ab]
  unfold IsProduct at hp
  unfold pattern
  rw [Matrix.of_apply]
  by_cases hc : a.compl = true
  · rw [if_pos hc] at hp
    rw [dense_of hw hp.rows hp.nodup (fun h => (sum1_add _ 0).1 h) (fun v hv => (sum1_add _ v).2 hv)
      (fun v => hp.entries i i.2 j v), hc]
    by_cases hm : j.val ∈ M.rowCols i <;> simp [hm]
  · rw [if_neg hc] at hp
    rw [dense_of hw hp.rows hp.nodup (fun h => (sum1_add _ 0).1 h) (fun v hv => (sum1_add _ v).2 hv)
      (fun v => hp.entries i i.2 j v)]
    rw [Bool.not_eq_true] at hc
    rw [hc]
    by_cases hm : j.val ∈ M.rowCols i <;> simp [hm]

/-! ## Examples -/

example := C28_hadamard (.gen .mca) true (A := Ex.A) (B := Ex.B) (M := Ex.M) Ex.validM
  (reqM (.gen .mca) (by simp) (by simp)) true (nt := 2) (dflt := 1) (by decide)

/-- A complemented call; the mask has unsorted rows. -/
example := C28_hadamard (.gen (.hashC true)) false (A := Ex.A) (B := Ex.B) (M := Ex.U) (Bc := Bc) Ex.validU
  Ex.nodupU true (nt := 2) (dflt := 1) (by decide)

end Verif.Props
