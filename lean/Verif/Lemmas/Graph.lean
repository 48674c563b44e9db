import Verif.Model.Graph
import Verif.SpecGraph
import Verif.Lemmas.Kinds
import Mathlib.Algebra.BigOperators.Fin

/-! # Lemmas about the graph applications -/

namespace Verif.Model.Graph

open Verif.Spec

variable {V : Type}

/-! ## Selection of entries -/

section select
variable {p : Nat → Nat → V → Bool} {X : CSR V}

theorem select_row {i : Nat} (hi : i < X.rows) :
    (select p X).row i = (X.row i).filter fun e => p i e.1 e.2 := ofRows_row _ _ _ _ hi

theorem select_rowCols {i : Nat} (hi : i < X.rows) :
    (select p X).rowCols i = ((X.row i).filter fun e => p i e.1 e.2).map Prod.fst := ofRows_rowCols _ _ _ _ hi

theorem select_wf (h : X.WF) : (select p X).WF :=
  ofRows_wf _ _ _ _ h.zero fun i _ x hx => CSR.row_lt h (List.mem_of_mem_filter hx)

theorem select_sub (h : X.WF) {i : Nat} (hi : i < X.rows) : ((select p X).rowCols i).Sublist (X.rowCols i) := by
  rw [select_rowCols hi, ← CSR.row_map_fst h]
  exact List.filter_sublist.map _

theorem select_sorted (h : X.WF) (hs : X.SortedRows) : (select p X).SortedRows := fun i hi =>
  (hs i hi).sublist (select_sub h hi)

end select

/-- The number of entries is the sum of the row lengths. -/
theorem nnz_eq_psum {X : CSR V} (h : X.WF) : X.nnz = psum (fun i => (X.rowCols i).length) X.rows := by
  have : ∀ i, i ≤ X.rows → X.ptr i = psum (fun i => (X.rowCols i).length) i := by
    intro i
    induction i with
    | zero => intro _; exact h.ptrFirst
    | succ i ih =>
      intro hi
      have h1 := ih (by omega)
      have h2 := h.ptrMono i hi
      have h3 : (X.rowCols i).length = X.ptr (i + 1) - X.ptr i := CSR.rowCols_length h hi
      simp only [psum]
      omega
  rw [← h.ptrLast, this _ (Nat.le_refl _)]

theorem psum_le_of {f g : Nat → Nat} : ∀ {n}, (∀ i < n, f i ≤ g i) → psum f n ≤ psum g n
  | 0, _ => Nat.le_refl _
  | n + 1, h => by
    have := psum_le_of (n := n) fun i hi => h i (by omega)
    have := h n (by omega)
    simp only [psum]; omega

theorem psum_eq_of {f g : Nat → Nat} : ∀ {n}, (∀ i < n, f i ≤ g i) → psum f n = psum g n → ∀ i < n, f i = g i
  | 0, _, _ => fun i hi => absurd hi (Nat.not_lt_zero i)
  | n + 1, h, e => by
    have h1 := psum_le_of (n := n) fun i hi => h i (by omega)
    have h2 := h n (by omega)
    simp only [psum] at e
    intro i hi
    rcases Nat.lt_or_ge i n with hin | hin
    · exact psum_eq_of (n := n) (fun i hi => h i (by omega)) (by omega) i hin
    · have : i = n := by omega
      subst this; omega

/-- A matrix whose rows are parts of the rows of `X` has at most as many entries, and equality forces equal rows. -/
theorem nnz_le {X Y : CSR V} (hX : X.WF) (hY : Y.WF) (hr : Y.rows = X.rows)
    (h : ∀ i < X.rows, (Y.rowCols i).Sublist (X.rowCols i)) : Y.nnz ≤ X.nnz := by
  rw [nnz_eq_psum hX, nnz_eq_psum hY, hr]
  exact psum_le_of fun i hi => (h i hi).length_le

theorem rows_eq_of_nnz {X Y : CSR V} (hX : X.WF) (hY : Y.WF) (hr : Y.rows = X.rows)
    (h : ∀ i < X.rows, (Y.rowCols i).Sublist (X.rowCols i)) (e : Y.nnz = X.nnz) :
    ∀ i < X.rows, Y.rowCols i = X.rowCols i := by
  rw [nnz_eq_psum hX, nnz_eq_psum hY, hr] at e
  intro i hi
  exact (h i hi).eq_of_length (psum_eq_of (fun i hi => (h i hi).length_le) e i hi)

/-! ## Storage by columns -/

section toCsc
variable {X : CSR V}

theorem mem_toCsc {i j : Nat} {v : V} (hj : j < X.cols) :
    (i, v) ∈ (toCsc X).col j ↔ i < X.rows ∧ (j, v) ∈ X.row i := by
  unfold toCsc
  rw [Conv.ofCols_col _ _ _ hj]
  simp only [List.mem_flatMap, List.mem_range, List.mem_map, List.mem_filter, decide_eq_true_eq, Prod.mk.injEq]
  constructor
  · rintro ⟨i', hi, e, ⟨h1, rfl⟩, rfl, rfl⟩
    exact ⟨hi, h1⟩
  · rintro ⟨hi, h1⟩
    exact ⟨i, hi, (j, v), ⟨h1, rfl⟩, rfl, rfl⟩

theorem toCsc_wf : (toCsc X).WF := by
  refine Conv.ofCols_wf _ _ _ fun j _ x hx => ?_
  simp only [List.mem_flatMap, List.mem_range, List.mem_map] at hx
  obtain ⟨i, hi, e, _, rfl⟩ := hx
  exact hi

theorem sameMat_toCsc : SameMat X (toCsc X) where
  rows := rfl
  cols := rfl
  entries := fun i j v hi hj => by rw [mem_toCsc hj]; simp [hi]

theorem filter_key_le {l : List (Nat × V)} (h : (l.map Prod.fst).Nodup) (j : Nat) :
    (l.filter fun e => decide (e.1 = j)).length ≤ 1 := by
  induction l with
  | nil => simp
  | cons e l ih =>
    rw [List.map_cons, List.nodup_cons] at h
    by_cases he : e.1 = j
    · have : (l.filter fun e => decide (e.1 = j)) = [] := by
        rw [List.filter_eq_nil_iff]
        intro x hx
        simp only [decide_eq_true_eq]
        rintro rfl
        exact h.1 (he ▸ List.mem_map_of_mem (f := Prod.fst) hx)
      simp [List.filter_cons, he, this]
    · simpa [List.filter_cons, he] using ih h.2

theorem toCsc_sorted (h : X.WF) (hn : X.NodupRows) : (toCsc X).SortedCols := by
  intro j hj
  unfold toCsc
  rw [Conv.ofCols_colRows X.rows X.cols _ hj]
  have : ∀ m, m ≤ X.rows → (((List.range m).flatMap fun i =>
      ((X.row i).filter fun e => decide (e.1 = j)).map fun e => (i, e.2)).map Prod.fst).Pairwise (· < ·) := by
    intro m
    induction m with
    | zero => simp
    | succ m ih =>
      intro hm
      rw [List.range_succ, List.flatMap_append, List.map_append, List.pairwise_append]
      refine ⟨ih (by omega), ?_, ?_⟩
      · have hl := filter_key_le (l := X.row m) (by rw [CSR.row_map_fst h]; exact hn m hm) j
        rw [List.flatMap_singleton]
        rcases hf : (X.row m).filter fun e => decide (e.1 = j) with _ | ⟨x, _ | ⟨y, l⟩⟩
        · rw [hf]; simp
        · rw [hf]; simp
        · rw [hf] at hl; simp at hl
      · intro a ha b hb
        simp only [List.mem_map, List.mem_flatMap, List.mem_range, List.flatMap_singleton] at ha hb
        obtain ⟨_, ⟨i, hi, _, _, rfl⟩, rfl⟩ := ha
        obtain ⟨_, ⟨_, _, rfl⟩, rfl⟩ := hb
        exact hi
  exact this _ (Nat.le_refl _)

end toCsc

/-! ## The algorithms can be used on sorted square matrices -/

/-- No complement, and an inspection depth of the heap that does not wrap around on `nnz` entries. -/
def Usable (a : Algo) (nnz : Nat) : Prop :=
  a.compl = false ∧ ∀ d, a = .gen (.heap d) → d ≤ 1 ∨ d = 2 ^ 64 - 1 ∨ nnz + d < 2 ^ 64

theorem Usable.mono {a : Algo} {m n : Nat} (h : Usable a n) (hmn : m ≤ n) : Usable a m :=
  ⟨h.1, fun d hd => (h.2 d hd).imp id (Or.imp id fun h => by omega)⟩

theorem nodup_of_sorted {X : CSR V} (h : X.SortedRows) : X.NodupRows := fun i hi =>
  (h i hi).imp fun hab => Nat.ne_of_lt hab

theorem req_square {a : Algo} {X : CSR V} {add : V → V → V} (hadd : AssocComm add) (h : X.WF) (hs : X.SortedRows)
    (ha : Usable a X.nnz) : a.Req add X X (toCsc X) X := by
  have hn := nodup_of_sorted hs
  obtain ⟨hc, hd⟩ := ha
  match a with
  | .gen .msa1 | .gen .msa2 | .gen .hash => exact hn
  | .gen .mca => exact ⟨hs, hs⟩
  | .gen (.heap d) => exact ⟨hadd, hs, hs, hd d rfl⟩
  | .inner => exact ⟨hs, hn, toCsc_wf, toCsc_sorted h hn, sameMat_toCsc, hn⟩
  | .gen (.msa1C _) | .gen (.msa2C _) | .gen (.hashC _) | .gen (.heapC _) => simp [Algo.compl, Kind.compl] at hc

/-! ## Counting -/

/-- Length of a filtered list without repetitions as the size of a set of vertices. -/
theorem length_filter_eq {n : Nat} {l : List Nat} (hl : l.Nodup) (hlt : ∀ x ∈ l, x < n) (p : Nat → Bool) :
    (l.filter p).length = {k : Fin n | k.val ∈ l ∧ p k = true}.ncard := by
  classical
  have h1 : {k : Fin n | k.val ∈ l ∧ p k = true} = ↑(Finset.univ.filter fun k : Fin n => k.val ∈ l ∧ p k = true) := by
    ext; simp
  rw [h1, Set.ncard_coe_finset, ← Finset.card_map Fin.valEmbedding, ← List.toFinset_card_of_nodup (hl.filter p)]
  congr 1
  ext x
  simp only [List.mem_toFinset, List.mem_filter, Finset.mem_map, Finset.mem_filter, Finset.mem_univ, true_and,
    Fin.valEmbedding_apply]
  constructor
  · rintro ⟨h1, h2⟩
    exact ⟨⟨x, hlt x h1⟩, ⟨h1, h2⟩, rfl⟩
  · rintro ⟨k, h, rfl⟩
    exact h

/-- With an operator that ignores its arguments the contributions to `(i, j)` are as many equal values as there are `k`
with both entries stored. -/
theorem contribs_const {n : Nat} {X Y : CSR V} (hX : X.WF) (hY : Y.WF) (hn : X.cols = n) (hXY : X.cols = Y.rows)
    (sX : X.NodupRows) (sY : Y.NodupRows) (c : V) {i : Nat} (hi : i < X.rows) (j : Nat) :
    contribs (fun _ _ => c) X Y i j =
      List.replicate {k : Fin n | k.val ∈ X.rowCols i ∧ j ∈ Y.rowCols k}.ncard c := by
  have hlt : ∀ x ∈ X.rowCols i, x < n := fun x hx => hn ▸ CSR.rowCols_lt hX hx
  have e := length_filter_eq (sX i hi) hlt fun k => decide (j ∈ Y.rowCols k)
  simp only [decide_eq_true_eq] at e
  rw [← e, ← CSR.row_map_fst hX]
  have hk : ∀ x ∈ X.row i, x.1 < Y.rows := fun x hx => hXY ▸ CSR.row_lt hX hx
  unfold contribs
  generalize X.row i = l at hk
  induction l with
  | nil => simp
  | cons x l ih =>
    rw [List.flatMap_cons, ih fun x hx => hk x (by simp [hx]), List.map_cons]
    have hY1 : ((Y.row x.1).map Prod.fst).Nodup := by
      rw [CSR.row_map_fst hY]; exact sY _ (hk x (by simp))
    have hm : (j ∈ Y.rowCols x.1) = (j ∈ (Y.row x.1).map Prod.fst) := by rw [CSR.row_map_fst hY]
    have : ((Y.row x.1).filterMap fun jb => if jb.1 = j then some c else none) =
        if j ∈ Y.rowCols x.1 then [c] else [] := by
      simp only [hm]
      generalize Y.row x.1 = l at hY1
      induction l with
      | nil => simp
      | cons y l ih =>
        rw [List.map_cons, List.nodup_cons] at hY1
        rw [List.filterMap_cons]
        by_cases hy : y.1 = j
        · subst hy
          have : y.1 ∈ List.map Prod.fst (y :: l) := by simp
          rw [if_pos this, ih hY1.2, if_neg hY1.1]
          simp
        · have : (j ∈ List.map Prod.fst (y :: l)) = (j ∈ List.map Prod.fst l) := by
            rw [List.map_cons, List.mem_cons, eq_comm (a := j), eq_false hy, false_or]
          simp only [this]
          rw [ih hY1.2]
          simp [hy]
    rw [this]
    by_cases hj : j ∈ Y.rowCols x.1
    · simp [hj, List.replicate_succ]
    · simp [hj]

/-! ## The multiply call -/

section square
variable {R : Type} [Semiring R]

/-- The matrix the multiply call computes. -/
def sq (X : CSR R) : CSR R := maskedMat (fun _ _ => 1) (fun x y => x + y) X X X true

theorem assocComm_add : AssocComm (fun x y : R => x + y) := ⟨add_assoc, add_comm⟩

theorem square_computes {a : Algo} (two : Bool) {X : CSR R} (h : X.WF) (hs : X.SortedRows) (hrc : X.cols = X.rows)
    (hpos : 0 < X.rows) (ha : Usable a X.nnz) {nt dflt : Nat} (hn : 0 < setNumThreads nt dflt) :
    Computes (square a two X nt dflt) X.rows (setNumThreads nt dflt) (sq X) := by
  have := algo_computes a two (fun _ _ => (1 : R)) (fun x y => x + y) (Bc := toCsc X)
    (⟨h, h, h, ⟨hrc, rfl, rfl⟩, hpos⟩ : Valid X X X) (req_square assocComm_add h hs ha) true hn
  unfold algoMat at this
  rw [ha.1] at this
  exact this

/-- Number of common middle vertices of an entry. -/
noncomputable def mid (n : Nat) (X : CSR R) (i j : Nat) : Nat :=
  {k : Fin n | k.val ∈ X.rowCols i ∧ j ∈ X.rowCols k}.ncard

theorem foldl_ones (m : Nat) (x : R) : (List.replicate m (1 : R)).foldl (fun x y => x + y) x = x + m := by
  induction m generalizing x with
  | zero => simp
  | succ m ih => rw [List.replicate_succ, List.foldl_cons, ih, Nat.cast_succ, add_assoc, add_comm 1]

theorem dot_one {n : Nat} {X : CSR R} (h : X.WF) (hs : X.SortedRows) (hr : X.rows = n) (hc : X.cols = n)
    {i : Nat} (hi : i < n) (j : Nat) : dot (fun _ _ => 1) (fun x y => x + y) X X i j =
      if mid n X i j = 0 then none else some (mid n X i j : R) := by
  unfold dot
  rw [contribs_const h h hc (hc.trans hr.symm) (nodup_of_sorted hs) (nodup_of_sorted hs) 1 (hr ▸ hi) j]
  change sum1 _ (List.replicate (mid n X i j) 1) = _
  cases mid n X i j with
  | zero => rfl
  | succ m =>
    rw [List.replicate_succ, sum1, foldl_ones, if_neg (by omega), Nat.cast_succ, add_comm]

theorem sq_row {n : Nat} {X : CSR R} (h : X.WF) (hs : X.SortedRows) (hr : X.rows = n) (hc : X.cols = n)
    {i : Nat} (hi : i < n) : (sq X).row i =
      (X.rowCols i).filterMap fun j => if mid n X i j = 0 then none else some (j, (mid n X i j : R)) := by
  unfold sq maskedMat
  rw [ofRows_row _ _ _ _ (hr ▸ hi)]
  unfold maskedRow
  congr 1
  funext j
  rw [dot_one h hs hr hc hi j]
  split <;> rfl

theorem sq_wf {X : CSR R} (h : X.WF) : (sq X).WF := maskedMat_wf h

theorem reduce_eq {X : CSR R} (h : X.WF) :
    reduce X = ((List.range X.rows).map fun i => ((X.row i).map Prod.snd).sum).sum := by
  have hz : X.values = (X.colids.zip X.values).map Prod.snd := by
    rw [List.map_snd_zip]
    rw [h.colLen, h.valLen]
  have hl : (X.colids.zip X.values).length = X.nnz := CSR.zip_length h
  have : X.colids.zip X.values = (List.range X.rows).flatMap X.row := by
    have := Conv.flatMap_slice (X.colids.zip X.values) X.ptr h.ptrFirst X.rows (fun i hi => h.ptrMono i hi)
      (by rw [h.ptrLast, hl])
    rw [h.ptrLast, ← hl, List.take_length] at this
    exact this.symm
  unfold reduce
  rw [hz, this, List.map_flatMap, List.flatMap_def, List.sum_flatten, List.map_map]
  rfl

theorem reduce_sq {n : Nat} {X : CSR R} (h : X.WF) (hs : X.SortedRows) (hr : X.rows = n) (hc : X.cols = n) :
    reduce (sq X) = ((((List.range n).map fun i => ((X.rowCols i).map fun j => mid n X i j).sum).sum : Nat) : R) := by
  rw [reduce_eq (sq_wf h)]
  change ((List.range X.rows).map _).sum = _
  rw [hr, Nat.cast_list_sum, List.map_map]
  congr 1
  refine List.map_congr_left fun i hi => ?_
  rw [sq_row h hs hr hc (List.mem_range.1 hi)]
  simp only [Function.comp_apply]
  generalize X.rowCols i = l
  induction l with
  | nil => simp
  | cons j l ih =>
    by_cases hm : mid n X i j = 0
    · simp [hm, ih]
    · simp [hm, ih]

end square

end Verif.Model.Graph
