import Verif.Lemmas.Base1
import Verif.Props.C08

/-!
# C21, C25, C47: conversions between formats and index bases, and constructors
-/

namespace Verif.Props
open Model Model.Inner Conv
open Spec (SortsBy SameMat triples triplesC logical)

variable {V : Type}

/-- C21: converting CSC to CSR succeeds and gives a well-formed matrix of the same shape with
exactly the same stored triples, rows in non-decreasing column order (strictly increasing if no
column of the input repeats a row). -/
theorem C21_csc_to_csr (dflt : V) {csc : CSC V} (h : csc.WF) :
    ∃ C, csrOfCsc dflt csc = .ok C ∧ C.WF ∧ C.rows = csc.rows ∧ C.cols = csc.cols ∧
      (triples C).Perm (triplesC csc) ∧
      (∀ i < C.rows, (C.rowCols i).Pairwise (· ≤ ·)) ∧
      ((∀ j < csc.cols, (csc.colRows j).Nodup) → C.SortedRows) ∧
      SameMat C csc := by
  refine ⟨_, csrOfCsc_eq dflt h, ?_, rfl, rfl, ?_, ?_, ?_, rfl, rfl, ?_⟩
  · apply ofRows_wf _ _ _ _ rfl
    rintro i _ ⟨j, v⟩ hx
    exact (mem_items.1 (mem_bucket.1 hx)).1
  · rw [triples_ofRows]
    have h1 := (bucket_perm (items csc) (items_lt h)).map
      (fun x : Nat × (Nat × V) => (x.1, x.2.1, x.2.2))
    rw [List.map_flatMap] at h1
    have e1 : (items csc).map (fun x : Nat × (Nat × V) => (x.1, x.2.1, x.2.2)) = triplesC csc := by
      unfold items triplesC
      rw [List.map_flatMap]
      apply flatMap_congr_mem
      intro j _
      rw [List.map_map]
      rfl
    rw [e1] at h1
    refine List.Perm.trans (List.Perm.of_eq ?_) h1
    apply flatMap_congr_mem
    intro i _
    rw [List.map_map]
    rfl
  · intro i hi
    rw [ofRows_rowCols csc.rows _ _ _ hi]
    exact cscRow_le csc i
  · intro hnd i hi
    rw [ofRows_rowCols csc.rows _ _ _ hi]
    exact cscRow_lt h hnd i
  · intro i j v hi hj
    rw [ofRows_row csc.rows _ _ _ hi]
    unfold cscRow
    rw [mem_bucket, mem_items]
    exact ⟨fun h => h.2, fun h => ⟨hj, h⟩⟩

/-- C21, the transposing constructor: row `j` of the result is column `j` of the input, in storage
order. -/
theorem C21_transposing (dflt : V) {csc : CSC V} (h : csc.WF) :
    ∃ C, csrOfCscT dflt csc true = .ok C ∧ C.WF ∧ C.rows = csc.cols ∧ C.cols = csc.rows ∧
      ∀ j < csc.cols, C.row j = csc.col j :=
  ⟨_, csrOfCscT_eq dflt h,
    ⟨rfl, h.ptrLen, h.ptrFirst, h.ptrMono, h.ptrLast, h.rowLen, h.valLen, h.inBounds⟩, rfl, rfl,
    fun _ _ => rfl⟩

/-- C25: to one-based and back restores the matrix, and the one-based matrix stands for the same
triples. -/
theorem C25_roundtrip {A : CSR V} (h : A.WF) :
    ∃ Z, convertOneBased A = .ok (Z, true) ∧ Z.zerobased = false ∧ logical Z = logical A ∧
      convertZeroBased Z = .ok (A, false) ∧
      convertOneBased Z = .ok (Z, false) ∧ convertZeroBased A = .ok (A, true) :=
  ⟨_, toOne_eq h, rfl, logical_one h, toZero_eq h, rfl, toZero_zero h⟩

/-- A sequence of conversions: `true` asks for one-based, `false` for zero-based. -/
def conversions (ops : List Bool) (A : CSR V) : Res (CSR V) :=
  ops.foldlM (fun A toOne => do
    let r ← if toOne then convertOneBased A else convertZeroBased A
    .ok r.1) A

/-- C25: any sequence of conversions succeeds; the result stands for the same triples, its base is
the one asked for last, and if that is zero the result is the original matrix. -/
theorem C25_history {A : CSR V} (h : A.WF) (ops : List Bool) :
    ∃ R, conversions ops A = .ok R ∧ logical R = triples A ∧
      R.zerobased = !(ops.getLast?.getD false) ∧ (R.zerobased = true → R = A) := by
  have key : conversions ops A = .ok (if ops.getLast?.getD false then oneBased A else A) := by
    have := foldlM_desc (f := fun (A : CSR V) (toOne : Bool) => (do
      let r ← if toOne then convertOneBased A else convertZeroBased A
      .ok r.1 : Res (CSR V)))
      (fun pre => if pre.getLast?.getD false then oneBased A else A) ops (by
        intro pre a post _
        rw [List.getLast?_concat]
        simp only [Option.getD_some]
        cases a <;> cases pre.getLast?.getD false <;>
          simp only [if_true, if_false, Bool.false_eq_true] <;>
          simp only [toOne_eq h, toOne_one, toZero_eq h, toZero_zero h, ok_bind])
    exact this
  refine ⟨_, key, ?_⟩
  cases ops.getLast?.getD false
  · exact ⟨logical_wf h, h.zero, fun _ => rfl⟩
  · exact ⟨(logical_one h).trans (logical_wf h), rfl, fun h => absurd h (by simp [oneBased])⟩

/-- C47: building CSC from triples (row, column, value), for any order in which the parallel loop
runs and any sort: the result is well-formed, stores exactly the given triples (repeated ones
too), and the rows of every column are in non-decreasing order. -/
theorem C47_triples {sortf : List (Nat × V) → List (Nat × V)} (hs : SortsBy Prod.fst sortf)
    (dflt : V) (ts : List (Nat × Nat × V)) (m n : Nat) (order : List Nat)
    (ho : order.Perm (List.range n)) (hb : ∀ t ∈ ts, t.1 < m ∧ t.2.1 < n) :
    ∃ C, cscOfTriples sortf order dflt ts m n = .ok C ∧ C.WF ∧ C.rows = m ∧ C.cols = n ∧
      C.nnz = ts.length ∧ (triplesC C).Perm ts ∧
      (∀ j < n, (C.colRows j).Pairwise (· ≤ ·)) ∧
      (ts.Pairwise (fun a b => (a.1, a.2.1) ≠ (b.1, b.2.1)) → C.SortedCols) := by
  have hp := tcol_perm hs ts (m := m) (n := n) (fun t ht => (hb t ht).2)
  have hle : ∀ j < n, ((ofCols m n (tcol sortf ts)).colRows j).Pairwise (· ≤ ·) := by
    intro j hj
    rw [ofCols_colRows _ _ _ hj, List.pairwise_map]
    exact hs.sorted _
  have hwf : (ofCols m n (tcol sortf ts)).WF := by
    apply ofCols_wf
    intro j _ x hx
    have h1 : x ∈ bucket (titems ts) j := (hs.perm _).mem_iff.1 hx
    rw [mem_bucket] at h1
    unfold titems at h1
    rw [List.mem_map] at h1
    obtain ⟨t, ht, e⟩ := h1
    rw [← (Prod.mk.inj (Prod.mk.inj e).2).1]
    exact (hb t ht).1
  refine ⟨_, cscOfTriples_eq hs dflt ts m n order ho (fun t ht => (hb t ht).2), hwf, rfl, rfl, ?_,
    hp, hle, ?_⟩
  · have e1 : lens (tcol sortf ts) = cnt (titems ts) := by
      funext c; exact (hs.perm _).length_eq
    show psum (lens (tcol sortf ts)) n = _
    rw [e1, psum_cnt, titems, List.length_map]
    intro x hx
    unfold titems at hx
    rw [List.mem_map] at hx
    obtain ⟨t, ht, rfl⟩ := hx
    exact (hb t ht).2
  · intro hd j hj
    have hj : j < n := hj
    have hnd : ((ofCols m n (tcol sortf ts)).colRows j).Nodup := by
      rw [ofCols_colRows _ _ _ hj]
      exact ((hs.perm (bucket (titems ts) j)).map Prod.fst).nodup_iff.2 (tbucket_nodup hd j)
    exact List.Pairwise.imp₂ (fun a b h1 h2 => Nat.lt_of_le_of_ne h1 h2) (hle j hj) hnd

/-- C47: building CSC from edges (row, column): one entry with value `one` per edge. -/
theorem C47_edges {sortf : List Nat → List Nat} (hs : SortsBy id sortf) (dflt one : V)
    (es : List (Nat × Nat)) (m n : Nat) (order order2 : List Nat)
    (ho : order.Perm (List.range n)) (ho2 : order2.Perm (List.range es.length))
    (hb : ∀ t ∈ es, t.1 < m ∧ t.2 < n) :
    ∃ C, cscOfEdges sortf order order2 dflt one es m n = .ok C ∧ C.WF ∧ C.rows = m ∧ C.cols = n ∧
      C.nnz = es.length ∧ (triplesC C).Perm (es.map fun e => (e.1, e.2, one)) ∧
      ∀ j < n, (C.colRows j).Pairwise (· ≤ ·) := by
  have hlt : ∀ x ∈ eitems es, x.1 < n := by
    intro x hx
    unfold eitems at hx
    rw [List.mem_map] at hx
    obtain ⟨t, ht, rfl⟩ := hx
    exact (hb t ht).2
  refine ⟨_, cscOfEdges_eq hs dflt one es m n order order2 ho ho2 (fun t ht => (hb t ht).2), ?_,
    rfl, rfl, ?_, ?_, ?_⟩
  · apply ofCols_wf
    intro j _ x hx
    unfold ecol at hx
    rw [List.mem_map] at hx
    obtain ⟨r, hr, rfl⟩ := hx
    have h1 : r ∈ bucket (eitems es) j := (hs.perm _).mem_iff.1 hr
    rw [mem_bucket] at h1
    unfold eitems at h1
    rw [List.mem_map] at h1
    obtain ⟨t, ht, e⟩ := h1
    rw [← (Prod.mk.inj e).2]
    exact (hb t ht).1
  · have e1 : lens (ecol sortf one es) = cnt (eitems es) := by
      funext c
      unfold lens ecol
      rw [List.length_map]
      exact (hs.perm _).length_eq
    show psum (lens (ecol sortf one es)) n = _
    rw [e1, psum_cnt _ hlt, eitems, List.length_map]
  · rw [triplesC_ofCols]
    have h1 := (bucket_perm (eitems es) hlt).map (fun x : Nat × Nat => (x.2, x.1, one))
    have e1 : (eitems es).map (fun x : Nat × Nat => (x.2, x.1, one)) =
        es.map fun e => (e.1, e.2, one) := by
      unfold eitems
      rw [List.map_map]
      rfl
    rw [e1, List.map_flatMap] at h1
    refine List.Perm.trans (flatMap_perm_congr _ _ _ ?_) h1
    intro j _
    unfold ecol
    rw [List.map_map, List.map_map]
    exact ((hs.perm _).map _)
  · intro j hj
    rw [ofCols_colRows _ _ _ hj]
    unfold ecol
    rw [List.map_map, List.pairwise_map]
    exact hs.sorted (bucket (eitems es) j)

/-! ## The hypotheses can be met -/

/-- A sorting function: insertion by row. -/
def insertBy {α : Type} (key : α → Nat) (x : α) : List α → List α
  | [] => [x]
  | y :: l => if key x ≤ key y then x :: y :: l else y :: insertBy key x l

def isort {α : Type} (key : α → Nat) (l : List α) : List α := l.foldr (insertBy key) []

theorem insertBy_perm {α : Type} (key : α → Nat) (x : α) (l : List α) :
    (insertBy key x l).Perm (x :: l) := by
  induction l with
  | nil => exact List.Perm.refl _
  | cons y l ih =>
    unfold insertBy
    split
    · exact List.Perm.refl _
    · exact (ih.cons y).trans (List.Perm.swap x y l)

theorem isort_sorts {α : Type} (key : α → Nat) : SortsBy key (isort key) where
  perm l := by
    induction l with
    | nil => exact List.Perm.refl _
    | cons x l ih => exact (insertBy_perm key x _).trans (ih.cons x)
  sorted l := by
    induction l with
    | nil => exact List.Pairwise.nil
    | cons x l ih =>
      show (insertBy key x (isort key l)).Pairwise _
      revert ih
      generalize isort key l = s
      intro ih
      induction s with
      | nil => exact List.pairwise_singleton _ _
      | cons y s ih2 =>
        unfold insertBy
        split
        · rename_i hxy
          rw [List.pairwise_cons] at ih ⊢
          refine ⟨?_, List.pairwise_cons.2 ih⟩
          intro z hz
          rcases List.mem_cons.1 hz with rfl | hz
          · exact hxy
          · exact Nat.le_trans hxy (ih.1 z hz)
        · rename_i hxy
          rw [List.pairwise_cons] at ih ⊢
          refine ⟨?_, ih2 ih.2⟩
          intro z hz
          rcases List.mem_cons.1 ((insertBy_perm key x s).mem_iff.1 hz) with rfl | hz
          · omega
          · exact ih.1 z hz

example : ∃ C, csrOfCsc 0 Bc = .ok C ∧ SameMat C Bc := by
  obtain ⟨C, h1, _, _, _, _, _, _, h2⟩ := C21_csc_to_csr (0 : Int) validBc.wfB
  exact ⟨C, h1, h2⟩
example : csrOfCsc 0 Bc = .ok Ex.B := by decide +kernel
example : ∃ R, conversions [true, true, false, true] Ex.A = .ok R ∧ R.zerobased = false := by
  obtain ⟨R, h1, _, h2, _⟩ := C25_history Ex.wfA [true, true, false, true]
  exact ⟨R, h1, h2⟩

/-- Triples in no particular order, one of them stored twice. -/
def someTriples : List (Nat × Nat × Int) := [(2, 1, 5), (0, 0, 1), (1, 1, 7), (2, 1, 5), (2, 0, 3)]

example := C47_triples (isort_sorts Prod.fst) (0 : Int) someTriples 3 2 [1, 0] (by decide) (by decide)
example : cscOfTriples (isort Prod.fst) [1, 0] 0 someTriples 3 2 =
    .ok { rows := 3, cols := 2, nnz := 5, colptr := [0, 2, 5], rowids := [0, 2, 1, 2, 2],
          values := [1, 3, 7, 5, 5] } := by decide +kernel
example := C47_edges (isort_sorts id) (0 : Int) 1 [(2, 1), (0, 0), (1, 1)] 3 2 [1, 0] [2, 0, 1]
  (by decide) (by decide) (by decide)

end Verif.Props
