import Verif.Lemmas.Relabel
import Verif.Props.Examples

/-! # C29, C50: triangle counting and relabelling by degree -/

namespace Verif.Props

open Verif.Model Verif.Model.Graph Verif.Spec

variable {n : Nat}

/-- C50: relabelling by degree renumbers the vertices by a permutation, keeps every edge with its value, and the new
numbers are in the order of falling degree (and of falling old numbers for vertices of the same degree), whatever sorting algorithm `std::sort`
uses. -/
theorem C50_sort_by_degree {V : Type} {G : SimpleGraph (Fin n)} {A : CSR V} (h : Represents G A)
    {sortf : List (Nat × Nat) → List (Nat × Nat)} (hs : SortsGreater sortf) :
    ∃ (A' : CSR V) (G' : SimpleGraph (Fin n)) (σ : Equiv.Perm (Fin n)), sortByDegree sortf A = .ok A' ∧
      Relabelled G G' σ ∧ Represents G' A' ∧ (∀ i j, i ≤ j → degree G' j ≤ degree G' i) ∧
      (∀ (u v : Fin n) (x : V), (v.val, x) ∈ A.row u ↔ ((σ v).val, x) ∈ A'.row (σ u)) ∧
      ∀ u v, σ u < σ v ↔ degree G v < degree G u ∨ degree G v = degree G u ∧ v < u := by
  obtain ⟨A', G', σ, h1, h2, h3, h4, h5, -, h6⟩ := sortByDegree_ok h hs
  exact ⟨A', G', σ, h1, h2, h3, h4, h5, h6⟩

/-- The calls `call sch` never fail, return nothing but `x`, and do return when every thread gets enough turns. -/
structure Returns {α : Type} (call : Scheds → Res (Option α)) (rows threads : Nat) (x : α) : Prop where
  safe : ∀ sch, Admissible rows sch → call sch = .ok none ∨ call sch = .ok (some x)
  live : ∃ K, ∀ sch, Admissible rows sch → Fair threads K sch → call sch = .ok (some x)

/-- C29, the multiply itself: for the strictly lower triangle `L` of the adjacency matrix of any graph, the entries of
`L * L` masked by `L`, with the operator that always gives one, add up to the number of triangles: for every algorithm
without complement, one- or two-phase, any thread count and any schedule. The values may be of any semiring `R` (for the
integers modulo `2^64` this says that only the count modulo `2^64` is returned). -/
theorem C29_lower {R : Type} [Semiring R] {G : SimpleGraph (Fin n)} (hn : 0 < n) {L : CSR R} (h : IsLower G L)
    {a : Algo} (ha : Usable a L.nnz) (two : Bool) {nt dflt : Nat} (ht : 0 < setNumThreads nt dflt) :
    ∃ C, Computes (square a two L nt dflt) n (setNumThreads nt dflt) C ∧ reduce C = (triangles G : R) := by
  refine ⟨sq L, ?_, ?_⟩
  · have := square_computes (a := a) two h.wf h.sorted (h.cols.trans h.rows.symm) (h.rows ▸ hn) ha ht
    rwa [h.rows] at this
  · rw [reduce_sq h.wf h.sorted h.rows h.cols, lower_total h]

/-- C29: the program that relabels the graph by degree, takes the lower triangle, multiplies and adds up returns the
number of triangles of the graph. -/
theorem C29_triangle_count {R : Type} [Semiring R] {G : SimpleGraph (Fin n)} (hn : 0 < n) {A : CSR R}
    (h : Represents G A) {sortf : List (Nat × Nat) → List (Nat × Nat)} (hs : SortsGreater sortf)
    {a : Algo} (ha : Usable a A.nnz) (two : Bool) {nt dflt : Nat} (ht : 0 < setNumThreads nt dflt) :
    Returns (triCount sortf a two A nt dflt) n (setNumThreads nt dflt) (triangles G : R) := by
  obtain ⟨A', G', σ, h1, h2, h3, -, -, h4, -⟩ := sortByDegree_ok h hs
  have hlow := lowTri_isLower h3
  have hnnz : (lowTri A').nnz ≤ A.nnz := h4 ▸ nnz_le h3.wf hlow.wf rfl fun i hi => select_sub h3.wf hi
  obtain ⟨C, h5, h6⟩ := C29_lower hn hlow (ha.mono hnnz) two ht
  rw [triangles_relabelled h2] at h6
  have e : ∀ sch r, square a two (lowTri A') nt dflt sch = .ok r →
      triCount sortf a two A nt dflt sch = .ok (r.map reduce) := by
    intro sch r hr
    unfold triCount
    rw [h1, ok_bind, hr, ok_bind]
    cases r <;> rfl
  constructor
  · intro sch hsch
    rcases h5.safe sch hsch with h | h
    · exact .inl (e _ _ h)
    · exact .inr (by rw [e _ _ h, ← h6]; rfl)
  · obtain ⟨K, hK⟩ := h5.live
    exact ⟨K, fun sch hsch hf => by rw [e _ _ (hK sch hsch hf), ← h6]; rfl⟩

/-- C29, renumbering: the number of triangles does not depend on the vertex numbers. -/
theorem C29_relabel {G G' : SimpleGraph (Fin n)} {σ : Equiv.Perm (Fin n)} (h : Relabelled G G' σ) :
    triangles G' = triangles G := triangles_relabelled h

/-! ## Example: a triangle 0-1-2 with a pendant edge 2-3 -/

def exG : SimpleGraph (Fin 4) where
  Adj i j := (i, j) ∈ [(0, 1), (0, 2), (1, 0), (1, 2), (2, 0), (2, 1), (2, 3), (3, 2)]
  symm := ⟨by decide⟩
  loopless := ⟨by decide⟩

instance : DecidableRel exG.Adj := fun i j => by unfold exG; infer_instance

def exAdj : CSR Nat := ⟨4, 4, 8, [0, 2, 4, 7, 8], [1, 2, 0, 2, 0, 1, 3, 2], [1, 1, 1, 1, 1, 1, 1, 1], true⟩

theorem exAdj_wf : exAdj.WF := ⟨rfl, rfl, rfl, by decide, rfl, rfl, rfl, by decide⟩

theorem exRep : Represents exG exAdj := ⟨exAdj_wf, rfl, rfl, by unfold CSR.SortedRows; decide, by decide⟩

def sortPairs (l : List (Nat × Nat)) : List (Nat × Nat) :=
  l.mergeSort fun a b => decide (b.1 < a.1 ∨ b.1 = a.1 ∧ b.2 ≤ a.2)

theorem sortPairs_ok : SortsGreater sortPairs where
  perm := fun l => List.mergeSort_perm l _
  sorted := fun l => (List.pairwise_mergeSort (by intro a b c; simp only [decide_eq_true_eq]; omega)
    (by intro a b; simp only [Bool.or_eq_true, decide_eq_true_eq]; omega) l).imp fun h => of_decide_eq_true h

theorem usable_hash (m : Nat) : Usable (.gen .hash) m := ⟨rfl, fun _ h => by cases h⟩

example := C50_sort_by_degree exRep sortPairs_ok

example := C29_triangle_count (by decide) exRep sortPairs_ok (usable_hash _) true (nt := 3) (dflt := 1) (by decide)

/-- The example has one triangle. -/
example : triangles exG = 1 := by
  have : {s : Finset (Fin 4) | exG.IsNClique 3 s} = {{0, 1, 2}} := by
    ext s
    have : ∀ s : Finset (Fin 4), exG.IsNClique 3 s ↔ s = {0, 1, 2} := by decide
    simpa using this s
  rw [triangles, this, Set.ncard_singleton]

end Verif.Props
