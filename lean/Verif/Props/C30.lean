import Verif.Lemmas.Truss
import Verif.Props.C29

/-! # C30, C51: the k-truss loop -/

namespace Verif.Props

open Verif.Model Verif.Model.Graph Verif.Spec

variable {n : Nat}

/-- The test of the program for the command line argument `k` (`GxB_GE_THUNK` with thunk `k - 2`). -/
def thunk (k : Nat) (v : Nat) : Bool := decide (k - 2 ≤ v)

/-- The k-truss program, run on the adjacency matrix `A` of a graph, makes no error under any schedule of its rounds;
it ends after at most `nnz(A) + 1` rounds when the threads get enough turns in every round; and what it returns is the
adjacency matrix of `K`, where the values are the numbers of triangles of `K` the edges lie in. -/
def EndsWith (a : Algo) (two : Bool) (k nt dflt : Nat) (A : CSR Nat) (K : SimpleGraph (Fin n)) : Prop :=
  ∃ T rounds F, Represents K T ∧ (∀ u v : Fin n, ∀ x, (v.val, x) ∈ T.row u → x = support K u v) ∧
    ∀ fuel, A.nnz < fuel →
      (∀ sch, (∀ s, Admissible n (sch s)) → ktruss a two (thunk k) nt dflt sch fuel A = .ok none ∨
        ktruss a two (thunk k) nt dflt sch fuel A = .ok (some (T, rounds))) ∧
      ∀ sch, (∀ s, Admissible n (sch s)) → (∀ s, Fair (setNumThreads nt dflt) F (sch s)) →
        ktruss a two (thunk k) nt dflt sch fuel A = .ok (some (T, rounds))

theorem endsWith_of {k k' : Nat} (hk : Keeps k' (thunk k)) {G : SimpleGraph (Fin n)} (hn : 0 < n) {A : CSR Nat}
    (h : Represents G A) {a : Algo} (ha : Usable a A.nnz) (two : Bool) {nt dflt : Nat}
    (ht : 0 < setNumThreads nt dflt) : ∃ K, IsLargestTruss k' G K ∧ EndsWith a two k nt dflt A K := by
  obtain ⟨K, T, rounds, F, h1, h2, h3, h4⟩ :=
    loop_ok (a := a) two hn hk ht (A.nnz + 1) G A 1 h ha (Nat.lt_succ_self _)
  exact ⟨K, h1, T, rounds, F, h2, h3, h4⟩

/-- The results of two runs are adjacency matrices of the same graph. -/
theorem EndsWith.unique {a : Algo} {two : Bool} {k nt dflt : Nat} {A : CSR Nat} {K K' : SimpleGraph (Fin n)}
    (h : EndsWith a two k nt dflt A K) (h' : EndsWith a two k nt dflt A K') : K = K' := by
  obtain ⟨T, r, F, h1, -, h2⟩ := h
  obtain ⟨T', r', F', h1', -, h2'⟩ := h'
  obtain ⟨sch, s1, s2⟩ := fair_exists n (setNumThreads nt dflt) (max F F')
  have e := (h2 _ (Nat.lt_succ_self _)).2 (fun _ => sch) (fun _ => s1)
    (fun _ t ht => by have := s2 t ht; omega)
  have e' := (h2' _ (Nat.lt_succ_self _)).2 (fun _ => sch) (fun _ => s1)
    (fun _ t ht => by have := s2 t ht; omega)
  rw [e] at e'
  cases e'
  ext u v
  rw [← h1.adj, ← h1'.adj]

/-- C30: for every graph and every `k >= 3` the loop ends and what remains is the largest subgraph in which every edge
lies in at least `k - 2` triangles, for every algorithm without complement, one- or two-phase, any number of threads and
any schedules. -/
theorem C30_ktruss {k : Nat} (hk : 3 ≤ k) {G : SimpleGraph (Fin n)} (hn : 0 < n) {A : CSR Nat}
    (h : Represents G A) {a : Algo} (ha : Usable a A.nnz) (two : Bool) {nt dflt : Nat}
    (ht : 0 < setNumThreads nt dflt) : ∃ K, IsLargestTruss k G K ∧ EndsWith a two k nt dflt A K :=
  endsWith_of ⟨hk, fun _ _ => rfl⟩ hn h ha two ht

/-- C51 is false: the 2-truss of a graph is the graph itself, but if some edge lies in no triangle, the program does not
end with it for `k = 2`, whatever the algorithm and the number of threads. -/
theorem C51_violated {G : SimpleGraph (Fin n)} (hn : 0 < n) {A : CSR Nat} (h : Represents G A) {a : Algo}
    (ha : Usable a A.nnz) (two : Bool) {nt dflt : Nat} (ht : 0 < setNumThreads nt dflt) {u v : Fin n}
    (huv : G.Adj u v) (hs : support G u v = 0) :
    IsLargestTruss 2 G G ∧ ∀ K, IsLargestTruss 2 G K → ¬ EndsWith a two 2 nt dflt A K := by
  have hG : IsLargestTruss 2 G G := ⟨le_refl G, fun _ _ _ => Nat.zero_le _, fun H hH _ => hH⟩
  refine ⟨hG, fun K hK hE => ?_⟩
  obtain ⟨K', h1, h2⟩ := endsWith_of (k := 2) (k' := 3) ⟨Nat.le_refl 3, fun v hv => by
    simp only [thunk, decide_eq_decide]; omega⟩ hn h ha two ht
  have e := hE.unique h2
  subst e
  have h3 := h1.truss u v (hK.largest G (le_refl G) hG.truss huv)
  have := support_mono h1.sub u v
  omega

/-- C51, what holds: for `k = 2` the program computes the 3-truss; so it is right when every edge lies in a triangle.
Missing: graphs with an edge in no triangle, where the statement is false. -/
theorem C51_partial {G : SimpleGraph (Fin n)} (hn : 0 < n) {A : CSR Nat} (h : Represents G A) {a : Algo}
    (ha : Usable a A.nnz) (two : Bool) {nt dflt : Nat} (ht : 0 < setNumThreads nt dflt) :
    (∃ K, IsLargestTruss 3 G K ∧ EndsWith a two 2 nt dflt A K) ∧
    ((∀ u v, G.Adj u v → support G u v ≠ 0) → EndsWith a two 2 nt dflt A G) := by
  obtain ⟨K, h1, h2⟩ := endsWith_of (k := 2) (k' := 3) ⟨Nat.le_refl 3, fun v hv => by
    simp only [thunk, decide_eq_decide]; omega⟩ hn h ha two ht
  refine ⟨⟨K, h1, h2⟩, fun hall => ?_⟩
  have : G = K := le_antisymm (h1.largest G (le_refl G) fun u v huv => Nat.pos_of_ne_zero (hall u v huv)) h1.sub
  rw [this]
  exact h2

/-! ## Examples -/

example := C30_ktruss (k := 3) (by decide) (by decide) exRep (usable_hash _) true (nt := 3) (dflt := 1) (by decide)

example := C51_partial (by decide) exRep (usable_hash _) true (nt := 3) (dflt := 1) (by decide)

/-- The pendant edge 2-3 of the example lies in no triangle. -/
example := C51_violated (by decide) exRep (usable_hash _) true (nt := 3) (dflt := 1) (by decide) (u := 2) (v := 3)
  (by decide) (by
    have : {w | exG.Adj 2 w ∧ exG.Adj w 3} = ∅ := by
      ext w
      have : ∀ w, ¬ (exG.Adj 2 w ∧ exG.Adj w 3) := by decide
      simpa using this w
    rw [support, this, Set.ncard_empty])

end Verif.Props
