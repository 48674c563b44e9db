import Verif.Csr
import Mathlib.Combinatorics.SimpleGraph.Clique
import Mathlib.Data.Set.Card

/-!
# Graphs, triangles and trusses

Independent of the model of the code. Used to state C29, C30 and C50.
-/

namespace Verif.Spec

variable {V : Type} {n : Nat}

/-- `X` is the adjacency matrix of `G` (with arbitrary stored values), rows sorted. -/
structure Represents (G : SimpleGraph (Fin n)) (X : CSR V) : Prop where
  wf : X.WF
  rows : X.rows = n
  cols : X.cols = n
  sorted : X.SortedRows
  adj : ∀ i j : Fin n, j.val ∈ X.rowCols i ↔ G.Adj i j

/-- `L` is the strictly lower triangle of the adjacency matrix of `G`. -/
structure IsLower (G : SimpleGraph (Fin n)) (L : CSR V) : Prop where
  wf : L.WF
  rows : L.rows = n
  cols : L.cols = n
  sorted : L.SortedRows
  adj : ∀ i j : Fin n, j.val ∈ L.rowCols i ↔ j < i ∧ G.Adj i j

/-- The number of triangles: of sets of three pairwise adjacent vertices. -/
noncomputable def triangles (G : SimpleGraph (Fin n)) : Nat := {s : Finset (Fin n) | G.IsNClique 3 s}.ncard

/-- The number of triangles an edge `u v` lies in: of common neighbours. -/
noncomputable def support (G : SimpleGraph (Fin n)) (u v : Fin n) : Nat := {w | G.Adj u w ∧ G.Adj w v}.ncard

/-- Every edge of `H` lies in at least `k - 2` triangles of `H`. -/
def IsTruss (k : Nat) (H : SimpleGraph (Fin n)) : Prop := ∀ u v, H.Adj u v → k - 2 ≤ support H u v

/-- `K` is the `k`-truss of `G`: the largest subgraph that is a `k`-truss. -/
structure IsLargestTruss (k : Nat) (G K : SimpleGraph (Fin n)) : Prop where
  sub : K ≤ G
  truss : IsTruss k K
  largest : ∀ H ≤ G, IsTruss k H → H ≤ K

/-- `G'` is `G` with the vertices renumbered by `σ`. -/
def Relabelled (G G' : SimpleGraph (Fin n)) (σ : Equiv.Perm (Fin n)) : Prop :=
  ∀ u v, G'.Adj (σ u) (σ v) ↔ G.Adj u v

/-- The number of neighbours. -/
noncomputable def degree (G : SimpleGraph (Fin n)) (u : Fin n) : Nat := {v | G.Adj u v}.ncard

/-- A sorting function for pairs that puts larger ones first, such as `std::sort` with `std::greater`. -/
structure SortsGreater (sortf : List (Nat × Nat) → List (Nat × Nat)) : Prop where
  perm : ∀ l, (sortf l).Perm l
  sorted : ∀ l, (sortf l).Pairwise fun a b => b.1 < a.1 ∨ b.1 = a.1 ∧ b.2 ≤ a.2

end Verif.Spec
