import Verif.Kinds
import Mathlib.Data.Set.Card
import Mathlib.Algebra.Field.Basic
import Mathlib.Algebra.BigOperators.Fin

/-!
# Shortest paths and betweenness centrality

Independent of the model of the code. Used to state C52.
-/

namespace Verif.Spec

variable {V : Type} {n : Nat}

/-- `X` is the adjacency matrix of the directed graph with the edges `R` (with arbitrary stored values), rows sorted. -/
structure RepresentsD (R : Fin n → Fin n → Prop) (X : CSR V) : Prop where
  wf : X.WF
  rows : X.rows = n
  cols : X.cols = n
  sorted : X.SortedRows
  adj : ∀ i j : Fin n, j.val ∈ X.rowCols i ↔ R i j

/-- The list of vertices `l` is a path from `s` to `t` along the edges `R`. -/
def IsPath (R : Fin n → Fin n → Prop) (s t : Fin n) (l : List (Fin n)) : Prop :=
  l.head? = some s ∧ l.getLast? = some t ∧ l.IsChain R

/-- A shortest path. -/
def IsShortest (R : Fin n → Fin n → Prop) (s t : Fin n) (l : List (Fin n)) : Prop :=
  IsPath R s t l ∧ ∀ l', IsPath R s t l' → l.length ≤ l'.length

/-- The number of shortest paths from `s` to `t`. -/
noncomputable def paths (R : Fin n → Fin n → Prop) (s t : Fin n) : Nat := {l | IsShortest R s t l}.ncard

/-- The number of shortest paths from `s` to `t` through `v`. -/
noncomputable def pathsThrough (R : Fin n → Fin n → Prop) (s t v : Fin n) : Nat := {l | IsShortest R s t l ∧ v ∈ l}.ncard

/-- Betweenness centrality of `v` for a batch of sources: the share of the shortest paths from a source `s` to a vertex
`t` that lead through `v`, added up over all `s` and `t` other than `v`. (Where there is no path the share is 0.) -/
noncomputable def centrality (K : Type) [Field K] (R : Fin n → Fin n → Prop) (srcs : List (Fin n)) (v : Fin n) : K :=
  (srcs.map fun s => ∑ t : Fin n, if v = s ∨ v = t then 0 else (pathsThrough R s t v : K) / (paths R s t : K)).sum

/-- What the program asks of the algorithm of `f_cmpl`: it uses the complement of the mask and its rows are sorted; the
heap algorithm is compiled without assertions. -/
def OkCmpl (k : Kind) : Prop := k.compl = true ∧ k.sorted = true ∧ k ≠ .heapC false

/-- What the program asks of the algorithm of `f_plain`: it uses the mask, and the inspection depth of the heap does not
wrap around for masks with up to `m` entries. -/
def OkPlain (k : Kind) (m : Nat) : Prop :=
  k.compl = false ∧ ∀ d, k = .heap d → d ≤ 1 ∨ d = 2 ^ 64 - 1 ∨ m + d < 2 ^ 64

end Verif.Spec
