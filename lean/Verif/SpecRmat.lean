import Mathlib.Data.List.Basic

/-! # Specification for the generator of R-MAT graphs -/

namespace Verif.Spec

/-- `l'` is `l` sorted by `key`, where elements with the same key keep their order. -/
structure StableSort {α : Type} (key : α → Nat) (l l' : List α) : Prop where
  perm : l'.Perm l
  sorted : l'.Pairwise fun x y => key x ≤ key y
  stable : ∀ k, l'.filter (fun x => decide (key x = k)) = l.filter fun x => decide (key x = k)

/-- The edges (start, end, weight) of a graph with vertices `0 … n - 1`: `m` edges, in order of their starts, none from a vertex to itself, and
weights from `lo` up to but not including `hi` -/
structure IsRandomGraph (n m : Nat) (lo hi : Int) (es : List (Nat × Nat × Int)) : Prop where
  count : es.length = m
  ends : ∀ e ∈ es, e.1 < n ∧ e.2.1 < n
  noLoop : ∀ e ∈ es, e.1 ≠ e.2.1
  weights : ∀ e ∈ es, lo ≤ e.2.2 ∧ e.2.2 < hi
  sorted : es.Pairwise fun x y => x.1 ≤ y.1

end Verif.Spec
