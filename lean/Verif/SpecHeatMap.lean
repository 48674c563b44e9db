import Mathlib.Data.Finset.Prod
import Mathlib.Data.List.Basic

/-! # Specification for the benchmark on random matrices -/

namespace Verif.Spec

/-- `lo`, `2 * lo`, `4 * lo`, … up to `hi` (which is less than `2 ^ 32`) -/
def doubled (lo hi : Nat) : List Nat := ((List.range 32).map fun i => lo * 2 ^ i).filter fun x => decide (x ≤ hi)

/-- The positions of the first `k` random draws -/
def drawn (rnd : Nat → Nat × Nat) (k : Nat) : Finset (Nat × Nat) := (Finset.range k).image rnd

/-- The number of products of an entry of one matrix with an entry of another, from the positions of their entries -/
def meetings (S T : Finset (Nat × Nat)) : Nat := ((S ×ˢ T).filter fun p => p.1.2 = p.2.1).card

/-- The positions of the edges of a graph -/
def edgePos (G : List (Nat × Nat × Int)) : Finset (Nat × Nat) := (G.map fun e => (e.1, e.2.1)).toFinset

/-- The lines for one dimension: for each degree of the first and the second matrix (or, with `sameAB`, for each pair of degrees at the same place in the two
lists, of which only the first is shown) and each degree of the mask. `count` is the number of products for the degrees of the two matrices. -/
def heatLines (sameAB : Bool) (dim : Nat) (as bs ms : List Nat) (count : Nat → Nat → Nat) : List (List Nat) :=
  if sameAB then (as.zip bs).flatMap fun p => ms.map fun z => [dim, p.1, z, count p.1 p.2 % 2 ^ 32]
  else as.flatMap fun x => bs.flatMap fun y => ms.map fun z => [dim, x, y, z, count x y % 2 ^ 32]

end Verif.Spec
