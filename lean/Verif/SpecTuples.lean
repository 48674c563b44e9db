import Verif.SpecConv

/-!
# Specifications for lists of triples
-/

namespace Verif.Spec

variable {V : Type}

/-- the position of a triple -/
def pos (t : Nat × Nat × V) : Nat × Nat := (t.1, t.2.1)

/-- the order by row and column -/
def PosLt (a b : Nat × Nat × V) : Prop := a.1 < b.1 ∨ a.1 = b.1 ∧ a.2.1 < b.2.1

/-- A sorting function for triples by row and column, such as `std::sort`. Nothing is said about the order of triples with equal
positions. -/
structure SortsTriples (sortf : List (Nat × Nat × V) → List (Nat × Nat × V)) : Prop where
  perm : ∀ l, (sortf l).Perm l
  sorted : ∀ l, (sortf l).Pairwise (fun a b => ¬ PosLt b a)

/-- `D` is `T` without duplicates, in order: increasing positions, all from `T`, and all positions of `T`. -/
structure IsDedup (T D : List (Nat × Nat × V)) : Prop where
  sorted : D.Pairwise PosLt
  sub : ∀ t ∈ D, t ∈ T
  cover : ∀ t ∈ T, ∃ t' ∈ D, pos t' = pos t

/-- Row `r` belongs to piece `o` of `splits` pieces of `size` rows, where the last piece also takes the remaining rows. -/
def InPiece (size splits o r : Nat) : Prop := o * size ≤ r ∧ (r < (o + 1) * size ∨ o + 1 = splits)

instance (size splits o r : Nat) : Decidable (InPiece size splits o r) := by unfold InPiece; infer_instance

end Verif.Spec
