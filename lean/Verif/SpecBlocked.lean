import Verif.SpecMaskedAll
import Verif.SpecTri

/-!
# A matrix that is split into blocks

Independent of the model of the code. Used to state C88.
-/

namespace Verif.Spec

variable {R : Type}

/-- Where block `i` begins, if the blocks have the widths `w 0, w 1, …` -/
def blockStart (w : Nat → Nat) (i : Nat) : Nat := ((List.range i).map w).sum

/-- The entries of the whole matrix, if `es i j` are the entries of the block in row `i` and column `j` of a grid with `g` rows and columns -/
def assembled (g : Nat) (w : Nat → Nat) (es : Nat → Nat → List (Nat × Nat × R)) : List (Nat × Nat × R) :=
  (List.range g).flatMap fun i => (List.range g).flatMap fun j => (es i j).map fun e => (blockStart w i + e.1, blockStart w j + e.2.1, e.2.2)

/-- `u` and `v` are joined by a path of two entries, with the middle in block `k`. -/
def Through (w : Nat → Nat) (E : List (Nat × Nat × R)) (u v k : Nat) : Prop :=
  ∃ x, blockStart w k ≤ x ∧ x < blockStart w (k + 1) ∧ Stored E u x ∧ Stored E x v

end Verif.Spec
