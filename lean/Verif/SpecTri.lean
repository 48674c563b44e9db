import Verif.SpecGraph
import Verif.SpecTuples

/-!
# The graph of a matrix, and sums in parallel

Independent of the model of the code. Used to state C69 and C70.
-/

namespace Verif.Spec

variable {V : Type} {n : Nat}

/-- The undirected graph of a square matrix: `u` and `v` are adjacent if they are different and `(u, v)` or `(v, u)` is stored, with any
value. -/
def undirected (n : Nat) (A : CSC V) : SimpleGraph (Fin n) where
  Adj u v := u ≠ v ∧ (u.val ∈ A.colRows v ∨ v.val ∈ A.colRows u)
  symm := ⟨fun _ _ h => ⟨h.1.symm, h.2.symm⟩⟩
  loopless := ⟨fun _ h => h.1 rfl⟩

/-- The undirected graph with `n` vertices whose edges are given by a list of entries (row, column, value), without the entries on the
diagonal. -/
def graphOf (n : Nat) (es : List (Nat × Nat × V)) : SimpleGraph (Fin n) where
  Adj u v := u ≠ v ∧ ∃ e ∈ es, (e.1, e.2.1) = (u.val, v.val) ∨ (e.1, e.2.1) = (v.val, u.val)
  symm := ⟨fun _ _ h => ⟨h.1.symm, h.2.imp fun _ h => ⟨h.1, h.2.symm⟩⟩⟩
  loopless := ⟨fun _ h => h.1 rfl⟩

/-- A sorting function for triples that puts larger positions first, such as `std::sort` with a reversed comparison. Nothing is said about
the order of triples with equal positions. -/
structure SortsDown (sortf : List (Nat × Nat × V) → List (Nat × Nat × V)) : Prop where
  perm : ∀ l, (sortf l).Perm l
  sorted : ∀ l, (sortf l).Pairwise (fun a b => ¬ PosLt a b)

/-- The iterations `0 .. n-1` of a loop, distributed over threads: every iteration is in exactly one list. -/
def Splits (n : Nat) (parts : List (List Nat)) : Prop := parts.flatten.Perm (List.range n)

end Verif.Spec
