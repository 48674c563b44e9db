import Verif.SpecMaskedAll
import Verif.SpecIO
import Verif.SpecConv

/-!
# What the sample programs report

Independent of the model of the code. Used to state C96, C97, C98 and C99. Matrices are lists of entries (row, column, value).
-/

namespace Verif.Spec

variable {R : Type}

/-- `P` lists the entries of the product of `es` and `fs`, each once: the positions that get a product. -/
structure ProductEntries [Semiring R] (es fs P : List (Nat × Nat × R)) : Prop where
  nodup : (P.map fun e => (e.1, e.2.1)).Nodup
  mem : ∀ i j v, (i, j, v) ∈ P ↔ (∃ k, Stored es i k ∧ Stored fs k j) ∧ v = productAt es fs i j

/-- The entries are listed by rows, and in each row by columns. -/
def ByRows (P : List (Nat × Nat × R)) : Prop := P.Pairwise fun x y => x.1 < y.1 ∨ x.1 = y.1 ∧ x.2.1 < y.2.1

/-- `es` lists the entries of the weight matrix of the graph with the given edges, each once: entry `(i, j)` is present exactly if there is an edge from `i` to `j`,
and holds the sum of the weights of all these edges. -/
structure GraphEntries (add : R → R → R) (edges es : List (Nat × Nat × R)) : Prop where
  nodup : (es.map fun e => (e.1, e.2.1)).Nodup
  mem : ∀ i j v, (i, j, v) ∈ es ↔ sum1 add (weights edges i j) = some v

/-- The entries in the first `p` rows, and those in the other rows, whose rows are numbered from 0 again after each `p` rows -/
def upperRows (p : Nat) (es : List (Nat × Nat × R)) : List (Nat × Nat × R) := es.filter fun e => decide (e.1 < p)

def lowerRows (p : Nat) (es : List (Nat × Nat × R)) : List (Nat × Nat × R) :=
  (es.filter fun e => decide (p ≤ e.1)).map fun e => (e.1 % p, e.2)

/-- The entries in the first `p` columns -/
def firstColumns (p : Nat) (es : List (Nat × Nat × R)) : List (Nat × Nat × R) := es.filter fun e => decide (e.2.1 < p)

/-- The numbers of threads: those of `deflt` if there is no further argument, else the number that is written there. They are positive. -/
inductive Threads (deflt : List Nat) : List (List Char) → List Nat → Prop where
  | default : Threads deflt [] deflt
  | given (a : List Char) (rest : List (List Char)) (t : Nat) (h : Numeral a t) (pos : 0 < t) : Threads deflt (a :: rest) [t]

end Verif.Spec
