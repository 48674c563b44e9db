import Verif.SpecIO

/-!
# Specification of files that hold the pattern of a matrix

Independent of the model of the code, like `Verif.Spec`.
-/

namespace Verif.Spec

/-- `text` is a Matrix Market file without comments that consists of complete lines and describes the pattern of an `m` times `n` matrix: the entries
are at the positions `ps` (row, column; from 0), in this order. -/
def PatternFile (text : List Char) (m n : Nat) (ps : List (Nat × Nat)) : Prop :=
  ∃ t : MMText, t.field = .pattern ∧ t.sym = .general ∧ t.comments = [] ∧ (text = t.lines.flatMap fun l => l ++ ['\n']) ∧
    Describes (fun (_ : List Char) (_ : Unit) => False) () t m n (ps.map fun p => (p.1, p.2, ()))

/-- The positions of a list of entries -/
def positions {V : Type} (es : List (Nat × Nat × V)) : List (Nat × Nat) := es.map fun e => (e.1, e.2.1)

/-- A file name with a non-empty part before its last point that does not end with a point; a point at the very end does not count. -/
def HasStem (name : List Char) : Prop :=
  ∃ stem c ext, c ≠ '.' ∧ '.' ∉ ext ∧ ((ext ≠ [] ∧ name = stem ++ c :: '.' :: ext) ∨ name = stem ++ c :: '.' :: ext ++ ['.'])

end Verif.Spec
