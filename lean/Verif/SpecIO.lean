import Verif.SpecConv
import Mathlib.Data.List.Forall2

/-!
# Specification of the text files with matrices (Matrix Market, coordinate format)

Independent of the model of the code, like `Verif.Spec`.
-/

namespace Verif.Spec

variable {V : Type}

/-- A decimal numeral: a non-empty string of digits. Its value is the sum of digit values times powers of ten. -/
inductive Numeral : List Char → Nat → Prop where
  | digit (d : Nat) (h : d < 10) : Numeral [Nat.digitChar d] d
  | snoc (w : List Char) (n d : Nat) (hw : Numeral w n) (h : d < 10) : Numeral (w ++ [Nat.digitChar d]) (10 * n + d)

/-- An integer: a numeral, perhaps after a minus sign. -/
inductive IntNumeral : List Char → Int → Prop where
  | pos (w : List Char) (n : Nat) (h : Numeral w n) : IntNumeral w n
  | neg (w : List Char) (n : Nat) (h : Numeral w n) : IntNumeral ('-' :: w) (-n)

/-- What the banner says about symmetry. -/
inductive Sym where
  | general
  | symmetric
  | skew
  deriving DecidableEq

def Sym.name : Sym → List Char
  | general => "general".toList
  | symmetric => "symmetric".toList
  | skew => "skew-symmetric".toList

/-- What the banner says about the values. -/
inductive Field where
  | pattern
  | integer
  | real
  deriving DecidableEq

def Field.name : Field → List Char
  | pattern => "pattern".toList
  | integer => "integer".toList
  | real => "real".toList

/-- The first line -/
def banner (f : Field) (s : Sym) : List Char := "%%MatrixMarket matrix coordinate ".toList ++ f.name ++ ' ' :: s.name

/-- The line of the entry in row `i`, column `j` (from 0) with value `v`: indices from 1, separated by one space, then the value; no
value means `one`. `Val` says which strings stand for which values. -/
inductive EntryLine (Val : List Char → V → Prop) (one : V) : List Char → Nat × Nat × V → Prop where
  | pattern (w1 w2 : List Char) (i j : Nat) (h1 : Numeral w1 (i + 1)) (h2 : Numeral w2 (j + 1)) :
      EntryLine Val one (w1 ++ ' ' :: w2) (i, j, one)
  | value (w1 w2 w3 : List Char) (i j : Nat) (v : V) (h1 : Numeral w1 (i + 1)) (h2 : Numeral w2 (j + 1)) (h3 : Val w3 v) :
      EntryLine Val one (w1 ++ ' ' :: w2 ++ ' ' :: w3) (i, j, v)

/-- Integers as values, converted by `ofInt` -/
def IntVal (ofInt : Int → V) (w : List Char) (v : V) : Prop := ∃ z, IntNumeral w z ∧ v = ofInt z

/-- The line with the number of rows, columns and stored entries -/
inductive SizeLine : List Char → Nat → Nat → Nat → Prop where
  | mk (w1 w2 w3 : List Char) (m n k : Nat) (h1 : Numeral w1 m) (h2 : Numeral w2 n) (h3 : Numeral w3 k) :
      SizeLine (w1 ++ ' ' :: w2 ++ ' ' :: w3) m n k

/-- `text` consists of the given lines; the last one may lack the newline, or there may be more text after it. -/
def Lines (lines : List (List Char)) (text : List Char) : Prop :=
  (∃ tail, text = (lines.flatMap fun l => l ++ ['\n']) ++ tail) ∨ text ++ ['\n'] = lines.flatMap fun l => l ++ ['\n']

/-- `text` consists of the given lines and nothing else; the last one may lack the newline. -/
def LinesOnly (lines : List (List Char)) (text : List Char) : Prop :=
  text = (lines.flatMap fun l => l ++ ['\n']) ∨ text ++ ['\n'] = lines.flatMap fun l => l ++ ['\n']

/-- The parts of a file -/
structure MMText where
  field : Field
  sym : Sym
  comments : List (List Char)
  size : List Char
  entries : List (List Char)

/-- The lines of the file: the banner, comments after `%`, sizes, entries -/
def MMText.lines (t : MMText) : List (List Char) := banner t.field t.sym :: (t.comments.map ('%' :: ·) ++ t.size :: t.entries)

/-- The file describes an `m` times `n` matrix with the entries `es`, in the order of the file. -/
structure Describes (Val : List Char → V → Prop) (one : V) (t : MMText) (m n : Nat) (es : List (Nat × Nat × V)) : Prop where
  noNewline : ∀ l ∈ t.lines, '\n' ∉ l
  size : SizeLine t.size m n es.length
  entries : List.Forall₂ (EntryLine Val one) t.entries es
  inBounds : ∀ e ∈ es, e.1 < m ∧ e.2.1 < n
  square : t.sym ≠ .general → m = n

/-- The entries of the matrix: for symmetric matrices an entry off the diagonal also stands for its mirror image, for skew-symmetric
matrices with the opposite value. -/
def fullEntries (neg : V → V) (s : Sym) (es : List (Nat × Nat × V)) : List (Nat × Nat × V) :=
  match s with
  | .general => es
  | .symmetric => es ++ (es.filter fun e => decide (e.1 ≠ e.2.1)).map fun e => (e.2.1, e.1, e.2.2)
  | .skew => es ++ (es.filter fun e => decide (e.1 ≠ e.2.1)).map fun e => (e.2.1, e.1, neg e.2.2)

/-! ## Binary files -/

/-- The number `n` in `size` bytes, the lowest first -/
def bytesLE : Nat → Nat → List UInt8
  | 0, _ => []
  | size + 1, n => UInt8.ofNat (n % 256) :: bytesLE size (n / 256)

/-- A file in the binary format: three integers of `si` bytes with the numbers of rows, columns and entries, then all row indices, all
column indices and all values (as blocks of bytes). -/
def binaryFile (si m n : Nat) (es : List (Nat × Nat × List UInt8)) : List UInt8 :=
  bytesLE si m ++ bytesLE si n ++ bytesLE si es.length ++ (es.flatMap fun e => bytesLE si e.1) ++ (es.flatMap fun e => bytesLE si e.2.1) ++
    es.flatMap fun e => e.2.2

end Verif.Spec
