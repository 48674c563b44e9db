import Verif.Model.ReadIO

/-!
# The constructor of CSR from a text file

Models `CSR(const string filename)`, `/repo/CSR.h` 538-645, with the C functions `fgets` and `sscanf`. A file is a list of characters
without a null character. Numbers are not bounded. The arrays of the result are made `sizeof(IT)` or `sizeof(NT)` times as long as
needed; the model has them in the needed length, so that it reports accesses beyond this length as errors.
-/

namespace Verif.Model.ReadCsr

open ReadIO

variable {V : Type}

/-- The characters of a line that fit into `k`, with the newline, and what is left -/
def takeLine : Nat → List Char → List Char × List Char
  | 0, l => ([], l)
  | _, [] => ([], [])
  | k + 1, c :: r => if c = '\n' then ([c], r) else (c :: (takeLine k r).1, (takeLine k r).2)

/-- `fgets(line, 256, fp)`; `none`: null pointer, `line` is unchanged. -/
def fgets (rest : List Char) : Option (List Char × List Char) := if rest.isEmpty then none else some (takeLine 255 rest)

/-- The content of `line` after `fgets` and what is left -/
def nextLine (line : Option (List Char)) (rest : List Char) : Option (List Char) × List Char :=
  match fgets rest with
  | none => (line, rest)
  | some r => (some r.1, r.2)

/-- The loop over the comments, CSR.h:561-566: the last line, what is left, `isUnsy`. `line` is not set at first. A turn that reads
nothing leaves everything as it is, and the loop goes on forever; all others read a character. -/
def headLoop : Nat → Option (List Char) → List Char → Bool → Res (List Char × List Char × Bool)
  | 0, _, _, _ => .error .diverge
  | fuel + 1, line, rest, gen =>
    match nextLine line rest with
    | (none, _) => .error .uninit
    | (some l, r) =>
      if l.head? = some '%' then headLoop fuel (some l) r (gen || contains l "general".toList)
      else .ok (l, r, gen || contains l "general".toList)

/-- One `%d` of `sscanf`. The state is the string and whether an earlier one failed. -/
def scanD (s : List Char × Bool) : Option Int × (List Char × Bool) :=
  let t := sign (s.1.dropWhile isSpace)
  let d := t.2.takeWhile isDigit
  if s.2 || d.isEmpty then (none, (s.1, true)) else (some (signed t.1 (digitsVal d)), (t.2.dropWhile isDigit, false))

/-- `sscanf(line, "%d %d %d", &rows, &cols, &tmp_nz)`, CSR.h:569; the variables are used afterwards. -/
def scanSizes (line : List Char) : Res (Int × Int × Int) := do
  let a := scanD (line, false)
  let b := scanD a.2
  let c := scanD b.2
  let m ← use a.1
  let n ← use b.1
  let k ← use c.1
  .ok (m, n, k)

/-- One line, CSR.h:578-595, as `ReadIO.parseLine`; `atof` is `(NT)atof(ch)`. -/
def parseF (atof : List Char → V) (one : V) (line : List Char) : Res (Int × Int × V) :=
  match afterSpace line with
  | none => .error .oob
  | some l1 =>
    match afterSpace l1 with
    | none => .ok (atoi line - 1, atoi l1 - 1, one)
    | some l2 => .ok (atoi line - 1, atoi l1 - 1, atof l2)

/-- The loop over the entries, CSR.h:577-597. The three arrays are one array of triples, which are not set at first. The result is the
array and `num`. Each turn reads a character. -/
def readLoop (atof : List Char → V) (one : V) : Nat → List Char → List (Option (Int × Int × V)) × Nat →
    Res (List (Option (Int × Int × V)) × Nat)
  | 0, _, _ => .error .diverge
  | fuel + 1, rest, s =>
    match fgets rest with
    | none => .ok s
    | some l => do
      let t ← parseF atof one l.1
      let arr ← wr s.1 s.2 (some t)
      readLoop atof one fuel l.2 (arr, s.2 + 1)

/-- Indices and sizes must not be negative. Negative ones lead to accesses out of bounds or to an invalid matrix; the model takes all of
this as `oob`. -/
def natEntry (t : Int × Int × V) : Res (Nat × Nat × V) :=
  if 0 ≤ t.1 ∧ 0 ≤ t.2.1 then .ok (t.1.toNat, t.2.1.toNat, t.2.2) else .error .oob

def natSize (x : Int) : Res Nat := if 0 ≤ x then .ok x.toNat else .error .oob

/-- `a[r]++` -/
def bump (a : List Nat) (r : Nat) : Res (List Nat) := do
  let x ← rd a r
  wr a r (x + 1)

/-- The body of the counting loop, CSR.h:606-610. The state is `nnz_num` and `tmp_nz`. -/
def countEntry (gen : Bool) (s : List Nat × Nat) (t : Nat × Nat × V) : Res (List Nat × Nat) := do
  let a ← bump s.1 t.1
  if t.2.1 ≠ t.1 ∧ gen = false then do
    let a ← bump a t.2.1
    .ok (a, s.2 + 1)
  else .ok (a, s.2)

/-- The body of the loop CSR.h:621-624. The state is `rowptr` and `offset`. -/
def offsetRow (num : List Nat) (i : Nat) (s : List Nat × Nat) : Res (List Nat × Nat) := do
  let ptr ← wr s.1 i s.2
  let x ← rd num i
  .ok (ptr, s.2 + x)

/-- The arrays of the last loop -/
structure Out (V : Type) where
  each : List Nat
  colids : List Nat
  values : List V

/-- Storing one entry, CSR.h:633-634 and 637-638 -/
def put (ptr : List Nat) (o : Out V) (r c : Nat) (v : V) : Res (Out V) := do
  let p ← rd ptr r
  let q ← rd o.each r
  let colids ← wr o.colids (p + q) c
  let values ← wr o.values (p + q) v
  let each ← wr o.each r (q + 1)
  .ok { each := each, colids := colids, values := values }

/-- The body of the last loop, CSR.h:632-640 -/
def putEntry (gen : Bool) (ptr : List Nat) (o : Out V) (t : Nat × Nat × V) : Res (Out V) := do
  let o ← put ptr o t.1 t.2.1 t.2.2
  if t.2.1 ≠ t.1 ∧ gen = false then put ptr o t.2.1 t.1 t.2.2 else .ok o

/-- CSR.h:599-641: from the entries to the matrix; `k` is `tmp_nz`. -/
def build (dflt : V) (gen : Bool) (m n k : Nat) (es : List (Nat × Nat × V)) : Res (CSR V) := do
  let c ← es.foldlM (countEntry gen) (List.replicate m 0, k)
  let s ← forRange 0 m (List.replicate (m + 1) 0, 0) (offsetRow c.1)
  let ptr ← wr s.1 m s.2
  let o ← es.foldlM (putEntry gen ptr)
    { each := List.replicate m 0, colids := List.replicate c.2 0, values := List.replicate c.2 dflt }
  .ok { rows := m, cols := n, nnz := c.2, rowptr := ptr, colids := o.colids, values := o.values, zerobased := true }

/-- `CSR(filename)`, CSR.h:538-645. If the file cannot be opened, the process ends with `exit(1)`. -/
def csrOfFile (atof : List Char → V) (one dflt : V) : Option (List Char) → Res (CSR V)
  | none => .error .assertion
  | some text => do
    let h ← headLoop (text.length + 2) none text false
    let sz ← scanSizes h.1
    let m ← natSize sz.1
    let n ← natSize sz.2.1
    let k ← natSize sz.2.2
    let r ← readLoop atof one (h.2.1.length + 1) h.2.1 (List.replicate k none, 0)
    let es ← (r.1.take r.2).mapM use
    let es ← es.mapM natEntry
    build dflt h.2.2 m n k es

end Verif.Model.ReadCsr
