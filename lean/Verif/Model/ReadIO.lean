import Verif.Model.Convert

/-!
# Reading matrices from text files

Models `/repo/IO.h`, `ReadASCII` and `ReadASCII_Triples`, with the parts of the C and C++ libraries that they use: `ifstream::get`,
`unget`, `getline`, `eof`; extraction of numbers from a `stringstream`; `atoi`, `strchr`, `strstr`. A file is a list of characters
without a null character. Numbers are not bounded.
-/

namespace Verif.Model.ReadIO

variable {V : Type}

/-- An input stream: what is left to read, `eofbit`, `failbit`. -/
structure Stream where
  rest : List Char
  eof : Bool
  fail : Bool

/-- `ifstream(filename)`. A file that cannot be opened (`none`) sets `failbit`. -/
def openFile : Option (List Char) → Stream
  | none => ⟨[], false, true⟩
  | some l => ⟨l, false, false⟩

/-- `istream::get()`; `none` is `EOF`. -/
def get (s : Stream) : Option Char × Stream :=
  if s.eof || s.fail then (none, { s with fail := true })
  else match s.rest with
    | [] => (none, ⟨[], true, true⟩)
    | c :: r => (some c, ⟨r, false, false⟩)

/-- `istream::unget()` after `get` returned `c`: clears `eofbit`, then puts the character back unless `failbit` is set. -/
def unget (c : Option Char) (s : Stream) : Stream :=
  if s.fail then { s with eof := false }
  else match c with
    | none => ⟨s.rest, false, true⟩
    | some c => ⟨c :: s.rest, false, false⟩

/-- Why `getline` stopped -/
inductive Stop where
  | delim
  | eof
  | full
  deriving DecidableEq

/-- The characters that `getline` stores when there is room for `k`, what is left, why it stopped -/
def scanLine : Nat → List Char → List Char × List Char × Stop
  | _, [] => ([], [], .eof)
  | k, c :: r =>
    if c = '\n' then ([], r, .delim)
    else match k with
      | 0 => ([], c :: r, .full)
      | k + 1 => (c :: (scanLine k r).1, (scanLine k r).2.1, (scanLine k r).2.2)

/-- `istream::getline(line, 256)`: the string in `line` afterwards. `failbit` is set if the line has more than 255 characters or if
there is nothing to extract. -/
def getline (s : Stream) : List Char × Stream :=
  if s.eof || s.fail then ([], { s with fail := true })
  else match scanLine 255 s.rest with
    | (l, r, .delim) => (l, ⟨r, false, false⟩)
    | (l, r, .eof) => (l, ⟨r, true, l.isEmpty⟩)
    | (l, r, .full) => (l, ⟨r, false, true⟩)

/-- `isspace` -/
def isSpace (c : Char) : Bool := c = ' ' || c = '\t' || c = '\n' || c = '\r' || c = '\x0b' || c = '\x0c'

def isDigit (c : Char) : Bool := '0' ≤ c && c ≤ '9'

/-- The value of a string of digits -/
def digitsVal (l : List Char) : Nat := l.foldl (fun v c => 10 * v + (c.toNat - '0'.toNat)) 0

/-- An optional sign (`true`: minus) and what follows -/
def sign : List Char → Bool × List Char
  | [] => (false, [])
  | c :: r => if c = '-' then (true, r) else if c = '+' then (false, r) else (false, c :: r)

def signed (neg : Bool) (n : Nat) : Int := if neg then -(n : Int) else n

/-- `atoi` -/
def atoi (l : List Char) : Int :=
  let s := sign (l.dropWhile isSpace)
  signed s.1 (digitsVal (s.2.takeWhile isDigit))

/-- `strchr(ch, ' ')` followed by `ch++`; `none`: the pointer is null. -/
def afterSpace (l : List Char) : Option (List Char) :=
  match l.dropWhile (fun c => decide (c ≠ ' ')) with
  | [] => none
  | _ :: r => some r

/-- `strstr(line, w) != NULL` -/
def contains (line w : List Char) : Bool := decide (w <:+: line)

/-- `ss >> x`. The state is the string and `failbit`. The variable is not set (`none`) if `failbit` is set or the string is at its end, and
set to 0 if there is no number. -/
def extract (s : List Char × Bool) : Option Int × (List Char × Bool) :=
  if s.2 then (none, s)
  else if (s.1.dropWhile isSpace).isEmpty then (none, ([], true))
  else
    let t := sign (s.1.dropWhile isSpace)
    let d := t.2.takeWhile isDigit
    if d.isEmpty then (some 0, (t.2, true)) else (some (signed t.1 (digitsVal d)), (t.2.dropWhile isDigit, false))

/-- `ss >> m >> n >> nnz`, IO.h:78-80 and 173-175; the variables are used afterwards. -/
def readSizes (line : List Char) : Res (Int × Int × Int) := do
  let a := extract (line, false)
  let b := extract a.2
  let c := extract b.2
  let m ← use a.1
  let n ← use b.1
  let nnz ← use c.1
  .ok (m, n, nnz)

/-- The loop over the comments, IO.h:66-75 and 156-165: `isSymmetric`, the last character, the stream. Each turn reads a character, so
that the number of turns is bounded by the length of the file. -/
def comments : Nat → Option Char → Stream → Bool → Res (Bool × Option Char × Stream)
  | 0, _, _, _ => .error .diverge
  | fuel + 1, c, s, sym =>
    if c = some '%' then
      let l := getline s
      let g := get l.2
      comments fuel g.1 g.2 (sym || contains l.1 "symmetric".toList)
    else .ok (sym, c, s)

/-- The beginning, IO.h:64-80 and 154-175: `isSymmetric`, the sizes, the stream. -/
def header (file : Option (List Char)) : Res (Bool × (Int × Int × Int) × Stream) := do
  let s := openFile file
  let g := get s
  let r ← comments (s.rest.length + 2) g.1 g.2 false
  let l := getline (unget r.2.1 r.2.2)
  let sz ← readSizes l.1
  .ok (r.1, sz, l.2)

/-- One line, IO.h:94-109 and 188-201: row and column as in the file, value. Without a space `ch` is a null pointer that is
incremented and read. `ofInt` converts to the type of values. -/
def parseLine (ofInt : Int → V) (line : List Char) : Res (Int × Int × V) :=
  match afterSpace line with
  | none => .error .oob
  | some l1 =>
    match afterSpace l1 with
    | none => .ok (atoi line, atoi l1, ofInt 1)
    | some l2 => .ok (atoi line, atoi l1, ofInt (atoi l2))

/-- A new array of `nnz` elements that holds `fresh`; `new` throws an exception if `nnz` is negative. -/
def alloc {α : Type} (fresh : Nat → α) (nnz : Int) : Res (List α) :=
  if nnz < 0 then .error .assertion else .ok (tab nnz.toNat fresh)

/-- The state of the loops: array, `cnz`, `nnz`, stream, number of lines read. -/
structure St (V : Type) where
  arr : List (Int × Int × V)
  cnz : Nat
  nnz : Int
  s : Stream
  k : Nat

/-- The end of a turn, IO.h:113-124 and 214-229, after the entry `t` has been stored at `cnz`: the mirrored entry. -/
def mirror (sym : Bool) (t : Int × Int × V) (st : St V) : Res (St V) :=
  if sym then
    if t.2.1 ≠ t.1 then do
      let arr ← wr st.arr (st.cnz + 1) (t.2.1, t.1, t.2.2)
      .ok { st with arr := arr, cnz := st.cnz + 2 }
    else .ok { st with nnz := st.nnz - 1, cnz := st.cnz + 1 }
  else .ok { st with cnz := st.cnz + 1 }

/-- Storing an entry, IO.h:95-112 and 211-213, and the end of the turn. -/
def store (sym : Bool) (t : Int × Int × V) (st : St V) : Res (St V) := do
  let arr ← wr st.arr st.cnz (t.1 - 1, t.2.1 - 1, t.2.2)
  mirror sym (t.1 - 1, t.2.1 - 1, t.2.2) { st with arr := arr }

/-- The body of the loop of `ReadASCII`, IO.h:92-125 -/
def lineA (ofInt : Int → V) (sym : Bool) (st : St V) : Res (St V) := do
  let l := getline st.s
  let t ← parseLine ofInt l.1
  store sym t { st with s := l.2, k := st.k + 1 }

/-- The value, IO.h:203-204: `rnd k` is the value from the `k`-th call of `rand`. -/
def pick (rand : Bool) (rnd : Nat → V) (k : Nat) (v : V) : V := if rand then rnd k else v

/-- A removed diagonal entry, IO.h:206-212, or an entry to be stored -/
def keep (sym remove : Bool) (t : Int × Int × V) (st : St V) : Res (St V) :=
  if remove ∧ t.1 = t.2.1 then .ok { st with nnz := st.nnz - (if sym then 2 else 1) } else store sym t st

/-- The body of the loop of `ReadASCII_Triples`, IO.h:186-231. The three arrays are one array of triples. -/
def lineT (ofInt : Int → V) (rand : Bool) (rnd : Nat → V) (sym remove : Bool) (st : St V) : Res (St V) := do
  let l := getline st.s
  let t ← parseLine ofInt l.1
  keep sym remove (t.1, t.2.1, pick rand rnd st.k t.2.2) { st with s := l.2, k := st.k + 1 }

/-- `while (!infile.eof() && cnz < nnz)`, IO.h:90 and 184. Each turn makes `nnz - cnz` smaller, so that `fuel` is enough if it is
more than the first `nnz`. -/
def entryLoop (body : St V → Res (St V)) : Nat → St V → Res (St V)
  | 0, _ => .error .diverge
  | fuel + 1, st =>
    if st.s.eof = false ∧ (st.cnz : Int) < st.nnz then do
      let st ← body st
      entryLoop body fuel st
    else .ok st

/-- Loop, assertion and the part of the array that counts. `fresh` is what the new array holds. -/
def entries (fresh : Nat → Int × Int × V) (body : Bool → St V → Res (St V)) (file : Option (List Char)) :
    Res ((Int × Int) × List (Int × Int × V)) := do
  let h ← header file
  let nnz := if h.1 then 2 * h.2.1.2.2 else h.2.1.2.2
  let arr ← alloc fresh nnz
  let st ← entryLoop (body h.1) (nnz.toNat + 1) { arr := arr, cnz := 0, nnz := nnz, s := h.2.2, k := 0 }
  check (decide ((st.cnz : Int) = st.nnz))
  .ok ((h.2.1.1, h.2.1.2.1), st.arr.take st.nnz.toNat)

/-- `ReadASCII_Triples`, IO.h:143-243: sizes and entries. The arrays hold arbitrary data at first. -/
def readTriples (fresh : Nat → Int × Int × V) (ofInt : Int → V) (rand : Bool) (rnd : Nat → V) (remove : Bool) (file : Option (List Char)) :
    Res ((Int × Int) × List (Int × Int × V)) :=
  entries fresh (fun sym => lineT ofInt rand rnd sym remove) file

/-- Indices and sizes for the constructor. Negative ones lead to exceptions or accesses out of bounds there, or to an invalid matrix; the
model takes all of this as `oob`. -/
def toNats (x : (Int × Int) × List (Int × Int × V)) : Res ((Nat × Nat) × List (Nat × Nat × V)) :=
  if 0 ≤ x.1.1 ∧ 0 ≤ x.1.2 ∧ ∀ t ∈ x.2, 0 ≤ t.1 ∧ 0 ≤ t.2.1 then
    .ok ((x.1.1.toNat, x.1.2.toNat), x.2.map fun t => (t.1.toNat, t.2.1.toNat, t.2.2))
  else .error .oob

/-- `ReadASCII`, IO.h:60-139. The assignment of the new object to `csc` is `Model.MatObj`. -/
def readASCII (sortf : List (Nat × V) → List (Nat × V)) (order : List Nat) (ofInt : Int → V) (file : Option (List Char)) :
    Res (CSC V) := do
  let x ← entries (fun _ => (0, 0, ofInt 0)) (fun sym => lineA ofInt sym) file
  let x ← toNats x
  Conv.cscOfTriples sortf order (ofInt 0) x.2 x.1.1 x.1.2

end Verif.Model.ReadIO
