import Verif.Model.ReadIO
import Verif.Model.ReadBin
import Verif.Model.Rmat
import Verif.Model.GraphCtor
import Verif.Model.BenchRun

/-!
# Input of the sample programs, and the program that writes matrices to files

Models `SetInputMatricesAsCSC` of `/repo/sample/sample_common.hpp` and `/repo/sample/GenMatrices.cpp`.

Simplifications. Numbers are not bounded (`int32_t` there). Lines that are printed only for information (usage, names of the generator, sizes) are left
out. `GenRMAT_Par`, which is not called, is left out. The arguments are `argv[1]`, `argv[2]`, …; using an argument that is not there (a null pointer)
is an access out of bounds.
-/

namespace Verif.Model.Sample

open Bench (Out)

variable {V F : Type}

/-! ## Input -/

/-- `while (getline(ss, cur, d)) { v.push_back(cur); }`, sample_common.hpp:186-188, 192-194: the parts between the separators. After a separator at the
end there is no further part. -/
def tokens (d : Char) : List Char → List (List Char)
  | [] => []
  | c :: r =>
    if c = d then [] :: tokens d r
    else match tokens d r with
      | [] => [[c]]
      | x :: xs => (c :: x) :: xs

/-- sample_common.hpp:183-195. `v.size() - 2` and `v.size() - 1` are computed without sign, so that an element outside of `v` is read if there are
fewer parts. -/
def inputName (name : List Char) : Res (List Char) := do
  let v1 := tokens '.' name
  if v1.length < 2 then .error .oob
  else do
    let x ← rd v1 (v1.length - 2)
    let v2 := tokens '/' x
    if v2.length < 1 then .error .oob else rd v2 (v2.length - 1)

/-- What the program uses: text files, binary files with integers of `si` and values of `sv` bytes, conversion and addition of values, `std::sort` of the
entries of a column and of edges, the generator with its two sets of probabilities (sample_common.hpp:136-144), a bound on its attempts -/
structure Env (V F : Type) where
  text : List Char → Option (List Char)
  bin : List Char → Option (List UInt8)
  si : Nat
  sv : Nat
  decV : List UInt8 → V
  ofInt : Int → V
  add : V → V → V
  sortf : List (Nat × V) → List (Nat × V)
  sortE : List ((Nat × Nat) × V) → List ((Nat × Nat) × V)
  ar : Rmat.Arith F
  st : Rmat.Streams F
  parRmat : Rmat.Par F
  parEr : Rmat.Par F
  fuel : Nat

/-- The global variables `a`, `b`, `c`, `d` after the loop graph.c:91-95, see `Rmat.walk` -/
def walkPar (ar : Rmat.Arith F) (st : Rmat.Streams F) : Nat → Nat → Rmat.Par F → Nat → Nat → Nat → Rmat.Par F
  | 0, _, q, _, _, _ => q
  | fuel + 1, step, q, u, v, t =>
    if step ≥ 1 then
      let uv := Rmat.choosePartition ar q (st.s1 t) u v step
      walkPar ar st fuel (step / 2) (Rmat.varyParams ar q (fun k => st.s3 (4 * t + k)) fun k => st.s4 (4 * t + k)) uv.1 uv.2 (t + 1)
    else q

/-- The same after `graphGen`, graph.c:83-106: they keep the values of the last attempt (`cur`), see `Rmat.edgeLoop`. -/
def parAfter (ar : Rmat.Arith F) (st : Rmat.Streams F) (q : Rmat.Par F) (n m : Nat) : Nat → Nat → Nat → Rmat.Par F → Rmat.Par F
  | 0, _, _, cur => cur
  | fuel + 1, i, t, cur =>
    if i < m then
      match Rmat.walk ar st (n + 1) (n / 2) q 1 1 t with
      | .error _ => cur
      | .ok r => parAfter ar st q n m fuel (if r.1 == r.2.1 then i else i + 1) r.2.2 (walkPar ar st (n + 1) (n / 2) q 1 1 t)
    else cur

/-- `*(new CSC<INDEXTYPE, VALUETYPE>(G))` for the edges `es`, sample_common.hpp:151, 160 -/
def ofGraph (env : Env V F) (n : Nat) (es : List (Nat × Nat × Int)) : Res (CSC V) :=
  Conv.cscOfGraph env.add env.sortE (env.ofInt 0) n (es.map fun e => (e.1, e.2.1, env.ofInt e.2.2))

/-- sample_common.hpp:146-166. The parameters are set once; the random streams start anew in each call of `graphGen` (graph.c:19-22). A negative
number of edges asks for an impossible amount of memory; with a negative scale there are no vertices. -/
def generate (env : Env V F) (q : Rmat.Par F) (scale factor : Int) : Res (CSC V × CSC V) :=
  if factor < 0 then .error .oob
  else do
    let n := if scale < 0 then 0 else 2 ^ scale.toNat
    let m := n * factor.toNat
    let g1 ← Rmat.graphGen env.ar Rmat.getParams q env.st n m env.fuel
    let A ← ofGraph env n g1
    let q2 := parAfter env.ar env.st q n m env.fuel 0 0 q
    let g2 ← Rmat.graphGen env.ar Rmat.getParams q2 env.st n m env.fuel
    let B ← ofGraph env n g2
    .ok (A, B)

/-- An object after `make_empty`, sample_common.hpp:104-105 -/
def emptyC : CSC V := { rows := 0, cols := 0, nnz := 0, colptr := [], rowids := [], values := [] }

/-- `ReadBinary`, whose return value is ignored, sample_common.hpp:177-178 -/
def readB (env : Env V F) (order : List Nat) (name : List Char) : Res (CSC V) := do
  let r ← ReadBin.readBinary env.sortf order (env.ofInt 0) env.decV env.si env.sv (env.bin name)
  .ok (r.getD emptyC)

/-- `SetInputMatricesAsCSC`, sample_common.hpp:95-198. `oA`, `oB`: the orders of the parallel loops over the columns of the two matrices. -/
def setInput (env : Env V F) (args : List (List Char)) (oA oB : List Nat) : Res (CSC V × CSC V) := do
  let a1 ← rd args 0
  let a2 ← rd args 1
  let a3 ← rd args 2
  if a1 = "gen".toList then do
    let a4 ← rd args 3
    generate env (if a2 = "rmat".toList then env.parRmat else env.parEr) (ReadIO.atoi a3) (ReadIO.atoi a4)
  else if a1 = "binary".toList then do
    let A ← readB env oA a2
    let B ← readB env oB a3
    .ok (A, B)
  else do
    let A ← ReadIO.readASCII env.sortf oA env.ofInt (env.text a2)
    let B ← ReadIO.readASCII env.sortf oB env.ofInt (env.text a3)
    let _ ← inputName a2
    .ok (A, B)

/-! ## GenMatrices.cpp -/

/-- `ostream << n` for a number that is not negative -/
def dec (n : Nat) : List Char := if n < 10 then [Nat.digitChar n] else dec (n / 10) ++ [Nat.digitChar (n % 10)]

/-- `fd << x << " " << y << endl`, GenMatrices.cpp:54, 63 -/
def pairLine (x y : Nat) : List Char := dec x ++ ' ' :: (dec y ++ ['\n'])

/-- GenMatrices.cpp:50-51, 59-60 -/
def head (m n k : Nat) : List Char :=
  "%%MatrixMarket matrix coordinate pattern general\n".toList ++ dec m ++ ' ' :: (dec n ++ ' ' :: (dec k ++ ['\n']))

/-- The left file, GenMatrices.cpp:50-54. The loop over the columns has the number of rows as its bound. -/
def leftText (A : CSC V) : Res (List Char) :=
  forRange 0 A.rows (head A.rows A.cols A.nnz) fun i out => do
    let b ← rd A.colptr i
    let e ← rd A.colptr (i + 1)
    forRange b e out fun j out => do
      let r ← rd A.rowids j
      .ok (out ++ pairLine (r + 1) (i + 1))

/-- The right file, GenMatrices.cpp:59-63 -/
def rightText (B : CSR V) : Res (List Char) :=
  forRange 0 B.rows (head B.rows B.cols B.nnz) fun i out => do
    let b ← rd B.rowptr i
    let e ← rd B.rowptr (i + 1)
    forRange b e out fun j out => do
      let c ← rd B.colids j
      .ok (out ++ pairLine (i + 1) (c + 1))

/-- What the program does: a file is written; the last line is printed. -/
inductive GenEvent where
  | file (name text : List Char)
  | summary (nnzA nnzB rows : Nat)

/-- The names of the files, GenMatrices.cpp:49, 58; `std::string` of a null pointer fails. -/
def fileName (side : List Char) (args : List (List Char)) : Res (List Char) := do
  let a2 ← rd args 1
  let a3 ← rd args 2
  let a4 ← rd args 3
  .ok ("assets/".toList ++ side ++ "_".toList ++ a2 ++ a3 ++ "_".toList ++ a4 ++ ".mtx".toList)

/-- `ofstream::open`, output and `close`: if the file cannot be opened nothing is written and there is no message. If the program fails meanwhile,
what has been written is not known. -/
def writeFile (writable : List Char → Bool) (name : Res (List Char)) (text : Res (List Char)) : Out GenEvent :=
  match (do
    let n ← name
    let t ← text
    .ok (n, t) : Res (List Char × List Char)) with
  | .error e => ⟨[], .error e⟩
  | .ok x => ⟨if writable x.1 then [.file x.1 x.2] else [], .ok (some ())⟩

/-- `main`, GenMatrices.cpp:28-72. With fewer than three arguments only the usage is printed. -/
def genMain (env : Env V F) (writable : List Char → Bool) (args : List (List Char)) (oA oB : List Nat) : Out GenEvent :=
  if args.length < 3 then ⟨[], .ok (some ())⟩
  else
    match (do
      let x ← setInput env args oA oB
      let B ← Conv.csrOfCsc (env.ofInt 0) x.2
      .ok (x.1, B) : Res (CSC V × CSR V)) with
    | .error e => ⟨[], .error e⟩
    | .ok x =>
      (writeFile writable (fileName "left".toList args) (leftText x.1)).seq
        ((writeFile writable (fileName "right".toList args) (rightText x.2)).seq
          ⟨[.summary x.1.nnz x.2.nnz x.1.rows], .ok (some ())⟩)

end Verif.Model.Sample
