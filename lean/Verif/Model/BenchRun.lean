import Verif.Kinds
import Verif.Model.SumAll
import Verif.Model.Checksum
import Verif.Model.ReadIO
import Verif.Model.Convert

/-!
# The benchmark of the complemented algorithms

Models `/repo/benchmarks/benchmarks-util.h` 49-148 (names, `run`) and `main` of `/repo/benchmarks/ComplementMaskedSpGEMM.cpp`.
Strings are lists of characters.

Simplifications. The time measurement, the count of operations that is only used for the rate (`get_flop`), the names of the
types and the layout of the columns are left out. The numbers in the environment and the number of threads are given as numbers
(not as text), the number of threads is positive.
-/

namespace Verif.Model.Bench

open Verif.Spec

variable {V : Type}

/-! ## Names -/

/-- `startsWith`, benchmarks-util.h:49-53 -/
def startsWith (s p : List Char) : Bool :=
  if p.length > s.length then false else s.take p.length == p

/-- `removePrefix`, benchmarks-util.h:55-62 -/
def removePrefix (s p : List Char) : List Char :=
  if p.length > s.length then s else if s.take p.length = p then s.drop p.length else s

/-- `removeSuffix`, benchmarks-util.h:64-71 -/
def removeSuffix (s x : List Char) : List Char :=
  if x.length > s.length then s
  else if s.drop (s.length - x.length) = x then s.take (s.length - x.length) else s

/-- `"MaskedSpGEMM1p<"`, benchmarks-util.h:79, 82 -/
def tag1 : List Char := "MaskedSpGEMM1p<".toList

/-- `"MaskedSpGEMM2p<"`, benchmarks-util.h:80, 83 -/
def tag2 : List Char := "MaskedSpGEMM2p<".toList

/-- `processAlgorithmName`, benchmarks-util.h:73-95. `front` and `back` of an empty string are accesses outside of it. -/
def processName (name : List Char) : Res (List Char) := do
  let front ← rd name 0
  let back ← rd name (name.length - 1)
  let name := if front = '(' ∧ back = ')' then (name.drop 1).take (name.length - 2) else name
  let phases := if startsWith name tag1 then 1 else if startsWith name tag2 then 2 else 0
  let name := removePrefix name tag1
  let name := removePrefix name tag2
  let name := removeSuffix name ">".toList
  let name := removeSuffix name "::Impl".toList
  let name := if phases = 1 then name ++ "-1P".toList else if phases = 2 then name ++ "-2P".toList else name
  .ok (name.filter (· ≠ ' '))

/-- `path.rfind(c)`, restricted to the first `k` characters -/
def rfind (s : List Char) (c : Char) : Nat → Option Nat
  | 0 => none
  | k + 1 => if s[k]? = some c then some k else rfind s c k

/-- `getFileName`, benchmarks-util.h:97-100 -/
def getFileName (path : List Char) : List Char :=
  match rfind path '/' path.length with
  | some pos => path.drop (pos + 1)
  | none => path

/-- The loop of the other `getFileName`, MaskedAllSpGEMM.cpp:73, with `len = k - 1`: the character is read
before `len` is compared with 0, so that `path[-1]` is read in the end. -/
def cFileNameLoop (mem : List Char) : Nat → Res Nat
  | 0 => .error .oob
  | k + 1 => do
    let c ← rd mem k
    if c ≠ '/' then cFileNameLoop mem k else .ok k

/-- `getFileName`, MaskedAllSpGEMM.cpp:71-75. The argument is an array with a final 0. -/
def cFileName (path : List Char) : Res (List Char) := do
  let len ← cFileNameLoop (path ++ [Char.ofNat 0]) (path.length + 1)
  .ok (path.drop (len + 1))

/-! ## `run` -/

/-- An object after `make_empty`, CSR.h:52-66: the flag for the index base stays. -/
def makeEmpty (C : CSR V) : CSR V :=
  { rows := 0, cols := 0, nnz := 0, rowptr := [], colids := [], values := [], zerobased := C.zerobased }

/-- A new object, CSR.h:24 -/
def newObj : CSR V := { rows := 0, cols := 0, nnz := 0, rowptr := [], colids := [], values := [], zerobased := true }

/-- One call after the other on the same object, each with its schedule. -/
def repeatCall {σ : Type} (f : CSR V → σ → Res (Option (CSR V))) : List σ → CSR V → Res (Option (CSR V))
  | [], C => .ok (some C)
  | s :: ss, C => do
    let r ← f C s
    match r with
    | none => .ok none
    | some C => repeatCall f ss C

/-- The calls in `run`, benchmarks-util.h:115-128: the warm-up, and the timed calls with `C.make_empty()` before each.
`f C` is the multiplication with the object `C` for the result. -/
def runCalls {σ : Type} (f : CSR V → σ → Res (Option (CSR V))) (warm timed : List σ) : Res (Option (CSR V)) := do
  let r ← repeatCall f warm newObj
  match r with
  | none => .ok none
  | some C => repeatCall (fun C => f (makeEmpty C)) timed C

/-- What is printed for an algorithm, benchmarks-util.h:133-144 -/
structure Line (V : Type) where
  file : List Char
  name : List Char
  threads : Nat
  nnz : Nat
  sum : V
  check : Nat × Nat × Nat
  deriving DecidableEq

variable [Zero V] [Add V] [Mul V]

/-- `run` for one number of threads, benchmarks-util.h:107-148. `enc` are the bytes of a value; indices have 8 bytes. -/
def run {σ : Type} (enc : V → List UInt8) (path name : List Char) (f : CSR V → σ → Res (Option (CSR V))) (warm timed : List σ)
    (tnum : Nat) (parts : Nat → List (List Nat)) : Res (Option (Line V)) := do
  let r ← runCalls f warm timed
  match r with
  | none => .ok none
  | some C => do
    let name ← processName name
    let sum ← SumAll.sumall (fun s v => s + v) (fun s t => s + t) (0 : V) id C.values (parts C.nnz)
    .ok (some { file := getFileName path, name := name, threads := tnum, nnz := C.nnz, sum := sum, check := Checksum.checksum enc 8 C })

/-! ## Printing -/

/-- What a part of a program prints (`E` are the kinds of lines) and how it ends: `.ok none` means that a thread got too few turns. -/
structure Out (E : Type) where
  events : List E
  status : Res (Option Unit)

/-- One part after the other -/
def Out.seq {E : Type} (a b : Out E) : Out E :=
  match a.status with
  | .ok (some ()) => ⟨a.events ++ b.events, b.status⟩
  | s => ⟨a.events, s⟩

def seqAll {E : Type} : List (Out E) → Out E
  | [] => ⟨[], .ok (some ())⟩
  | a :: as => a.seq (seqAll as)

/-! ## ComplementMaskedSpGEMM.cpp -/

/-- The environment, ComplementMaskedSpGEMM.cpp:57-60 -/
structure Env where
  outer : Option Nat := .none
  inner : Option Nat := .none
  warmup : Option Nat := .none
  mode : Option (List Char) := .none

def Env.outerIters (e : Env) : Nat := e.outer.getD 1

def Env.innerIters (e : Env) : Nat := e.inner.getD 1

/-- ComplementMaskedSpGEMM.cpp:59 -/
def Env.warmupIters (e : Env) : Nat := e.warmup.getD (if e.innerIters = 1 then 0 else 1)

/-- ComplementMaskedSpGEMM.cpp:60 and 64: in lower case -/
def Env.modeStr (e : Env) : List Char := (e.mode.getD []).map Char.toLower

/-- An algorithm: its text in the source, its kind, and whether it is the two-phase call. -/
structure Alg where
  text : List Char
  kind : Kind
  two : Bool

/-- ComplementMaskedSpGEMM.cpp:70-93: the algorithms in the order of the calls. `ndebug`: assertions are compiled out. -/
def algs (ndebug : Bool) (mode : List Char) : List Alg :=
  (if mode = "heap".toList ∨ mode = "all".toList then
    [⟨"(MaskedSpGEMM1p<MaskedHeap<true, true, 0>::Impl>)".toList, .heapC ndebug, false⟩,
     ⟨"(MaskedSpGEMM2p<MaskedHeap<true, true, 0>::Impl>)".toList, .heapC ndebug, true⟩] else []) ++
  (if mode = "hash".toList ∨ mode = "all".toList then
    [⟨"(MaskedSpGEMM1p<MaskedHash<true, false>::Impl>)".toList, .hashC false, false⟩,
     ⟨"(MaskedSpGEMM2p<MaskedHash<true, false>::Impl>)".toList, .hashC false, true⟩,
     ⟨"(MaskedSpGEMM1p<MaskedHash<true, true>::Impl>)".toList, .hashC true, false⟩,
     ⟨"(MaskedSpGEMM2p<MaskedHash<true, true>::Impl>)".toList, .hashC true, true⟩] else []) ++
  (if mode = "msa".toList ∨ mode = "all".toList then
    [⟨"(MaskedSpGEMM1p<MSA1A<true, false>::Impl>)".toList, .msa1C false, false⟩,
     ⟨"(MaskedSpGEMM2p<MSA1A<true, false>::Impl>)".toList, .msa1C false, true⟩,
     ⟨"(MaskedSpGEMM1p<MSA1A<true, true>::Impl>)".toList, .msa1C true, false⟩,
     ⟨"(MaskedSpGEMM2p<MSA1A<true, true>::Impl>)".toList, .msa1C true, true⟩,
     ⟨"(MaskedSpGEMM1p<MSA2A<true, false>::Impl>)".toList, .msa2C false, false⟩,
     ⟨"(MaskedSpGEMM2p<MSA2A<true, false>::Impl>)".toList, .msa2C false, true⟩,
     ⟨"(MaskedSpGEMM1p<MSA2A<true, true>::Impl>)".toList, .msa2C true, false⟩,
     ⟨"(MaskedSpGEMM2p<MSA2A<true, true>::Impl>)".toList, .msa2C true, true⟩] else [])

/-- Statements one after the other that each print a line; stops when one does not come to its end. -/
def printAll {α β : Type} (f : α → Res (Option β)) : List α → Res (Option (List β))
  | [] => .ok (some [])
  | a :: as => do
    let r ← f a
    match r with
    | none => .ok none
    | some l => do
      let rs ← printAll f as
      .ok (rs.map (l :: ·))

/-- The calls of `run` in the loop, ComplementMaskedSpGEMM.cpp:69-94: number of the round, number of the algorithm, algorithm -/
def jobs (ndebug : Bool) (e : Env) : List (Nat × Nat × Alg) :=
  (List.range e.outerIters).flatMap fun o => (algs ndebug e.modeStr).zipIdx.map fun a => (o, a.2, a.1)

/-- `main`, ComplementMaskedSpGEMM.cpp:37-100: the printed lines. `schs (o, i, k)` is the schedule of call `k` of algorithm `i` in round
`o`. `ofInt` converts integers to the type of values, `order` is the order of the iterations in the constructor of the matrix that
is read. -/
def complMain (ndebug : Bool) (ofInt : Int → V) (enc : V → List UInt8) (sortf : List (Nat × V) → List (Nat × V)) (order : List Nat)
    (e : Env) (path : List Char) (file : Option (List Char)) (tnum : Nat) (parts : Nat → List (List Nat))
    (schs : Nat × Nat × Nat → Scheds) : Res (Option (List (Line V))) := do
  let A ← ReadIO.readASCII sortf order ofInt file
  let X ← Conv.csrOfCsc 0 A
  printAll (fun (j : Nat × Nat × Alg) =>
    run enc path j.2.2.text
      (fun C => (Algo.gen j.2.2.kind).call j.2.2.two (fun x y => x * y) (fun x y => x + y) X X A X C.zerobased tnum tnum)
      ((List.range e.warmupIters).map fun k => schs (j.1, j.2.1, k))
      ((List.range e.innerIters).map fun k => schs (j.1, j.2.1, e.warmupIters + k)) tnum parts) (jobs ndebug e)

end Verif.Model.Bench
