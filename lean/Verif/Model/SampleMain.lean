import Verif.Model.MaskedAll
import Verif.Model.GenMat
import Verif.Model.HashMult
import Verif.Model.HeapMult
import Verif.Model.Intersect
import Verif.Model.Reorder

/-!
# The sample programs

Models `main` of `/repo/sample/InnerSpGEMM.cpp`, `/repo/sample/MaskedSPASpGEMM.cpp`, `/repo/sample/all_parallel_tc.cpp`, `/repo/sample/HashSpGEMM.cpp`,
`/repo/sample/HeapSpGEMM.cpp` and `/repo/sample/MaskedHashSpGEMM.cpp`.

Simplifications. Times, rates, the compression ratio, headlines and the texts with the usage are left out. The calls of `Sorted()`, which only print a line,
and the release of memory at the end are left out. Numbers are not bounded; `all_parallel_tc.cpp` prints numbers of type `int64_t` with the format for
`int`. `KNL_EXE` is not defined. A number of threads that is not positive is taken as 0. The copies of matrices by assignment are left out, see `Model.MatObj`.
The arguments are `argv[1]`, `argv[2]`, …
-/

namespace Verif.Model.SampleMain

open Bench (Out seqAll)
open MaskedAll (Ker)

variable {V F σ α E : Type}

/-- What is printed: the number of operations; one of the first values of a product; the line `<name> returned with <nnz> nonzeros` together with the line
with the number of threads; the line `AB *. M has <nnz> nonzeros` (MaskedSPASpGEMM.cpp:117) -/
inductive Event (V : Type) where
  | flop (n : Nat)
  | value (v : V)
  | result (name : List Char) (threads nnz : Nat)
  | masked (nnz : Nat)

/-- Going on with the result of a call -/
def andThen (r : Res (Option α)) (k : α → Out E) : Out E :=
  match r with
  | .error e => ⟨[], .error e⟩
  | .ok none => ⟨[], .ok none⟩
  | .ok (some x) => k x

/-- Printing -/
def say (e : E) : Out E := ⟨[e], .ok (some ())⟩

/-- The schedules of a call, of `sortIds` and of `Intersect` -/
structure Sch where
  mask : MaskedAll.Sch
  hash : HashMult.Sched
  heap : HeapMult.Sched
  sort : List Nat
  inter1 : List Nat
  is1 : List Nat
  is2 : List Nat
  inter2 : List Nat

/-- The numbers of threads: InnerSpGEMM.cpp:35-54, MaskedSPASpGEMM.cpp:35-54 and MaskedHashSpGEMM.cpp:37-56 with `deflt = [4, 8, 16, 32, 64]`,
HashSpGEMM.cpp:41-60 and HeapSpGEMM.cpp:32-51 with `deflt = [32, 64]`. `k` arguments come before the number. -/
def tnums (deflt : List Nat) (args : List (List Char)) (k : Nat) : List Nat :=
  match args[k]? with
  | none => deflt
  | some a => [(ReadIO.atoi a).toNat]

/-- `for (int tnum : tnums)` -/
def forThreads (ts : List Nat) (sch : Nat → Nat → Sch) (body : Nat → (Nat → Sch) → Out E) : Out E :=
  seqAll (ts.zipIdx.map fun t => body t.1 (sch t.2))

/-- The calls for one number of threads: one that is not timed, then `iters` others, with `make_empty` before each of them, and the two lines; for
instance InnerSpGEMM.cpp:87-112 -/
def block (name : List Char) (f : CSR V → Sch → Res (Option (CSR V))) (iters tnum : Nat) (sch : Nat → Sch) : Out (Event V) :=
  andThen (Bench.runCalls f [sch 0] ((List.range iters).map fun i => sch (i + 1))) fun C => say (.result name tnum C.nnz)

/-- `for (int i = 0; i < 10; ++i) cout << C_csr.values[i] << " ";`, for instance MaskedSPASpGEMM.cpp:91-92 -/
def values (C : CSR V) : Out (Event V) :=
  seqAll ((List.range 10).map fun i => andThen ((rd C.values i).map some) fun v => say (.value v))

/-- Calls of a function that replaces the object for the result; the last result -/
def lastOf (f : σ → Res (Option α)) : σ → List σ → Res (Option α)
  | s, [] => f s
  | s, s' :: ss => do
    let r ← f s
    match r with
    | none => .ok none
    | some _ => lastOf f s' ss

/-! ## Programs with names of files -/

section
variable [Zero V] [Add V] [Mul V]

/-- Text files, conversion of values, `std::sort` of entries by row or column -/
structure World (V : Type) where
  text : List Char → Option (List Char)
  ofInt : Int → V
  sortf : List (Nat × V) → List (Nat × V)

/-- `ReadASCII` and the conversion to rows, InnerSpGEMM.cpp:57-60 -/
def load (w : World V) (order : List Nat) (name : List Char) : Res (CSC V × CSR V) := do
  let c ← ReadIO.readASCII w.sortf order w.ofInt (w.text name)
  let r ← Conv.csrOfCsc 0 c
  .ok (c, r)

/-- The matrices: the factors, the second one also by columns, the mask -/
structure Inputs (V : Type) where
  A : CSR V
  B : CSR V
  Bc : CSC V
  M : CSR V
  flop : Nat

/-- InnerSpGEMM.cpp:57-78, MaskedSPASpGEMM.cpp:56-76. `o1`, `o2`, `o3`: the orders of the loops over the columns while reading -/
def setup3 (w : World V) (o1 o2 o3 : List Nat) (args : List (List Char)) : Res (Option (Inputs V)) := do
  let a1 ← rd args 0
  let A ← load w o1 a1
  let a2 ← rd args 1
  let B ← load w o2 a2
  let a3 ← rd args 2
  let M ← load w o3 a3
  let flop ← Flops.csrCsr A.2 B.2
  .ok (some { A := A.2, B := B.2, Bc := B.1, M := M.2, flop := flop })

/-- `main` of InnerSpGEMM.cpp, lines 30-120. `sch j i`: call `i` with the `j`-th number of threads -/
def innerMain (w : World V) (o1 o2 o3 : List Nat) (args : List (List Char)) (sch : Nat → Nat → Sch) : Out (Event V) :=
  if args.length < 3 then ⟨[], .ok (some ())⟩
  else andThen (setup3 w o1 o2 o3 args) fun x =>
    (say (.flop x.flop)).seq
      (forThreads (tnums [4, 8, 16, 32, 64] args 3) sch fun tnum sch =>
        block "DotSpGEMM".toList (fun C s => Ker.inner.call x.A x.B x.M x.Bc tnum C s.mask) 1 tnum sch)

/-- `HashSpGEMM` with `omp_set_num_threads(tnum)` -/
def hash (sorted : Bool) (sortf : List (Nat × V) → List (Nat × V)) (A B : CSR V) (tnum : Nat) (s : Sch) : Res (Option (CSR V)) :=
  HashMult.hashSpGEMM sorted sortf (fun x y => x * y) (fun x y => x + y) A B 0 tnum tnum s.hash

/-- `C_csr.sortIds(); Intersect(M_csr, C_csr, plus)`, MaskedSPASpGEMM.cpp:113-115 -/
def sortIntersect (sortf : List (Nat × V) → List (Nat × V)) (M C : CSR V) (tnum : Nat) (s : Sch) : Res (Option (CSR V)) := do
  let C ← Reorder.sortIds sortf s.sort C
  Intersect.intersect (fun x y => x + y) M C 0 tnum s.inter1 s.is1 s.is2 s.inter2

/-- MaskedSPASpGEMM.cpp:84-118 for one number of threads -/
def hashMasked (sortf : List (Nat × V) → List (Nat × V)) (x : Inputs V) (tnum : Nat) (sch : Nat → Sch) : Out (Event V) :=
  andThen (hash false sortf x.A x.B tnum (sch 0)) fun C =>
    (values C).seq
      (andThen (hash false sortf x.A x.B tnum (sch 1)) fun C =>
        (say (.result "HashSpGEMM".toList tnum C.nnz)).seq
          (andThen (sortIntersect sortf x.M C tnum (sch 1)) fun T => say (.masked T.nnz)))

/-- `main` of MaskedSPASpGEMM.cpp, lines 30-164. `sch p j i`: part `p` of the program, call `i` with the `j`-th number of threads -/
def spaMain (w : World V) (o1 o2 o3 : List Nat) (args : List (List Char)) (sch : Nat → Nat → Nat → Sch) : Out (Event V) :=
  if args.length < 3 then ⟨[], .ok (some ())⟩
  else andThen (setup3 w o1 o2 o3 args) fun x =>
    (say (.flop x.flop)).seq
      ((forThreads (tnums [4, 8, 16, 32, 64] args 3) (sch 0) (hashMasked w.sortf x)).seq
        (forThreads (tnums [4, 8, 16, 32, 64] args 3) (sch 1) fun tnum sch =>
          block "MaskedSPASpGEMM".toList (fun C s => Ker.spa.call x.A x.B x.M x.Bc tnum C s.mask) 1 tnum sch))

/-- all_parallel_tc.cpp:55-64: the same matrix is used as both factors and as the mask. -/
def setup1 (w : World V) (o1 : List Nat) (args : List (List Char)) : Res (Option (Inputs V)) := do
  let a1 ← rd args 0
  let A ← load w o1 a1
  let flop ← Flops.csrCsr A.2 A.2
  .ok (some { A := A.2, B := A.2, Bc := A.1, M := A.2, flop := flop })

/-- The parts of all_parallel_tc.cpp, lines 118-148, 153-180, 185-225 -/
def tcKernels : List (List Char × Ker) :=
  [("MaskedSPASpGEMM".toList, .spa), ("DotSpGEMM".toList, .inner), ("mxm_hash_mask".toList, .hash)]

/-- `main` of all_parallel_tc.cpp, lines 32-232. The part with `HashSpGEMM` is in a comment there. -/
def tcMain (w : World V) (o1 : List Nat) (args : List (List Char)) (sch : Nat → Nat → Nat → Sch) : Out (Event V) :=
  if args.length < 2 then ⟨[], .ok (some ())⟩
  else andThen (setup1 w o1 args) fun x =>
    (say (.flop x.flop)).seq
      (seqAll (tcKernels.zipIdx.map fun k => forThreads (tnums [] args 1) (sch k.2) fun tnum sch =>
        block k.1.1 (fun C s => k.1.2.call x.A x.B x.M x.Bc tnum C s.mask) 4 tnum sch))

end

/-! ## Programs with generated matrices or files -/

section
variable [Zero V] [Add V] [Mul V]

/-- `SetInputMatricesAsCSR`, sample_common.hpp:200-212 -/
def setInputR (env : Sample.Env V F) (args : List (List Char)) (oA oB : List Nat) : Res (CSR V × CSR V) := do
  let x ← Sample.setInput env args oA oB
  let A ← Conv.csrOfCsc (env.ofInt 0) x.1
  let B ← Conv.csrOfCsc (env.ofInt 0) x.2
  .ok (A, B)

/-- HashSpGEMM.cpp:63-69, MaskedHashSpGEMM.cpp:59-65: reading and shuffling. The index type is `int`, the random numbers are `rA` and `rB`. -/
def shuffled (env : Sample.Env V F) (args : List (List Char)) (oA oB : List Nat) (rA rB : Nat → Nat) : Res (CSR V × CSR V) := do
  let x ← setInputR env args oA oB
  let A ← Reorder.shuffleIds true rA x.1
  let B ← Reorder.shuffleIds true rB x.2
  .ok (A, B)

/-- HashSpGEMM.cpp:80-108 for one number of threads -/
def hashBlock (sortf : List (Nat × V) → List (Nat × V)) (A B : CSR V) (tnum : Nat) (sch : Nat → Sch) : Out (Event V) :=
  andThen (hash true sortf A B tnum (sch 0)) fun C =>
    (values C).seq
      (andThen (lastOf (hash true sortf A B tnum) (sch 1) ((List.range 9).map fun i => sch (i + 2))) fun C =>
        say (.result "HashSpGEMM".toList tnum C.nnz))

/-- `main` of HashSpGEMM.cpp, lines 35-115 -/
def hashMain (env : Sample.Env V F) (args : List (List Char)) (oA oB : List Nat) (rA rB : Nat → Nat) (sch : Nat → Nat → Sch) : Out (Event V) :=
  if args.length < 3 then ⟨[], .ok (some ())⟩
  else andThen (do
      let x ← shuffled env args oA oB rA rB
      let flop ← Flops.csrCsr x.1 x.2
      .ok (some (x, flop))) fun x =>
    (say (.flop x.2)).seq (forThreads (tnums [32, 64] args 4) sch (hashBlock env.sortf x.1.1 x.1.2))

/-- `main` of HeapSpGEMM.cpp, lines 27-100. `oF`: the order of the loop in `get_flop` -/
def heapMain (env : Sample.Env V F) (args : List (List Char)) (oA oB oF : List Nat) (sch : Nat → Nat → Sch) : Out (Event V) :=
  if args.length < 3 then ⟨[], .ok (some ())⟩
  else andThen (do
      let x ← Sample.setInput env args oA oB
      let flop ← Flops.cscCsc x.1 x.2 oF
      .ok (some (x, flop))) fun x =>
    (say (.flop x.2)).seq (forThreads (tnums [32, 64] args 4) sch fun tnum sch =>
      andThen (lastOf (fun s : Sch => HeapMult.heapSpGEMM (fun x y => x * y) (fun x y => x + y) 0 x.1.1 x.1.2 tnum s.heap) (sch 0)
          ((List.range 10).map fun i => sch (i + 1))) fun C =>
        say (.result "HeapSpGEMM".toList tnum C.nnz))

/-- `main` of MaskedHashSpGEMM.cpp, lines 31-214. The second matrix is read and shuffled and then replaced by the first (line 67). `sch p j i`: part `p` of
the program, call `i` with the `j`-th number of threads -/
def maskedHashMain (env : Sample.Env V F) (args : List (List Char)) (oA oB : List Nat) (rA rB : Nat → Nat) (sch : Nat → Nat → Nat → Sch) : Out (Event V) :=
  if args.length < 3 then ⟨[], .ok (some ())⟩
  else andThen (do
      let x ← shuffled env args oA oB rA rB
      let flop ← Flops.csrCsr x.1 x.1
      .ok (some (x.1, flop))) fun x =>
    (say (.flop x.2)).seq
      ((forThreads (tnums [4, 8, 16, 32, 64] args 4) (sch 0) fun tnum sch => andThen (hash false env.sortf x.1 x.1 tnum (sch 0)) values).seq
        ((forThreads (tnums [4, 8, 16, 32, 64] args 4) (sch 1) fun tnum sch =>
            block "mxm_hash_mask_wobin".toList (fun C s => Ker.wobin.call x.1 x.1 x.1 Sample.emptyC tnum C s.mask) 10 tnum sch).seq
          (forThreads (tnums [4, 8, 16, 32, 64] args 4) (sch 2) fun tnum sch =>
            block "mxm_hash_mask".toList (fun C s => Ker.hash.call x.1 x.1 x.1 Sample.emptyC tnum C s.mask) 10 tnum sch)))

end

end Verif.Model.SampleMain
