import Verif.Run
import Verif.SpecCsc
import Verif.Model.MsaAlg
import Verif.Model.Hash
import Verif.Model.Mca
import Verif.Model.HeapAlg
import Verif.Model.Inner

/-!
# All algorithms of the library in one type

Vocabulary for properties that speak about every algorithm: the row algorithms that are
template arguments of the generic drivers, what each of them requires of its inputs,
and the calls a user can make.
-/

namespace Verif.Spec

open Verif.Model

variable {V : Type}

/-- The row algorithms of the generic drivers (`/repo/spgemm-blocks/{msa,hash,mca,heap}`) with their template
parameters. `heapC`: the flag says that assertions are compiled out. -/
inductive Kind where
  | msa1
  | msa2
  | msa1C (sorted : Bool)
  | msa2C (sorted : Bool)
  | hash
  | hashC (sorted : Bool)
  | mca
  | heap (depth : Nat)
  | heapC (ndebug : Bool)
  deriving DecidableEq

/-- The model of the row algorithm. -/
def Kind.alg : Kind → RowAlg V
  | .msa1 => Msa.msa1
  | .msa2 => Msa.msa2
  | .msa1C s => Msa.msa1C s
  | .msa2C s => Msa.msa2C s
  | .hash => Hash.hash
  | .hashC s => Hash.hashC s
  | .mca => Mca.mca
  | .heap d => Heap.heap d
  | .heapC b => Heap.heapC b

/-- Does it use the complement of the mask? -/
def Kind.compl : Kind → Bool
  | .msa1C _ | .msa2C _ | .hashC _ | .heapC _ => true
  | _ => false

/-- Complemented algorithms: are the output rows sorted? -/
def Kind.sorted : Kind → Bool
  | .msa1C s | .msa2C s | .hashC s => s
  | _ => true

/-- What the algorithm requires beyond `Valid`. -/
def Kind.Req (k : Kind) (add : V → V → V) (A B M : CSR V) : Prop :=
  match k with
  | .mca => B.SortedRows ∧ M.SortedRows
  | .heap d => AssocComm add ∧ B.SortedRows ∧ M.SortedRows ∧ (d ≤ 1 ∨ d = 2 ^ 64 - 1 ∨ M.nnz + d < 2 ^ 64)
  | .heapC nd => AssocComm add ∧ B.SortedRows ∧ M.SortedRows ∧
      (nd = true ∨ ∀ i < A.rows, touched A B i ≠ [] → M.rowCols i ≠ [])
  | _ => M.NodupRows

/-- Work of row `i` as the drivers see it: the number of products; rows without work are skipped. -/
def rowWork (compl : Bool) (A B M : CSR V) (i : Nat) : Nat :=
  if compl = false ∧ M.rowCols i = [] then 0 else (touched A B i).length

/-- A thread runs the numeric phase for a list of rows, with the number `fl r` passed for row `r`. -/
def runNum (alg : RowAlg V) (mul add : V → V → V) (A B M : CSR V) (fl : Nat → Nat) :
    List Nat → alg.N → Res (alg.N × List (List (Nat × V)))
  | [], acc => .ok (acc, [])
  | r :: rs, acc => do
    let (acc, em) ← alg.numRow mul add A B M r (fl r) acc
    let (acc, ems) ← runNum alg mul add A B M fl rs acc
    .ok (acc, em :: ems)

/-- A thread runs the symbolic phase for a list of rows. -/
def runSym (alg : RowAlg V) (A B M : CSR V) : List Nat → alg.S → Res (alg.S × List Nat)
  | [], acc => .ok (acc, [])
  | r :: rs, acc => do
    let (acc, c) ← alg.symRow A B M r (rowWork alg.compl A B M r) acc
    let (acc, cs) ← runSym alg A B M rs acc
    .ok (acc, c :: cs)

/-- An empty hash table: all slots of the full capacity hold no key. -/
def EmptyTable {P : Type} (requested : Nat) (t : Hash.Tbl P) : Prop :=
  t.keys = [] ∧ t.capacity = Hash.adjustSize requested ∧ t.table.length = Hash.adjustSize requested ∧
    ∀ e ∈ t.table, e.key = none

/-- The numeric accumulator is as at the start: the very same state, and for hash tables (where stale values may
stay behind the empty keys) an empty table. -/
def Kind.CleanN (k : Kind) (cols : Nat) (sz : Sizes) : (Kind.alg k : RowAlg V).N → Prop :=
  match k with
  | .msa1 => fun acc => acc = (Kind.alg .msa1 : RowAlg V).initN cols sz
  | .msa2 => fun acc => acc = (Kind.alg .msa2 : RowAlg V).initN cols sz
  | .msa1C s => fun acc => acc = (Kind.alg (.msa1C s) : RowAlg V).initN cols sz
  | .msa2C s => fun acc => acc = (Kind.alg (.msa2C s) : RowAlg V).initN cols sz
  | .hash => fun t => EmptyTable sz.maxM t
  | .hashC _ => fun t => EmptyTable (sz.maxM + sz.maxFlops) t
  | .mca => fun acc => acc = (Kind.alg .mca : RowAlg V).initN cols sz
  | .heap d => fun acc => acc = (Kind.alg (.heap d) : RowAlg V).initN cols sz
  | .heapC b => fun acc => acc = (Kind.alg (.heapC b) : RowAlg V).initN cols sz

/-- The same for the symbolic accumulator. -/
def Kind.CleanS (k : Kind) (cols : Nat) (sz : Sizes) : (Kind.alg k : RowAlg V).S → Prop :=
  match k with
  | .msa1 => fun acc => acc = (Kind.alg .msa1 : RowAlg V).initS cols sz
  | .msa2 => fun acc => acc = (Kind.alg .msa2 : RowAlg V).initS cols sz
  | .msa1C s => fun acc => acc = (Kind.alg (.msa1C s) : RowAlg V).initS cols sz
  | .msa2C s => fun acc => acc = (Kind.alg (.msa2C s) : RowAlg V).initS cols sz
  | .hash => fun t => EmptyTable sz.maxM t
  | .hashC _ => fun t => EmptyTable (sz.maxM + sz.maxFlops) t
  | .mca => fun acc => acc = (Kind.alg .mca : RowAlg V).initS cols sz
  | .heap d => fun acc => acc = (Kind.alg (.heap d) : RowAlg V).initS cols sz
  | .heapC b => fun acc => acc = (Kind.alg (.heapC b) : RowAlg V).initS cols sz

/-- The algorithms a user can call: a row algorithm of the generic drivers or the inner-product multiply. -/
inductive Algo where
  | gen (k : Kind)
  | inner
  deriving DecidableEq

/-- The one-phase or the two-phase call. `B` is passed by rows and by columns; each algorithm uses one of them. -/
def Algo.call (a : Algo) (twoPhase : Bool) (mul add : V → V → V) (A B : CSR V) (Bc : CSC V) (M : CSR V) (zb : Bool)
    (numThreads dflt : Nat) : Scheds → Res (Option (CSR V)) :=
  match a, twoPhase with
  | .gen k, false => spgemm1p k.alg mul add A B M zb numThreads dflt
  | .gen k, true => spgemm2p k.alg mul add A B M zb numThreads dflt
  | .inner, false => Inner.spgemm1p mul add A Bc M zb numThreads dflt
  | .inner, true => Inner.spgemm2p mul add A Bc M zb numThreads dflt

def Algo.compl : Algo → Bool
  | .gen k => k.compl
  | .inner => false

def Algo.sorted : Algo → Bool
  | .gen k => k.sorted
  | .inner => true

/-- What the algorithm requires beyond `Valid`. -/
def Algo.Req (a : Algo) (add : V → V → V) (A B : CSR V) (Bc : CSC V) (M : CSR V) : Prop :=
  match a with
  | .gen k => k.Req add A B M
  | .inner => A.SortedRows ∧ B.NodupRows ∧ Bc.WF ∧ Bc.SortedCols ∧ SameMat B Bc ∧ M.NodupRows

end Verif.Spec
