import Verif.Model.HashMult
import Verif.Model.Spa
import Verif.Model.LpMult

/-!
# Memory accesses of the older kernels

The parallel regions of `/repo/BIN.h`, `/repo/hash_mult_hw.h` (HM), `/repo/spa_mult.h` and `/repo/mask_hash_mult.h` (LM) once
more, now as programs that get at the shared memory only by loads and stores of single cells, so that the accesses can be
listed. `Verif.Lemmas.RaceOld` shows that running such a program is the step of `Verif.Model.Bin`, `HashMult`, `Spa` and `LpMult`
it stands for.

Between two barriers at most two shared arrays are written: one of numbers (`row_nz`, `rows_offset`, `bin_id`, the array of
thread-local tables, `C.colids`, or the variable `numThreads` as an array with one cell) and one of values (`C.values`). These are
the shared memory here. All other arrays are only read or belong to one thread. The additions to `total_intprod` are atomic
(BIN.h:104) and not listed. The prefix sum `scan` is sequential for fewer than `2^17` cells. The loops of `my_malloc`
(utility.h:135), in which every iteration sets its own cell, are left out.
-/

namespace Verif.Model.RaceOld
open Hash (Tbl Entry)

variable {V α β : Type}

/-- The shared arrays of a region. (The last three are for `Verif.Model.RaceDot` and `Verif.Model.RaceOuter`.) -/
inductive Arr where
  | numbers
  | values
  | thNnz
  | rowNnz
  | block (b : Nat)
  deriving DecidableEq, Repr

/-- Access to a cell of a shared array. -/
structure Access where
  arr : Arr
  idx : Nat
  write : Bool
  deriving DecidableEq, Repr

/-- The shared memory of a region. -/
abbrev Mem (V : Type) := List Nat × List V

/-- A piece of a thread. -/
inductive Prog (V : Type) (α : Type) where
  | ret (a : α)
  | fail (e : Err)
  | load (i : Nat) (k : Nat → Prog V α)
  | store (i x : Nat) (k : Prog V α)
  | storeV (i : Nat) (v : V) (k : Prog V α)

/-- One piece after the other. -/
def Prog.andThen : Prog V α → (α → Prog V β) → Prog V β
  | .ret a, q => q a
  | .fail e, _ => .fail e
  | .load i k, q => .load i fun x => (k x).andThen q
  | .store i x k, q => .store i x (k.andThen q)
  | .storeV i v k, q => .storeV i v (k.andThen q)

instance : Monad (Prog V) where
  pure := .ret
  bind := .andThen

/-- Private work. -/
def priv (r : Res α) : Prog V α :=
  match r with
  | .ok a => .ret a
  | .error e => .fail e

/-- `x = numbers[i]` -/
def get (i : Nat) : Prog V Nat := .load i .ret

/-- `numbers[i] = x` -/
def put (i x : Nat) : Prog V Unit := .store i x (.ret ())

/-- `values[i] = v` -/
def putV (i : Nat) (v : V) : Prog V Unit := .storeV i v (.ret ())

/-- Loop over a list. -/
def forList (l : List β) (s : α) (body : β → α → Prog V α) : Prog V α :=
  match l with
  | [] => .ret s
  | x :: l => body x s >>= fun s => forList l s body

/-- `for (i = lo; i < hi; ++i) body` -/
def loop (lo hi : Nat) (s : α) (body : Nat → α → Prog V α) : Prog V α := forList (List.range' lo (hi - lo)) s body

/-- Run a piece of a thread. -/
def Prog.exec : Prog V α → Mem V → Res (Mem V × α)
  | .ret a, g => .ok (g, a)
  | .fail e, _ => .error e
  | .load i k, g => do
    let x ← rd g.1 i
    (k x).exec g
  | .store i x k, g => do
    let xs ← wr g.1 i x
    k.exec (xs, g.2)
  | .storeV i v k, g => do
    let xs ← wr g.2 i v
    k.exec (g.1, xs)

/-- The accesses it makes. -/
def Prog.accesses : Prog V α → Mem V → List Access
  | .ret _, _ => []
  | .fail _, _ => []
  | .load i k, g => ⟨.numbers, i, false⟩ ::
    match rd g.1 i with
    | .ok x => (k x).accesses g
    | .error _ => []
  | .store i x k, g => ⟨.numbers, i, true⟩ ::
    match wr g.1 i x with
    | .ok xs => k.accesses (xs, g.2)
    | .error _ => []
  | .storeV i v k, g => ⟨.values, i, true⟩ ::
    match wr g.2 i v with
    | .ok xs => k.accesses (g.1, xs)
    | .error _ => []

/-- The accesses of a loop whose iterations are shared out among the threads (`omp for`), with the thread `who i` that executes
iteration `i`, for the order `order` of the iterations. -/
def loopTrace (who : Nat → Nat) (prog : Nat → Prog V Unit) : List Nat → Mem V → List (Nat × Access)
  | [], _ => []
  | i :: is, g => ((prog i).accesses g).map (fun a => (who i, a)) ++
    match (prog i).exec g with
    | .ok (g', _) => loopTrace who prog is g'
    | .error _ => []

/-- The accesses of a parallel region up to its barrier, with the thread that makes them, in the order of the schedule
(compare `runs`). -/
def trace (n : Nat) (prog : Nat → α → Prog V α) (fin : α → Bool) : List Nat → Mem V → (Nat → α) → List (Nat × Access)
  | [], _, _ => []
  | t :: ts, g, ls =>
    if t < n ∧ fin (ls t) = false then
      ((prog t (ls t)).accesses g).map (fun a => (t, a)) ++
      match (prog t (ls t)).exec g with
      | .ok (g', l') => trace n prog fin ts g' (upd ls t l')
      | .error _ => []
    else trace n prog fin ts g ls

/-- Two threads access the same cell without a barrier in between, and one of them writes it. -/
def Conflict (x y : Nat × Access) : Prop :=
  x.1 ≠ y.1 ∧ x.2.arr = y.2.arr ∧ x.2.idx = y.2.idx ∧ (x.2.write = true ∨ y.2.write = true)

instance (x y : Nat × Access) : Decidable (Conflict x y) := by unfold Conflict; infer_instance

/-- A region with a data race. -/
def Racy (tr : List (Nat × Access)) : Prop := ∃ x ∈ tr, ∃ y ∈ tr, Conflict x y

instance (tr : List (Nat × Access)) : Decidable (Racy tr) := by unfold Racy; infer_instance

/-- `blockStep` with the loop body as a program -/
def blockProg (off : List Nat) (init : Nat → Nat → Nat → Res α) (row : Nat → α → Prog V α) (t : Nat) :
    Option (α × Nat × Nat) → Prog V (Option (α × Nat × Nat))
  | none => priv do
    let lo ← rd off t
    let hi ← rd off (t + 1)
    let a ← init t lo hi
    .ok (some (a, lo, hi))
  | some (a, i, hi) => do
    let a ← row i a
    return some (a, i + 1, hi)

/-- The accesses of a region in which every thread works on its own block of rows (compare `blocks`). -/
def blockTrace (n : Nat) (off : List Nat) (init : Nat → Nat → Nat → Res α) (row : Nat → α → Prog V α) (sched : List Nat)
    (g : Mem V) : List (Nat × Access) :=
  trace n (blockProg off init row) blockFin sched g (fun _ => none)

/-! ## The partition -/

/-- Iteration `i` of `set_intprod_num`, BIN.h:95-101 -/
def intprodProg (A B : CSR V) (i : Nat) : Prog V Unit := do
  let nz ← priv (Bin.intprodRow A B i)
  put i nz

/-- Thread `t` of `set_rows_offset`, BIN.h:124-126 -/
def offsetProg (ps : List Nat) (total rows n t : Nat) : Prog V Unit := do
  let e ← priv (lowerBound (ps.map some) (rows + 1) ((total + n - 1) / n * (t + 1)))
  put (t + 1) (if e > rows then rows else e)

/-- Iteration `i` of `set_bin_id`, BIN.h:189-201 -/
def binProg (rowNz : List Nat) (cols min i : Nat) : Prog V Unit := do
  let nz ← priv (rd rowNz i)
  let b ← priv (Bin.binIdOf nz cols min)
  put i b

/-- The result of a part of a call that returned. -/
def done (r : Res (Option α)) : Option α :=
  match r with
  | .ok r => r
  | .error _ => none

/-- The regions of the constructor `BIN(rows, ht_size, threadCount)` and `set_max_bin` (compare `Bin.setMaxBin`). `w1` and `w2`
tell which thread executes an iteration. -/
def binTraces (A B : CSR V) (rows cols minHt n nd : Nat) (w1 w2 : Nat → Nat) (sch : Bin.Sched) : List (List (Nat × Access)) :=
  loopTrace w1 (intprodProg A B) sch.intprod (List.replicate rows 0, []) ::
  match Bin.setIntprodNum A B sch.intprod (List.replicate rows 0) with
  | .error _ => []
  | .ok (rowNz, total) =>
    match done (UtilScan.scan rowNz (rows + 1) (List.replicate (rows + 1) 0) nd sch.s1 sch.s2) with
    | none => []
    | some ps =>
      loopTrace id (offsetProg (V := V) ps total rows n) sch.threads (List.replicate (n + 1) 0, []) ::
      match done (Bin.setRowsOffset rowNz total rows n nd sch.s1 sch.s2 sch.threads) with
      | none => []
      | some _ => [loopTrace w2 (binProg (V := V) rowNz cols minHt) sch.ids (List.replicate rows 0, [])]

/-- Thread `t` of `create_local_hash_table`, BIN.h:138-153. The cells `local_hash_table_id[tid]` and `local_hash_table_val[tid]`
of two arrays are written; one is listed. -/
def tableProg (p : Bin.Part) (cols minHt t : Nat) : Prog V Unit := do
  let lo ← priv (rd p.rowsOffset t)
  let hi ← priv (rd p.rowsOffset (t + 1))
  let s ← priv (Bin.localSize p.rowNz cols minHt lo hi)
  put t s

/-! ## The unmasked hash multiply -/

/-- `HashMult.symRow`, HM:39-74 -/
def symRow (A B : CSR V) (binId : List Nat) (i : Nat) (t : Tbl V) : Prog V (Tbl V) := do
  let bid ← priv (rd binId i)
  if bid > 0 then do
    let t ← priv (HashMult.reset t (8 <<< (bid - 1)))
    let s ← priv (nest A B i (t, 0) fun _ k (t, nz) => do
      let key ← rd B.colids k
      HashMult.insertSym t nz key)
    put i s.2
    return s.1
  else do
    put i 0
    return t

/-- `HashMult.writeOut`, HM:164-167 -/
def writeOut (off index : Nat) (pv : List (Nat × V)) : Prog V Unit :=
  loop 0 index () fun j _ => do
    let x ← priv (rd pv j)
    put (off + j) x.1
    putV (off + j) x.2

/-- `HashMult.gather`, HM:170-176 -/
def gather (t : Tbl V) (shRow off : Nat) : Prog V Nat :=
  loop 0 shRow 0 fun j index => do
    let e ← priv (rd t.table j)
    match e.key with
    | some key => do
      put (off + index) key
      putV (off + index) e.val
      return index + 1
    | none => return index

/-- `HashMult.numRow`, HM:114-178 -/
def numRow (sorted : Bool) (sortf : List (Nat × V) → List (Nat × V)) (mul add : V → V → V) (dflt : V) (A B : CSR V)
    (rowptr binId : List Nat) (i : Nat) (t : Tbl V) : Prog V (Tbl V) := do
  let bid ← priv (rd binId i)
  if bid > 0 then do
    let off ← priv (rd rowptr i)
    let t ← priv (HashMult.reset t (8 <<< (bid - 1)))
    let t ← priv (nest A B i t fun j k t => do
      let a ← rd A.values j
      let b ← rd B.values k
      let key ← rd B.colids k
      HashMult.insertNum add t key (mul a b))
    if sorted then do
      let hi ← priv (rd rowptr (i + 1))
      let r ← priv (HashMult.collect t (8 <<< (bid - 1)) (hi - off) dflt)
      writeOut off r.2 (sortf r.1)
      return t
    else do
      let _ ← gather t (8 <<< (bid - 1)) off
      return t
  else return t

/-- The regions of `HashSpGEMM`, HM:184-207 (compare `HashMult.hashSpGEMM`). -/
def hashTraces (sorted : Bool) (sortf : List (Nat × V) → List (Nat × V)) (mul add : V → V → V) (A B : CSR V) (dflt : V)
    (n nd : Nat) (w1 w2 : Nat → Nat) (tables : List Nat) (sch : HashMult.Sched) : List (List (Nat × Access)) :=
  binTraces A B A.rows B.cols 8 n nd w1 w2 sch.bin ++
  match done (Bin.setMaxBin A B A.rows B.cols 8 n nd sch.bin) with
  | none => []
  | some p =>
    loopTrace id (tableProg (V := V) p B.cols 8) tables (List.replicate n 0, []) ::
    match (List.range n).mapM (fun t => do
      let lo ← rd p.rowsOffset t
      let hi ← rd p.rowsOffset (t + 1)
      let s ← Bin.localSize p.rowNz B.cols 8 lo hi
      .ok (HashMult.newTable s dflt) : Nat → Res (Tbl V)) with
    | .error _ => []
    | .ok tbl =>
      blockTrace n p.rowsOffset (fun t _ _ => rd tbl t) (symRow A B p.binId) sch.sym (p.rowNz, []) ::
      match done (blocks n p.rowsOffset (fun t _ _ => rd tbl t) (HashMult.symRow A B p.binId) sch.sym p.rowNz) with
      | none => []
      | some (rowNz, tbl) =>
        match done (UtilScan.scan rowNz (A.rows + 1) (List.replicate (A.rows + 1) 0) nd sch.s1 sch.s2) with
        | none => []
        | some rowptr =>
          match rd rowptr A.rows with
          | .error _ => []
          | .ok nnz => [blockTrace n p.rowsOffset (fun t _ _ => rd tbl t)
              (numRow sorted sortf mul add dflt A B rowptr p.binId) sch.num (List.replicate nnz 0, List.replicate nnz dflt)]

/-! ## The masked kernels with two passes -/

/-- The regions of the frame of `MaskedSPASpGEMM` and `mxm_hash_mask` after the partition (compare `twoPass`). -/
def twoPassTraces (A B : CSR V) (dflt : V) (n nd : Nat) (init1 : Nat → Nat → Nat → Res α)
    (row1 : Nat → List Nat → α → Res (List Nat × α)) (prog1 : Nat → α → Prog V α) (init2 : Nat → Nat → Nat → Res β)
    (prog2 : List Nat → Nat → β → Prog V β) (sch : TwoPassSched) : List (List (Nat × Access)) :=
  match done (Bin.setMaxBin A B A.rows B.cols 8 n nd sch.bin) with
  | none => []
  | some p =>
    blockTrace n p.rowsOffset init1 prog1 sch.count (List.replicate A.rows 0, []) ::
    match done (blocks n p.rowsOffset init1 row1 sch.count (List.replicate A.rows 0)) with
    | none => []
    | some (rowNz, _) =>
      match done (UtilScan.scan rowNz (A.rows + 1) (List.replicate (A.rows + 1) 0) nd sch.s1 sch.s2) with
      | none => []
      | some rowptr =>
        match rd rowptr A.rows with
        | .error _ => []
        | .ok nnz =>
          [blockTrace n p.rowsOffset init2 (prog2 rowptr) sch.fill (List.replicate nnz 0, List.replicate nnz dflt)]

/-- `Spa.countRow`, spa_mult.h:42-54 -/
def spaCountRow (A B M : CSR V) (i : Nat) (s : Spa.Str) : Prog V Spa.Str := do
  let s ← priv (maskLoop M i s fun c s => s.allow c)
  let s ← priv (nest A B i s fun _ k s => do
    let c ← rd B.colids k
    s.insert c)
  put i s.committed
  priv s.reset

/-- `Spa.Acc.outputReset`, SPA.h:52-69 -/
def outputReset (s : Spa.Acc V) (off : Nat) : Prog V (Spa.Acc V) := do
  let _ ← forList s.present 0 fun index k => do
    put (off + k) index
    let x ← priv (rd s.values index)
    putV (off + k) x
    return k + 1
  let flags ← priv (Spa.clearFlags s.possible s.flags)
  return { s with flags := flags, present := [], possible := [] }

/-- `Spa.fillRow`, spa_mult.h:77-89 -/
def spaFillRow (mul add : V → V → V) (A B M : CSR V) (rowptr : List Nat) (i : Nat) (s : Spa.Acc V) : Prog V (Spa.Acc V) := do
  let s ← priv (maskLoop M i s fun c s => s.allow c)
  let s ← priv (nest A B i s fun j k s => do
    let a ← rd A.values j
    let b ← rd B.values k
    let c ← rd B.colids k
    s.insert add c (mul a b))
  let off ← priv (rd rowptr i)
  outputReset s off

/-- The regions of `MaskedSPASpGEMM`, spa_mult.h:11-91 (compare `Spa.spaSpGEMM`). -/
def spaTraces (mul add : V → V → V) (A B M : CSR V) (dflt : V) (n nd : Nat) (w1 w2 : Nat → Nat) (sch : TwoPassSched) :
    List (List (Nat × Access)) :=
  binTraces A B A.rows B.cols 8 n nd w1 w2 sch.bin ++
  twoPassTraces A B dflt n nd
    (fun _ _ _ => .ok { committed := 0, flags := List.replicate B.cols 0, possible := [] }) (Spa.countRow A B M)
    (spaCountRow A B M)
    (fun _ _ _ => .ok { values := List.replicate B.cols dflt, flags := List.replicate B.cols 0, present := [], possible := [] })
    (spaFillRow mul add A B M) sch

/-- The loop nest of `nest` with a program as body -/
def nestP (A B : CSR V) (row : Nat) (s : α) (body : Nat → Nat → α → Prog V α) : Prog V α := do
  let lo ← priv (rd A.rowptr row)
  let hi ← priv (rd A.rowptr (row + 1))
  loop lo hi s fun j s => do
    let inner ← priv (rd A.colids j)
    let klo ← priv (rd B.rowptr inner)
    let khi ← priv (rd B.rowptr (inner + 1))
    loop klo khi s fun k s => body j k s

/-- `LpMult.countProducts`, LM:87-100 and LM:190-203 -/
def countProducts (A B : CSR V) (i : Nat) (t : Tbl Bool) : Prog V (Tbl Bool) := do
  put i 0
  nestP A B i t fun _ k t => do
    let c ← priv (rd B.colids k)
    let hv ← priv (LpMult.find t c)
    match hv with
    | none => return t
    | some hv => do
      let e ← priv (rd t.table hv)
      if e.val = false then do
        let x ← get i
        put i (x + 1)
        priv (t.put hv { e with val := true })
      else return t

/-- `LpMult.gather`, mask_hash.h:120-136 -/
def lpGather (t : Tbl (V × Bool)) (off : Nat) : Prog V (Tbl (V × Bool)) := do
  let r ← loop 0 t.size (t, 0) fun j (t, k) => do
    let e ← priv (rd t.table j)
    let k ← (match e.key with
      | some c =>
        if e.val.2 then do
          put (off + k) c
          putV (off + k) e.val.1
          return k + 1
        else return k
      | none => return k : Prog V Nat)
    let t ← priv (t.putEmpty j)
    return (t, k)
  return r.1

/-- `LpMult.countRow`, LM:82-102 -/
def lpCountRow (A B M : CSR V) (i : Nat) (t : Tbl Bool) : Prog V (Tbl Bool) := do
  let t ← priv (LpMult.maskRow M i false t)
  let t ← countProducts A B i t
  priv (LpMult.reset t)

/-- `LpMult.fillRow`, LM:128-152 -/
def lpFillRow (mul add : V → V → V) (dflt : V) (A B M : CSR V) (rowptr : List Nat) (i : Nat) (t : Tbl (V × Bool)) :
    Prog V (Tbl (V × Bool)) := do
  let t ← priv (LpMult.maskRow M i (dflt, false) t)
  let t ← priv (LpMult.addProducts mul add A B i t)
  let off ← priv (rd rowptr i)
  lpGather t off

/-- The region that finds out the number of threads, LM:50-54 (and `/repo/heap_mult.h` 49-53, `/repo/inner_mult.h` 79-83):
every thread writes the variable `numThreads`. -/
def teamProg (n : Nat) (_ : Nat) : Prog V Unit := put 0 n

/-- The region with the threads in the order `team`. -/
def teamTrace (V : Type) (n : Nat) (team : List Nat) : List (Nat × Access) :=
  loopTrace id (teamProg (V := V) n) team ([0], [])

/-- The regions of `mxm_hash_mask`, LM:28-157, after the first one (compare `LpMult.hashMask`). -/
def lpTraces (mul add : V → V → V) (A B M : CSR V) (dflt : V) (n nd : Nat) (w1 w2 : Nat → Nat) (tables : List Nat)
    (sch : TwoPassSched) : List (List (Nat × Access)) :=
  binTraces A B A.rows B.cols 8 n nd w1 w2 sch.bin ++
  (match done (Bin.setMaxBin A B A.rows B.cols 8 n nd sch.bin) with
  | none => []
  | some p => [loopTrace id (tableProg (V := V) p B.cols 8) tables (List.replicate n 0, [])]) ++
  twoPassTraces A B dflt n nd
    (fun _ lo hi => do
      let m ← LpMult.maxRow M lo hi
      .ok (LpMult.newTable (m + 1) false)) (LpMult.countRow A B M) (lpCountRow A B M)
    (fun _ lo hi => do
      let m ← LpMult.maxRow M lo hi
      .ok (LpMult.newTable (m + 1) (dflt, false))) (lpFillRow mul add dflt A B M) sch

/-- The regions of `mxm_hash_mask`, LM:28-157 -/
def maskTraces (mul add : V → V → V) (A B M : CSR V) (dflt : V) (n nd : Nat) (w1 w2 : Nat → Nat) (team tables : List Nat)
    (sch : TwoPassSched) : List (List (Nat × Access)) :=
  teamTrace V n team :: lpTraces mul add A B M dflt n nd w1 w2 tables sch

/-- Iteration `i` of the first loop of `mxm_hash_mask_wobin`, LM:184-204 -/
def wobinCount (A B M : CSR V) (i : Nat) : Prog V Unit := do
  let t ← priv (LpMult.rowTable M i false)
  let t ← priv (LpMult.maskRow M i false t)
  let _ ← countProducts A B i t
  return ()

/-- Iteration `i` of the second loop of `mxm_hash_mask_wobin`, LM:213-238 -/
def wobinFill (mul add : V → V → V) (dflt : V) (A B M : CSR V) (rowptr : List Nat) (i : Nat) : Prog V Unit := do
  let t ← priv (LpMult.rowTable M i (dflt, false))
  let _ ← lpFillRow mul add dflt A B M rowptr i t
  return ()

/-- The regions of `mxm_hash_mask_wobin`, LM:161-241 (compare `LpMult.hashMaskWobin`). -/
def wobinTraces (mul add : V → V → V) (A B M : CSR V) (dflt : V) (nd : Nat) (w1 w2 : Nat → Nat)
    (order1 s1 s2 order2 : List Nat) : List (List (Nat × Access)) :=
  loopTrace w1 (wobinCount A B M) order1 (List.replicate A.rows 0, []) ::
  match order1.foldlM (fun rowNz i => do
    let t ← LpMult.rowTable M i false
    let t ← LpMult.maskRow M i false t
    let (rowNz, _) ← LpMult.countProducts A B i rowNz t
    .ok rowNz : List Nat → Nat → Res (List Nat)) (List.replicate A.rows 0) with
  | .error _ => []
  | .ok rowNz =>
    match done (UtilScan.scan rowNz (A.rows + 1) (List.replicate (A.rows + 1) 0) nd s1 s2) with
    | none => []
    | some rowptr =>
      match rd rowptr A.rows with
      | .error _ => []
      | .ok nnz => [loopTrace w2 (wobinFill mul add dflt A B M rowptr) order2 (List.replicate nnz 0, List.replicate nnz dflt)]

end Verif.Model.RaceOld
