import Verif.Model.Driver

/-!
# Memory accesses of the threads

The steps of the threads in `Verif.Model.Scan` and `Verif.Model.Driver` once more, now as programs that get at the shared memory
only by loads and stores of single cells, so that the accesses can be listed. `Verif.Lemmas.Race` shows that running such a
program is the step it stands for. Arrays that nobody writes between two barriers (the input matrices, `flopsPerRow` and
`cumulativeWork` after their computation) are not part of the shared memory here, since reading them cannot be a race.
-/

namespace Verif.Model.Race

open Scan (rdu start stop)

variable {V σ l α β : Type}

/-- The shared arrays. -/
inductive Arr where
  | flopsPerRow
  | partialSums
  | cumulativeWork
  | rowNvals
  | threadsNvals
  | rowptr
  | colids
  | values
  deriving DecidableEq, Repr

/-- Access to a cell of a shared array. -/
structure Access where
  arr : Arr
  idx : Nat
  write : Bool
  deriving DecidableEq, Repr

/-- A piece of a thread. Cells hold numbers, except those of `values`, which are only written. -/
inductive Prog (V α : Type) where
  | ret (a : α)
  | fail (e : Err)
  | load (a : Arr) (i : Nat) (k : Option Nat → Prog V α)
  | store (a : Arr) (i x : Nat) (k : Prog V α)
  | storeV (i : Nat) (v : V) (k : Prog V α)

/-- Private work. -/
def Prog.lift (r : Res β) (k : β → Prog V α) : Prog V α :=
  match r with
  | .ok b => k b
  | .error e => .fail e

/-- Where the arrays are found in the shared memory `σ`. -/
structure Mem (V σ : Type) where
  get : σ → Arr → List (Option Nat)
  set : σ → Arr → List (Option Nat) → σ
  getV : σ → List (Option V)
  setV : σ → List (Option V) → σ

/-- Run a piece of a thread. -/
def Prog.exec (m : Mem V σ) : Prog V α → σ → Res (σ × α)
  | .ret a, g => .ok (g, a)
  | .fail e, _ => .error e
  | .load a i k, g => do
    let x ← rd (m.get g a) i
    (k x).exec m g
  | .store a i x k, g => do
    let xs ← wr (m.get g a) i (some x)
    k.exec m (m.set g a xs)
  | .storeV i v k, g => do
    let xs ← wr (m.getV g) i (some v)
    k.exec m (m.setV g xs)

/-- The accesses it makes. -/
def Prog.accesses (m : Mem V σ) : Prog V α → σ → List Access
  | .ret _, _ => []
  | .fail _, _ => []
  | .load a i k, g => ⟨a, i, false⟩ ::
    match rd (m.get g a) i with
    | .ok x => (k x).accesses m g
    | .error _ => []
  | .store a i x k, g => ⟨a, i, true⟩ ::
    match wr (m.get g a) i (some x) with
    | .ok xs => k.accesses m (m.set g a xs)
    | .error _ => []
  | .storeV i v k, g => ⟨.values, i, true⟩ ::
    match wr (m.getV g) i (some v) with
    | .ok xs => k.accesses m (m.setV g xs)
    | .error _ => []

/-- The accesses of a parallel region up to its barrier, with the thread that makes them, in the order of the schedule
(compare `runs`). -/
def trace (m : Mem V σ) (n : Nat) (prog : Nat → l → Prog V l) (fin : l → Bool) : List Nat → σ → (Nat → l) → List (Nat × Access)
  | [], _, _ => []
  | t :: ts, g, ls =>
    if t < n ∧ fin (ls t) = false then
      ((prog t (ls t)).accesses m g).map (fun a => (t, a)) ++
      match (prog t (ls t)).exec m g with
      | .ok (g', l') => trace m n prog fin ts g' (upd ls t l')
      | .error _ => []
    else trace m n prog fin ts g ls

/-- Two threads access the same cell without a barrier in between, and one of them writes it. -/
def Conflict (x y : Nat × Access) : Prop :=
  x.1 ≠ y.1 ∧ x.2.arr = y.2.arr ∧ x.2.idx = y.2.idx ∧ (x.2.write = true ∨ y.2.write = true)

instance (x y : Nat × Access) : Decidable (Conflict x y) := by unfold Conflict; infer_instance

/-- A region with a data race. -/
def Racy (tr : List (Nat × Access)) : Prop := ∃ x ∈ tr, ∃ y ∈ tr, Conflict x y

/-- Sum of the cells `lo .. lo + cnt - 1` of an array -/
def sumLoads (a : Arr) : Nat → Nat → Nat → (Nat → Prog V α) → Prog V α
  | _, 0, s, k => k s
  | lo, cnt + 1, s, k => .load a lo fun x => .lift (use x) fun x => sumLoads a (lo + 1) cnt (s + x) k

/-! ## Prefix sum -/

/-- A single array as shared memory. -/
def arrMem : Mem Unit (List (Option Nat)) where
  get := fun g _ => g
  set := fun _ _ xs => xs
  getV := fun _ => []
  setV := fun g _ => g

/-- `Scan.stepSum`, scan.h:62-66 -/
def progSum (src : List (Option Nat)) (size n t : Nat) (_ : Bool) : Prog Unit Bool :=
  .lift (forRange (start size n t) (stop size n t) 0 fun i s => do
    let x ← rdu src i
    .ok (s + x)) fun sum => .store .partialSums t sum (.ret true)

/-- `Scan.stepWrite` of the exclusive scan, scan.h:69-77 -/
def progWrite (src ps : List (Option Nat)) (size n t : Nat) (c : Scan.Ctl) : Prog Unit Scan.Ctl :=
  match c with
  | .first =>
    .lift (forRange 0 t 0 fun i s => do
      let x ← rdu ps i
      .ok (s + x)) fun offset => .store .cumulativeWork (start size n t) (offset + 0) (.ret (.at (start size n t + 1)))
  | .at i =>
    if i < stop size n t then
      .load .cumulativeWork (i - 1) fun p => .lift (use p) fun p => .lift (rdu src (i - 1)) fun x =>
        .store .cumulativeWork i (p + x) (.ret (.at (i + 1)))
    else .ret .done
  | .done => .ret .done

/-- The two regions of `Scan.exclusiveScan`, scan.h:81-99; there is none if the scan is sequential. -/
def tracesScan (src : List (Option Nat)) (size : Nat) (dst : List (Option Nat)) (n : Nat) (s1 s2 : List Nat) :
    List (List (Nat × Access)) :=
  if size < 2 ∨ n = 1 then []
  else
    trace arrMem n (progSum src size n) id s1 (List.replicate n none) (fun _ => false) ::
    match phase n (Scan.stepSum src size n) id s1 (List.replicate n none) (fun _ => false) with
    | .ok (some (ps, _)) => [trace arrMem n (progWrite src ps size n) (· == .done) s2 dst (fun _ => .first)]
    | _ => []

/-! ## Drivers -/

/-- The shared memory of the drivers. -/
def shMem : Mem V (Sh V) where
  get := fun g a =>
    match a with
    | .rowNvals => g.rowNvals
    | .threadsNvals => g.threadsNvals
    | .rowptr => g.rowptr
    | .colids => g.colids
    | _ => []
  set := fun g a xs =>
    match a with
    | .rowNvals => { g with rowNvals := xs }
    | .threadsNvals => { g with threadsNvals := xs }
    | .rowptr => { g with rowptr := xs }
    | .colids => { g with colids := xs }
    | _ => g
  getV := fun g => g.values
  setV := fun g xs => { g with values := xs }

/-- `Model.step1`, masked-spgemm.h:69-78 -/
def prog1 (alg : RowAlg V) (mul add : V → V → V) (A B M : CSR V) (fpr : List (Option Nat)) (t : Nat) (l : L1 alg.N V) :
    Prog V (L1 alg.N V) :=
  if l.row < l.stop then
    .lift (rdu fpr l.row) fun f =>
      if f ≠ 0 then
        .lift (alg.numRow mul add A B M l.row f l.acc) fun r =>
          if l.out.length + r.2.length ≤ l.cap then
            .store .rowNvals l.row r.2.length (.ret { l with row := l.row + 1, acc := r.1, out := l.out ++ r.2 })
          else .fail .oob
      else .store .rowNvals l.row 0 (.ret { l with row := l.row + 1 })
  else .store .threadsNvals t l.out.length (.ret { l with done := true })

/-- `Model.step2`, masked-spgemm.h:146-154 -/
def prog2 (alg : RowAlg V) (A B M : CSR V) (fpr : List (Option Nat)) (t : Nat) (l : L2 alg.S) : Prog V (L2 alg.S) :=
  if l.row < l.stop then
    .lift (rdu fpr l.row) fun f =>
      if f ≠ 0 then
        .lift (alg.symRow A B M l.row f l.acc) fun r =>
          .store .rowNvals l.row r.2 (.load .rowNvals l.row fun k => .lift (use k) fun k =>
            .ret { l with row := l.row + 1, acc := r.1, nvals := l.nvals + k })
      else .store .rowNvals l.row 0 (.load .rowNvals l.row fun k => .lift (use k) fun k =>
        .ret { l with row := l.row + 1, nvals := l.nvals + k })
  else .store .threadsNvals t l.nvals (.ret { l with done := true })

/-- `Model.step3`, masked-spgemm.h:87-88 -/
def prog3 (rows n : Nat) (rng : Nat → Nat × Nat) (outs : Nat → List (Nat × V)) (t : Nat) (c : Ctl3) : Prog V Ctl3 :=
  match c with
  | .start => sumLoads .threadsNvals 0 t 0 fun off => .ret (.offs (rng t).1 off)
  | .offs i off =>
    if i < (rng t).2 then .store .rowptr i off (.load .rowNvals i fun k => .lift (use k) fun k => .ret (.offs (i + 1) (off + k)))
    else .ret (.last off)
  | .last off => if t = n - 1 then .store .rowptr rows off (.ret .baseC) else .ret .baseC
  | .baseC => .load .rowptr (rng t).1 fun base => .ret (.copyC base 0)
  | .copyC base k => .load .threadsNvals t fun cnt => .lift (use cnt) fun cnt =>
    if k < cnt then
      .lift (use base) fun d => .lift (rd (outs t) k) fun x => .store .colids (d + k) x.1 (.ret (.copyC base (k + 1)))
    else .ret .baseV
  | .baseV => .load .rowptr (rng t).1 fun base => .ret (.copyV base 0)
  | .copyV base k => .load .threadsNvals t fun cnt => .lift (use cnt) fun cnt =>
    if k < cnt then
      .lift (use base) fun d => .lift (rd (outs t) k) fun x => .storeV (d + k) x.2 (.ret (.copyV base (k + 1)))
    else .ret .done
  | .done => .ret .done

/-- `Model.step4`, masked-spgemm.h:164-173 -/
def prog4 (alg : RowAlg V) (mul add : V → V → V) (A B M : CSR V) (n : Nat) (rng : Nat → Nat × Nat) (t : Nat) (l : L4 alg.N V) :
    Prog V (L4 alg.N V) :=
  match l.ctl with
  | .start => sumLoads .threadsNvals 0 t 0 fun off => .ret { l with ctl := .offs (rng t).1 off }
  | .offs i off =>
    if i < (rng t).2 then
      .store .rowptr i off (.load .rowNvals i fun k => .lift (use k) fun k => .ret { l with ctl := .offs (i + 1) (off + k) })
    else .ret { l with ctl := .last off }
  | .last off =>
    if t = n - 1 then .store .rowptr A.rows off (.ret { l with ctl := .base }) else .ret { l with ctl := .base }
  | .base => .load .rowptr (rng t).1 fun cur => .ret { l with ctl := .row (rng t).1 cur }
  | .row r cur =>
    if r < (rng t).2 then
      .load .rowNvals r fun k => .lift (use k) fun k =>
        if k = 0 then .ret { l with ctl := .row (r + 1) cur }
        else .lift (alg.numRow mul add A B M r k l.acc) fun q => .ret { ctl := .flushC r q.2 cur, acc := q.1 }
    else .ret { l with ctl := .done }
  | .flushC r em cur =>
    match em with
    | [] => .ret { l with ctl := .row (r + 1) cur }
    | x :: em => .lift (use cur) fun d => .store .colids d x.1 (.ret { l with ctl := .flushV r x.2 em cur })
  | .flushV r v em cur =>
    .lift (use cur) fun d => .storeV d v (.ret { l with ctl := .flushC r em (some (d + 1)) })
  | .done => .ret l

/-- The regions before the main region: the loop that computes `flopsPerRow` (common.h:46-83; every iteration counts as a thread
of its own) and the prefix sum. -/
def tracesPrepare (compl : Bool) (A B M : CSR V) (n : Nat) (sch : Scheds) : List (List (Nat × Access)) :=
  sch.flops.map (fun i => (i, ⟨.flopsPerRow, i, true⟩)) ::
  match calculateFlops compl A B M sch.flops with
  | .ok (fpr, _) => tracesScan fpr A.rows (List.replicate A.rows none) n sch.scan1 sch.scan2
  | .error _ => []

/-- The accesses of a call of `MaskedSpGEMM1p`, region by region. -/
def traces1p (alg : RowAlg V) (mul add : V → V → V) (A B M : CSR V) (numThreads dflt : Nat) (sch : Scheds) :
    List (List (Nat × Access)) :=
  let n := setNumThreads numThreads dflt
  tracesPrepare alg.compl A B M n sch ++
  match prepare alg.compl A B M n sch with
  | .ok (some (fpr, flops, cum)) =>
    match setup n (init1 alg A B M n fpr flops cum), setup n (distributeWork flops cum A.rows n) with
    | .ok (l0 :: ls), .ok rngs =>
      let g : Sh V := { rowNvals := List.replicate A.rows none, threadsNvals := List.replicate n none }
      trace shMem n (prog1 alg mul add A B M fpr) (·.done) sch.first g (fun t => (l0 :: ls).getD t l0) ::
      match phase n (step1 alg mul add A B M fpr) (·.done) sch.first g (fun t => (l0 :: ls).getD t l0) with
      | .ok (some (g, ls)) =>
        match initC A.rows n g with
        | .ok g => [trace shMem n (prog3 A.rows n (fun t => rngs.getD t (0, 0)) (fun t => (ls t).out)) (· == .done)
            sch.second g (fun _ => .start)]
        | .error _ => []
      | _ => []
    | _, _ => []
  | _ => []

/-- The accesses of a call of `MaskedSpGEMM2p`, region by region. -/
def traces2p (alg : RowAlg V) (mul add : V → V → V) (A B M : CSR V) (numThreads dflt : Nat) (sch : Scheds) :
    List (List (Nat × Access)) :=
  let n := setNumThreads numThreads dflt
  tracesPrepare alg.compl A B M n sch ++
  match prepare alg.compl A B M n sch with
  | .ok (some (fpr, flops, cum)) =>
    match setup n (init2 alg A B M n fpr flops cum), setup n (distributeWork flops cum A.rows n) with
    | .ok (l0 :: ls), .ok rngs =>
      let g : Sh V := { rowNvals := List.replicate A.rows none, threadsNvals := List.replicate n none }
      trace shMem n (prog2 alg A B M fpr) (·.done) sch.first g (fun t => ((l0 :: ls).getD t l0).1) ::
      match phase n (step2 alg A B M fpr) (·.done) sch.first g (fun t => ((l0 :: ls).getD t l0).1) with
      | .ok (some (g, _)) =>
        match initC A.rows n g with
        | .ok g => [trace shMem n (prog4 alg mul add A B M n (fun t => rngs.getD t (0, 0))) (·.fin) sch.second g
            (fun t => { ctl := .start, acc := ((l0 :: ls).getD t l0).2 })]
        | .error _ => []
      | _ => []
    | _, _ => []
  | _ => []

end Verif.Model.Race
