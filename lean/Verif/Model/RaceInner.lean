import Verif.Model.Race
import Verif.Model.Inner

/-!
# Memory accesses of the threads in the inner-product drivers

The steps of `Verif.Model.Inner` once more as programs that get at the shared memory only by loads and stores of single cells
(compare `Verif.Model.Race`). The part after the barrier of the one-phase driver is `Race.prog3`; its reads of the buffers
`colIds` and `values` are left out, since nobody writes the buffers there. Before the barrier `Arr.colids` and `Arr.values` stand
for these buffers (the arrays of the result do not exist yet).
-/

namespace Verif.Model.Race

open Scan (rdu)

variable {V : Type}

/-- The shared memory of the one-phase driver before the barrier, masked-spgemm-inner.h:25-30 -/
def bufMem : Mem V (Inner.Sh1 V) where
  get := fun g a =>
    match a with
    | .rowNvals => g.rowNvals
    | .threadsNvals => g.threadsNvals
    | .colids => g.tmpC
    | _ => []
  set := fun g a xs =>
    match a with
    | .rowNvals => { g with rowNvals := xs }
    | .threadsNvals => { g with threadsNvals := xs }
    | .colids => { g with tmpC := xs }
    | _ => g
  getV := fun g => g.tmpV
  setV := fun g xs => { g with tmpV := xs }

/-- `Inner.step1`, masked-spgemm-inner.h:47-57 -/
def innerProg1 (mul add : V → V → V) (A : CSR V) (B : CSC V) (M : CSR V) (wpr : List (Option Nat)) (t : Nat) (l : Inner.L1 V) :
    Prog V (Inner.L1 V) :=
  match l.ctl with
  | .row =>
    if l.row < l.stop then
      .lift (rdu wpr l.row) fun w =>
        if w = 0 then .store .rowNvals l.row 0 (.ret { l with ctl := .num }) else .ret { l with ctl := .num }
    else .store .threadsNvals t (l.cur - l.base) (.ret { l with ctl := .done })
  | .num => .lift (Inner.numericRow mul add A B M l.row) fun em => .ret { l with beg := l.cur, ctl := .flushC em }
  | .flushC [] => .store .rowNvals l.row (l.cur - l.beg) (.ret { l with row := l.row + 1, ctl := .row })
  | .flushC ((c, v) :: em) => .store .colids l.cur c (.ret { l with ctl := .flushV v em })
  | .flushV v em => .storeV l.cur v (.ret { l with cur := l.cur + 1, ctl := .flushC em })
  | .done => .ret l

/-- `Inner.step2`, masked-spgemm-inner.h:105-114 -/
def innerProg2 (A : CSR V) (B : CSC V) (M : CSR V) (wpr : List (Option Nat)) (t : Nat) (l : Inner.L2) : Prog V Inner.L2 :=
  if l.row < l.stop then
    .lift (rdu wpr l.row) fun w =>
      if w = 0 then .store .rowNvals l.row 0 (.ret { l with row := l.row + 1 })
      else .lift (Inner.symbolicRow A B M l.row) fun k =>
        .store .rowNvals l.row k (.load .rowNvals l.row fun k => .lift (use k) fun k =>
          .ret { l with row := l.row + 1, nvals := l.nvals + k })
  else .store .threadsNvals t l.nvals (.ret { l with done := true })

/-- `Inner.step4`, masked-spgemm-inner.h:123-137 -/
def innerProg4 (mul add : V → V → V) (A : CSR V) (B : CSC V) (M : CSR V) (wpr : List (Option Nat)) (n : Nat)
    (rng : Nat → Nat × Nat) (t : Nat) (l : Inner.Ctl4 V) : Prog V (Inner.Ctl4 V) :=
  match l with
  | .start => sumLoads .threadsNvals 0 t 0 fun off => .ret (.offs (rng t).1 off)
  | .offs i off =>
    if i < (rng t).2 then .store .rowptr i off (.load .rowNvals i fun k => .lift (use k) fun k => .ret (.offs (i + 1) (off + k)))
    else .ret (.last off)
  | .last off => if t = n - 1 then .store .rowptr A.rows off (.ret .base) else .ret .base
  | .base => .load .rowptr (rng t).1 fun cur => .ret (.row (rng t).1 cur)
  | .row r cur =>
    if r < (rng t).2 then
      .lift (rdu wpr r) fun w =>
        if w = 0 then .store .rowNvals r 0 (.ret (.row (r + 1) cur))
        else .lift (Inner.numericRow mul add A B M r) fun em => .ret (.flushC r em cur cur)
    else .ret .done
  | .flushC r [] beg cur =>
    .lift (use cur) fun d => .lift (use beg) fun d0 => .store .rowNvals r (d - d0) (.ret (.row (r + 1) cur))
  | .flushC r ((c, v) :: em) beg cur => .lift (use cur) fun d => .store .colids d c (.ret (.flushV r v em beg cur))
  | .flushV r v em beg cur => .lift (use cur) fun d => .storeV d v (.ret (.flushC r em beg (some (d + 1))))
  | .done => .ret l

/-- The regions before the main region: the loop that computes `workPerRow` (common.h:86-102; every iteration counts as a thread
of its own; the sum is a reduction variable) and the prefix sum. -/
def innerTracesPrepare (A : CSR V) (B : CSC V) (M : CSR V) (n : Nat) (sch : Scheds) : List (List (Nat × Access)) :=
  sch.flops.map (fun i => (i, ⟨.flopsPerRow, i, true⟩)) ::
  match Inner.calculateWork A B M sch.flops with
  | .ok (wpr, _) => tracesScan wpr M.rows (List.replicate M.rows none) n sch.scan1 sch.scan2
  | .error _ => []

/-- The accesses of a call of `MaskedSpGEMM1p` for CSR times CSC, region by region; masked-spgemm-inner.h:6-71 and
MaskedInnerSpGEMM.h:13-107. -/
def innerTraces1p (mul add : V → V → V) (A : CSR V) (B : CSC V) (M : CSR V) (numThreads dflt : Nat) (sch : Scheds) :
    List (List (Nat × Access)) :=
  let n := setNumThreads numThreads dflt
  innerTracesPrepare A B M n sch ++
  match Inner.prepare A B M n sch with
  | .ok (some (wpr, work, cum)) =>
    match setup n (Inner.init1 A M n work cum), setup n (distributeWork work cum A.rows n) with
    | .ok (l0 :: ls), .ok rngs =>
      let g : Inner.Sh1 V := { rowNvals := List.replicate M.rows none, threadsNvals := List.replicate n none,
                               tmpC := List.replicate M.nnz none, tmpV := List.replicate M.nnz none }
      trace bufMem n (innerProg1 mul add A B M wpr) (·.fin) sch.first g (fun t => (l0 :: ls).getD t l0) ::
      match phase n (Inner.step1 mul add A B M wpr) (·.fin) sch.first g (fun t => (l0 :: ls).getD t l0) with
      | .ok (some (g, ls)) =>
        match setup n (fun t => Inner.readTmp g (ls t).base t), initC A.rows n g.toSh with
        | .ok outs, .ok g => [trace shMem n (prog3 A.rows n (fun t => rngs.getD t (0, 0)) (fun t => outs.getD t [])) (· == .done)
            sch.second g (fun _ => .start)]
        | _, _ => []
      | _ => []
    | _, _ => []
  | _ => []

/-- The accesses of a call of `MaskedSpGEMM2p` for CSR times CSC, region by region; masked-spgemm-inner.h:73-141 and
MaskedInnerSpGEMM.h:109-229. -/
def innerTraces2p (mul add : V → V → V) (A : CSR V) (B : CSC V) (M : CSR V) (numThreads dflt : Nat) (sch : Scheds) :
    List (List (Nat × Access)) :=
  let n := setNumThreads numThreads dflt
  innerTracesPrepare A B M n sch ++
  match Inner.prepare A B M n sch with
  | .ok (some (wpr, work, cum)) =>
    match setup n (Inner.init2 A n work cum), setup n (distributeWork work cum A.rows n) with
    | .ok (l0 :: ls), .ok rngs =>
      let g : Sh V := { rowNvals := List.replicate M.rows none, threadsNvals := List.replicate n none }
      trace shMem n (innerProg2 A B M wpr) (·.done) sch.first g (fun t => (l0 :: ls).getD t l0) ::
      match phase n (Inner.step2 A B M wpr) (·.done) sch.first g (fun t => (l0 :: ls).getD t l0) with
      | .ok (some (g, _)) =>
        match initC A.rows n g with
        | .ok g => [trace shMem n (innerProg4 mul add A B M wpr n (fun t => rngs.getD t (0, 0))) (·.fin) sch.second g
            (fun _ => .start)]
        | .error _ => []
      | _ => []
    | _, _ => []
  | _ => []

end Verif.Model.Race
