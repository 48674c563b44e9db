import Verif.Model.RaceOld
import Verif.Model.Outer
import Verif.Model.Outer2
import Verif.Model.OuterProfile

/-!
# Memory accesses of the outer-product kernels and of the prefix sum of `utility.h`

The parallel regions of `OuterSpGEMM` (`/repo/outer_mult.h`, `outer_mult2.h`, `outer_profile.h`, `outer_profile2.h`; called OM, OM2,
OP and OP2) and of `scan` (`/repo/utility.h`) as programs of loads and stores, see `Verif.Model.RaceOld`. Not listed: atomic
additions, private data, loops whose only shared results are reductions, and loops that store one pointer per iteration or thread
into a cell of its own (OM:252-254, OM2:236-251, 257-258, OP:283-300, OP2:313-330).
-/

namespace Verif.Model.RaceOuter
open RaceOld (Arr Access Racy done)
open Outer (Glob Loc Out)

variable {V σ α β ι : Type}

/-- A piece of a thread: operations on the shared memory with the accesses they make, if any -/
inductive Prog (σ α : Type) : Type 1 where
  | ret (a : α)
  | fail (e : Err)
  | op {β : Type} (a : List Access) (f : σ → Res (σ × β)) (k : β → Prog σ α)

/-- One piece after the other. -/
def Prog.andThen : Prog σ α → (α → Prog σ β) → Prog σ β
  | .ret a, q => q a
  | .fail e, _ => .fail e
  | .op a f k, q => .op a f fun x => (k x).andThen q

instance : Monad (Prog σ) where
  pure := .ret
  bind := .andThen

/-- Private work. -/
def priv (r : Res α) : Prog σ α :=
  match r with
  | .ok a => .ret a
  | .error e => .fail e

/-- `for (i = lo; i < hi; ++i) body` -/
def loop (lo : Nat) : (len : Nat) → (Nat → Prog σ Unit) → Prog σ Unit
  | 0, _ => .ret ()
  | len + 1, body => body lo >>= fun _ => loop (lo + 1) len body

/-- Run a piece of a thread. -/
def Prog.exec : Prog σ α → σ → Res (σ × α)
  | .ret a, g => .ok (g, a)
  | .fail e, _ => .error e
  | .op _ f k, g => do
    let r ← f g
    (k r.2).exec r.1

/-- The accesses it makes. -/
def Prog.accesses : Prog σ α → σ → List Access
  | .ret _, _ => []
  | .fail _, _ => []
  | .op a f k, g => a ++
    match f g with
    | .ok r => (k r.2).accesses r.1
    | .error _ => []

/-- The accesses of a parallel region up to its barrier, see `RaceOld.trace`. -/
def trace (n : Nat) (prog : Nat → α → Prog σ α) (fin : α → Bool) : List Nat → σ → (Nat → α) → List (Nat × Access)
  | [], _, _ => []
  | t :: ts, g, ls =>
    if t < n ∧ fin (ls t) = false then
      ((prog t (ls t)).accesses g).map (fun a => (t, a)) ++
      match (prog t (ls t)).exec g with
      | .ok (g', l') => trace n prog fin ts g' (upd ls t l')
      | .error _ => []
    else trace n prog fin ts g ls

/-- The accesses of a loop whose iterations are shared out among the threads, see `RaceOld.loopTrace`. -/
def loopTrace (who : ι → Nat) (prog : ι → Prog σ Unit) : List ι → σ → List (Nat × Access)
  | [], _ => []
  | i :: is, g => ((prog i).accesses g).map (fun a => (who i, a)) ++
    match (prog i).exec g with
    | .ok (g', _) => loopTrace who prog is g'
    | .error _ => []

/-! ## The prefix sum of `utility.h` -/

/-- `x = out[i]` -/
def getOut (i : Nat) : Prog (List Nat × List Nat) Nat := .op [⟨.numbers, i, false⟩] (fun g => do
  let x ← rd g.1 i
  .ok (g, x)) .ret

/-- `out[i] = x` -/
def putOut (i x : Nat) : Prog (List Nat × List Nat) Unit := .op [⟨.numbers, i, true⟩] (fun g => do
  let xs ← wr g.1 i x
  .ok ((xs, g.2), 0)) fun _ => .ret ()

/-- `partial_sum[i] = x` -/
def putSum (i x : Nat) : Prog (List Nat × List Nat) Unit := .op [⟨.thNnz, i, true⟩] (fun g => do
  let xs ← wr g.2 i x
  .ok ((g.1, xs), 0)) fun _ => .ret ()

/-- `x = partial_sum[i]` -/
def getSum (i : Nat) : Prog (List Nat × List Nat) Nat := .op [⟨.thNnz, i, false⟩] (fun g => do
  let x ← rd g.2 i
  .ok (g, x)) .ret

/-- `UtilScan.step1`, utility.h:195-200 -/
def scanProg1 (inp : List Nat) (N n t : Nat) (c : UtilScan.Ctl1) : Prog (List Nat × List Nat) UtilScan.Ctl1 :=
  match c with
  | .first => do
    putOut (UtilScan.start N n t) 0
    return .at (UtilScan.start N n t)
  | .at i =>
    if UtilScan.stop N n t = 0 then priv (.error .oob)
    else if i < UtilScan.stop N n t - 1 then do
      let p ← getOut i
      let x ← priv (rd inp i)
      putOut (i + 1) (p + x)
      return .at (i + 1)
    else do
      let p ← getOut (UtilScan.stop N n t - 1)
      let x ← priv (rd inp (UtilScan.stop N n t - 1))
      putSum t (p + x)
      return .done
  | .done => return .done

/-- The sum of the first `t` cells of `partial_sum`, utility.h:203-206 -/
def sumProg (j : Nat) : (t : Nat) → Nat → Prog (List Nat × List Nat) Nat
  | 0, s => return s
  | t + 1, s => do
    let x ← getSum j
    sumProg (j + 1) t (s + x)

/-- `UtilScan.step2`, utility.h:203-209, and the last index of the thread -/
def scanProg2 (t : Nat) (x : Nat × Nat) : Prog (List Nat × List Nat) (Nat × Nat) := do
  let offset ← sumProg 0 t 0
  let y ← getOut x.1
  putOut x.1 (y + offset)
  return (x.1 + 1, x.2)

/-- The regions of `scan`, utility.h:179-213 (compare `UtilScan.scan`): the one that finds out the number of threads (185-186), and the two
parts of the second one, separated by the barrier. -/
def scanTraces (inp : List Nat) (N : Nat) (out : List Nat) (n : Nat) (team s1 s2 : List Nat) : List (List (Nat × Access)) :=
  if N < 2 ^ 17 then []
  else
    RaceOld.teamTrace Nat n team ::
    trace n (scanProg1 inp N n) (· == .done) s1 (out, List.replicate n 0) (fun _ => .first) ::
    match done (phase n (UtilScan.step1 inp N n) (· == .done) s1 (out, List.replicate n 0) (fun _ => .first)) with
    | none => []
    | some (g, _) => [trace n scanProg2 (fun x => decide (x.2 ≤ x.1)) s2 g (fun t => (UtilScan.start N n t, UtilScan.stop N n t))]

/-! ## The outer-product kernels -/

/-- `__sync_fetch_and_add(&global_blocker_counters[b], len)` -/
def fetchAdd (b len : Nat) : Prog (Glob V) Nat := .op [] (fun g => do
  let p ← rd g.cnt b
  let cnt ← wr g.cnt b (p + len)
  .ok ({ g with cnt := cnt }, p)) .ret

/-- Use of the pointer `global_blockers[b]`, which no thread changes in this region -/
def pointer (b : Nat) : Prog (Glob V) Unit := .op [] (fun g => do
  let _ ← rd g.blk b
  .ok (g, 0)) fun _ => .ret ()

/-- `global_blockers[b][i] = x` -/
def putCell (b i : Nat) (x : Option (Nat × Nat × V)) : Prog (Glob V) Unit := .op [⟨.block b, i, true⟩] (fun g => do
  let dst ← rd g.blk b
  let dst ← wr dst i x
  let blk ← wr g.blk b dst
  .ok ({ g with blk := blk }, 0)) fun _ => .ret ()

/-- `Outer.flush`, OM:285-289 and 306-310 -/
def flushProg (width b len : Nat) (buf : List (Option (Nat × Nat × V))) : Prog (Glob V) Unit := do
  let p ← fetchAdd b len
  pointer b
  loop 0 len fun k => do
    let x ← priv (rd buf (b * width + k))
    putCell b (p + k) x

/-- `Outer.after`, OM:274-291 -/
def afterProg (width b c : Nat) (l : Loc V) : Prog (Glob V) (Loc V) :=
  if c = width then do
    flushProg width b width l.buf
    let cnt ← priv (wr l.cnt b 0)
    return { l with cnt := cnt }
  else do
    let cnt ← priv (wr l.cnt b c)
    return { l with cnt := cnt }

/-- The private part of `Outer.product`, OM:263-273: the block, the number of products in its buffer, and the buffers -/
def place (mul : V → V → V) (A : CSC V) (B : CSR V) (blk : Nat → Res Nat) (width j k : Nat) (l : Loc V) : Res (Nat × Nat × Loc V) := do
  let r ← rd A.rowids j
  let b ← blk r
  let c ← rd l.cnt b
  let col ← rd B.colids k
  let x ← rd A.values j
  let y ← rd B.values k
  let buf ← wr l.buf (b * width + c) (some (r, col, mul x y))
  .ok (b, c, { l with buf := buf })

/-- `Outer.step`, OM:250-313 -/
def stepProg (mul : V → V → V) (A : CSC V) (B : CSR V) (blk : Nat → Res Nat) (nb width : Nat) (asg : Nat → List Nat) (t : Nat) :
    Option (Loc V) → Prog (Glob V) (Option (Loc V))
  | none => do
    let w ← priv (Outer.pairs A B (asg t))
    return some { work := w, next := 0, buf := List.replicate (nb * width) none, cnt := List.replicate nb 0 }
  | some l =>
    match l.work with
    | (j, k) :: w => do
      let r ← priv (place mul A B blk width j k { l with work := w })
      let l ← afterProg width r.1 (r.2.1 + 1) r.2.2
      return some l
    | [] => do
      let c ← priv (rd l.cnt l.next)
      flushProg width l.next c l.buf
      return some { l with next := l.next + 1 }

/-- The loops that sort and merge the blocks, OM:328-332, OP:379-392: an iteration reads and writes cells of its block before the number of products in it (all are
listed) and the cell of its block in `nnz_per_row_blocker` (listed also where it is a private copy of a reduction, or not used). -/
def sortTrace (who : Nat → Nat) (g : Glob V) : List Nat → List (Nat × Access)
  | [] => []
  | b :: bs => (who b, ⟨.thNnz, b, true⟩) :: (List.range (g.cnt.getD b 0)).map (fun i => (who b, ⟨.block b, i, true⟩)) ++
    sortTrace who g bs

/-- `++nnz_by_row[r]` -/
def incRow (r : Nat) : Prog (Out V) Unit := .op [⟨.rowNnz, r, false⟩, ⟨.rowNnz, r, true⟩] (fun o => do
  let x ← rd o.byRow r
  let byRow ← wr o.byRow r (x + 1)
  .ok ({ o with byRow := byRow }, 0)) fun _ => .ret ()

/-- `C.colids[i] = c` -/
def putCol (i c : Nat) : Prog (Out V) Unit := .op [⟨.numbers, i, true⟩] (fun o => do
  let colids ← wr o.colids i (some c)
  .ok ({ o with colids := colids }, 0)) fun _ => .ret ()

/-- `C.values[i] = v` -/
def putVal (i : Nat) (v : V) : Prog (Out V) Unit := .op [⟨.values, i, true⟩] (fun o => do
  let values ← wr o.values i (some v)
  .ok ({ o with values := values }, 0)) fun _ => .ret ()

/-- `Outer.copyBlock`, OM:356-367. The reads of the block, which no thread writes here, are not listed. -/
def copyProg (cum nnz : List Nat) (vecs : List (List (Nat × Nat × V))) (b : Nat) : Prog (Out V) Unit := do
  let base ← priv (rd cum b)
  let vec ← priv (rd vecs b)
  let n ← priv (rd nnz b)
  loop 0 n fun i => do
    let t ← priv (rd vec i)
    incRow t.1
    putCol (base + i) t.2.1
    putVal (base + i) t.2.2

/-- The last region (compare `Outer.finish`), OM:336-368 -/
def copyTraces (rows n nb : Nat) (who : Nat → Nat) (s : List (List (Nat × Nat × V)) × List Nat) (s1 s2 copy : List Nat) :
    List (List (Nat × Access)) :=
  match done (UtilScan.scan s.2 (nb + 1) (List.replicate (nb + 1) 0) n s1 s2) with
  | none => []
  | some cum =>
    match rd cum nb with
    | .error _ => []
    | .ok total => [loopTrace who (copyProg cum s.2 s.1) copy
        { byRow := List.replicate rows 0, colids := List.replicate total none, values := List.replicate total none }]

/-- The region that forms the products and what follows (`rest`), OM:248-315 -/
def mainTraces (mul : V → V → V) (A : CSC V) (B : CSR V) (blk : Nat → Res Nat) (n nb width : Nat) (asg : Nat → List Nat)
    (flops main : List Nat) (rest : Glob V → List (List (Nat × Access))) : List (List (Nat × Access)) :=
  trace n (stepProg mul A B blk nb width asg) (Outer.fin nb) main
    { blk := flops.map fun f => List.replicate f none, cnt := List.replicate nb 0 } (fun _ => none) ::
  match done (phase n (Outer.step mul A B blk nb width asg) (Outer.fin nb) main
    { blk := flops.map fun f => List.replicate f none, cnt := List.replicate nb 0 } (fun _ => none)) with
  | none => []
  | some (g, _) => rest g

/-- What follows in OM and OM2 -/
def tail1 (add : V → V → V) (sortf : (Nat × Nat × V → Nat) → List (Nat × Nat × V) → List (Nat × Nat × V)) (key : Nat × Nat × V → Nat)
    (rows n nb : Nat) (w1 w2 : Nat → Nat) (sort s1 s2 copy : List Nat) (g : Glob V) : List (List (Nat × Access)) :=
  sortTrace w1 g sort ::
  match sort.foldlM (Outer.sortBlock add sortf key g) (List.replicate nb [], List.replicate nb 0) with
  | .error _ => []
  | .ok s => copyTraces rows n nb w2 s s1 s2 copy

/-- What follows in OP and OP2: sorting and merging in two regions -/
def tail2 (add : V → V → V) (sortf : (Nat × Nat × V → Nat) → List (Nat × Nat × V) → List (Nat × Nat × V)) (key : Nat × Nat × V → Nat)
    (rows n nb : Nat) (w1 w2 w3 : Nat → Nat) (sort merge s1 s2 copy : List Nat) (g : Glob V) : List (List (Nat × Access)) :=
  sortTrace w1 g sort :: sortTrace w2 g merge ::
  match Profile.sortMerge add sortf key nb sort merge g with
  | .error _ => []
  | .ok s => copyTraces rows n nb w3 s s1 s2 copy

/-- The regions of `OuterSpGEMM` of OM (compare `Outer.outerSpGEMM`). `w1` and `w2` tell which thread executes an iteration. -/
def outerTraces (mul add : V → V → V) (sortf : (Nat × Nat × V → Nat) → List (Nat × Nat × V) → List (Nat × Nat × V))
    (A : CSC V) (B : CSR V) (n nb width : Nat) (w1 w2 : Nat → Nat) (sch : Outer.Sched) : List (List (Nat × Access)) :=
  match Outer.perBlock A.rows nb with
  | .error _ => []
  | .ok npb =>
    match sch.flop.foldlM (Outer.flopCol A B npb) (List.replicate nb 0) with
    | .error _ => []
    | .ok flops => mainTraces mul A B (fun r => Tuples.div r npb) n nb width sch.asg flops sch.main
        (tail1 add sortf (Outer.key npb) A.rows n nb w1 w2 sch.sort sch.s1 sch.s2 sch.copy)

/-- The regions of `OuterSpGEMM` of OM2 (compare `Outer2.outerSpGEMM`) -/
def outer2Traces (mul add : V → V → V) (sortf : (Nat × Nat × V → Nat) → List (Nat × Nat × V) → List (Nat × Nat × V))
    (A : CSC V) (B : CSR V) (n nb width : Nat) (w1 w2 : Nat → Nat) (sch : Outer2.Sched) : List (List (Nat × Access)) :=
  match Outer2.symbolic A B n nb with
  | .error _ => []
  | .ok sym => mainTraces mul A B (Outer2.blockOf sym.1) n nb width (Outer2.colsOf sym.2.2) sym.2.1 sch.main
      (tail1 add sortf Outer2.key A.rows n nb w1 w2 sch.sort sch.last.s1 sch.last.s2 sch.last.copy)

/-- The regions of one stage of OP (compare `Profile.stage`) -/
def profileTraces (mul add : V → V → V) (sortf : (Nat × Nat × V → Nat) → List (Nat × Nat × V) → List (Nat × Nat × V))
    (A : CSC V) (B : CSR V) (n nb width : Nat) (w1 w2 w3 : Nat → Nat) (sch : Profile.Sched) : List (List (Nat × Access)) :=
  match Outer.perBlock A.rows nb with
  | .error _ => []
  | .ok npb =>
    match sch.base.flop.foldlM (Profile.flopCol A B npb) (List.replicate nb 0) with
    | .error _ => []
    | .ok flops => mainTraces mul A B (fun r => Tuples.div r npb) n nb width sch.base.asg flops sch.base.main
        (tail2 add sortf (Outer.key npb) A.rows n nb w1 w2 w3 sch.base.sort sch.merge sch.base.s1 sch.base.s2 sch.base.copy)

/-- The regions of one stage of OP2 (compare `Profile.stage2`) -/
def profile2Traces (mul add : V → V → V) (sortf : (Nat × Nat × V → Nat) → List (Nat × Nat × V) → List (Nat × Nat × V))
    (A : CSC V) (B : CSR V) (n nb width : Nat) (w1 w2 w3 : Nat → Nat) (sch : Profile.Sched2) : List (List (Nat × Access)) :=
  match Profile.symbolic A B n nb with
  | .error _ => []
  | .ok sym => mainTraces mul A B (Outer2.blockOf sym.1) n nb width (Outer2.colsOf sym.2.2.1) sym.2.1 sch.base.main
      (tail2 add sortf Outer2.key A.rows n nb w1 w2 w3 sch.base.sort sch.merge sch.base.last.s1 sch.base.last.s2 sch.base.last.copy)

end Verif.Model.RaceOuter
