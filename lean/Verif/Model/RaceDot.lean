import Verif.Model.RaceOld
import Verif.Model.Dot

/-!
# Memory accesses of the older inner-product kernel

The parallel regions of `innerSpGEMM_nohash` (`/repo/inner_mult.h`) as programs of loads and stores, see `Verif.Model.RaceOld`. In
the main region the threads share `C.colids` (`numbers`), `C.values`, `th_nnz` and `rownnz`. The matrices are only read.
-/

namespace Verif.Model.RaceDot
open RaceOld (Arr Access Racy teamTrace binTraces)
open Dot (Shared)

variable {V α β : Type}

/-- The shared arrays of numbers. -/
def arr (g : Shared V) : Arr → List Nat
  | .numbers => g.colids
  | .thNnz => g.thNnz
  | .rowNnz => g.rowNnz
  | _ => []

def setArr (g : Shared V) (a : Arr) (xs : List Nat) : Shared V :=
  match a with
  | .numbers => { g with colids := xs }
  | .thNnz => { g with thNnz := xs }
  | .rowNnz => { g with rowNnz := xs }
  | _ => g

/-- A piece of a thread. -/
inductive Prog (V : Type) (α : Type) where
  | ret (a : α)
  | fail (e : Err)
  | load (a : Arr) (i : Nat) (k : Nat → Prog V α)
  | store (a : Arr) (i x : Nat) (k : Prog V α)
  | storeV (i : Nat) (v : V) (k : Prog V α)

/-- One piece after the other. -/
def Prog.andThen : Prog V α → (α → Prog V β) → Prog V β
  | .ret a, q => q a
  | .fail e, _ => .fail e
  | .load a i k, q => .load a i fun x => (k x).andThen q
  | .store a i x k, q => .store a i x (k.andThen q)
  | .storeV i v k, q => .storeV i v (k.andThen q)

instance : Monad (Prog V) where
  pure := .ret
  bind := .andThen

/-- Private work. -/
def priv (r : Res α) : Prog V α :=
  match r with
  | .ok a => .ret a
  | .error e => .fail e

/-- `x = a[i]` -/
def get (a : Arr) (i : Nat) : Prog V Nat := .load a i .ret

/-- `a[i] = x` -/
def put (a : Arr) (i x : Nat) : Prog V Unit := .store a i x (.ret ())

/-- `values[i] = v` -/
def putV (i : Nat) (v : V) : Prog V Unit := .storeV i v (.ret ())

/-- Loop over a list. -/
def forList (l : List β) (body : β → Prog V Unit) : Prog V Unit :=
  match l with
  | [] => .ret ()
  | x :: l => body x >>= fun _ => forList l body

/-- Run a piece of a thread. -/
def Prog.exec : Prog V α → Shared V → Res (Shared V × α)
  | .ret a, g => .ok (g, a)
  | .fail e, _ => .error e
  | .load a i k, g => do
    let x ← rd (arr g a) i
    (k x).exec g
  | .store a i x k, g => do
    let xs ← wr (arr g a) i x
    k.exec (setArr g a xs)
  | .storeV i v k, g => do
    let xs ← wr g.values i v
    k.exec { g with values := xs }

/-- The accesses it makes. -/
def Prog.accesses : Prog V α → Shared V → List Access
  | .ret _, _ => []
  | .fail _, _ => []
  | .load a i k, g => ⟨a, i, false⟩ ::
    match rd (arr g a) i with
    | .ok x => (k x).accesses g
    | .error _ => []
  | .store a i x k, g => ⟨a, i, true⟩ ::
    match wr (arr g a) i x with
    | .ok xs => k.accesses (setArr g a xs)
    | .error _ => []
  | .storeV i v k, g => ⟨.values, i, true⟩ ::
    match wr g.values i v with
    | .ok xs => k.accesses { g with values := xs }
    | .error _ => []

/-- The accesses of a parallel region up to its barrier, with the thread that makes them, in the order of the schedule
(compare `runs`). -/
def trace (n : Nat) (prog : Nat → α → Prog V α) (fin : α → Bool) : List Nat → Shared V → (Nat → α) → List (Nat × Access)
  | [], _, _ => []
  | t :: ts, g, ls =>
    if t < n ∧ fin (ls t) = false then
      ((prog t (ls t)).accesses g).map (fun a => (t, a)) ++
      match (prog t (ls t)).exec g with
      | .ok (g', l') => trace n prog fin ts g' (upd ls t l')
      | .error _ => []
    else trace n prog fin ts g ls

/-- `Dot.rowBody`, inner_mult.h:102-139 -/
def rowProg (mul add : V → V → V) (zero : V) (A : CSR V) (B : CSC V) (M : CSR V) (tid start i : Nat) : Prog V Unit := do
  let lo ← priv (rd M.rowptr i)
  let hi ← priv (rd M.rowptr (i + 1))
  forList (List.range' lo (hi - lo)) fun j => do
    let c ← priv (rd M.colids j)
    let p ← priv (rd A.rowptr i)
    let q ← priv (rd B.colptr c)
    let r ← priv (Dot.merge mul add A B i c (A.colids.length + B.rowids.length + 1) p q zero false)
    if r.2 then do
      let base ← priv (rd M.rowptr start)
      let k ← get .thNnz tid
      put .numbers (base + k) c
      putV (base + k) r.1
      put .thNnz tid (k + 1)
      let x ← get .rowNnz i
      put .rowNnz i (x + 1)
    else return ()

/-- `blockStep` of the main region, inner_mult.h:91-140 -/
def blockProg (mul add : V → V → V) (zero : V) (A : CSR V) (B : CSC V) (M : CSR V) (n t : Nat) :
    Option ((Nat × Nat) × Nat × Nat) → Prog V (Option ((Nat × Nat) × Nat × Nat))
  | none => priv do
    let lo ← rd (Dot.starts M.rows n) t
    let hi ← rd (Dot.starts M.rows n) (t + 1)
    .ok (some ((t, lo), lo, hi))
  | some (a, i, hi) => do
    rowProg mul add zero A B M a.1 a.2 i
    return some (a, i + 1, hi)

/-- The regions of `innerSpGEMM_nohash`, inner_mult.h:49-183 (compare `Dot.innerNohash`), without those of the partition: the region
that finds out the number of threads (79-83) and the main region (89-141). -/
def mainTraces (mul add : V → V → V) (zero : V) (A : CSR V) (B : CSC V) (M : CSR V) (n nd : Nat) (team : List Nat)
    (sch : Dot.Sched) : List (List (Nat × Access)) :=
  match (List.range M.nnz).mapM (rd M.colids), RaceOld.done (Bin.setMaxBin A (Dot.asRows B) A.rows M.cols 8 n nd sch.bin) with
  | .ok colids, some _ =>
    [teamTrace V n team,
     trace n (blockProg mul add zero A B M n) blockFin sch.main
      { colids := colids, values := List.replicate M.nnz zero, thNnz := List.replicate n 0, rowNnz := List.replicate M.rows 0 }
      (fun _ => none)]
  | _, _ => []

/-- All regions of `innerSpGEMM_nohash`, inner_mult.h:49-183 -/
def dotTraces (mul add : V → V → V) (zero : V) (A : CSR V) (B : CSC V) (M : CSR V) (n nd : Nat) (w1 w2 : Nat → Nat)
    (team : List Nat) (sch : Dot.Sched) : List (List (Nat × Access)) :=
  binTraces A (Dot.asRows B) A.rows M.cols 8 n nd w1 w2 sch.bin ++ mainTraces mul add zero A B M n nd team sch

end Verif.Model.RaceDot
