import Verif.Model.TwoPass
import Verif.Model.Nest

/-!
# The sparse accumulator kernel

Models `/repo/SPA.h` (called SPA below) and `/repo/spa_mult.h`.
-/

namespace Verif.Model.Spa

variable {V : Type}

/-- `SPAStructure`, SPA:78-123 -/
structure Str where
  committed : Nat
  flags : List Nat
  possible : List Nat

/-- `SPAStructure::Initialize`, SPA:87-96, on one key -/
def Str.allow (s : Str) (key : Nat) : Res Str := do
  let flags ← wr s.flags key 1
  .ok { s with flags := flags, possible := s.possible ++ [key] }

/-- `SPAStructure::Insert`, SPA:97-104 -/
def Str.insert (s : Str) (key : Nat) : Res Str := do
  let f ← rd s.flags key
  if f = 1 then do
    let flags ← wr s.flags key 2
    .ok { s with flags := flags, committed := s.committed + 1 }
  else .ok s

/-- `flags[index] = 0` for all indices of `possible`, SPA:64-67 and SPA:112-115 -/
def clearFlags (possible flags : List Nat) : Res (List Nat) := possible.foldlM (fun flags index => wr flags index 0) flags

/-- `SPAStructure::Reset`, SPA:110-118 -/
def Str.reset (s : Str) : Res Str := do
  let flags ← clearFlags s.possible s.flags
  .ok { committed := 0, flags := flags, possible := [] }

/-- Loop body of the first region, spa_mult.h:42-54 -/
def countRow (A B M : CSR V) (i : Nat) (rowNz : List Nat) (s : Str) : Res (List Nat × Str) := do
  let s ← maskLoop M i s fun c s => s.allow c
  let s ← nest A B i s fun _ k s => do
    let c ← rd B.colids k
    s.insert c
  let rowNz ← wr rowNz i s.committed
  let s ← s.reset
  .ok (rowNz, s)

/-- `SPA`, SPA:13-75 -/
structure Acc (V : Type) where
  values : List V
  flags : List Nat
  present : List Nat
  possible : List Nat

/-- `SPA::Initialize`, SPA:23-32, on one key -/
def Acc.allow (s : Acc V) (key : Nat) : Res (Acc V) := do
  let flags ← wr s.flags key 1
  .ok { s with flags := flags, possible := s.possible ++ [key] }

/-- `SPA::Insert`, SPA:33-46 -/
def Acc.insert (add : V → V → V) (s : Acc V) (key : Nat) (tval : V) : Res (Acc V) := do
  let f ← rd s.flags key
  if f = 1 then do
    let values ← wr s.values key tval
    let flags ← wr s.flags key 2
    .ok { s with values := values, flags := flags, present := s.present ++ [key] }
  else do
    let f ← rd s.flags key
    if f = 2 then do
      let old ← rd s.values key
      let values ← wr s.values key (add tval old)
      .ok { s with values := values }
    else .ok s

/-- `SPA::OutputReset`, SPA:52-69, with the output starting at position `off` -/
def Acc.outputReset (s : Acc V) (off : Nat) (out : List Nat × List V) : Res ((List Nat × List V) × Acc V) := do
  let (out, _) ← s.present.foldlM (fun (out, k) index => do
    let c ← wr out.1 (off + k) index
    let x ← rd s.values index
    let v ← wr out.2 (off + k) x
    .ok ((c, v), k + 1)) (out, 0)
  let flags ← clearFlags s.possible s.flags
  .ok (out, { s with flags := flags, present := [], possible := [] })

/-- Loop body of the second region, spa_mult.h:77-89 -/
def fillRow (mul add : V → V → V) (A B M : CSR V) (rowptr : List Nat) (i : Nat) (out : List Nat × List V) (s : Acc V) :
    Res ((List Nat × List V) × Acc V) := do
  let s ← maskLoop M i s fun c s => s.allow c
  let s ← nest A B i s fun j k s => do
    let a ← rd A.values j
    let b ← rd B.values k
    let c ← rd B.colids k
    s.insert add c (mul a b)
  let off ← rd rowptr i
  s.outputReset off out

/-- `MaskedSPASpGEMM`, spa_mult.h:11-91 -/
def spaSpGEMM (mul add : V → V → V) (A B M : CSR V) (dflt : V) (n nd : Nat) (sch : TwoPassSched) : Res (Option (CSR V)) :=
  twoPass A B dflt n nd
    (fun _ _ _ => .ok { committed := 0, flags := List.replicate B.cols 0, possible := [] }) (countRow A B M)
    (fun _ _ _ => .ok { values := List.replicate B.cols dflt, flags := List.replicate B.cols 0, present := [], possible := [] })
    (fillRow mul add A B M) sch

end Verif.Model.Spa
