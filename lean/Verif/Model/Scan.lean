import Verif.Model.Threads

/-!
# Prefix sums

Models `/repo/spgemm-blocks/scan.h`.
-/

namespace Verif.Model.Scan

open Verif.Model

/-- Read of a cell that must have been written. -/
def rdu {α : Type} (a : List (Option α)) (i : Nat) : Res α := do
  let x ← rd a i
  use x

/-- Sequential exclusive scan, scan.h:84-88. `dst` is the destination as allocated. -/
def exclSeq (src : List (Option Nat)) (size : Nat) (dst : List (Option Nat)) : Res (List (Option Nat)) := do
  let dst ← wr dst 0 (some 0)
  forRange 1 size dst fun i dst => do
    let p ← rdu dst (i - 1)
    let x ← rdu src (i - 1)
    wr dst i (some (p + x))

/-- Sequential inclusive scan, scan.h:38-42 -/
def inclSeq (src : List (Option Nat)) (size : Nat) (dst : List (Option Nat)) : Res (List (Option Nat)) := do
  let x ← rdu src 0
  let dst ← wr dst 0 (some x)
  forRange 1 size dst fun i dst => do
    let p ← rdu dst (i - 1)
    let x ← rdu src i
    wr dst i (some (p + x))

/-- `start`, scan.h:13 and 59 -/
def start (size n t : Nat) : Nat := t * (size / n)

/-- `end`, scan.h:14 and 60 -/
def stop (size n t : Nat) : Nat := if t + 1 ≠ n then (t + 1) * (size / n) else size

/-- First part of a thread, scan.h:16-20 and 62-66: sum the own block and store it
in `partialSums[t]`. The local state says whether this is done. -/
def stepSum (src : List (Option Nat)) (size n t : Nat) (ps : List (Option Nat)) (_ : Bool) :
    Res (List (Option Nat) × Bool) := do
  let sum ← forRange (start size n t) (stop size n t) 0 fun i s => do
    let x ← rdu src i
    .ok (s + x)
  let ps ← wr ps t (some sum)
  .ok (ps, true)

/-- Control of the second part of a thread. -/
inductive Ctl where
  | first
  | at (i : Nat)
  | done
  deriving DecidableEq

/-- Second part of a thread, scan.h:23-31 (`incl`) and 69-77: one step per written cell. -/
def stepWrite (incl : Bool) (src ps : List (Option Nat)) (size n t : Nat) (dst : List (Option Nat))
    (c : Ctl) : Res (List (Option Nat) × Ctl) :=
  match c with
  | .first => do
    let offset ← forRange 0 t 0 fun i s => do
      let x ← rdu ps i
      .ok (s + x)
    let x ← if incl then rdu src (start size n t) else .ok 0
    let dst ← wr dst (start size n t) (some (offset + x))
    .ok (dst, .at (start size n t + 1))
  | .at i =>
    if i < stop size n t then do
      let p ← rdu dst (i - 1)
      let x ← rdu src (if incl then i else i - 1)
      let dst ← wr dst i (some (p + x))
      .ok (dst, .at (i + 1))
    else .ok (dst, .done)
  | .done => .ok (dst, .done)

/-- Parallel scan, scan.h:10-32, 45-53 (`incl`) and 56-78, 91-99. -/
def par (incl : Bool) (src : List (Option Nat)) (size : Nat) (dst : List (Option Nat)) (n : Nat)
    (s1 s2 : List Nat) : Res (Option (List (Option Nat))) := do
  let r ← phase n (stepSum src size n) id s1 (List.replicate n none) (fun _ => false)
  match r with
  | none => .ok none
  | some (ps, _) => do
    let r ← phase n (stepWrite incl src ps size n) (· == .done) s2 dst (fun _ => .first)
    match r with
    | none => .ok none
    | some (dst, _) => .ok (some dst)

/-- `exclusiveScan(src, size, dst, numThreads)`, scan.h:81-99 -/
def exclusiveScan (src : List (Option Nat)) (size : Nat) (dst : List (Option Nat)) (n : Nat)
    (s1 s2 : List Nat) : Res (Option (List (Option Nat))) :=
  if size < 2 ∨ n = 1 then do
    let d ← exclSeq src size dst
    .ok (some d)
  else par false src size dst n s1 s2

/-- `inclusiveScan(src, size, dst, numThreads)`, scan.h:35-53 -/
def inclusiveScan (src : List (Option Nat)) (size : Nat) (dst : List (Option Nat)) (n : Nat)
    (s1 s2 : List Nat) : Res (Option (List (Option Nat))) :=
  if size < 2 ^ 17 ∨ n = 1 then do
    let d ← inclSeq src size dst
    .ok (some d)
  else par true src size dst n s1 s2

end Verif.Model.Scan
