import Verif.Model.MsaAlg
import Verif.Model.Mca

/-!
# The poly-algorithm driver

Models `/repo/spgemm-blocks/masked-spgemm-poly.h` (PO below), a copy of the one-phase driver that chooses between two row
algorithms for every row.

Simplification, in favour of the code: the two accumulators own their memory. In the code both get the same buffer (PO:62-63),
so each finds what the other one left there.
-/

namespace Verif.Model.Poly

open Scan (rdu)

variable {V : Type}

/-- The pair of accumulators and the choice of PO:75-79 as a row algorithm. There is no symbolic phase. -/
def poly : RowAlg V where
  N := (Msa.msa2 : RowAlg V).N × (Mca.mca : RowAlg V).N
  S := Unit
  compl := false
  calcA := true
  calcM := true
  calcF := true
  initN := fun cols sz => (Msa.msa2.initN cols sz, Mca.mca.initN cols sz)
  initS := fun _ _ => ()
  numRow := fun mul add A B M row f acc => do
    let m ← rowLen M row
    let a ← rowLen A row
    if m * a < f then do
      let (acc2, em) ← Mca.mca.numRow mul add A B M row f acc.2
      .ok ((acc.1, acc2), em)
    else do
      let (acc1, em) ← Msa.msa2.numRow mul add A B M row f acc.1
      .ok ((acc1, acc.2), em)
  symRow := fun _ _ _ _ _ _ => .ok ((), 0)

/-- PO:73-85: one row per step, then `threadsNvals[thisThread]`. Unlike in the generic driver, `rowNvals[row]` is only written
for rows without work. -/
def step1 (mul add : V → V → V) (A B M : CSR V) (fpr : List (Option Nat)) (t : Nat) (g : Sh V) (l : L1 (poly : RowAlg V).N V) :
    Res (Sh V × L1 (poly : RowAlg V).N V) :=
  if l.row < l.stop then do
    let f ← rdu fpr l.row
    if f ≠ 0 then do
      let (acc, em) ← poly.numRow mul add A B M l.row f l.acc
      if l.out.length + em.length ≤ l.cap then
        .ok (g, { l with row := l.row + 1, acc := acc, out := l.out ++ em })
      else .error .oob
    else do
      let rn ← wr g.rowNvals l.row (some 0)
      .ok ({ g with rowNvals := rn }, { l with row := l.row + 1 })
  else do
    let tn ← wr g.threadsNvals t (some l.out.length)
    .ok ({ g with threadsNvals := tn }, { l with done := true })

/-- `MaskedSpGEMM1p` without a row algorithm, PO:5-101 -/
def spgemm1p (mul add : V → V → V) (A B M : CSR V) (zb : Bool) (numThreads dflt : Nat) (sch : Scheds) :
    Res (Option (CSR V)) := do
  let n := setNumThreads numThreads dflt
  let p ← prepare false A B M n sch
  match p with
  | none => .ok none
  | some (fpr, flops, cum) => do
    let ls ← setup n (init1 poly A B M n fpr flops cum)
    let rngs ← setup n (distributeWork flops cum A.rows n)
    let g : Sh V := { rowNvals := List.replicate A.rows none, threadsNvals := List.replicate n none }
    match ls with
    | [] => .ok none
    | l0 :: _ => do
      let r ← phase n (step1 mul add A B M fpr) (·.done) sch.first g (fun t => ls.getD t l0)
      match r with
      | none => .ok none
      | some (g, ls) => do
        let g ← initC A.rows n g
        let r ← phase n (step3 A.rows n (fun t => rngs.getD t (0, 0)) (fun t => (ls t).out)) (· == .done)
          sch.second g (fun _ => .start)
        match r with
        | none => .ok none
        | some (g, _) => do
          let C ← freeze A.rows B.cols zb g
          .ok (some C)

end Verif.Model.Poly
