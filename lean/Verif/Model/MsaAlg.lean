import Verif.Model.Msa
import Verif.Model.Driver

/-!
# MSA as a row algorithm of the drivers

Models the classes `MSA1A` and `MSA2A`, `/repo/spgemm-blocks/msa/MSAAlgorithm.h`,
as template arguments of the drivers (constants 13-16 and 77-80, constructors
25-26 and 89-90, `getNumericAccumulator`, `getSymbolicAccumulator`).

The state after `setBuffer` (1A.h:67-73, 2A.h:69-84): all bytes of the array are
0xFF, that is, all states are 255 and no value is set.
-/

namespace Verif.Model.Msa

variable {V : Type}

/-- Accumulator without values after `setBuffer` -/
def freshS (cols : Nat) : SAcc := { states := List.replicate cols 255, dirty := [] }

/-- One-array accumulator after `setBuffer` -/
def fresh1 (cols : Nat) : Acc1 V := { entries := List.replicate cols ⟨255, none⟩, dirty := [] }

/-- Two-array accumulator after `setBuffer` -/
def fresh2 (cols : Nat) : Acc2 V :=
  { states := List.replicate cols 255, values := List.replicate cols none, dirty := [] }

/-- The count of `symbolicRowC` as it is stored in `rowNvals[row]`. A negative count
would wrap around and all sizes derived from it would be wrong; it is an error. -/
def toCount {S : Type} (r : S × Int) : Res (S × Nat) :=
  if 0 ≤ r.2 then .ok (r.1, r.2.toNat) else .error .oob

/-- `MSA1A<IT, NT, false, Sorted>` -/
def msa1 : RowAlg V where
  N := Acc1 V
  S := SAcc
  compl := false
  calcA := false
  calcM := false
  calcF := false
  initN cols _ := fresh1 cols
  initS cols _ := freshS cols
  numRow mul add A B M row _ acc := numericRow1 mul add A B M row acc
  symRow A B M row _ acc := symbolicRow A B M row acc

/-- `MSA2A<IT, NT, false, Sorted>` -/
def msa2 : RowAlg V where
  N := Acc2 V
  S := SAcc
  compl := false
  calcA := false
  calcM := false
  calcF := false
  initN cols _ := fresh2 cols
  initS cols _ := freshS cols
  numRow mul add A B M row _ acc := numericRow2 mul add A B M row acc
  symRow A B M row _ acc := symbolicRow A B M row acc

/-- `MSA1A<IT, NT, true, Sorted>` -/
def msa1C (sorted : Bool) : RowAlg V where
  N := Acc1 V
  S := SAcc
  compl := true
  calcA := false
  calcM := false
  calcF := false
  initN cols _ := fresh1 cols
  initS cols _ := freshS cols
  numRow mul add A B M row _ acc := numericRow1C sorted mul add A B M row acc
  symRow A B M row _ acc := do
    let r ← symbolicRowC A B M row acc
    toCount r

/-- `MSA2A<IT, NT, true, Sorted>` -/
def msa2C (sorted : Bool) : RowAlg V where
  N := Acc2 V
  S := SAcc
  compl := true
  calcA := false
  calcM := false
  calcF := false
  initN cols _ := fresh2 cols
  initS cols _ := freshS cols
  numRow mul add A B M row _ acc := numericRow2C sorted mul add A B M row acc
  symRow A B M row _ acc := do
    let r ← symbolicRowC A B M row acc
    toCount r

/-- `MSA1A<IT, NT, false, Sorted>` compiled with `NDEBUG` -/
def msa1Nd : RowAlg V where
  N := Acc1 V
  S := SAcc
  compl := false
  calcA := false
  calcM := false
  calcF := false
  initN cols _ := fresh1 cols
  initS cols _ := freshS cols
  numRow mul add A B M row _ acc := numericRow1Nd mul add A B M row acc
  symRow A B M row _ acc := symbolicRowNd A B M row acc

/-- `MSA2A<IT, NT, false, Sorted>` compiled with `NDEBUG` -/
def msa2Nd : RowAlg V where
  N := Acc2 V
  S := SAcc
  compl := false
  calcA := false
  calcM := false
  calcF := false
  initN cols _ := fresh2 cols
  initS cols _ := freshS cols
  numRow mul add A B M row _ acc := numericRow2Nd mul add A B M row acc
  symRow A B M row _ acc := symbolicRowNd A B M row acc

/-- `MSA1A<IT, NT, true, Sorted>` compiled with `NDEBUG` -/
def msa1CNd (sorted : Bool) : RowAlg V where
  N := Acc1 V
  S := SAcc
  compl := true
  calcA := false
  calcM := false
  calcF := false
  initN cols _ := fresh1 cols
  initS cols _ := freshS cols
  numRow mul add A B M row _ acc := numericRow1CNd sorted mul add A B M row acc
  symRow A B M row _ acc := do
    let r ← symbolicRowC A B M row acc
    toCount r

/-- `MSA2A<IT, NT, true, Sorted>` compiled with `NDEBUG` -/
def msa2CNd (sorted : Bool) : RowAlg V where
  N := Acc2 V
  S := SAcc
  compl := true
  calcA := false
  calcM := false
  calcF := false
  initN cols _ := fresh2 cols
  initS cols _ := freshS cols
  numRow mul add A B M row _ acc := numericRow2CNd sorted mul add A B M row acc
  symRow A B M row _ acc := do
    let r ← symbolicRowC A B M row acc
    toCount r

end Verif.Model.Msa
