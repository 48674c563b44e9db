import Verif.Model.MatObj
import Mathlib.Algebra.Order.Group.Unbundled.Int
import Mathlib.Algebra.Order.Field.Rat

/-!
# Comparison of matrices

Models `CSR::operator==` (`CSR.h` 468-536), `CSC::operator==` (`CSC.h` 543-581) and `ErrorTolerantEqual`
(`utility.h` 22-38). The output of debug builds is left out. Index arithmetic is that of the integers. The comparison of two
values is a parameter of the matrix comparison.
-/

namespace Verif.MatObj

variable {V : Type}

/-- `std::equal(a + i, a + i + n, b + i, cmp)` -/
def stdEqual {α β : Type} (cmp : α → β → Bool) (a : List α) (b : List β) : Nat → Nat → Res Bool
  | 0, _ => .ok true
  | n + 1, i => do
    let x ← rd a i
    let y ← rd b i
    if cmp x y then stdEqual cmp a b n (i + 1) else .ok false

/-- the index array behind a pointer, when at least one element is read -/
def arr (h : Heap V) (p : Option Nat) (n : Nat) : Res (List Nat) := if n = 0 then .ok [] else ints h p

/-- the value array behind a pointer, when at least one element is read -/
def arrV (h : Heap V) (p : Option Nat) (n : Nat) : Res (List V) := if n = 0 then .ok [] else vals h p

/-- `for i < n: tmp[i] = a[i] - 1`, `CSR.h` 480-485 and 489-494 -/
def lower (a : List Nat) (n : Nat) : Res (List Int) :=
  if a.length < n then .error .oob else .ok ((a.take n).map fun (x : Nat) => (x : Int) - 1)

/-- `same = std::equal(p, p + n, q); same = same && std::equal(i, i + nnz, j);` (`CSR.h` 486-487, 495-496, 501-502,
`CSC.h` 547-548) -/
def sameArrays {α : Type} (cmp : α → Nat → Bool) (p : List α) (q : List Nat) (n : Nat) (i : List α) (j : List Nat)
    (nnz : Nat) : Res Bool := do
  let same ← stdEqual cmp p q n 0
  if same then stdEqual cmp i j nnz 0 else .ok false

/-- The comparison of pointers and indices, `CSR.h` 476-503, `CSC.h` 547-548. `CSC` has no flag, so only `CSR` compares
matrices of different index base (lines 476-499). -/
def sameIndex (k : Kind) (h : Heap V) (o r : Obj) : Res Bool := do
  let p ← arr h o.ptr (o.maj + 1)
  let q ← arr h r.ptr (o.maj + 1)
  let i ← arr h o.ids o.nnz
  let j ← arr h r.ids o.nnz
  if k = .csr ∧ o.zb ≠ r.zb then
    if !o.zb then do
      let tp ← lower p (o.maj + 1)
      let ti ← lower i o.nnz
      sameArrays (fun (x : Int) (y : Nat) => decide (x = y)) tp q (o.maj + 1) ti j o.nnz
    else do
      let tp ← lower q (o.maj + 1)
      let ti ← lower j o.nnz
      sameArrays (fun (x : Int) (y : Nat) => decide (x = y)) tp p (o.maj + 1) ti i o.nnz
  else sameArrays (fun (x y : Nat) => decide (x = y)) p q (o.maj + 1) i j o.nnz

/-- `CSR::operator==` (`CSR.h` 468-536) and `CSC::operator==` (`CSC.h` 543-581). -/
def eqOp (k : Kind) (close : V → V → Bool) (h : Heap V) (o r : Obj) : Res Bool :=
  if o.nnz ≠ r.nnz ∨ o.maj ≠ r.maj ∨ o.min ≠ r.min then .ok false
  else do
    let same ← sameIndex k h o r
    if same then do
      let v ← arrV h o.vals o.nnz
      let w ← arrV h r.vals o.nnz
      stdEqual close v w o.nnz 0
    else .ok false

/-- `ErrorTolerantEqual<int>`, `utility.h` 26-36: the tolerance 0.001 is converted to the integer 0, and the quotient
is an integer quotient. -/
def closeInt (a b : Int) : Bool :=
  if a = b then true else decide (|a - b| < 0) || decide (Int.tdiv |a - b| (max |a| |b|) < 0)

/-- `ErrorTolerantEqual<double>`, `utility.h` 26-36, with the tolerance `EPSILON` = 0.001 (line 20), over the rational
numbers: rounding, infinities and NaN are left out. -/
def closeRat (a b : ℚ) : Bool :=
  if a = b then true else decide (|a - b| < 1 / 1000) || decide (|a - b| / max |a| |b| < 1 / 1000)

end Verif.MatObj
