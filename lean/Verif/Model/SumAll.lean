import Verif.Csr
import Mathlib.Data.Rat.Floor

/-!
# The sum of the stored values

Models `CSR::sumall`, CSR.h:91-100, and the same text in CSC.h.
-/

namespace Verif.Model.SumAll

variable {I V : Type}

/-- The iterations `is` of the loop, CSR.h:95-97, with one (private) copy of `sum`, which is of the index type `I`: `acc s v` is `s += v`
with its conversions. -/
def chunk (acc : I → V → I) (zero : I) (values : List V) (is : List Nat) : Res I :=
  is.foldlM (init := zero) fun s i => do
    let v ← rd values i
    .ok (acc s v)

/-- `sumall`, CSR.h:91-100: `parallel for reduction(+ : sum)`. `parts` are the iterations of the threads; the private sums are added in
this order to the original variable. `toV` converts the result to the type of values (line 99). -/
def sumall (acc : I → V → I) (add : I → I → I) (zero : I) (toV : I → V) (values : List V) (parts : List (List Nat)) : Res V := do
  let ss ← parts.mapM (chunk acc zero values)
  .ok (toV (ss.foldl add zero))

/-- Conversion of a floating-point number to an integer: the part after the point is dropped. Numbers are not bounded and not rounded. -/
def trunc (x : ℚ) : ℤ := if 0 ≤ x then ⌊x⌋ else ⌈x⌉

/-- `sumall` for floating-point values: `sum += values[i]` converts `sum` to the type of values, adds, and converts back. -/
def sumallQ (values : List ℚ) (parts : List (List Nat)) : Res ℚ :=
  sumall (fun (s : ℤ) (v : ℚ) => trunc ((s : ℚ) + v)) (fun s t => s + t) 0 (fun s : ℤ => (s : ℚ)) values parts

end Verif.Model.SumAll
