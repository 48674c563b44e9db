import Verif.SpecIO
import Verif.Model.SumAll

/-!
# Checksums of results

Models `calculateChecksum` and `checksum`, `/repo/benchmarks/benchmarks-util.h` 7-47. A machine that stores the low byte first.
-/

namespace Verif.Model.Checksum

variable {V : Type}

/-- `checksum += w`, and the carry, benchmarks-util.h:13-18 and 23-27; 32-bit numbers -/
def addWord (c w : Nat) : Nat :=
  let c := (c + w) % 2 ^ 32
  if c &&& 0xFFFF0000 ≠ 0 then ((c &&& 0xFFFF) + 1) % 2 ^ 32 else c

/-- The loop over pairs of bytes and the remaining byte, benchmarks-util.h:12-28 -/
def loop : List UInt8 → Nat → Nat
  | a :: b :: r, c => loop r (addWord c (a.toNat + 256 * b.toNat))
  | [a], c => addWord c a.toNat
  | [], c => c

/-- `calculateChecksum`, benchmarks-util.h:7-31: the complement in 16 bits -/
def calculateChecksum (data : List UInt8) : Nat := 0xFFFF - (loop data 0 &&& 0xFFFF)

/-- `checksum(A)` for CSR, benchmarks-util.h:33-47: the three numbers. `enc v` are the bytes of a value, `si` is the size of an index. The last
element of `rowptr` is not included (line 40). -/
def checksum (enc : V → List UInt8) (si : Nat) (A : CSR V) : Nat × Nat × Nat :=
  (calculateChecksum ((A.rowptr.take A.rows).flatMap (Spec.bytesLE si)), calculateChecksum (A.values.flatMap enc),
    calculateChecksum (A.colids.flatMap (Spec.bytesLE si)))

end Verif.Model.Checksum
