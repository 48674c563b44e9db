/-!
# Specification of the checksum

Independent of the model of the code.
-/

namespace Verif.Spec

/-- The 16-bit words of a sequence of bytes, low byte first; a last odd byte is a word. -/
def words : List UInt8 → List Nat
  | a :: b :: r => (a.toNat + 256 * b.toNat) :: words r
  | [a] => [a.toNat]
  | [] => []

/-- The one's complement sum: words are added modulo 65535, where 0 is represented as 65535 unless all words are 0. -/
def onesSum (ws : List Nat) : Nat := if ws.sum = 0 then 0 else (ws.sum - 1) % 65535 + 1

end Verif.Spec
