import Verif.SpecBench
import Verif.SpecChecksum
import Mathlib.Data.List.ProdSigma

/-!
# What the benchmark for three matrices reports, and the number of operations

Independent of the model of the code. Used to state C82 and C83. Matrices are lists of entries (row, column, value).
-/

namespace Verif.Spec

variable {R : Type}

/-- The number of products of an entry of the first matrix with an entry of the second: the column of the one is the row of the other. -/
def pairings (es fs : List (Nat × Nat × R)) : Nat := ((es ×ˢ fs).filter fun p => decide (p.1.2.1 = p.2.1)).length

/-- Entry `(i, j)` of the product of the matrices -/
def productAt [Semiring R] (es fs : List (Nat × Nat × R)) (i j : Nat) : R :=
  ((es ×ˢ fs).filterMap fun p => if p.1.1 = i ∧ p.1.2.1 = p.2.1 ∧ p.2.2.1 = j then some (p.1.2.2 * p.2.2.2) else none).sum

/-- `L` lists the entries of the product of `es` and `fs` at the positions of `ms`, each once: the positions of `ms` that get a product. -/
structure MaskedEntries [Semiring R] (es fs ms L : List (Nat × Nat × R)) : Prop where
  nodup : (L.map fun e => (e.1, e.2.1)).Nodup
  mem : ∀ i j v, (i, j, v) ∈ L ↔ Stored ms i j ∧ (∃ k, Stored es i k ∧ Stored fs k j) ∧ v = productAt es fs i j

/-- The text of a file describes an `m` times `n` matrix with the entries `es`, no position twice. Files with lines that are too long for
the reader, skew-symmetric matrices and misleading comments (see C65) are left out. -/
def FileOf (ofInt : Int → R) (neg : R → R) (text : List Char) (m n : Nat) (es : List (Nat × Nat × R)) : Prop :=
  ∃ t es₀, Describes (IntVal ofInt) (ofInt 1) t m n es₀ ∧ es = fullEntries neg t.sym es₀ ∧ (∀ l ∈ t.lines, l.length ≤ 255) ∧ t.sym ≠ .skew ∧
    ¬(t.sym = .general ∧ ∃ c ∈ t.comments, "symmetric".toList <:+: c) ∧ Lines t.lines text ∧ (es.map fun e => (e.1, e.2.1)).Nodup

/-- The two checksums of the entries `L`, of the values with the bytes `enc` and of the columns with 4 bytes each: the complements of the
one's complement sums -/
def shownCheck (enc : R → List UInt8) (L : List (Nat × Nat × R)) : Nat × Nat :=
  (65535 - onesSum (words (L.flatMap fun e => enc e.2.2)), 65535 - onesSum (words (L.flatMap fun e => bytesLE 4 e.2.1)))

/-- The names of the algorithms that do not use mask compressed accumulators, in order -/
def sevenNames : List (List Char) :=
  ["MaskedSPASpGEMM CSR".toList, "innerSpGEMM_nohash<false-false> CSR/CSC".toList, "mxm_hash_mask CSR".toList, "mxm_hash_mask_wobin CSR".toList,
    "HeapSpGEMM<rowAlg::MaskedBasicHeap_v1> CSR".toList, "HeapSpGEMM<rowAlg::MaskedBasicHeap_v2> CSR".toList,
    "HeapSpGEMM<rowAlg::MaskedBasicHeap_v3> CSR".toList]

/-- The names of the other three -/
def mcaNames : List (List Char) :=
  ["HeapSpGEMM<rowAlg::MCA_v1> CSR".toList, "HeapSpGEMM<rowAlg::MCA_v2> CSR".toList, "HeapSpGEMM<rowAlg::MCA_v3> CSR".toList]

end Verif.Spec
