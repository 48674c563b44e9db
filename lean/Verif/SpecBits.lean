import Verif.Base

/-!
# Specification of a bit map: a set of positions
-/

namespace Verif.Spec

/-- The position `p` is in the set that the words stand for: bit `p % 64` of word `p / 64` is set. -/
def HasBit (w : List (Option Nat)) (p : Nat) : Prop := ∃ x, w[p / 64]? = some (some x) ∧ x.testBit (p % 64) = true

/-- All words are set and fit into 64 bits. -/
def WordsOk (w : List (Option Nat)) : Prop := ∀ o ∈ w, ∃ x, o = some x ∧ x < 2 ^ 64

/-- `n` is the next position after `p` in the set. -/
def IsNext (w : List (Option Nat)) (p n : Nat) : Prop :=
  p < n ∧ HasBit w n ∧ ∀ q, p < q → q < n → ¬ HasBit w q

end Verif.Spec
