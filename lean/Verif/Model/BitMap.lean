import Verif.Model.Scan

/-!
# The bit map

Models `BitMap.h`. The words between `start` and `end` are natural numbers (below 2^64), unset until written. Positions are
natural numbers; additions of 64-bit numbers are assumed not to overflow.
-/

namespace Verif.BitMap
open Model.Scan (rdu)

/-- the words of a bit map -/
abbrev Words := List (Option Nat)

/-- `BitMap(uint64_t size)`, `BitMap.h` 44-49: the words are allocated but not initialised. -/
def make (size : Nat) : Words := List.replicate ((size + 63) / 64) none

/-- `reset`, `BitMap.h` 78-81. -/
def reset (w : Words) : Words := w.map fun _ => some 0

/-- `set_bit`, `BitMap.h` 84-86. `WORD_OFFSET(n)` is `n/64`, `BIT_OFFSET(n)` is `n & 0x3f` (lines 35-36). -/
def setBit (w : Words) (pos : Nat) : Res Words := do
  let x ← rdu w (pos / 64)
  wr w (pos / 64) (some (x ||| 1 <<< (pos &&& 0x3f)))

/-- `get_bit`, `BitMap.h` 100-106. -/
def getBit (w : Words) (pos : Nat) : Res Bool := do
  let x ← rdu w (pos / 64)
  .ok (decide (x &&& 1 <<< (pos &&& 0x3f) ≠ 0))

/-- `while (!temp) { it++; if (it >= end) return -1; temp = *it; next += 64; }`, `BitMap.h` 121-127, entered with
`temp` 0. At most `fuel` iterations; `none` stands for the return value -1. -/
def scanWords (w : Words) : Nat → Nat → Nat → Res (Option (Nat × Nat))
  | 0, _, _ => .error .diverge
  | fuel + 1, it, next =>
    if w.length ≤ it + 1 then .ok none
    else do
      let temp ← rdu w (it + 1)
      if temp = 0 then scanWords w fuel (it + 1) (next + 64) else .ok (some (temp, next + 64))

/-- `while (!(temp & 1)) { temp = temp >> 1; next++; }`, `BitMap.h` 131-134. At most `fuel` iterations. -/
def lowBit : Nat → Nat → Nat → Res Nat
  | 0, _, _ => .error .diverge
  | fuel + 1, temp, next => if temp &&& 1 = 0 then lowBit fuel (temp >>> 1) (next + 1) else .ok next

/-- the part of a word above a position, `BitMap.h` 114-118 -/
def above (x bit : Nat) : Nat := if bit ≠ 63 then x >>> (bit + 1) else 0

/-- `get_next_bit`, `BitMap.h` 109-136. The result `none` stands for -1. -/
def getNextBit (w : Words) (pos : Nat) : Res (Option Nat) := do
  let x ← rdu w (pos / 64)
  if above x (pos &&& 0x3f) = 0 then do
    let r ← scanWords w (w.length + 1) (pos / 64) (pos &&& 0xffffffc0)
    match r with
    | none => .ok none
    | some (temp, next) => do
      let n ← lowBit 65 temp next
      .ok (some n)
  else do
    let n ← lowBit 65 (above x (pos &&& 0x3f)) (pos + 1)
    .ok (some n)

end Verif.BitMap
