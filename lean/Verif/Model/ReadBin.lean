import Verif.Model.Convert

/-!
# Reading matrices from binary files

Models `/repo/IO.h` 11-58, `ReadBinary`, with `fread`. A file is a list of bytes. Integers are stored as on a little-endian machine with
`si` bytes; values have `sv` bytes and are decoded by a parameter.
-/

namespace Verif.Model.ReadBin

variable {V : Type}

/-- The number that the bytes stand for, without a sign -/
def unsignedLE : List UInt8 → Nat
  | [] => 0
  | b :: l => b.toNat + 256 * unsignedLE l

/-- The integer that the bytes stand for (two's complement) -/
def intLE (l : List UInt8) : Int :=
  if 2 * unsignedLE l < 256 ^ l.length then unsignedLE l else (unsignedLE l : Int) - (256 ^ l.length : Nat)

/-- `fread(buf, size, count, f)`: the complete items that are read, and what is left. An incomplete item at the end is consumed. -/
def fread (size count : Nat) (rest : List UInt8) : List (List UInt8) × List UInt8 :=
  ((List.range (min count (rest.length / size))).map fun i => (rest.drop (i * size)).take size, rest.drop (size * count))

/-- `fread(&x, sizeof(IT), 1, f)`. If there are not enough bytes, `x` is not set completely. -/
def freadInt (si : Nat) (rest : List UInt8) : Option Int × List UInt8 :=
  match (fread si 1 rest).1 with
  | [] => (none, (fread si 1 rest).2)
  | b :: _ => (some (intLE b), (fread si 1 rest).2)

/-- Indices for the constructor. Negative ones lead to accesses out of bounds there or to an invalid matrix; the model takes all of
this as `oob`. -/
def natIndex (x : Int) : Res Nat := if 0 ≤ x then .ok x.toNat else .error .oob

/-- The arrays and the new matrix, IO.h:33-57. `none`: the return value is -1. -/
def readArrays (sortf : List (Nat × V) → List (Nat × V)) (order : List Nat) (dflt : V) (decV : List UInt8 → V) (si sv m n k : Nat)
    (rest : List UInt8) : Res (Option (CSC V)) := do
  let r := fread si k rest
  let c := fread si k r.2
  let v := fread sv k c.2
  if r.1.length ≠ k ∨ c.1.length ≠ k ∨ v.1.length ≠ k then .ok none
  else do
    let ri ← (r.1.map intLE).mapM natIndex
    let ci ← (c.1.map intLE).mapM natIndex
    let C ← Conv.cscOfArrays sortf order dflt (ri.zip (ci.zip (v.1.map decV))) m n
    .ok (some C)

/-- The test of the sizes, IO.h:24-28, and what follows. A size that is not positive ends the test: the later ones are not used. -/
def readBody (sortf : List (Nat × V) → List (Nat × V)) (order : List Nat) (dflt : V) (decV : List UInt8 → V) (si sv : Nat)
    (m n k : Option Int) (rest : List UInt8) : Res (Option (CSC V)) := do
  let m ← use m
  if m ≤ 0 then .ok none
  else do
    let n ← use n
    if n ≤ 0 then .ok none
    else do
      let k ← use k
      if k ≤ 0 then .ok none else readArrays sortf order dflt decV si sv m.toNat n.toNat k.toNat rest

/-- `ReadBinary`, IO.h:11-58. `none`: the return value is -1 and `csc` is as before. The assignment of the new object to `csc` is
`Model.MatObj`. -/
def readBinary (sortf : List (Nat × V) → List (Nat × V)) (order : List Nat) (dflt : V) (decV : List UInt8 → V) (si sv : Nat) :
    Option (List UInt8) → Res (Option (CSC V))
  | none => .ok none
  | some file =>
    let a := freadInt si file
    let b := freadInt si a.2
    let c := freadInt si b.2
    readBody sortf order dflt decV si sv a.1 b.1 c.1 c.2

end Verif.Model.ReadBin
