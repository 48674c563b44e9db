import Verif.Model.RadixSort

/-! # Specification of sorting by keys with several components -/

namespace Verif.Spec

open Verif.Model.RadixSort (Key)

/-- `l'` is `l` in the order of the keys, where elements with the same key keep their order. The keys are lists of numbers, which are compared
like those of `std::pair`, `std::tuple` and `std::array`: by the first component in which they differ. -/
structure SortedByKey {α : Type} (key : α → List Int) (l l' : List α) : Prop where
  perm : l'.Perm l
  sorted : l'.Pairwise fun x y => ¬ key y < key x
  stable : ∀ k, l'.filter (fun x => decide (key x = k)) = l.filter fun x => decide (key x = k)

/-- The same, but the order of elements with the same key is not determined, as after `std::sort`. -/
structure OrderedByKey {α : Type} (key : α → List Int) (l l' : List α) : Prop where
  perm : l'.Perm l
  sorted : l'.Pairwise fun x y => ¬ key y < key x

/-- The absolute value of a floating-point number of IEEE 754 in units of the least positive one. `p` is the number of bits of the mantissa (23 or
52), `b` has the bits of mantissa and exponent. Infinity comes out as the number that would follow the largest finite one. -/
def ieeeAbs (p b : Nat) : Nat :=
  if b / 2 ^ p = 0 then b % 2 ^ p else (2 ^ p + b % 2 ^ p) * 2 ^ (b / 2 ^ p - 1)

/-- The number with these bits, of which there are `w` (32 or 64) -/
def ieee (p w b : Nat) : Int := if b < 2 ^ (w - 1) then (ieeeAbs p b : Int) else - (ieeeAbs p (b - 2 ^ (w - 1)) : Int)

/-- Not a number: the exponent has only ones, and the mantissa is not 0. -/
def isNaN (p w b : Nat) : Prop := b % 2 ^ (w - 1) / 2 ^ p = 2 ^ (w - 1 - p) - 1 ∧ b % 2 ^ p ≠ 0

/-- The key of an element as a list of numbers -/
def keyOf {α : Type} : Key α → α → List Int
  | .bool f, x => [if f x then 1 else 0]
  | .unsigned _ f, x => [(f x : Int)]
  | .signed _ f, x => [f x]
  | .char f, x => [f x]
  | .float f, x => [ieee 23 32 (f x)]
  | .double f, x => [ieee 52 64 (f x)]
  | .pair e e', x => keyOf e x ++ keyOf e' x
  | .nil, _ => []
  | .cons e e', x => keyOf e x ++ keyOf e' x

/-- The integer types have 1, 2, 4 or 8 bytes. -/
def WordSize (k : Nat) : Prop := k = 1 ∨ k = 2 ∨ k = 4 ∨ k = 8

/-- The type of the key exists: so for all its integers. -/
def TypeOk {α : Type} : Key α → Prop
  | .unsigned k _ => WordSize k
  | .signed k _ => WordSize k
  | .pair e e' => TypeOk e ∧ TypeOk e'
  | .cons e e' => TypeOk e ∧ TypeOk e'
  | _ => True

/-- The key of the element fits its type. -/
def InType {α : Type} : Key α → α → Prop
  | .bool _, _ => True
  | .unsigned k f, x => f x < 2 ^ (8 * k)
  | .signed k f, x => -2 ^ (8 * k - 1) ≤ f x ∧ f x < 2 ^ (8 * k - 1)
  | .char f, x => -128 ≤ f x ∧ f x < 128
  | .float f, x => f x < 2 ^ 32
  | .double f, x => f x < 2 ^ 64
  | .pair e e', x => InType e x ∧ InType e' x
  | .nil, _ => True
  | .cons e e', x => InType e x ∧ InType e' x

/-- No `char` of the key is negative, and no floating-point number is the negative zero or not a number. -/
def Plain {α : Type} : Key α → α → Prop
  | .bool _, _ => True
  | .unsigned _ _, _ => True
  | .signed _ _, _ => True
  | .char f, x => 0 ≤ f x
  | .float f, x => ¬ isNaN 23 32 (f x) ∧ f x ≠ 2 ^ 31
  | .double f, x => ¬ isNaN 52 64 (f x) ∧ f x ≠ 2 ^ 63
  | .pair e e', x => Plain e x ∧ Plain e' x
  | .nil, _ => True
  | .cons e e', x => Plain e x ∧ Plain e' x

/-- The number of components of one byte -/
def oneByte {α : Type} : Key α → Nat
  | .bool _ => 1
  | .unsigned k _ => if k = 1 then 1 else 0
  | .signed k _ => if k = 1 then 1 else 0
  | .char _ => 1
  | .float _ => 0
  | .double _ => 0
  | .pair e e' => oneByte e + oneByte e'
  | .nil => 0
  | .cons e e' => oneByte e + oneByte e'

end Verif.Spec
