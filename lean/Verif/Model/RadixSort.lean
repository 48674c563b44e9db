import Verif.Model.Scan

/-!
# Radix sort

Models `/repo/radix_sort/radix_sort.hpp` (RS): `counting_sort`, `radix_sort` and `linear_sort`.

Simplifications. The range that is sorted and the buffer are lists; both have room for `none`, which stands for memory without a value and for an
element that has been moved from. The functions that extract keys from elements are total and have no side effects. Where several histograms are
filled or summed up in the same loop, the model does this for one after the other. 64-bit counters have no bound, the smaller ones do. `std::sort` is
a parameter. `wchar_t`, `char16_t` and `char32_t`, for which `to_unsigned` falls back to `int` or `unsigned int`, are left out.
-/

namespace Verif.Model.RadixSort

open Scan (rdu)

variable {α : Type}

/-! ## One pass -/

/-- The number of values of the counters for `n` elements, RS:39-47 (and the same at RS:154-162, 210-218, 286-294). 0 stands for `uint64_t`, which has
no bound here: `x % 0 = x`. -/
def countW (n : Nat) : Nat :=
  if n ≤ 2 ^ 8 then 2 ^ 8 else if n ≤ 2 ^ 16 then 2 ^ 16 else if n ≤ 2 ^ 32 then 2 ^ 32 else 0

/-- The histogram of `g` over the first `n` elements of `src`, RS:18-22 -/
def hist (W : Nat) (g : α → Nat) (n : Nat) (src : List (Option α)) : Res (List Nat) :=
  forRange 0 n (List.replicate 256 0) fun i cs => do
    let x ← rdu src i
    let c ← rd cs (g x)
    wr cs (g x) ((c + 1) % W)

/-- RS:23-29: the starts of the buckets -/
def starts (W : Nat) (cs : List Nat) : Res (List Nat) := do
  let s ← forRange 0 256 (cs, 0) fun i s => do
    let c ← rd s.1 i
    let cs ← wr s.1 i s.2
    .ok (cs, (s.2 + c) % W)
  .ok s.1

/-- `dst[pos] = std::move(src[i])` -/
def move (src dst : List (Option α)) (i pos : Nat) : Res (List (Option α) × List (Option α)) := do
  let x ← rdu src i
  let dst ← wr dst pos (some x)
  let src ← wr src i none
  .ok (src, dst)

/-- The body of RS:30-34: `dst[counts[key]++] = std::move(src[i])` -/
def put (W : Nat) (g : α → Nat) (i : Nat) (s : List Nat × List (Option α) × List (Option α)) :
    Res (List Nat × List (Option α) × List (Option α)) := do
  let x ← rdu s.2.1 i
  let c ← rd s.1 (g x)
  let cs ← wr s.1 (g x) ((c + 1) % W)
  let m ← move s.2.1 s.2.2 i c
  .ok (cs, m)

/-- RS:30-34: the new contents of `src` and `dst` -/
def scatter (W : Nat) (g : α → Nat) (n : Nat) (cs : List Nat) (src dst : List (Option α)) : Res (List (Option α) × List (Option α)) := do
  let s ← forRange 0 n (cs, src, dst) (put W g)
  .ok s.2

/-- `counting_sort_impl`, RS:14-48: `extract_key` returns `key`, of which the last loop takes the low 8 bits. -/
def countingSort (key : α → Nat) (n : Nat) (src dst : List (Option α)) : Res (List (Option α) × List (Option α)) := do
  let cs ← hist (countW n) key n src
  let cs ← starts (countW n) cs
  scatter (countW n) (fun x => key x % 256) n cs src dst

/-! ## Words -/

/-- `to_unsigned` for signed integers of `k` bytes, RS:57-60, 77-80, 85-88, 93-96, 101-104: a cast and the sum of unsigned numbers -/
def ofSigned (k : Nat) (z : Int) : Nat := ((z % 2 ^ (8 * k)).toNat + 2 ^ (8 * k - 1)) % 2 ^ (8 * k)

/-- `to_unsigned` for `char`, RS:61-64: a cast -/
def ofChar (z : Int) : Nat := (z % 2 ^ 8).toNat

/-- `to_unsigned` for `float` (`k = 4`) and `double` (`k = 8`) with the bits `b`, RS:109-128. `sign_bit` has only ones if the number is negative. -/
def ofFloat (k b : Nat) : Nat :=
  let sign := if b >>> (8 * k - 1) = 0 then 0 else 2 ^ (8 * k) - 1
  b ^^^ (sign ||| 2 ^ (8 * k - 1))

/-- Byte `j` of a key, RS:174-175, 190, 195 -/
def byte (key : α → Nat) (j : Nat) (x : α) : Nat := (key x >>> (8 * j)) &&& 255

/-- Two passes of `sort_inline`: from `begin` to the buffer by byte `2 * p`, and back by byte `2 * p + 1`, RS:188-197 -/
def twoPasses (W : Nat) (key : α → Nat) (n : Nat) (cs : List (List Nat)) (p : Nat) (s : List (Option α) × List (Option α)) :
    Res (List (Option α) × List (Option α)) := do
  let c ← rd cs (2 * p)
  let a ← scatter W (byte key (2 * p)) n c s.1 s.2
  let c ← rd cs (2 * p + 1)
  let b ← scatter W (byte key (2 * p + 1)) n c a.2 a.1
  .ok (b.2, b.1)

/-- `sort_inline` for keys of `k` bytes, RS:165-199, 220-276, 296-396: first all histograms, then the passes. The new contents of `begin` and the
buffer. -/
def sortInline (k : Nat) (key : α → Nat) (n : Nat) (a b : List (Option α)) : Res (List (Option α) × List (Option α)) := do
  let cs ← (List.range k).mapM fun j => hist (countW n) (byte key j) n a
  let cs ← cs.mapM (starts (countW n))
  forRange 0 (k / 2) (a, b) (twoPasses (countW n) key n cs)

/-- `SizedRadixSorter<k>::sort`, RS:133-399. The result tells whether the sorted elements are in the buffer. -/
def sized (k : Nat) (key : α → Nat) (n : Nat) (a b : List (Option α)) : Res (Bool × List (Option α) × List (Option α)) :=
  if k = 1 then do
    let s ← countingSort key n a b
    .ok (true, s)
  else do
    let s ← sortInline k key n a b
    .ok (false, s)

/-- `RadixSorter<bool>::sort`, RS:406-425 -/
def sortBool (f : α → Bool) (n : Nat) (a b : List (Option α)) : Res (Bool × List (Option α) × List (Option α)) := do
  let z ← forRange 0 n 0 fun i z => do
    let x ← rdu a i
    .ok (if !f x then z + 1 else z)
  let s ← forRange 0 n ((0, z), a, b) fun i s => do
    let x ← rdu s.2.1 i
    let m ← move s.2.1 s.2.2 i (if f x then s.1.2 else s.1.1)
    .ok ((if f x then (s.1.1, s.1.2 + 1) else (s.1.1 + 1, s.1.2)), m)
  .ok (true, s.2)

/-! ## Keys -/

/-- The type of a key, with the functions that extract its parts. Integers have `k` bytes, floating-point numbers are given by their bits. A tuple
or an array is a list that is built from `cons` and `nil`. -/
inductive Key (α : Type) where
  | bool (f : α → Bool)
  | unsigned (k : Nat) (f : α → Nat)
  | signed (k : Nat) (f : α → Int)
  | char (f : α → Int)
  | float (f : α → Nat)
  | double (f : α → Nat)
  | pair (first second : Key α)
  | nil
  | cons (first rest : Key α)

/-- Calls `f` for the array with the elements, which is the buffer if `which`: RS:508-515, 561-564, 656-659 -/
def onward (f : List (Option α) → List (Option α) → Res (Bool × List (Option α) × List (Option α)))
    (s : Bool × List (Option α) × List (Option α)) : Res (Bool × List (Option α) × List (Option α)) :=
  if s.1 then do
    let t ← f s.2.2 s.2.1
    .ok (!t.1, t.2.2, t.2.1)
  else f s.2.1 s.2.2

/-- `RadixSorter<…>::sort`, RS:401-686, for a range `a` of `n` elements and the buffer `b`. The components of pairs, tuples and arrays are sorted from
the last to the first. -/
def sort : Key α → Nat → List (Option α) → List (Option α) → Res (Bool × List (Option α) × List (Option α))
  | .bool f, n, a, b => sortBool f n a b
  | .unsigned k f, n, a, b => sized k f n a b
  | .signed k f, n, a, b => sized k (fun x => ofSigned k (f x)) n a b
  | .char f, n, a, b => sized 1 (fun x => ofChar (f x)) n a b
  | .float f, n, a, b => sized 4 (fun x => ofFloat 4 (f x)) n a b
  | .double f, n, a, b => sized 8 (fun x => ofFloat 8 (f x)) n a b
  | .pair e e', n, a, b => do
    let s ← sort e' n a b
    onward (sort e n) s
  | .nil, _, a, b => .ok (false, a, b)
  | .cons e e', n, a, b => do
    let s ← sort e' n a b
    onward (sort e n) s

/-- `pass_count`, RS:146, 201, 278, 398, 427, 518, 567, 600, 625, 664 -/
def passCount : Key α → Nat
  | .bool _ => 2
  | .unsigned k _ => k + 1
  | .signed k _ => k + 1
  | .char _ => 2
  | .float _ => 5
  | .double _ => 9
  | .pair e e' => passCount e + passCount e'
  | .nil => 0
  | .cons e e' => passCount e + passCount e'

/-! ## The functions of the interface -/

/-- `radix_sort`, RS:704-713 -/
def radixSort (e : Key α) (a b : List (Option α)) : Res (Bool × List (Option α) × List (Option α)) := sort e a.length a b

/-- `counting_sort`, RS:692-702: the new contents of the range and of the target -/
def countingSortTo (key : α → Nat) (a b : List (Option α)) : Res (List (Option α) × List (Option α)) := countingSort key a.length a b

/-- `linear_sort`, RS:714-733. `stdsort` is `std::sort` with the order of the keys. -/
def linearSort (stdsort : List α → List α) (e : Key α) (a b : List (Option α)) : Res (Bool × List (Option α) × List (Option α)) :=
  if a.length ≤ 512 ∨ passCount e > 10 then do
    let l ← a.mapM use
    .ok (false, (stdsort l).map some, b)
  else radixSort e a b

end Verif.Model.RadixSort
