import Verif.Base

/-!
# The heap functions of libstdc++

Models `/usr/include/c++/13/bits/stl_heap.h` (`__push_heap` lines 135-147,
`__adjust_heap` 224-249, `__pop_heap` 254-267, `pop_heap` 283-302, `push_heap` 162-181,
`__make_heap` 340-362) for the entries of `/repo/spgemm-blocks/heap/Heap.h`
and `/repo/HeapEntry.h`. The
comparison `a < b` of the entries is `a.key > b.key` (Heap.h:22), so the top of a heap
has a smallest key. The algorithms are modelled step by step because the code
calls `pop_heap` on ranges that are not heaps.
-/

namespace Verif.Model.Heap

/-- Heap entries, with a position of type `P`. -/
structure EntOf (P : Type) where
  key : Nat
  runr : Nat
  loc : P
  deriving DecidableEq, Repr

/-- `Heap::EntryT`, `/repo/spgemm-blocks/heap/Heap.h` lines 9-25 -/
abbrev Ent := EntOf Nat

variable {P : Type}

/-- `operator<` of the entries, Heap.h:22 (swapped on purpose) -/
def EntOf.lt (a b : EntOf P) : Bool := a.key > b.key

/-- `__push_heap`, stl_heap.h:135-147; the hole moves up, so `hole + 1` turns are enough -/
def pushHole (top : Nat) (v : (EntOf P)) : Nat → Nat → List (EntOf P) → Res (List (EntOf P))
  | 0, _, _ => .error .diverge
  | fuel + 1, hole, a =>
    if top < hole then do
      let p ← rd a ((hole - 1) / 2)
      if p.lt v then do
        let a ← wr a hole p
        pushHole top v fuel ((hole - 1) / 2) a
      else wr a hole v
    else wr a hole v

/-- The loop of `__adjust_heap`, stl_heap.h:229-237; `hole` is `__secondChild` at the
start of each turn. The index grows, so `len` turns are enough. -/
def sinkHole (len : Nat) : Nat → Nat → List (EntOf P) → Res (List (EntOf P) × Nat)
  | 0, _, _ => .error .diverge
  | fuel + 1, hole, a =>
    if hole < (len - 1) / 2 then do
      let c := 2 * (hole + 1)
      let x ← rd a c
      let y ← rd a (c - 1)
      let c := if x.lt y then c - 1 else c
      let z ← rd a c
      let a ← wr a hole z
      sinkHole len fuel c a
    else .ok (a, hole)

/-- `__adjust_heap`, stl_heap.h:224-249 -/
def adjust (a : List (EntOf P)) (top len : Nat) (v : (EntOf P)) : Res (List (EntOf P)) := do
  let (a, hole) ← sinkHole len (len + 1) top a
  if len % 2 = 0 ∧ hole = (len - 2) / 2 then do
    let c := 2 * (hole + 1)
    let z ← rd a (c - 1)
    let a ← wr a hole z
    pushHole top v (c - 1 + 1) (c - 1) a
  else pushHole top v (hole + 1) hole a

/-- `pop_heap(first, last)`, stl_heap.h:283-302 and `__pop_heap`, 254-267 -/
def popHeap (a : List (EntOf P)) : Res (List (EntOf P)) :=
  if a.length > 1 then do
    let last := a.length - 1
    let v ← rd a last
    let r ← rd a 0
    let a ← wr a last r
    adjust a 0 last v
  else .ok a

/-- `push_heap(first, last)`, stl_heap.h:162-181 -/
def pushHeap (a : List (EntOf P)) : Res (List (EntOf P)) := do
  let v ← rd a (a.length - 1)
  pushHole 0 v (a.length - 1 + 1) (a.length - 1) a

/-- The loop of `__make_heap`, stl_heap.h:353-361 -/
def makeLoop (len : Nat) : Nat → List (EntOf P) → Res (List (EntOf P))
  | 0, a => do
    let v ← rd a 0
    adjust a 0 len v
  | p + 1, a => do
    let v ← rd a (p + 1)
    let a ← adjust a (p + 1) len v
    makeLoop len p a

/-- `make_heap(first, last)`, stl_heap.h:340-362 -/
def makeHeap (a : List (EntOf P)) : Res (List (EntOf P)) :=
  if a.length < 2 then .ok a else makeLoop a.length ((a.length - 2) / 2) a

end Verif.Model.Heap
