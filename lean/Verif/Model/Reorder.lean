import Verif.Csr

/-!
# Reordering the entries of rows and columns

Models `CSR::sortIds` (`CSR.h` 665-685), `CSR::shuffleIds` (647-663), `CSC::shuffleIds` (`CSC.h` 525-541), the test
inside `CSR::Sorted` (459-466) and `CSC::Sorted` (515-523), and `my_is_sorted` (`utility.h` 45-56). The functions
work on the pointer, index and value arrays, which have the same roles in both classes.
-/

namespace Verif.Reorder

variable {V : Type}

/-- `CSR.h` 672-676: the entries of one row are collected. -/
def collect (b e : Nat) (s : List Nat × List V) : Res (List (Nat × V)) :=
  forRange b e [] (fun j tosort => do
    let c ← rd s.1 j
    let v ← rd s.2 j
    .ok (tosort ++ [(c, v)]))

/-- `CSR.h` 678-684: they are written back with an iterator that starts at the first one. -/
def putBack (b e : Nat) (tosort : List (Nat × V)) (s : List Nat × List V) : Res (List Nat × List V) := do
  let (ids, vals, _) ← forRange b e (s.1, s.2, 0) (fun j (ids, vals, it) => do
    let x ← rd tosort it
    let ids ← wr ids j x.1
    let vals ← wr vals j x.2
    .ok (ids, vals, it + 1))
  .ok (ids, vals)

/-- one iteration of `sortIds`; `std::sort` is a parameter -/
def sortRow (sortf : List (Nat × V) → List (Nat × V)) (ptr : List Nat) (s : List Nat × List V) (i : Nat) :
    Res (List Nat × List V) := do
  let b ← rd ptr i
  let e ← rd ptr (i + 1)
  let tosort ← collect b e s
  putBack b e (sortf tosort) s

/-- `CSR::sortIds`, `CSR.h` 665-685. The iterations of the parallel loop touch disjoint ranges; they run in the order
`order`. -/
def sortIds (sortf : List (Nat × V) → List (Nat × V)) (order : List Nat) (A : CSR V) : Res (CSR V) := do
  let (ids, vals) ← order.foldlM (sortRow sortf A.rowptr) (A.colids, A.values)
  .ok { A with colids := ids, values := vals }

/-- `uniform_int_distribution<IT> rand_scale(0, width - 1)`. The lower bound must not exceed the upper
one. For a signed index type and `width = 0` it does. For an unsigned one the upper bound wraps around. -/
def distribution (signed : Bool) (width : Nat) : Res Unit :=
  if signed && decide (width = 0) then .error .assertion else .ok ()

/-- the body of the inner loop, `CSR.h` 654-660: exchange of the entries `j` and `offset + target`. The random number is any
number below `width`. -/
def swapStep (b width : Nat) (rnd : Nat → Nat) (j : Nat) (s : List Nat × List V) : Res (List Nat × List V) := do
  let target := rnd j % width
  let tmpId ← rd s.1 (b + target)
  let tmpVal ← rd s.2 (b + target)
  let c ← rd s.1 j
  let ids ← wr s.1 (b + target) c
  let v ← rd s.2 j
  let vals ← wr s.2 (b + target) v
  let ids ← wr ids j tmpId
  let vals ← wr vals j tmpVal
  .ok (ids, vals)

/-- one iteration of `shuffleIds`, `CSR.h` 650-661, `CSC.h` 528-540 -/
def shuffleRow (signed : Bool) (rnd : Nat → Nat) (ptr : List Nat) (s : List Nat × List V) (i : Nat) :
    Res (List Nat × List V) := do
  let b ← rd ptr i
  let e ← rd ptr (i + 1)
  distribution signed (e - b)
  forRange b e s (swapStep b (e - b) rnd)

/-- `CSR::shuffleIds`, `CSR.h` 647-663. The random numbers are given by position. -/
def shuffleIds (signed : Bool) (rnd : Nat → Nat) (A : CSR V) : Res (CSR V) := do
  let (ids, vals) ← (List.range A.rows).foldlM (shuffleRow signed rnd A.rowptr) (A.colids, A.values)
  .ok { A with colids := ids, values := vals }

/-- `CSC::shuffleIds`, `CSC.h` 525-541. -/
def shuffleIdsC (signed : Bool) (rnd : Nat → Nat) (A : CSC V) : Res (CSC V) := do
  let (ids, vals) ← (List.range A.cols).foldlM (shuffleRow signed rnd A.colptr) (A.rowids, A.values)
  .ok { A with rowids := ids, values := vals }

/-- the loop of `my_is_sorted` (`utility.h` 51-54) with `n` steps left -/
def isSortedLoop (a : List Nat) : Nat → Nat → Res Bool
  | 0, _ => .ok true
  | n + 1, first => do
    let y ← rd a (first + 1)
    let x ← rd a first
    if y < x then .ok false else isSortedLoop a n (first + 1)

/-- `my_is_sorted(a + b, a + e, std::less)`, `utility.h` 45-56. -/
def isSorted (a : List Nat) (b e : Nat) : Res Bool :=
  if b = e then .ok true else isSortedLoop a (e - b - 1) b

/-- The flag that `CSR::Sorted` (`CSR.h` 459-466) and `CSC::Sorted` (`CSC.h` 515-523) print. -/
def sortedFlag (n : Nat) (ptr ids : List Nat) : Res Bool :=
  forRange 0 n true (fun i sorted => do
    let b ← rd ptr i
    let e ← rd ptr (i + 1)
    let x ← isSorted ids b e
    .ok (sorted && x))

end Verif.Reorder
