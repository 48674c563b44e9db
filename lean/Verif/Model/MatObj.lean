import Verif.Csr

/-!
# Matrix objects and the memory they own

Models the resource handling of the classes `CSR` and `CSC`: default constructor (`CSR.h` 25, `CSC.h` 32), sized
constructor (`CSR.h` 26-35, `CSC.h` 33-43), copy constructor (`CSR.h` 119-132, `CSC.h` 102-116), `operator=`
(`CSR.h` 134-163, `CSC.h` 118-149), `make_empty` (`CSR.h` 52-66, `CSC.h` 49-60), destructor (`CSR.h` 68,
`CSC.h` 75-78), and writes to single array elements by the user.

Memory is a list of blocks; the address of a block is its position. A freed block is `none` and its
address is not used again. A pointer that was never set is `none`. The two classes have the same shape, so
one model serves both: `maj` is the number of rows of a CSR matrix and the number of columns of a CSC matrix, `min` is
the other dimension, `ptr` is `rowptr` or `colptr`, `ids` is `colids` or `rowids`. `CSC` has no flag
`zerobased`; the model keeps it at `true`. Allocation never fails.
-/

namespace Verif.MatObj

variable {V : Type}

/-- The two classes. -/
inductive Kind where
  | csr
  | csc
  deriving DecidableEq, Repr

/-- The content of an allocated array. -/
inductive Block (V : Type) where
  | ints (l : List Nat)
  | vals (l : List V)
  deriving DecidableEq, Repr

/-- The memory: every address ever handed out by `my_malloc`. -/
abbrev Heap (V : Type) := List (Option (Block V))

/-- The data members, `CSR.h` 109-116, `CSC.h` 92-99 (without `totalcols`, which no modelled function uses). -/
structure Obj where
  maj : Nat
  min : Nat
  nnz : Nat
  ptr : Option Nat
  ids : Option Nat
  vals : Option Nat
  zb : Bool
  deriving DecidableEq, Repr

/-- `my_malloc`, `utility.h` 109-147 -/
def alloc (h : Heap V) (b : Block V) : Heap V × Option Nat := (h ++ [some b], some h.length)

/-- `my_free`, `utility.h` 150-162: freeing a pointer that was never set, or twice, is an error. -/
def free (h : Heap V) (p : Option Nat) : Res (Heap V) := do
  let p ← use p
  match h[p]? with
  | some (some _) => .ok (h.set p none)
  | some none => .error .freed
  | none => .error .oob

/-- dereference of a pointer to an index array -/
def ints (h : Heap V) (p : Option Nat) : Res (List Nat) := do
  let p ← use p
  match h[p]? with
  | some (some (.ints l)) => .ok l
  | some none => .error .freed
  | _ => .error .oob

/-- dereference of a pointer to a value array -/
def vals (h : Heap V) (p : Option Nat) : Res (List V) := do
  let p ← use p
  match h[p]? with
  | some (some (.vals l)) => .ok l
  | some none => .error .freed
  | _ => .error .oob

/-- `q = my_malloc<IT>(n); copy(p, p + n, q)` -/
def dupInts (h : Heap V) (p : Option Nat) (n : Nat) : Res (Heap V × Option Nat) := do
  let l ← ints h p
  if l.length < n then .error .oob else .ok (alloc h (.ints (l.take n)))

/-- `q = my_malloc<NT>(n); copy(p, p + n, q)` -/
def dupVals (h : Heap V) (p : Option Nat) (n : Nat) : Res (Heap V × Option Nat) := do
  let l ← vals h p
  if l.length < n then .error .oob else .ok (alloc h (.vals (l.take n)))

/-- Default constructor, `CSR.h` 25, `CSC.h` 32: the pointers stay unset. -/
def default : Obj := ⟨0, 0, 0, none, none, none, true⟩

/-- Sized constructor, `CSR.h` 26-35 and `CSC.h` 33-43. The latter asserts `nnz != 0`, so its
unconditional allocation of `rowids` and `values` is covered by the test on `nnz`. -/
def sized (k : Kind) (dflt : V) (h : Heap V) (nnz maj min : Nat) : Res (Heap V × Obj) := do
  check (decide (maj ≠ 0 ∧ (k = .csc → nnz ≠ 0)))
  let (h, ptr) := alloc h (.ints (List.replicate (maj + 1) 0))
  if nnz > 0 then
    let (h, ids) := alloc h (.ints (List.replicate nnz 0))
    let (h, vals) := alloc h (.vals (List.replicate nnz dflt))
    .ok (h, ⟨maj, min, nnz, ptr, ids, vals, true⟩)
  else .ok (h, ⟨maj, min, nnz, ptr, none, none, true⟩)

/-- The allocations and copies of the copy constructor (`CSR.h` 122-131, `CSC.h` 106-115) and of `operator=`
(`CSR.h` 150-160, `CSC.h` 136-146) into an object `o` whose numbers are already those of `r`. The pointer array
is copied when `c > 0`. -/
def dup (h : Heap V) (o r : Obj) (c : Nat) : Res (Heap V × Obj) := do
  let (h, o) ←
    if r.nnz > 0 then do
      let (h, v) ← dupVals h r.vals o.nnz
      let (h, i) ← dupInts h r.ids o.nnz
      .ok (h, { o with ids := i, vals := v })
    else (.ok (h, o) : Res (Heap V × Obj))
  if c > 0 then do
    let (h, p) ← dupInts h r.ptr (o.maj + 1)
    .ok (h, { o with ptr := p })
  else .ok (h, o)

/-- Copy constructor, `CSR.h` 119-132, `CSC.h` 102-116. CSR tests its `rows`, CSC its `cols`. -/
def copyCtor (h : Heap V) (r : Obj) : Res (Heap V × Obj) :=
  dup h { r with ptr := none, ids := none, vals := none } r r.maj

/-- The frees of `operator=`, `CSR.h` 137-144, `CSC.h` 123-130 -/
def frees (h : Heap V) (o : Obj) : Res (Heap V) := do
  let h ←
    if o.nnz > 0 then do
      let h ← free h o.ids
      free h o.vals
    else (.ok h : Res (Heap V))
  if o.maj > 0 then free h o.ptr else .ok h

/-- the member `cols` -/
def cols (k : Kind) (r : Obj) : Nat :=
  match k with
  | .csr => r.min
  | .csc => r.maj

/-- `operator=` for different objects, `CSR.h` 136-160, `CSC.h` 122-146. Both classes test `rhs.cols > 0` before
they copy the pointer array (`CSR.h` 157, `CSC.h` 143). -/
def assign (k : Kind) (h : Heap V) (o r : Obj) : Res (Heap V × Obj) := do
  let h ← frees h o
  dup h { o with nnz := r.nnz, maj := r.maj, min := r.min, zb := r.zb } r (cols k r)

/-- `make_empty`, `CSR.h` 52-66, `CSC.h` 49-60 -/
def makeEmpty (h : Heap V) (o : Obj) : Res (Heap V × Obj) := do
  let (h, o) ←
    if o.nnz > 0 then do
      let h ← free h o.ids
      let h ← free h o.vals
      .ok (h, { o with nnz := 0 })
    else (.ok (h, o) : Res (Heap V × Obj))
  let (h, o) ←
    if o.maj > 0 then do
      let h ← free h o.ptr
      .ok (h, { o with maj := 0 })
    else (.ok (h, o) : Res (Heap V × Obj))
  .ok (h, { o with min := 0 })

/-- `ptr[i] = x` -/
def putInts (h : Heap V) (p : Option Nat) (i x : Nat) : Res (Heap V) := do
  let l ← ints h p
  let l ← wr l i x
  let p ← use p
  .ok (h.set p (some (.ints l)))

/-- `values[i] = x` -/
def putVals (h : Heap V) (p : Option Nat) (i : Nat) (x : V) : Res (Heap V) := do
  let l ← vals h p
  let l ← wr l i x
  let p ← use p
  .ok (h.set p (some (.vals l)))

/-- What a program can do with its matrix variables. Constructors declare a new variable. -/
inductive Op (V : Type) where
  | default
  | sized (nnz maj min : Nat)
  | copy (src : Nat)
  | assign (dst src : Nat)
  | makeEmpty (x : Nat)
  | destroy (x : Nat)
  | setPtr (x i v : Nat)
  | setId (x i v : Nat)
  | setVal (x i : Nat) (v : V)

/-- Memory and variables. A destroyed variable is `none`. -/
structure State (V : Type) where
  heap : Heap V
  env : List (Option Obj)

/-- the object of a variable -/
def var {α : Type} (env : List (Option α)) (x : Nat) : Res α :=
  match env[x]? with
  | some (some o) => .ok o
  | some none => .error .freed
  | none => .error .oob

/-- One statement. -/
def step (k : Kind) (dflt : V) (s : State V) : Op V → Res (State V)
  | .default => .ok ⟨s.heap, s.env ++ [some MatObj.default]⟩
  | .sized nnz maj min => do
    let (h, o) ← MatObj.sized k dflt s.heap nnz maj min
    .ok ⟨h, s.env ++ [some o]⟩
  | .copy src => do
    let r ← var s.env src
    let (h, o) ← copyCtor s.heap r
    .ok ⟨h, s.env ++ [some o]⟩
  | .assign dst src => do
    let o ← var s.env dst
    let r ← var s.env src
    if dst = src then .ok s
    else do
      let (h, o) ← MatObj.assign k s.heap o r
      .ok ⟨h, s.env.set dst (some o)⟩
  | .makeEmpty x => do
    let o ← var s.env x
    let (h, o) ← MatObj.makeEmpty s.heap o
    .ok ⟨h, s.env.set x (some o)⟩
  | .destroy x => do
    let o ← var s.env x
    let (h, _) ← MatObj.makeEmpty s.heap o
    .ok ⟨h, s.env.set x none⟩
  | .setPtr x i v => do
    let o ← var s.env x
    let h ← putInts s.heap o.ptr i v
    .ok ⟨h, s.env⟩
  | .setId x i v => do
    let o ← var s.env x
    let h ← putInts s.heap o.ids i v
    .ok ⟨h, s.env⟩
  | .setVal x i v => do
    let o ← var s.env x
    let h ← putVals s.heap o.vals i v
    .ok ⟨h, s.env⟩

/-- A program. -/
def run (k : Kind) (dflt : V) (ops : List (Op V)) (s : State V) : Res (State V) :=
  ops.foldlM (step k dflt) s

end Verif.MatObj
