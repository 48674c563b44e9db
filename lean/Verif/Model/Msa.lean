import Verif.Model.Nest

/-!
# Masked sparse accumulator (MSA)

Models `/repo/spgemm-blocks/msa/MaskedSparseAccumulator1A.h`,
`/repo/spgemm-blocks/msa/MaskedSparseAccumulator2A.h` and
`/repo/spgemm-blocks/msa/MSAAlgorithm.h`.

Simplifications: the accumulator owns its array (the placement in the byte
buffer is modelled in `Verif.Model.Memory`); a value cell is `none` while it
holds only 0xFF filler bytes; the output pointers `currColId`, `currValue` are a
list of emitted (column, value) pairs, whose bounds the drivers check.
-/

namespace Verif.Model.Msa

variable {V : Type _}

/-! ## States: MaskedSparseAccumulator1A.h 39-43 = MaskedSparseAccumulator2A.h 37-41 -/

/-- `NOT_ALLOWED`, 1A.h:39 -/
def NOT_ALLOWED (compl : Bool) : Nat := if !compl then 255 else 0
/-- `ALLOWED`, 1A.h:40 -/
def ALLOWED (compl : Bool) : Nat := if !compl then 0 else 255
/-- `INITIALIZED`, 1A.h:41 -/
def INITIALIZED : Nat := 1
/-- `DEFAULT_STATE`, 1A.h:43 -/
def DEFAULT (compl : Bool) : Nat := if !compl then NOT_ALLOWED compl else ALLOWED compl

/-! ## Accumulator without values (ValueT = void), used by the symbolic phase -/

/-- `MaskedSparseAccumulator1A<KeyT, void, compl>` (and the 2A version):
`_entries[i].state` resp. `_storage._states[i]`, and `_dirtyIndices`.
`_maxIndex` is the length of `states`. -/
structure SAcc where
  states : List Nat
  dirty : List Nat
  deriving DecidableEq

namespace SAcc

/-- `getState`, 1A.h:82-86, 2A.h:99-103 -/
def getState (acc : SAcc) (idx : Nat) : Res Nat := do
  check (idx < acc.states.length)
  rd acc.states idx

/-- write of a state through a reference -/
def putState (acc : SAcc) (idx : Nat) (s : Nat) : Res SAcc := do
  let st ← wr acc.states idx s
  .ok { acc with states := st }

/-- `setAllowed`, 1A.h:101-106, 2A.h:112-117 -/
def setAllowed (compl : Bool) (acc : SAcc) (key : Nat) : Res SAcc := do
  let s ← acc.getState key
  check (s == NOT_ALLOWED compl)
  acc.putState key (ALLOWED compl)

/-- `setAllowed` as compiled with `NDEBUG`, 1A.h:101-106, 2A.h:112-117: the assertions are
gone, the write is the same -/
def setAllowedNd (compl : Bool) (acc : SAcc) (key : Nat) : Res SAcc :=
  acc.putState key (ALLOWED compl)

/-- `setInitialized`, 1A.h:115-121, 2A.h:126-132 -/
def setInitialized (compl : Bool) (acc : SAcc) (key : Nat) : Res SAcc := do
  let s ← acc.getState key
  check (s == ALLOWED compl)
  let acc ← acc.putState key INITIALIZED
  .ok { acc with dirty := acc.dirty ++ [key] }

/-- `erase`, 1A.h:123-129, 2A.h:134-140 -/
def erase (compl : Bool) (acc : SAcc) (idx : Nat) : Res (SAcc × Bool) := do
  let s ← acc.getState idx
  if s = DEFAULT compl then .ok (acc, false)
  else do
    let acc ← acc.putState idx (DEFAULT compl)
    .ok (acc, true)

/-- `clear`, 1A.h:131-138, 2A.h:142-149 -/
def clear (compl : Bool) (acc : SAcc) (idx : Nat) : Res SAcc := do
  let s ← acc.getState idx
  if s = DEFAULT compl then .ok acc
  else acc.putState idx (DEFAULT compl)

/-- `resetStates()`, 1A.h:140-143, 2A.h:151-154 -/
def resetStates (compl : Bool) (acc : SAcc) : Res SAcc := do
  let acc' ← acc.dirty.foldlM (fun acc idx => acc.clear compl idx) acc
  .ok { acc' with dirty := [] }

end SAcc

/-- `MSABase<.., false>::symbolicRow`, MSAAlgorithm.h:40-71. Returns the new
accumulator and `rowNvals[row]`. -/
def symbolicRowWith (mark : SAcc → Nat → Res (SAcc)) (A B M : CSR V) (row : Nat) (acc : SAcc) : Res (SAcc × Nat) := do
  let acc ← maskLoop M row acc fun c acc => mark acc c
  let (acc, n) ← nest A B row (acc, 0) fun _ k (acc, n) => do
    let c ← rd B.colids k
    let (acc, erased) ← acc.erase false c
    .ok (acc, if erased then n + 1 else n)
  let acc ← maskLoop M row acc fun c acc => acc.clear false c
  .ok (acc, n)

/-- `symbolicRow` with assertions enabled -/
def symbolicRow (A B M : CSR V) (row : Nat) (acc : SAcc) : Res (SAcc × Nat) :=
  symbolicRowWith (SAcc.setAllowed false) A B M row acc

/-- `symbolicRow` compiled with `NDEBUG`. The assertions inside the loop over the products hold
whatever the mask is and are kept. -/
def symbolicRowNd (A B M : CSR V) (row : Nat) (acc : SAcc) : Res (SAcc × Nat) :=
  symbolicRowWith (SAcc.setAllowedNd false) A B M row acc

/-- `MSABase<.., true>::symbolicRow`, MSAAlgorithm.h:104-137. The counter is
decremented in `IT`; `0 - 1` would wrap, here it is an integer. -/
def symbolicRowC (A B M : CSR V) (row : Nat) (acc : SAcc) : Res (SAcc × Int) := do
  let (acc, n) ← nest A B row (acc, (0 : Int)) fun _ k (acc, n) => do
    let c ← rd B.colids k
    let s ← acc.getState c
    if s ≠ INITIALIZED then do
      let acc ← acc.setInitialized true c
      .ok (acc, n + 1)
    else .ok (acc, n)
  let (acc, n) ← maskLoop M row (acc, n) fun c (acc, n) => do
    let (acc, erased) ← acc.erase true c
    .ok (acc, if erased then n - 1 else n)
  let acc ← acc.resetStates true
  .ok (acc, n)

/-! ## One-array accumulator with values -/

/-- `SPAEntry<S, V>`, 1A.h:16-20 -/
structure Entry (V : Type _) where
  state : Nat
  value : Option V
  deriving DecidableEq

/-- `MaskedSparseAccumulator1A<KeyT, ValueT, compl>`, 1A.h:45-50 -/
structure Acc1 (V : Type _) where
  entries : List (Entry V)
  dirty : List Nat
  deriving DecidableEq

namespace Acc1

/-- `operator[]`, 1A.h:95-99 -/
def get (acc : Acc1 V) (idx : Nat) : Res (Entry V) := do
  check (idx < acc.entries.length)
  rd acc.entries idx

/-- write through the reference returned by `operator[]` -/
def put (acc : Acc1 V) (idx : Nat) (e : Entry V) : Res (Acc1 V) := do
  let es ← wr acc.entries idx e
  .ok { acc with entries := es }

/-- `setAllowed`, 1A.h:101-106 -/
def setAllowed (compl : Bool) (acc : Acc1 V) (key : Nat) : Res (Acc1 V) := do
  let e ← acc.get key
  check (e.state == NOT_ALLOWED compl)
  acc.put key { e with state := ALLOWED compl }

/-- `setNotAllowed`, 1A.h:108-113 -/
def setNotAllowed (compl : Bool) (acc : Acc1 V) (key : Nat) : Res (Acc1 V) := do
  let e ← acc.get key
  check (e.state == ALLOWED compl)
  acc.put key { e with state := NOT_ALLOWED compl }

/-- `setAllowed` as compiled with `NDEBUG`, 1A.h:101-106. The C++ writes only the state
field of the entry; here the entry is read and written back with the new state. -/
def setAllowedNd (compl : Bool) (acc : Acc1 V) (key : Nat) : Res (Acc1 V) := do
  let e ← rd acc.entries key
  acc.put key { e with state := ALLOWED compl }

/-- `setNotAllowed` as compiled with `NDEBUG`, 1A.h:108-113 -/
def setNotAllowedNd (compl : Bool) (acc : Acc1 V) (key : Nat) : Res (Acc1 V) := do
  let e ← rd acc.entries key
  acc.put key { e with state := NOT_ALLOWED compl }

/-- `setInitialized`, 1A.h:115-121 -/
def setInitialized (compl : Bool) (acc : Acc1 V) (key : Nat) : Res (Acc1 V) := do
  let e ← acc.get key
  check (e.state == ALLOWED compl)
  let acc ← acc.put key { e with state := INITIALIZED }
  .ok { acc with dirty := acc.dirty ++ [key] }

/-- `clear`, 1A.h:131-138 (with `HAS_VALUE`) -/
def clear (compl : Bool) (acc : Acc1 V) (idx : Nat) : Res (Acc1 V) := do
  let e ← acc.get idx
  if e.state = DEFAULT compl then .ok acc
  else acc.put idx { state := DEFAULT compl, value := none }

/-- `resetStates()`, 1A.h:140-143 -/
def resetStates (compl : Bool) (acc : Acc1 V) : Res (Acc1 V) := do
  let acc' ← acc.dirty.foldlM (fun acc idx => acc.clear compl idx) acc
  .ok { acc' with dirty := [] }

/-- `gather<Sorted>`, 1A.h:151-161; `std::sort` by its documented effect -/
def gather (compl sorted : Bool) (acc : Acc1 V) (out : List (Nat × V)) :
    Res (Acc1 V × List (Nat × V)) := do
  let keys := if sorted then acc.dirty.mergeSort (· ≤ ·) else acc.dirty
  let (acc, out) ← keys.foldlM (fun (acc, out) idx => do
    let e ← acc.get idx
    let v ← use e.value
    let acc ← acc.clear compl idx
    .ok (acc, out ++ [(idx, v)])) ({ acc with dirty := keys }, out)
  .ok ({ acc with dirty := [] }, out)

end Acc1

/-- `MSA1A<.., false, false>::numericRow`, MSAAlgorithm.h:157-192 (and
`MSA1A_old::numericRow`, MSAAlgorithm_old.h:72-107). -/
def numericRow1With (mark : Acc1 V → Nat → Res (Acc1 V)) (mul add : V → V → V) (A B M : CSR V) (row : Nat) (acc : Acc1 V) :
    Res (Acc1 V × List (Nat × V)) := do
  let acc ← maskLoop M row acc fun c acc => mark acc c
  let acc ← nest A B row acc fun j k acc => do
    let c ← rd B.colids k
    let e ← acc.get c
    if e.state = ALLOWED false then do
      let a ← rd A.values j
      let b ← rd B.values k
      acc.put c { state := INITIALIZED, value := some (mul a b) }
    else if e.state = INITIALIZED then do
      let a ← rd A.values j
      let b ← rd B.values k
      let v ← use e.value
      acc.put c { e with value := some (add v (mul a b)) }
    else .ok acc
  maskLoop M row (acc, []) fun c (acc, out) => do
    let e ← acc.get c
    let out ← if e.state = INITIALIZED then do
        let v ← use e.value
        .ok (out ++ [(c, v)])
      else .ok out
    let acc ← acc.clear false c
    .ok (acc, out)

/-- `numericRow1` with assertions enabled -/
def numericRow1 (mul add : V → V → V) (A B M : CSR V) (row : Nat) (acc : Acc1 V) :
    Res (Acc1 V × List (Nat × V)) :=
  numericRow1With (Acc1.setAllowed false) mul add A B M row acc

/-- `numericRow1` compiled with `NDEBUG`. The assertions inside the loop over the products hold
whatever the mask is and are kept. -/
def numericRow1Nd (mul add : V → V → V) (A B M : CSR V) (row : Nat) (acc : Acc1 V) :
    Res (Acc1 V × List (Nat × V)) :=
  numericRow1With (Acc1.setAllowedNd false) mul add A B M row acc

/-- `MSA1A<.., true, Sorted>::numericRow`, MSAAlgorithm.h:205-231 -/
def numericRow1CWith (mark : Acc1 V → Nat → Res (Acc1 V)) (sorted : Bool) (mul add : V → V → V) (A B M : CSR V) (row : Nat) (acc : Acc1 V) :
    Res (Acc1 V × List (Nat × V)) := do
  let acc ← maskLoop M row acc fun c acc => mark acc c
  let acc ← nest A B row acc fun j k acc => do
    let c ← rd B.colids k
    let e ← acc.get c
    if e.state = ALLOWED true then do
      let a ← rd A.values j
      let b ← rd B.values k
      let acc ← acc.put c { e with value := some (mul a b) }
      acc.setInitialized true c
    else if e.state = INITIALIZED then do
      let a ← rd A.values j
      let b ← rd B.values k
      let v ← use e.value
      acc.put c { e with value := some (add v (mul a b)) }
    else .ok acc
  let (acc, out) ← acc.gather true sorted []
  let acc ← maskLoop M row acc fun c acc => acc.clear true c
  let acc ← acc.resetStates true
  .ok (acc, out)

/-- `numericRow1C` with assertions enabled -/
def numericRow1C (sorted : Bool) (mul add : V → V → V) (A B M : CSR V) (row : Nat) (acc : Acc1 V) :
    Res (Acc1 V × List (Nat × V)) :=
  numericRow1CWith (Acc1.setNotAllowed true) sorted mul add A B M row acc

/-- `numericRow1C` compiled with `NDEBUG`. The assertions inside the loop over the products hold
whatever the mask is and are kept. -/
def numericRow1CNd (sorted : Bool) (mul add : V → V → V) (A B M : CSR V) (row : Nat) (acc : Acc1 V) :
    Res (Acc1 V × List (Nat × V)) :=
  numericRow1CWith (Acc1.setNotAllowedNd true) sorted mul add A B M row acc

/-! ## Two-array accumulator with values -/

/-- `MaskedSparseAccumulator2A<KeyT, ValueT, compl>` with values, 2A.h:16-20, 43-48 -/
structure Acc2 (V : Type _) where
  states : List Nat
  values : List (Option V)
  dirty : List Nat
  deriving DecidableEq

namespace Acc2

/-- `getState`, 2A.h:99-103 -/
def getState (acc : Acc2 V) (idx : Nat) : Res Nat := do
  check (idx < acc.states.length)
  rd acc.states idx

/-- `getValue`, 2A.h:106-110, followed by a read -/
def getValue (acc : Acc2 V) (idx : Nat) : Res V := do
  check (idx < acc.states.length)
  let v ← rd acc.values idx
  use v

/-- write of a state through a reference -/
def putState (acc : Acc2 V) (idx : Nat) (s : Nat) : Res (Acc2 V) := do
  let st ← wr acc.states idx s
  .ok { acc with states := st }

/-- write of a value through a reference -/
def putValue (acc : Acc2 V) (idx : Nat) (v : Option V) : Res (Acc2 V) := do
  let vs ← wr acc.values idx v
  .ok { acc with values := vs }

/-- `setAllowed`, 2A.h:112-117 -/
def setAllowed (compl : Bool) (acc : Acc2 V) (key : Nat) : Res (Acc2 V) := do
  let s ← acc.getState key
  check (s == NOT_ALLOWED compl)
  acc.putState key (ALLOWED compl)

/-- `setNotAllowed`, 2A.h:119-124 -/
def setNotAllowed (compl : Bool) (acc : Acc2 V) (key : Nat) : Res (Acc2 V) := do
  let s ← acc.getState key
  check (s == ALLOWED compl)
  acc.putState key (NOT_ALLOWED compl)

/-- `setAllowed` as compiled with `NDEBUG`, 2A.h:112-117 -/
def setAllowedNd (compl : Bool) (acc : Acc2 V) (key : Nat) : Res (Acc2 V) :=
  acc.putState key (ALLOWED compl)

/-- `setNotAllowed` as compiled with `NDEBUG`, 2A.h:119-124 -/
def setNotAllowedNd (compl : Bool) (acc : Acc2 V) (key : Nat) : Res (Acc2 V) :=
  acc.putState key (NOT_ALLOWED compl)

/-- `setInitialized`, 2A.h:126-132 -/
def setInitialized (compl : Bool) (acc : Acc2 V) (key : Nat) : Res (Acc2 V) := do
  let s ← acc.getState key
  check (s == ALLOWED compl)
  let acc ← acc.putState key INITIALIZED
  .ok { acc with dirty := acc.dirty ++ [key] }

/-- `clear`, 2A.h:142-149 (with `HAS_VALUE`) -/
def clear (compl : Bool) (acc : Acc2 V) (idx : Nat) : Res (Acc2 V) := do
  let s ← acc.getState idx
  if s ≠ DEFAULT compl then do
    let acc ← acc.putState idx (DEFAULT compl)
    acc.putValue idx none
  else .ok acc

/-- `resetStates()`, 2A.h:151-154 -/
def resetStates (compl : Bool) (acc : Acc2 V) : Res (Acc2 V) := do
  let acc' ← acc.dirty.foldlM (fun acc idx => acc.clear compl idx) acc
  .ok { acc' with dirty := [] }

/-- `gather<Sorted>`, 2A.h:162-172 -/
def gather (compl sorted : Bool) (acc : Acc2 V) (out : List (Nat × V)) :
    Res (Acc2 V × List (Nat × V)) := do
  let keys := if sorted then acc.dirty.mergeSort (· ≤ ·) else acc.dirty
  let (acc, out) ← keys.foldlM (fun (acc, out) idx => do
    let v ← rd acc.values idx
    let v ← use v
    let acc ← acc.clear compl idx
    .ok (acc, out ++ [(idx, v)])) ({ acc with dirty := keys }, out)
  .ok ({ acc with dirty := [] }, out)

end Acc2

/-- `MSA2A<.., false, false>::numericRow`, MSAAlgorithm.h:251-290 (and
`MSA2A_old::numericRow`, MSAAlgorithm_old.h:175-227). -/
def numericRow2With (mark : Acc2 V → Nat → Res (Acc2 V)) (mul add : V → V → V) (A B M : CSR V) (row : Nat) (acc : Acc2 V) :
    Res (Acc2 V × List (Nat × V)) := do
  let acc ← maskLoop M row acc fun c acc => mark acc c
  let acc ← nest A B row acc fun j k acc => do
    let c ← rd B.colids k
    let s ← acc.getState c
    if s = NOT_ALLOWED false then .ok acc
    else if s = ALLOWED false then do
      let a ← rd A.values j
      let b ← rd B.values k
      let acc ← acc.putValue c (some (mul a b))
      acc.putState c INITIALIZED
    else do
      check (s == INITIALIZED)
      let a ← rd A.values j
      let b ← rd B.values k
      let v ← acc.getValue c
      acc.putValue c (some (add v (mul a b)))
  maskLoop M row (acc, []) fun c (acc, out) => do
    let s ← acc.getState c
    let out ← if s = INITIALIZED then do
        let v ← acc.getValue c
        .ok (out ++ [(c, v)])
      else .ok out
    let acc ← acc.clear false c
    .ok (acc, out)

/-- `numericRow2` with assertions enabled -/
def numericRow2 (mul add : V → V → V) (A B M : CSR V) (row : Nat) (acc : Acc2 V) :
    Res (Acc2 V × List (Nat × V)) :=
  numericRow2With (Acc2.setAllowed false) mul add A B M row acc

/-- `numericRow2` compiled with `NDEBUG`. The assertions inside the loop over the products hold
whatever the mask is and are kept. -/
def numericRow2Nd (mul add : V → V → V) (A B M : CSR V) (row : Nat) (acc : Acc2 V) :
    Res (Acc2 V × List (Nat × V)) :=
  numericRow2With (Acc2.setAllowedNd false) mul add A B M row acc

/-- `MSA2A<.., true, Sorted>::numericRow`, MSAAlgorithm.h:303-333 -/
def numericRow2CWith (mark : Acc2 V → Nat → Res (Acc2 V)) (sorted : Bool) (mul add : V → V → V) (A B M : CSR V) (row : Nat) (acc : Acc2 V) :
    Res (Acc2 V × List (Nat × V)) := do
  let acc ← maskLoop M row acc fun c acc => mark acc c
  let acc ← nest A B row acc fun j k acc => do
    let c ← rd B.colids k
    let s ← acc.getState c
    if s = NOT_ALLOWED true then .ok acc
    else if s = ALLOWED true then do
      let a ← rd A.values j
      let b ← rd B.values k
      let acc ← acc.putValue c (some (mul a b))
      acc.setInitialized true c
    else do
      check (s == INITIALIZED)
      let a ← rd A.values j
      let b ← rd B.values k
      let v ← acc.getValue c
      acc.putValue c (some (add v (mul a b)))
  let (acc, out) ← acc.gather true sorted []
  let acc ← maskLoop M row acc fun c acc => acc.clear true c
  let acc ← acc.resetStates true
  .ok (acc, out)

/-- `numericRow2C` with assertions enabled -/
def numericRow2C (sorted : Bool) (mul add : V → V → V) (A B M : CSR V) (row : Nat) (acc : Acc2 V) :
    Res (Acc2 V × List (Nat × V)) :=
  numericRow2CWith (Acc2.setNotAllowed true) sorted mul add A B M row acc

/-- `numericRow2C` compiled with `NDEBUG`. The assertions inside the loop over the products hold
whatever the mask is and are kept. -/
def numericRow2CNd (sorted : Bool) (mul add : V → V → V) (A B M : CSR V) (row : Nat) (acc : Acc2 V) :
    Res (Acc2 V × List (Nat × V)) :=
  numericRow2CWith (Acc2.setNotAllowedNd true) sorted mul add A B M row acc

end Verif.Model.Msa
