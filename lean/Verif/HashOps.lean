import Verif.Model.Hash

/-! # Specification of the hash accumulator: operation sequences on a set and on a map -/

namespace Verif.Spec

open Verif.Model.Hash

/-! ## Specification: a finite set as a list without repetition -/

/-- Operations on the key-only accumulator. -/
inductive SetOp where
  | insert (key : Nat)
  | find (key : Nat)
  | erase (key : Nat)

/-- The operations on a mathematical set: new set and answer. -/
def setSpec (S : List Nat) : SetOp → List Nat × Bool
  | .insert k => if k ∈ S then (S, false) else (k :: S, true)
  | .find k => (S, decide (k ∈ S))
  | .erase k => (S.filter (· ≠ k), decide (k ∈ S))

/-- The same operations on the accumulator. -/
def setImpl (t : Tbl Unit) : SetOp → Res (Tbl Unit × Bool)
  | .insert k => t.insertK false k
  | .find k => do
    let r ← t.find k
    .ok (t, r.isSome)
  | .erase k => t.erase k

/-- Answers of a sequence of operations on the set. -/
def setSpecRun (S : List Nat) : List SetOp → List Bool
  | [] => []
  | op :: ops => (setSpec S op).2 :: setSpecRun (setSpec S op).1 ops

/-- Answers of a sequence of operations on the accumulator. -/
def setImplRun (t : Tbl Unit) : List SetOp → Res (List Bool)
  | [] => .ok []
  | op :: ops => do
    let r ← setImpl t op
    let rest ← setImplRun r.1 ops
    .ok (r.2 :: rest)

/-- At every moment before an operation the set has fewer than `N` elements. -/
def setSmall (N : Nat) (S : List Nat) : List SetOp → Prop
  | [] => True
  | op :: ops => S.length < N ∧ setSmall N (setSpec S op).1 ops

/-- An empty accumulator with capacity `cap` and table size `N`. -/
def emptyTbl {P : Type} (p : P) (cap N : Nat) : Tbl P :=
  { capacity := cap, size := N, table := List.replicate cap ⟨none, p⟩, keys := [] }

/-! ## Specification: a finite map as an association list -/

variable {V : Type}

/-- Operations on the accumulator with values. -/
inductive MapOp (V : Type) where
  | insert (key : Nat) (v : V) (flag : Bool)
  | find (key : Nat)
  /-- find the key and, if it is there, overwrite its value and flag -/
  | assign (key : Nat) (v : V) (flag : Bool)
  | erase (key : Nat)

/-- Answers. -/
inductive MapAns (V : Type) where
  | done (b : Bool)
  | found (r : Option (V × Bool))

/-- The operations on a mathematical finite map. -/
def mapSpec (S : List (Nat × V × Bool)) : MapOp V → List (Nat × V × Bool) × MapAns V
  | .insert k v b => if (S.lookup k).isSome then (S, .done false) else ((k, v, b) :: S, .done true)
  | .find k => (S, .found (S.lookup k))
  | .assign k v b =>
    if (S.lookup k).isSome then ((k, v, b) :: S.filter (fun x => x.1 ≠ k), .done true) else (S, .done false)
  | .erase k => (S.filter (fun x => x.1 ≠ k), .done (S.lookup k).isSome)

/-- The same operations on the accumulator. Reading an unset value or flag is an error. -/
def mapImpl (t : Tbl (Val V)) : MapOp V → Res (Tbl (Val V) × MapAns V)
  | .insert k v b => do
    let r ← t.insertV false k v b
    .ok (r.1, .done r.2)
  | .find k => do
    let r ← t.find k
    match r with
    | none => .ok (t, .found none)
    | some i => do
      let e ← rd t.table i
      let v ← use e.val.v1
      let b ← use e.val.v2
      .ok (t, .found (some (v, b)))
  | .assign k v b => do
    let r ← t.find k
    match r with
    | none => .ok (t, .done false)
    | some i => do
      let e ← rd t.table i
      let t ← t.put i { e with val := ⟨some v, some b⟩ }
      .ok (t, .done true)
  | .erase k => do
    let r ← t.erase k
    .ok (r.1, .done r.2)

/-- Answers of a sequence of operations on the map. -/
def mapSpecRun (S : List (Nat × V × Bool)) : List (MapOp V) → List (MapAns V)
  | [] => []
  | op :: ops => (mapSpec S op).2 :: mapSpecRun (mapSpec S op).1 ops

/-- Answers of a sequence of operations on the accumulator. -/
def mapImplRun (t : Tbl (Val V)) : List (MapOp V) → Res (List (MapAns V))
  | [] => .ok []
  | op :: ops => do
    let r ← mapImpl t op
    let rest ← mapImplRun r.1 ops
    .ok (r.2 :: rest)

/-- At every moment before an operation the map has fewer than `N` entries. -/
def mapSmall (N : Nat) (S : List (Nat × V × Bool)) : List (MapOp V) → Prop
  | [] => True
  | op :: ops => S.length < N ∧ mapSmall N (mapSpec S op).1 ops

end Verif.Spec
