import Verif.Model.HeapAlg

/-! # Specification of the merge heap: operation sequences on a multiset of entries -/

namespace Verif.Spec

open Verif.Model.Heap

/-- Operations on a non-empty heap: remove the top, or overwrite the top by another entry and sink it.
On an empty heap they do nothing. -/
inductive HeapOp where
  | pop
  | replace (e : Ent)

/-- `HeapRun l ops l'`: starting from the entries `l`, the operations can leave the entries `l'`. Each operation
acts on some entry with a smallest key. Lists stand for multisets. -/
inductive HeapRun : List Ent → List HeapOp → List Ent → Prop
  | nil {l l'} : l.Perm l' → HeapRun l [] l'
  | empty {op ops} {l'} : HeapRun [] ops l' → HeapRun [] (op :: ops) l'
  | pop {l e r ops l'} : l.Perm (e :: r) → (∀ x ∈ r, e.key ≤ x.key) → HeapRun r ops l' → HeapRun l (.pop :: ops) l'
  | replace {l e r e' ops l'} : l.Perm (e :: r) → (∀ x ∈ r, e.key ≤ x.key) → HeapRun (e' :: r) ops l' →
      HeapRun l (.replace e' :: ops) l'

/-- The operations of `Heap.h`. -/
def heapImpl (h : HP) : HeapOp → Res HP
  | .pop => if h.es.isEmpty then .ok h else h.pop
  | .replace e => if h.es.isEmpty then .ok h else do
    let h ← h.setTop e
    h.sinkRoot

/-- A sequence of operations. -/
def heapRun (h : HP) : List HeapOp → Res HP
  | [] => .ok h
  | op :: ops => do
    let h ← heapImpl h op
    heapRun h ops

/-- Fill an empty heap and call `make`. -/
def heapBuild (cap : Nat) (es : List Ent) : Res HP := do
  let h ← es.foldlM (fun (h : HP) e => h.append e.key e.runr e.loc) ⟨cap, []⟩
  h.make

end Verif.Spec
