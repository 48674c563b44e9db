import Verif.Model.MatObj
import Verif.SpecConv
import Mathlib.Data.List.Forall2

/-!
# Specification of matrix variables: they hold values

Programs over matrix variables as a reader of the code would understand them: every variable holds a matrix, copies and
assignments copy the whole matrix, and a change of one variable never shows in another. There is no memory.
Only the statements (`Op`) and the class (`Kind`) are shared with the model.
-/

namespace Verif.Spec
open MatObj (Op Kind)

variable {V : Type}

/-- A matrix value: dimensions, number of entries and the three arrays. -/
structure Mat (V : Type) where
  maj : Nat
  min : Nat
  nnz : Nat
  ptr : List Nat
  ids : List Nat
  vals : List V
  zb : Bool
  deriving DecidableEq, Repr

/-- the value of a variable; using a destroyed or undeclared variable is an error of the program -/
def val (env : List (Option (Mat V))) (x : Nat) : Res (Mat V) :=
  match env[x]? with
  | some (some o) => .ok o
  | some none => .error .freed
  | none => .error .oob

/-- One statement on values. Errors are errors of the program: a failing assertion of a constructor, an index
out of range, or a variable that does not exist. -/
def valStep (k : Kind) (dflt : V) (env : List (Option (Mat V))) : Op V → Res (List (Option (Mat V)))
  | .default => .ok (env ++ [some ⟨0, 0, 0, [], [], [], true⟩])
  | .sized nnz maj min => do
    check (decide (maj ≠ 0 ∧ (k = .csc → nnz ≠ 0)))
    .ok (env ++ [some ⟨maj, min, nnz, List.replicate (maj + 1) 0, List.replicate nnz 0,
      List.replicate nnz dflt, true⟩])
  | .copy src => do
    let m ← val env src
    .ok (env ++ [some m])
  | .assign dst src => do
    let _ ← val env dst
    let m ← val env src
    .ok (env.set dst (some m))
  | .makeEmpty x => do
    let m ← val env x
    .ok (env.set x (some ⟨0, 0, 0, [], [], [], m.zb⟩))
  | .destroy x => do
    let _ ← val env x
    .ok (env.set x none)
  | .setPtr x i v => do
    let m ← val env x
    let l ← wr m.ptr i v
    .ok (env.set x (some { m with ptr := l }))
  | .setId x i v => do
    let m ← val env x
    let l ← wr m.ids i v
    .ok (env.set x (some { m with ids := l }))
  | .setVal x i v => do
    let m ← val env x
    let l ← wr m.vals i v
    .ok (env.set x (some { m with vals := l }))

/-- A program on values. -/
def valRun (k : Kind) (dflt : V) (ops : List (Op V)) (env : List (Option (Mat V))) :
    Res (List (Option (Mat V))) :=
  ops.foldlM (valStep k dflt) env

/-- Memory and variables after a run stand for the values `env`: every variable can be read through
its pointers and yields the arrays of its value; every allocated block belongs to exactly one variable. -/
structure RepresentsVars (s : MatObj.State V) (env : List (Option (Mat V))) : Prop where
  length : s.env.length = env.length
  dead : ∀ x : Nat, s.env[x]? = some none ↔ env[x]? = some none
  reads : ∀ (x : Nat) o m, s.env[x]? = some (some o) → env[x]? = some (some m) →
    o.maj = m.maj ∧ o.min = m.min ∧ o.nnz = m.nnz ∧ o.zb = m.zb ∧
    (0 < m.nnz → MatObj.ints s.heap o.ids = .ok m.ids ∧ MatObj.vals s.heap o.vals = .ok m.vals) ∧
    (0 < m.maj → MatObj.ints s.heap o.ptr = .ok m.ptr) ∧
    m.ids.length = m.nnz ∧ m.vals.length = m.nnz ∧ m.ptr.length = (if m.maj = 0 then 0 else m.maj + 1)
  owner : ∀ (p : Nat) b, s.heap[p]? = some (some b) →
    ∃ (x : Nat) (o : MatObj.Obj), s.env[x]? = some (some o) ∧
      (0 < o.nnz ∧ (o.ids = some p ∨ o.vals = some p) ∨ 0 < o.maj ∧ o.ptr = some p)
  alone : ∀ (x y : Nat) o r p, s.env[x]? = some (some o) → s.env[y]? = some (some r) →
    (0 < o.nnz ∧ (o.ids = some p ∨ o.vals = some p) ∨ 0 < o.maj ∧ o.ptr = some p) →
    (0 < r.nnz ∧ (r.ids = some p ∨ r.vals = some p) ∨ 0 < r.maj ∧ r.ptr = some p) → x = y

/-! ## Equality -/

/-- The value of a matrix variable as a matrix. For a CSC variable this is the transposed matrix. -/
def Mat.toCSR (m : Mat V) : CSR V := ⟨m.maj, m.min, m.nnz, m.ptr, m.ids, m.vals, m.zb⟩

/-- Well-formed, zero-based or one-based. -/
def WFAny (A : CSR V) : Prop :=
  ∃ A0 : CSR V, A0.WF ∧
    (A = A0 ∨ A = { A0 with rowptr := A0.rowptr.map (· + 1), colids := A0.colids.map (· + 1), zerobased := false })

/-- Same shape, same stored positions in the same order, and values that count as equal. -/
def SameUpTo (close : V → V → Bool) (A B : CSR V) : Prop :=
  A.rows = B.rows ∧ A.cols = B.cols ∧
    List.Forall₂ (fun x y => x.1 = y.1 ∧ x.2.1 = y.2.1 ∧ close x.2.2 y.2.2 = true) (logical A) (logical B)

end Verif.Spec
