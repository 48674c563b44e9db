import Verif.SpecDense
import Verif.SpecIO
import Verif.Run

/-!
# What the benchmark programs report

Independent of the model of the code. Used to state C79 and C80.
-/

namespace Verif.Spec

open Verif.Model (Scheds)

variable {R : Type} {n : Nat}

/-- The position `(i, j)` is among the entries `es` (row, column, value). -/
def Stored (es : List (Nat × Nat × R)) (i j : Nat) : Prop := ∃ e ∈ es, (e.1, e.2.1) = (i, j)

/-- The matrix with the entries `es`. -/
def entryMat [Semiring R] (n : Nat) (es : List (Nat × Nat × R)) : Matrix (Fin n) (Fin n) R :=
  Matrix.of fun i j => (es.filterMap fun e => if e.1 = i.val ∧ e.2.1 = j.val then some e.2.2 else none).sum

/-- Pairs of vertices joined by a path of two edges but not by an edge. -/
def openPairs (n : Nat) (es : List (Nat × Nat × R)) : Set (Fin n × Fin n) :=
  {p | ¬Stored es p.1 p.2 ∧ ∃ k, Stored es p.1 k ∧ Stored es k p.2}

open Classical in
/-- The sum of the entries of the square of the matrix at positions that are not stored. -/
noncomputable def openSum [Semiring R] (n : Nat) (es : List (Nat × Nat × R)) : R :=
  ∑ i : Fin n, ∑ j : Fin n, if Stored es i j then 0 else (entryMat n es * entryMat n es) i j

/-- A name for the log, in the variants for one and two phases -/
def bothPhases (x : String) : List (List Char) := [x.toList ++ "-1P".toList, x.toList ++ "-2P".toList]

/-- The algorithms that the program for complemented masks runs in a mode, as named in the log -/
def complNames (mode : List Char) : List (List Char) :=
  let heap := bothPhases "MaskedHeap<true,true,0>"
  let hash := bothPhases "MaskedHash<true,false>" ++ bothPhases "MaskedHash<true,true>"
  let msa := bothPhases "MSA1A<true,false>" ++ bothPhases "MSA1A<true,true>" ++ bothPhases "MSA2A<true,false>" ++ bothPhases "MSA2A<true,true>"
  if mode = "heap".toList then heap else if mode = "hash".toList then hash else if mode = "msa".toList then msa
  else if mode = "all".toList then heap ++ hash ++ msa else []

/-- `"1"` or `"2"` -/
def phases (two : Bool) : List Char := if two then ['2'] else ['1']

/-- The text of an algorithm in the programs and the name meant for the log: templates of row algorithms with their nested `Impl`, other
templates, and algorithms that are named directly. Spaces are not shown. -/
inductive Shown : List Char → List Char → Prop
  | impl (two : Bool) (x : List Char) (h : ¬"MaskedSpGEMM2p<".toList <+: x) :
      Shown ("(MaskedSpGEMM".toList ++ phases two ++ "p<".toList ++ x ++ "::Impl>)".toList)
        (x.filter (· ≠ ' ') ++ "-".toList ++ phases two ++ "P".toList)
  | templ (two : Bool) (x : List Char) (h : ¬"MaskedSpGEMM2p<".toList <+: x) (h' : ¬"::Impl".toList <:+ x) :
      Shown ("MaskedSpGEMM".toList ++ phases two ++ "p<".toList ++ x ++ ">".toList)
        (x.filter (· ≠ ' ') ++ "-".toList ++ phases two ++ "P".toList)
  | plain (x : List Char) (h : x ≠ []) (h' : ∀ c ∈ x, c ∉ "()<>:".toList) : Shown x (x.filter (· ≠ ' '))

/-- `base` is the last component of `path`. -/
def IsFileName (path base : List Char) : Prop :=
  '/' ∉ base ∧ (path = base ∨ ∃ dir, path = dir ++ '/' :: base)

/-- A program with many calls (numbered by `ι`) never fails, returns nothing but `x`, and does return when every thread gets enough turns
in every call. -/
structure ReturnsAll {ι α : Type} (prog : (ι → Scheds) → Res (Option α)) (rows threads : Nat) (x : α) : Prop where
  safe : ∀ schs, (∀ i, Admissible rows (schs i)) → prog schs = .ok none ∨ prog schs = .ok (some x)
  live : ∃ K, ∀ schs, (∀ i, Admissible rows (schs i)) → (∀ i, Fair threads K (schs i)) → prog schs = .ok (some x)

end Verif.Spec
