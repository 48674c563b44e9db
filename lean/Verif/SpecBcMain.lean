import Verif.SpecBc
import Verif.SpecIO
import Verif.SpecTruss
import Mathlib.Algebra.Order.Field.Rat

/-!
# Directed graphs in files, vertices between two others, and what the betweenness centrality program runs in each mode

Independent of the model of the code. Used to state C94.
-/

namespace Verif.Spec

variable {V : Type} {n : Nat}

/-- The arcs of the directed graph with the entries `es`: without loops. With `both` every entry stands for both directions. -/
def arcs (n : Nat) (both : Bool) (es : List (Nat × Nat × V)) (u v : Fin n) : Prop :=
  u ≠ v ∧ ((∃ e ∈ es, e.1 = u ∧ e.2.1 = v) ∨ both = true ∧ ∃ e ∈ es, e.1 = v ∧ e.2.1 = u)

/-- The number of vertices between `s` and `t` on a shortest path; 0 if there is no path. -/
noncomputable def between (R : Fin n → Fin n → Prop) (s t : Fin n) : Nat := sInf {k | ∃ l, IsPath R s t l ∧ k = l.length - 2}

/-- These numbers added up over the sources and all vertices -/
noncomputable def betweenAll (R : Fin n → Fin n → Prop) (srcs : List (Fin n)) : Nat := (srcs.map fun s => ∑ t, between R s t).sum

/-- The number of sources that is asked for with `x`: below 1 it is a share of the vertices, `prod` is the product with the number of vertices, which
is rounded; otherwise it is a number, of which the fractional part is dropped. -/
def IsCount (x prod : Rat) (s : Nat) : Prop := if x < 1 then (s : Rat) - 1 / 2 ≤ prod ∧ prod < s + 1 / 2 else (s : Rat) ≤ x ∧ x < s + 1

/-- The algorithms that the program runs in a mode, as named in the log -/
def bcNames (mode : List Char) (disableHeap : Bool) : List (List Char) :=
  let grb := ["DEFAULT", "DOT-TRANSPOSE", "SAXPY", "GUSTAVSON", "HASH"].map fun x => "GxB_AxB_".toList ++ x.toList
  let heap := bothPhases "MaskedHeap<false,true,0>"
  let hash := bothPhases "MaskedHash<false,false>"
  let msa := bothPhases "MSA1A<false,false>" ++ bothPhases "MSA2A<false,false>"
  let bench := (if disableHeap then [] else ["MaskedHeap<false,true,0>"]) ++ ["MaskedHash<false,false>", "MSA2A<false,false>"]
  if mode = "grb".toList then grb else if mode = "heap".toList then heap else if mode = "hash".toList then hash
  else if mode = "msa".toList then msa else if mode = "all".toList then grb ++ heap ++ hash ++ msa
  else if mode = "benchmark".toList then grb ++ (bench.map fun x => x.toList ++ "-1P".toList) ++ (bench.map fun x => x.toList ++ "-2P".toList)
  else []

/-- Does the program run the heap algorithm in this mode? -/
def bcHeap (mode : List Char) (disableHeap : Bool) : Prop :=
  mode = "heap".toList ∨ mode = "all".toList ∨ mode = "benchmark".toList ∧ disableHeap = false

end Verif.Spec
