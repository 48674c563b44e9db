import Verif.SpecTri
import Verif.SpecBench
import Mathlib.Algebra.BigOperators.Group.Finset.Basic
import Mathlib.Data.Fintype.BigOperators

/-!
# Peeling a graph, and what the k-truss program runs in each mode

Independent of the model of the code. Used to state C92.
-/

namespace Verif.Spec

variable {n : Nat}

/-- The number of edges -/
noncomputable def edges (G : SimpleGraph (Fin n)) : Nat := G.edgeSet.ncard

/-- The number of walks with two steps: `u - v - w`, where `u = w` is allowed -/
noncomputable def walks (G : SimpleGraph (Fin n)) : Nat := ∑ v, degree G v ^ 2

/-- Without the edges that lie in fewer than `k - 2` triangles -/
def peel (k : Nat) (G : SimpleGraph (Fin n)) : SimpleGraph (Fin n) where
  Adj u v := G.Adj u v ∧ k - 2 ≤ support G u v ∧ k - 2 ≤ support G v u
  symm := ⟨fun _ _ h => ⟨h.1.symm, h.2.2, h.2.1⟩⟩
  loopless := ⟨fun u h => G.loopless.irrefl u h.1⟩

/-- The graph after `r` rounds of peeling -/
def after (k : Nat) (G : SimpleGraph (Fin n)) : Nat → SimpleGraph (Fin n)
  | 0 => G
  | r + 1 => peel k (after k G r)

/-- Round `r` is the first one that removes nothing. -/
structure IsRounds (k : Nat) (G : SimpleGraph (Fin n)) (r : Nat) : Prop where
  pos : 0 < r
  done : after k G r = after k G (r - 1)
  first : ∀ s, 0 < s → s < r → after k G s ≠ after k G (s - 1)

/-- The numbers of threads with which a program runs: those that it is given, or powers of two -/
def threadCounts (args : List Nat) : List Nat := if args = [] then [1, 2, 4, 8, 16, 32, 64] else args

/-- The algorithms of the library that the k-truss program runs in a mode, as named in the log. With `noHeap`, the benchmark runs without the
heap algorithms. -/
def ktrussNames (mode : List Char) (noHeap : Bool) : List (List Char) :=
  let grb := ["DEFAULT", "DOT-TRANSPOSE", "SAXPY", "GUSTAVSON", "HASH"].map fun x => "GxB_AxB_".toList ++ x.toList ++ "-sorted".toList
  let msa := ["MaskedSPASpGEMM".toList] ++ bothPhases "MSA2A_old" ++ bothPhases "MSA2A<false,false>" ++ bothPhases "MSA1A_old" ++ bothPhases "MSA1A<false,false>"
  let hash := ["mxm_hash_mask_wobin".toList, "mxm_hash_mask".toList] ++ bothPhases "MaskedHash<false,false>"
  let heap := bothPhases "MaskedHeap_v0" ++ bothPhases "MaskedHeap<false,true,0>" ++ bothPhases "MaskedHeap_v1" ++ bothPhases "MaskedHeap<false,true,1>" ++
    bothPhases "MaskedHeap<false,true,8>" ++ bothPhases "MaskedHeap<false,true,64>" ++ bothPhases "MaskedHeap<false,true,512>" ++
    bothPhases "MaskedHeap_v2" ++ bothPhases "MaskedHeap<false,true,MaskedHeapDot>"
  let each := ["MaskedInner", "MaskedHeap<false,true,1>", "MaskedHeap<false,true,MaskedHeapDot>", "MaskedHash<false,false>", "MSA1A<false,false>",
    "MSA2A<false,false>", "MCA<false,false>"]
  let bench := (if noHeap then [] else ["MaskedHeap<false,true,1>", "MaskedHeap<false,true,MaskedHeapDot>"]) ++
    ["MaskedHash<false,false>", "MSA2A<false,false>", "MCA<false,false>", "MaskedInner"]
  if mode = "grb".toList then grb else if mode = "msa".toList then msa else if mode = "hash".toList then hash
  else if mode = "heap".toList then heap else if mode = "all".toList then grb ++ msa ++ hash ++ heap
  else if mode = "all1p".toList then (each.map fun x => x.toList ++ "-1P".toList) ++ ["MaskedSpGEMM1p".toList]
  else if mode = "all2p".toList then each.map fun x => x.toList ++ "-2P".toList
  else if mode = "benchmark".toList then grb ++ (bench.map fun x => x.toList ++ "-1P".toList) ++ (bench.map fun x => x.toList ++ "-2P".toList)
  else []

/-- The modes in which the k-truss program runs a kernel that only works for fewer than `2^17 - 1` rows -/
def ktrussBins : List (List Char) := ["msa".toList, "hash".toList, "all".toList]

end Verif.Spec
