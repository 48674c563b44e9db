import Verif.SpecTruss

/-!
# Paths of rising degree, and what the triangle counting program with GraphBLAS runs in each mode

Independent of the model of the code. Used to state C93.
-/

namespace Verif.Spec

variable {n : Nat}

/-- `v` has a larger degree than `u`, or the same degree and a larger number. -/
def below (G : SimpleGraph (Fin n)) (u v : Fin n) : Prop := degree G u < degree G v ∨ degree G u = degree G v ∧ u < v

/-- The number of paths `u - v - w` on which the degree (and the number, if the degree is the same) rises -/
noncomputable def rising (G : SimpleGraph (Fin n)) : Nat :=
  {p : Fin n × Fin n × Fin n | (G.Adj p.1 p.2.1 ∧ below G p.1 p.2.1) ∧ G.Adj p.2.1 p.2.2 ∧ below G p.2.1 p.2.2}.ncard

/-- The number of edges `u - w` for which there is such a path from `u` to `w` -/
noncomputable def bridged (G : SimpleGraph (Fin n)) : Nat :=
  {p : Fin n × Fin n | (G.Adj p.1 p.2 ∧ below G p.1 p.2) ∧ ∃ v, (G.Adj p.1 v ∧ below G p.1 v) ∧ G.Adj v p.2 ∧ below G v p.2}.ncard

/-- The algorithms that the program runs in a mode, as named in the log. The name of the first one of the mode `inner` is cut short. -/
def triGrbNames (mode : List Char) : List (List Char) :=
  let grb := ["DEFAULT", "DOT-TRANSPOSE", "DOT", "SAXPY", "GUSTAVSON", "HASH"].map fun x => "GxB_AxB_".toList ++ x.toList ++ "-sorted".toList
  let inner := ["innerSpGEMM_nohash<false,false".toList, "MaskedSpGEMM1pInnerProduct".toList, "MaskedSpGEMM2pInnerProduct".toList] ++ bothPhases "MaskedInner"
  let msa := ["MaskedSPASpGEMM".toList] ++ bothPhases "MSA2A_old" ++ bothPhases "MSA2A<false,false>" ++ bothPhases "MSA1A_old" ++ bothPhases "MSA1A<false,false>"
  let hash := ["mxm_hash_mask_wobin".toList, "mxm_hash_mask".toList] ++ bothPhases "MaskedHash<false,false>"
  let heap := bothPhases "MaskedHeap_v0" ++ bothPhases "MaskedHeap<false,true,0>" ++ bothPhases "MaskedHeap_v1" ++ bothPhases "MaskedHeap<false,true,1>" ++
    bothPhases "MaskedHeap<false,true,8>" ++ bothPhases "MaskedHeap<false,true,64>" ++ bothPhases "MaskedHeap<false,true,512>" ++
    bothPhases "MaskedHeap_v2" ++ bothPhases "MaskedHeap<false,true,MaskedHeapDot>"
  let each := ["MaskedInner", "MaskedHeap<false,true,1>", "MaskedHeap<false,true,MaskedHeapDot>", "MaskedHash<false,false>", "MSA1A<false,false>",
    "MSA2A<false,false>", "MCA<false,false>"]
  let bench := ["MaskedHeap<false,true,1>", "MaskedHeap<false,true,MaskedHeapDot>", "MaskedHash<false,false>", "MSA2A<false,false>", "MCA<false,false>", "MaskedInner"]
  if mode = "grb".toList then grb else if mode = "inner".toList ∨ mode = "dot".toList then inner else if mode = "msa".toList then msa
  else if mode = "hash".toList then hash else if mode = "heap".toList then heap
  else if mode = "all".toList then grb ++ inner ++ msa ++ hash ++ heap
  else if mode = "all1p".toList then each.map fun x => x.toList ++ "-1P".toList
  else if mode = "all2p".toList then each.map fun x => x.toList ++ "-2P".toList
  else if mode = "benchmark".toList then grb ++ (bench.map fun x => x.toList ++ "-1P".toList) ++ (bench.map fun x => x.toList ++ "-2P".toList)
  else []

/-- The modes in which this program runs a kernel that only works for fewer than `2^17 - 1` rows -/
def triGrbBins : List (List Char) := ["inner".toList, "dot".toList, "msa".toList, "hash".toList, "all".toList]

end Verif.Spec
