import Verif.SpecBench
import Verif.SpecTri

/-! # Specification: what the triangle counting program runs in each mode -/

namespace Verif.Spec

/-- The algorithms that the program for triangles runs in a mode, as named in the log. The name of the first one is cut short. -/
def triNames (mode : List Char) : List (List Char) :=
  let inner := ["innerSpGEMM_nohash<false,false".toList, "MaskedSpGEMM1pInnerProduct".toList, "MaskedSpGEMM2pInnerProduct".toList] ++ bothPhases "MaskedInner"
  let msa := ["MaskedSPASpGEMM".toList] ++ bothPhases "MSA2A_old" ++ bothPhases "MSA2A<false,false>" ++ bothPhases "MSA1A_old" ++ bothPhases "MSA1A<false,false>"
  let hash := ["mxm_hash_mask_wobin".toList, "mxm_hash_mask".toList] ++ bothPhases "MaskedHash<false,false>"
  let heap := bothPhases "MaskedHeap_v0" ++ bothPhases "MaskedHeap<false,true,0>" ++ bothPhases "MaskedHeap_v1" ++ bothPhases "MaskedHeap<false,true,1>" ++
    bothPhases "MaskedHeap<false,true,8>" ++ bothPhases "MaskedHeap<false,true,64>" ++ bothPhases "MaskedHeap<false,true,512>" ++
    bothPhases "MaskedHeap_v2" ++ bothPhases "MaskedHeap<false,true,MaskedHeapDot>"
  let each := ["MaskedInner", "MaskedHeap<false,true,1>", "MaskedHeap<false,true,MaskedHeapDot>", "MaskedHash<false,false>", "MSA1A<false,false>",
    "MSA2A<false,false>", "MCA<false,false>"]
  if mode = "inner".toList ∨ mode = "dot".toList then inner else if mode = "msa".toList then msa else if mode = "hash".toList then hash
  else if mode = "heap".toList then heap else if mode = "intersect".toList then ["HashIntersect".toList]
  else if mode = "all".toList then inner ++ msa ++ hash ++ heap ++ ["HashIntersect".toList]
  else if mode = "all1p".toList then (each.map fun x => x.toList ++ "-1P".toList) ++ ["MaskedSpGEMM1p".toList]
  else if mode = "all2p".toList then each.map fun x => x.toList ++ "-2P".toList
  else []

/-- The modes in which the program runs a kernel that only works for fewer than `2^17 - 1` rows -/
def binModes : List (List Char) := ["inner".toList, "dot".toList, "msa".toList, "hash".toList, "intersect".toList, "all".toList]

end Verif.Spec
