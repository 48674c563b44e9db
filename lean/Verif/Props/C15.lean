import Verif.Lemmas.HashOps

/-! # C15: the hash accumulator behaves as a finite set / map -/

namespace Verif.Props

open Verif.Model.Hash Verif.Spec

variable {V : Type}

/-- C15, set: every sequence of insert, find and erase operations gives the answers of a mathematical set, as
long as the number of stored keys is below the table size before each operation. -/
theorem C15_set {cap k : Nat} (hc : 2 ^ k ≤ cap) (ops : List SetOp) (hs : setSmall (2 ^ k) [] ops) :
    setImplRun (emptyTbl () cap (2 ^ k)) ops = .ok (setSpecRun [] ops) := by
  rw [emptyTbl_eq]
  apply setRun_eq ops []
  · exact (Rep.empty (Pay := fun _ _ => True) ⟨k, rfl⟩ hc (fun _ _ => rfl)).mono (by simp) (fun _ _ h _ => h.elim)
  · exact hs

/-- The hypotheses hold for a run in a table of 4 slots with colliding keys: 1, 5, 9 share a slot. -/
example : setImplRun (emptyTbl () 16 4) [.insert 1, .insert 5, .insert 9, .erase 1, .find 9, .find 1, .insert 5] =
    .ok [true, true, true, true, true, false, false] :=
  C15_set (k := 2) (by decide) _ (by simp [setSmall, setSpec])

/-- C15, map: every sequence of insert, find, assign and erase operations gives the answers of a mathematical
finite map, as long as the number of stored keys is below the table size before each operation. -/
theorem C15_map {cap k : Nat} (hc : 2 ^ k ≤ cap) (ops : List (MapOp V)) (hs : mapSmall (2 ^ k) [] ops) :
    mapImplRun (emptyTbl blank cap (2 ^ k)) ops = .ok (mapSpecRun [] ops) := by
  rw [emptyTbl_eq]
  apply mapRun_eq ops []
  · exact (Rep.empty (Pay := fun _ _ => True) ⟨k, rfl⟩ hc (fun _ _ => rfl)).mono (by simp) (fun _ _ h _ => h.elim)
  · exact hs

example : mapImplRun (emptyTbl blank 16 4) [.insert 1 'a' true, .insert 5 'b' false, .insert 9 'c' true, .erase 1,
      .assign 9 'd' false, .find 9, .find 1] =
    .ok [.done true, .done true, .done true, .done true, .done true, .found (some ('d', false)), .found none] :=
  C15_map (k := 2) (by decide) _ (by
    simp [mapSmall, mapSpec, List.lookup])

/-- The bound on the number of keys is needed: in a full table a search for another key never ends. -/
theorem C15_full_diverges :
    setImplRun (emptyTbl () 4 4) [.insert 0, .insert 1, .insert 2, .insert 3, .find 4] = .error .diverge := by
  decide +kernel

end Verif.Props
