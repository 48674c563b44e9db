import Verif.Lemmas.RaceCoverOld
import Verif.Lemmas.RaceHeap

/-!
# What the last region of the older heap kernel changes is listed as written
-/

namespace Verif.Model.RaceHeap
open RaceOld
open Alias (bind_ok')

variable {V : Type}

theorem wr_zero {m : Nat} {xs : List Nat} (h : wr (List.replicate m 0) 0 0 = .ok xs) : xs = List.replicate m 0 := by
  have := (RaceDot.set_of_wr h).2
  rw [this]
  cases m <;> rfl

theorem stored_heap {mul add : V → V → V} {zero : V} {A B : CSC V} {n : Nat} {w1 w2 w3 : Nat → Nat} {team alloc sizes : List Nat}
    {sch : HeapMult.Sched} {C : CSC V} (h : HeapMult.heapSpGEMM mul add zero A B n sch = .ok (some C)) :
    ∃ pre last, allTraces mul add zero A B n w1 w2 w3 team alloc sizes sch = pre ++ [last] ∧ pre.length = 8 ∧
      (∀ k < C.rowids.length, C.rowids[k]? ≠ some 0 → ∃ t < n, (t, ⟨.numbers, k, true⟩) ∈ last) ∧
      (∀ k < C.values.length, C.values[k]? ≠ some zero → ∃ t < n, (t, ⟨.values, k, true⟩) ∈ last) := by
  unfold HeapMult.heapSpGEMM at h
  obtain ⟨p, e1, h⟩ := bind_ok' h
  obtain _ | ⟨maxnnzc, colStart, colEnd, colPer⟩ := p
  · cases h
  obtain ⟨_, _, h⟩ := bind_ok' h
  obtain ⟨_, _, h⟩ := bind_ok' h
  obtain ⟨r, e2, h⟩ := bind_ok' h
  obtain _ | ⟨colEnd2, ls⟩ := r
  · cases h
  have hp := e1
  unfold HeapMult.plan at hp
  obtain ⟨⟨mx, flops⟩, f1, hp⟩ := bind_ok' hp
  obtain ⟨cp, _, hp⟩ := bind_ok' hp
  obtain ⟨cs, f2, hp⟩ := bind_ok' hp
  cases wr_zero f2
  obtain ⟨ce, _, hp⟩ := bind_ok' hp
  obtain ⟨r, f3, hp⟩ := bind_ok' hp
  obtain _ | cs2 := r
  · cases hp
  change HeapMult.finish zero A B n colStart colEnd2 colPer ls sch = .ok (some C) at h
  unfold HeapMult.finish at h
  obtain ⟨cptr, g1, h⟩ := bind_ok' h
  cases wr_zero g1
  obtain ⟨colNz, g2, h⟩ := bind_ok' h
  obtain ⟨r, g3, h⟩ := bind_ok' h
  obtain _ | colptr := r
  · cases h
  obtain ⟨nnz, g4, h⟩ := bind_ok' h
  obtain ⟨r, g5, h⟩ := bind_ok' h
  obtain _ | ⟨⟨ri, vs⟩, x⟩ := r
  · cases h
  cases h
  obtain ⟨b1, b2⟩ := block_writes (prog := copyProg colStart colEnd2 colptr)
    (fun i a g => exec_copyProg colStart colEnd2 colptr i a g.1 g.2) g5
  unfold allTraces heapTraces
  simp only [f1, f3, e1, e2, done_ok, g2, g3, g4]
  exact ⟨[_, _, _, _, _, _, _, _], _, rfl, rfl, fun k hk hne => b1 k (ne_replicate hk hne), fun k hk hne => b2 k (ne_replicate hk hne)⟩

end Verif.Model.RaceHeap
