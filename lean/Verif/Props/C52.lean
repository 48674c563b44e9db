import Verif.Lemmas.Bc
import Verif.Props.Examples
import Mathlib.Algebra.Order.Field.Rat
import Mathlib.Data.Rat.Cast.CharZero

/-! # C52: betweenness centrality -/

namespace Verif.Props

open Verif.Model Verif.Model.Bc Verif.Spec

variable {K : Type} [Field K] [DecidableEq K] [CharZero K] {n : Nat}

/-- C52: for every directed graph and every batch of sources, the program makes no error under any schedules of its
rounds; it ends (with at most `n` rounds of the first loop) when the threads get enough turns in every round; and the
vector it returns holds the betweenness centrality of every vertex for that batch. This holds for every pair of
algorithms for the plain and the complemented multiply, one- or two-phase, and any number of threads. -/
theorem C52_betweenness {R : Fin n → Fin n → Prop} {A : CSR K} (h : RepresentsD R A) {srcs : List (Fin n)}
    (hs : srcs ≠ []) {fp fc : Callee} (hp : OkPlain fp.kind (n * srcs.length)) (hc : OkCmpl fc.kind) {nt dflt : Nat}
    (ht : 0 < setNumThreads nt dflt) :
    ∃ T, ∀ fuel, n < fuel →
      (∀ sch sch', (∀ i, Admissible n (sch i)) → (∀ i, Admissible n (sch' i)) →
        bc fp fc A (srcs.map Fin.val) nt dflt sch sch' fuel = .ok none ∨
        bc fp fc A (srcs.map Fin.val) nt dflt sch sch' fuel =
          .ok (some (List.ofFn fun v : Fin n => some (centrality K R srcs v)))) ∧
      (∀ sch sch', (∀ i, Admissible n (sch i)) → (∀ i, Admissible n (sch' i)) →
        (∀ i, Fair (setNumThreads nt dflt) T (sch i)) → (∀ i, Fair (setNumThreads nt dflt) T (sch' i)) →
        bc fp fc A (srcs.map Fin.val) nt dflt sch sch' fuel =
          .ok (some (List.ofFn fun v : Fin n => some (centrality K R srcs v)))) := by
  have hA : Has A fun i j : Fin n => entry A i j := by
    refine ⟨h.wf, h.rows, h.cols, h.sorted, fun i j v => ?_⟩
    unfold entry
    rw [find_key]
    rw [CSR.row_map_fst h.wf]
    exact Graph.nodup_of_sorted h.sorted i (by rw [h.rows]; exact i.2)
  exact bc_ok hp ⟨hc.1, hc.2.1⟩ (fun h => absurd h hc.2.2) hA (fun u v => by rw [← hA.mem_cols, h.adj]) hs ht

/-! ## Examples -/

/-- Two ways from 0 to 3, one vertex behind it: 0 → 1 → 3, 0 → 2 → 3, 3 → 4. -/
def exD : CSR Rat := ⟨5, 5, 5, [0, 2, 3, 4, 5, 5], [1, 2, 3, 3, 4], [1, 1, 1, 1, 1], true⟩

theorem exD_wf : exD.WF := ⟨rfl, rfl, rfl, by decide, rfl, rfl, rfl, by decide⟩

theorem exD_rep : RepresentsD (n := 5) (fun i j => j.val ∈ exD.rowCols i) exD :=
  ⟨exD_wf, rfl, rfl, by unfold CSR.SortedRows; decide, fun _ _ => Iff.rfl⟩

example := C52_betweenness exD_rep (srcs := [0, 2]) (by simp) (fp := ⟨.msa2, true⟩) (fc := ⟨.hashC true, false⟩)
  ⟨rfl, by simp⟩ ⟨rfl, rfl, by simp⟩ (nt := 2) (dflt := 1) (by decide)

example := C52_betweenness exD_rep (srcs := [0, 2]) (by simp) (fp := ⟨.heap 1, false⟩) (fc := ⟨.heapC true, true⟩)
  ⟨rfl, by simp⟩ ⟨rfl, rfl, by simp⟩ (nt := 2) (dflt := 1) (by decide)

/-- Schedule of a round with two threads. -/
def exSch : Scheds :=
  let l := (List.range 2).flatMap fun t => List.replicate 40 t
  ⟨List.range 5, l, l, l, l⟩

/-- A concrete run. -/
theorem C52_run : bc ⟨.msa2, true⟩ ⟨.hashC true, false⟩ exD [0, 2] 2 1 (fun _ => exSch) (fun _ => exSch) 6 =
    .ok (some [some 0, some 1, some 1, some 2, some 0]) := by
  have h : (match bc ⟨.msa2, true⟩ ⟨.hashC true, false⟩ exD [0, 2] 2 1 (fun _ => exSch) (fun _ => exSch) 6 with
    | .ok (some l) => decide (l = [some 0, some 1, some 1, some 2, some 0])
    | _ => false) = true := by decide +kernel
  split at h
  · rename_i l hl
    rw [hl, of_decide_eq_true h]
  · cases h

/-- The requirement on the complemented heap algorithm is needed: with assertions the program stops. -/
theorem C52_run_assert :
    bc ⟨.msa2, true⟩ ⟨.heapC false, false⟩ exD [0, 2] 2 1 (fun _ => exSch) (fun _ => exSch) 6 = .error .assertion := by
  have h : (match bc ⟨.msa2, true⟩ ⟨.heapC false, false⟩ exD [0, 2] 2 1 (fun _ => exSch) (fun _ => exSch) 6 with
    | .error .assertion => true
    | _ => false) = true := by decide +kernel
  split at h
  · assumption
  · cases h

/-- So is the requirement that the rows are sorted: without it a matrix is handed back unsorted. -/
theorem C52_run_unsorted :
    bc ⟨.msa2, true⟩ ⟨.hashC false, false⟩ exD [2, 1] 2 1 (fun _ => exSch) (fun _ => exSch) 6 = .error .assertion := by
  have h : (match bc ⟨.msa2, true⟩ ⟨.hashC false, false⟩ exD [2, 1] 2 1 (fun _ => exSch) (fun _ => exSch) 6 with
    | .error .assertion => true
    | _ => false) = true := by decide +kernel
  split at h
  · assumption
  · cases h

end Verif.Props
