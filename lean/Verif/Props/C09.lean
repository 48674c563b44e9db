import Verif.Lemmas.Kinds
import Verif.Props.C06
import Verif.Props.C08

/-! # C09, C10, C12, C23, C27: properties of the calls of all algorithms -/

namespace Verif.Props

open Verif.Model Verif.Spec

variable {V : Type}

/-- C09: for every algorithm the one-phase call with some thread count and the two-phase call with some other thread
count compute the same matrix (the same arrays), whatever the schedules. -/
theorem C09_two_phase_eq_one_phase (a : Algo) (mul add : V → V → V) {A B M : CSR V} {Bc : CSC V} (h : Valid A B M)
    (hr : a.Req add A B Bc M) (zb : Bool) {nt nt' dflt : Nat} (hn : 0 < setNumThreads nt dflt)
    (hn' : 0 < setNumThreads nt' dflt) :
    ∃ C, Computes (a.call false mul add A B Bc M zb nt dflt) A.rows (setNumThreads nt dflt) C ∧
      Computes (a.call true mul add A B Bc M zb nt' dflt) A.rows (setNumThreads nt' dflt) C :=
  ⟨_, algo_computes a false mul add h hr zb hn, algo_computes a true mul add h hr zb hn'⟩

/-- C10: for every algorithm and both kinds of call there is one matrix that is the result for every
thread count and every schedule. -/
theorem C10_thread_independent (a : Algo) (two : Bool) (mul add : V → V → V) {A B M : CSR V} {Bc : CSC V}
    (h : Valid A B M) (hr : a.Req add A B Bc M) (zb : Bool) :
    ∃ C, ∀ nt dflt, 0 < setNumThreads nt dflt →
      Computes (a.call two mul add A B Bc M zb nt dflt) A.rows (setNumThreads nt dflt) C :=
  ⟨_, fun _ _ hn => algo_computes a two mul add h hr zb hn⟩

/-- C10, as a statement about two runs: whatever the thread counts and the schedules, two calls that return,
return the same matrix. -/
theorem C10_runs_agree (a : Algo) (two : Bool) (mul add : V → V → V) {A B M : CSR V} {Bc : CSC V}
    (h : Valid A B M) (hr : a.Req add A B Bc M) (zb : Bool) {nt nt' dflt dflt' : Nat}
    (hn : 0 < setNumThreads nt dflt) (hn' : 0 < setNumThreads nt' dflt') {sch sch' : Scheds}
    (hs : Admissible A.rows sch) (hs' : Admissible A.rows sch') {C C' : CSR V}
    (hC : a.call two mul add A B Bc M zb nt dflt sch = .ok (some C))
    (hC' : a.call two mul add A B Bc M zb nt' dflt' sch' = .ok (some C')) : C = C' := by
  have h1 := (algo_computes a two mul add h hr zb hn).safe sch hs
  have h2 := (algo_computes a two mul add h hr zb hn').safe sch' hs'
  rw [hC] at h1
  rw [hC'] at h2
  rcases h1 with h1 | h1 <;> rcases h2 with h2 | h2 <;> simp at h1 h2
  rw [h1, h2]

/-- C12: the rows of the result have no repeated column; without complement they are subsequences of the mask
rows, hence sorted when the mask is; with complement and the Sorted option, and for the heap algorithms, they are
strictly increasing. -/
theorem C12_column_order (a : Algo) (two : Bool) (mul add : V → V → V) {A B M : CSR V} {Bc : CSC V}
    (h : Valid A B M) (hr : a.Req add A B Bc M) (zb : Bool) {nt dflt : Nat} (hn : 0 < setNumThreads nt dflt) :
    ∃ C, Computes (a.call two mul add A B Bc M zb nt dflt) A.rows (setNumThreads nt dflt) C ∧
      C.NodupRows ∧
      (a.compl = false → (∀ i < A.rows, (C.rowCols i).Sublist (M.rowCols i)) ∧ (M.SortedRows → C.SortedRows)) ∧
      (a.compl = true → a.sorted = true → C.SortedRows) ∧
      (∀ d, a = .gen (.heap d) → C.SortedRows) := by
  refine ⟨_, algo_computes a two mul add h hr zb hn, ?_⟩
  by_cases hc : a.compl = true
  · have e : algoMat a mul add A B M zb = complMat a.sorted mul add A B M zb := by simp [algoMat, hc]
    rw [e]
    refine ⟨(complMat_isCompl a.sorted zb).nodup, fun h => by simp [hc] at h, ?_, ?_⟩
    · intro _ hs
      rw [hs]
      exact complMat_sorted zb
    · rintro d rfl
      simp [Algo.compl, Kind.compl] at hc
  · have e : algoMat a mul add A B M zb = maskedMat mul add A B M zb := by simp [algoMat, hc]
    rw [e]
    have hi := maskedMat_isMasked (mul := mul) (add := add) (B := B) h.shapes.ma zb hr.nodup
    have hsort : M.SortedRows → (maskedMat mul add A B M zb).SortedRows := fun hs i hiC =>
      (hs i (h.shapes.ma ▸ hiC)).sublist (hi.order i hiC)
    refine ⟨hi.nodup, fun _ => ⟨hi.order, hsort⟩, fun h => absurd h hc, ?_⟩
    rintro d rfl
    exact hsort hr.2.2.1

/-- C23: the result is a well-formed matrix with the rows of `A` and the columns of `B`. (The flag `zerobased` of the
result object is not touched by the calls; apart from it the result meets all conditions of `CSR.WF`.) -/
theorem C23_well_formed (a : Algo) (two : Bool) (mul add : V → V → V) {A B M : CSR V} {Bc : CSC V}
    (h : Valid A B M) (hr : a.Req add A B Bc M) (zb : Bool) {nt dflt : Nat} (hn : 0 < setNumThreads nt dflt) :
    ∃ C, Computes (a.call two mul add A B Bc M zb nt dflt) A.rows (setNumThreads nt dflt) C ∧
      { C with zerobased := true }.WF ∧ C.zerobased = zb ∧ C.rows = A.rows ∧ C.cols = B.cols := by
  refine ⟨_, algo_computes a two mul add h hr zb hn, ?_⟩
  unfold algoMat
  split
  · have e : { complMat a.sorted mul add A B M zb with zerobased := true } = complMat a.sorted mul add A B M true := rfl
    rw [e]
    exact ⟨complMat_wf h.wfB, rfl, rfl, rfl⟩
  · have e : { maskedMat mul add A B M zb with zerobased := true } = maskedMat mul add A B M true := rfl
    rw [e]
    exact ⟨maskedMat_wf h.wfB, rfl, rfl, rfl⟩

/-- C27: any two algorithms that both use the mask, or both its complement with the same Sorted option, compute the
same matrix (the same arrays) on inputs both allow, in one or two phases and with any thread counts. Only the heap
algorithms require anything of `add` (`Algo.Req`). -/
theorem C27_algorithms_agree (a b : Algo) (hc : a.compl = b.compl) (hs : a.compl = true → a.sorted = b.sorted)
    (two two' : Bool) (mul add : V → V → V) {A B M : CSR V} {Bc : CSC V} (h : Valid A B M)
    (ha : a.Req add A B Bc M) (hb : b.Req add A B Bc M) (zb : Bool) {nt nt' dflt : Nat}
    (hn : 0 < setNumThreads nt dflt) (hn' : 0 < setNumThreads nt' dflt) :
    ∃ C, Computes (a.call two mul add A B Bc M zb nt dflt) A.rows (setNumThreads nt dflt) C ∧
      Computes (b.call two' mul add A B Bc M zb nt' dflt) A.rows (setNumThreads nt' dflt) C := by
  refine ⟨_, algo_computes a two mul add h ha zb hn, ?_⟩
  have e : algoMat a mul add A B M zb = algoMat b mul add A B M zb := by
    unfold algoMat
    by_cases hcc : a.compl = true
    · simp only [if_pos hcc, if_pos (hc ▸ hcc), hs hcc]
    · simp only [if_neg hcc, if_neg (hc ▸ hcc)]
  rw [e]
  exact algo_computes b two' mul add h hb zb hn'

/-! ## The requirements can be met -/

/-- The example inputs meet the requirements of every algorithm (with the assertion of the complemented heap compiled
out, or with a mask without empty rows; with a depth that does not wrap around). -/
theorem reqM : ∀ a : Algo, (∀ d, a = .gen (.heap d) → d ≤ 1000) → a ≠ .gen (.heapC false) →
    a.Req (fun a b : Int => a + b) Ex.A Ex.B Bc Ex.M := by
  intro a hd hc
  have nnzM : Ex.M.nnz = 4 := rfl
  match a with
  | .gen .msa1 | .gen .msa2 | .gen (.msa1C _) | .gen (.msa2C _) | .gen .hash | .gen (.hashC _) => exact Ex.nodupM
  | .gen .mca => exact ⟨Ex.sortedB, Ex.sortedM⟩
  | .gen (.heap d) => exact ⟨intAdd, Ex.sortedB, Ex.sortedM, by have := hd d rfl; rw [nnzM]; omega⟩
  | .gen (.heapC true) => exact ⟨intAdd, Ex.sortedB, Ex.sortedM, .inl rfl⟩
  | .gen (.heapC false) => exact absurd rfl hc
  | .inner => exact ⟨Ex.sortedA, nodupB, validBc.wfB, validBc.sortedB, sameBc, Ex.nodupM⟩

example := C27_algorithms_agree .inner (.gen (.heap 7)) rfl (fun h => by cases h) false true
  (fun a b : Int => a * b) (fun a b => a + b) Ex.validM (reqM _ (by simp) (by simp)) (reqM _ (by simp) (by simp))
  true (nt := 2) (nt' := 5) (dflt := 1) (by decide) (by decide)

example := C27_algorithms_agree (.gen (.msa2C true)) (.gen (.heapC true)) rfl (fun _ => rfl) false true
  (fun a b : Int => a * b) (fun a b => a + b) Ex.validM (reqM _ (by simp) (by simp)) (reqM _ (by simp) (by simp))
  true (nt := 2) (nt' := 5) (dflt := 1) (by decide) (by decide)

end Verif.Props
