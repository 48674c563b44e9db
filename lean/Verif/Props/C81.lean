import Verif.Lemmas.RaceInner
import Verif.Props.C08
import Verif.Props.C36

/-! # C81: data races of the inner-product calls -/

namespace Verif.Props

open Verif.Model Verif.Spec Verif.Model.Race

variable {V : Type}

/-- Work of a row: for every entry of the mask the lengths of the row and of the column, if there is something to multiply. -/
def pairWork (A : CSR V) (B : CSC V) (M : CSR V) (i : Nat) : Nat :=
  ((M.rowCols i).map fun j => if A.row i = [] ∨ B.col j = [] then 0 else (A.row i).length + (B.col j).length).sum

/-- Work of the rows before row `i`. -/
def pairWorkBefore (A : CSR V) (B : CSC V) (M : CSR V) (i : Nat) : Nat := ((List.range i).map (pairWork A B M)).sum

/-- First row of thread `t` of `n`: the rows are cut where the `n`-th parts of the work begin. -/
def innerFirstRow (A : CSR V) (B : CSC V) (M : CSR V) (n t : Nat) : Nat :=
  if t = 0 then 0 else if t = n then A.rows
  else ((List.range A.rows).filter fun i => pairWorkBefore A B M i < pairWorkBefore A B M A.rows / n * t).length

/-- Thread `t` gets a row. -/
def InnerGetsRow (A : CSR V) (B : CSC V) (M : CSR V) (n t : Nat) : Prop :=
  ∃ i, innerFirstRow A B M n t ≤ i ∧ i < innerFirstRow A B M n (t + 1)

/-- The accesses of the one-phase or two-phase call, region by region. -/
def innerTraces (two : Bool) (mul add : V → V → V) (A : CSR V) (B : CSC V) (M : CSR V) (numThreads dflt : Nat) (sch : Scheds) :
    List (List (Nat × Access)) :=
  if two then innerTraces2p mul add A B M numThreads dflt sch else innerTraces1p mul add A B M numThreads dflt sch

/-- The call itself. -/
def innerCall (two : Bool) (mul add : V → V → V) (A : CSR V) (B : CSC V) (M : CSR V) (zb : Bool) (numThreads dflt : Nat)
    (sch : Scheds) : Res (Option (CSR V)) :=
  if two then Inner.spgemm2p mul add A B M zb numThreads dflt sch else Inner.spgemm1p mul add A B M zb numThreads dflt sch

theorem pairWork_eq (A : CSR V) (B : CSC V) (M : CSR V) (i : Nat) : pairWork A B M i = Inner.workOf A B M i := by
  unfold pairWork Inner.workOf
  congr 1
  apply List.map_congr_left
  intro j _
  by_cases h1 : A.row i = []
  · simp [h1]
  · by_cases h2 : B.col j = []
    · simp [h2]
    · simp [h1, h2]

theorem pairWorkBefore_eq (A : CSR V) (B : CSC V) (M : CSR V) (i : Nat) :
    pairWorkBefore A B M i = psum (Inner.workOf A B M) i := by
  unfold pairWorkBefore
  rw [sum_map_range]
  exact psum_congr fun k _ => pairWork_eq A B M k

theorem innerFirstRow_eq (A : CSR V) (B : CSC V) (M : CSR V) (n t : Nat) : innerFirstRow A B M n t = innerRowOf A B M n t := by
  unfold innerFirstRow innerRowOf bnd
  have h : (fun i => decide (pairWorkBefore A B M i < pairWorkBefore A B M A.rows / n * t)) =
      fun i => decide (psum (Inner.workOf A B M) i < psum (Inner.workOf A B M) A.rows / n * t) := by
    funext i; rw [pairWorkBefore_eq, pairWorkBefore_eq]
  rw [h, filter_lb (fun i j h => psum_mono h)]

theorem innerIdle_iff {A : CSR V} {B : CSC V} {M : CSR V} {n : Nat} :
    InnerIdle A B M n ↔ ∃ u, u + 1 < n ∧ ¬ InnerGetsRow A B M n u := by
  unfold InnerIdle InnerGetsRow
  simp only [innerFirstRow_eq]
  constructor
  · rintro ⟨u, hu, he⟩
    exact ⟨u, hu, by rintro ⟨i, h1, h2⟩; omega⟩
  · rintro ⟨u, hu, he⟩
    refine ⟨u, hu, ?_⟩
    have := bnd_mono (psum (Inner.workOf A B M)) (psum (Inner.workOf A B M) A.rows) A.rows (show u < n by omega)
    rcases Nat.lt_or_ge (innerRowOf A B M n u) (innerRowOf A B M n (u + 1)) with h | h
    · exact absurd ⟨_, Nat.le_refl _, h⟩ he
    · exact Nat.le_antisymm this h

/-- The programs whose accesses are listed are the steps of the threads in the model of the drivers (those of the scan and of the
copying after the barrier are in `C36_faithful`). -/
theorem C81_faithful (mul add : V → V → V) (A : CSR V) (B : CSC V) (M : CSR V) (wpr : List (Option Nat)) (n : Nat)
    (rng : Nat → Nat × Nat) (t : Nat) :
    (∀ x g, (innerProg1 mul add A B M wpr t x).exec bufMem g = Inner.step1 mul add A B M wpr t g x) ∧
    (∀ x g, (innerProg2 A B M wpr t x).exec shMem g = Inner.step2 A B M wpr t g x) ∧
    (∀ x g, (innerProg4 mul add A B M wpr n rng t x).exec shMem g = Inner.step4 mul add A B M wpr n rng t g x) :=
  ⟨exec_innerProg1 mul add A B M wpr t, exec_innerProg2 A B M wpr t, exec_innerProg4 mul add A B M wpr n rng t⟩

/-- C81 in full would say that no region of any call is racy. This is false (see `C81_violated`). What holds: for all valid
inputs, thread counts and schedules (also those that end before the call returns) a region can only be racy if there are fewer
rows than threads (and at least two rows), or if the distribution of the work leaves a thread other than the last one without
rows. -/
theorem C81_free_partial (two : Bool) (mul add : V → V → V) {A : CSR V} {B : CSC V} {M : CSR V} (h : ValidC A B M)
    {numThreads dflt : Nat} (hn : 0 < setNumThreads numThreads dflt)
    (h1 : A.rows < 2 ∨ setNumThreads numThreads dflt ≤ A.rows)
    (h2 : ∀ t, t + 1 < setNumThreads numThreads dflt → InnerGetsRow A B M (setNumThreads numThreads dflt) t)
    (sch : Scheds) (hs : Admissible A.rows sch) :
    ∀ tr ∈ innerTraces two mul add A B M numThreads dflt sch, ¬ Racy tr := by
  intro tr htr hrc
  have key : (2 ≤ A.rows ∧ A.rows < setNumThreads numThreads dflt) ∨ InnerIdle A B M (setNumThreads numThreads dflt) := by
    cases two with
    | false => exact innerConflicts1p mul add h hn sch hs tr htr hrc
    | true => exact innerConflicts2p mul add h hn sch hs tr htr hrc
  rcases key with ⟨h3, h4⟩ | h3
  · omega
  · obtain ⟨u, hu, he⟩ := innerIdle_iff.1 h3
    exact he (h2 u hu)

/-- The condition is met if no row has more than the `n`-th part of the work. -/
theorem C81_balanced_partial (two : Bool) (mul add : V → V → V) {A : CSR V} {B : CSC V} {M : CSR V} (h : ValidC A B M)
    {numThreads dflt : Nat} (hn : 0 < setNumThreads numThreads dflt)
    (hpos : 0 < pairWorkBefore A B M A.rows / setNumThreads numThreads dflt)
    (hbal : ∀ i < A.rows, pairWork A B M i ≤ pairWorkBefore A B M A.rows / setNumThreads numThreads dflt)
    (sch : Scheds) (hs : Admissible A.rows sch) :
    ∀ tr ∈ innerTraces two mul add A B M numThreads dflt sch, ¬ Racy tr := by
  rw [pairWorkBefore_eq] at hpos hbal
  simp only [pairWork_eq] at hbal
  obtain ⟨h1, h2⟩ := balanced_cuts hpos hbal
  refine C81_free_partial two mul add h hn (Or.inr h1) (fun t ht => ?_) sch hs
  refine ⟨innerFirstRow A B M (setNumThreads numThreads dflt) t, Nat.le_refl _, ?_⟩
  rw [innerFirstRow_eq, innerFirstRow_eq]
  exact h2 t ht

/-- C81 is violated: a call that returns has a race if there are at least two rows but fewer rows than threads, or if a thread
other than the last one gets no rows. -/
theorem C81_violated (two : Bool) (mul add : V → V → V) {A : CSR V} {B : CSC V} {M : CSR V} (h : ValidC A B M)
    {zb : Bool} {numThreads dflt : Nat} (hn : 0 < setNumThreads numThreads dflt)
    (hbad : (2 ≤ A.rows ∧ A.rows < setNumThreads numThreads dflt) ∨
      ∃ t, t + 1 < setNumThreads numThreads dflt ∧ ¬ InnerGetsRow A B M (setNumThreads numThreads dflt) t)
    (sch : Scheds) (hs : Admissible A.rows sch) {C : CSR V}
    (hret : innerCall two mul add A B M zb numThreads dflt sch = .ok (some C)) :
    ∃ tr ∈ innerTraces two mul add A B M numThreads dflt sch, Racy tr := by
  have hbad' := hbad.imp id innerIdle_iff.2
  cases two with
  | false => exact innerRaces1p mul add h hn sch hs hret hbad'
  | true => exact innerRaces2p mul add h hn sch hs hret hbad'

/-- Such calls do return, so there are executions with a race. -/
theorem C81_returns (two : Bool) (mul add : V → V → V) {A : CSR V} {B : CSC V} {M : CSR V} (h : ValidC A B M)
    (zb : Bool) {numThreads dflt : Nat} (hn : 0 < setNumThreads numThreads dflt) :
    ∃ sch C, Admissible A.rows sch ∧ innerCall two mul add A B M zb numThreads dflt sch = .ok (some C) := by
  have key : ∃ C, Computes (innerCall two mul add A B M zb numThreads dflt) A.rows (setNumThreads numThreads dflt) C := by
    cases two with
    | false => exact ⟨_, Inner.computes1p mul add h zb hn⟩
    | true => exact ⟨_, Inner.computes2p mul add h zb hn⟩
  obtain ⟨C, hC⟩ := key
  obtain ⟨K, hK⟩ := hC.live
  obtain ⟨sch, h1, h2⟩ := fair_exists A.rows (setNumThreads numThreads dflt) K
  exact ⟨sch, C, h1, hK sch h1 h2⟩

/-- Three rows and two threads: no race. -/
example (two : Bool) (sch : Scheds) (hs : Admissible 3 sch) :
    ∀ tr ∈ innerTraces two (· * ·) (· + ·) Ex.A Bc Ex.M 2 1 sch, ¬ Racy tr :=
  C81_free_partial two _ _ validBc (by decide) (Or.inr (by decide))
    (by
      intro t ht
      have : t = 0 := by
        have e : setNumThreads 2 1 = 2 := rfl
        omega
      subst this
      exact ⟨0, by decide, by decide⟩) sch hs

/-- Three rows and four threads. -/
example (two : Bool) : ∃ sch, Admissible 3 sch ∧ ∃ tr ∈ innerTraces two (· * ·) (· + ·) Ex.A Bc Ex.M 4 1 sch, Racy tr := by
  obtain ⟨sch, C, h1, h2⟩ := C81_returns two (· * ·) (· + ·) validBc true (numThreads := 4) (dflt := 1) (by decide)
  exact ⟨sch, h1, C81_violated two _ _ validBc (by decide) (Or.inl (by decide)) sch h1 h2⟩

/-- Three rows and three threads: only the last thread gets no row, and there is no race. -/
example (two : Bool) (sch : Scheds) (hs : Admissible 3 sch) :
    ∀ tr ∈ innerTraces two (· * ·) (· + ·) Ex.A Bc Ex.M 3 1 sch, ¬ Racy tr :=
  C81_free_partial two _ _ validBc (by decide) (Or.inr (by decide))
    (by
      intro t ht
      have e : setNumThreads 3 1 = 3 := rfl
      have : t = 0 ∨ t = 1 := by omega
      rcases this with rfl | rfl
      · exact ⟨0, by decide, by decide⟩
      · exact ⟨1, by decide, by decide⟩) sch hs

/-- The work of the rows is 7, 0 and 7. -/
example (two : Bool) (sch : Scheds) (hs : Admissible 3 sch) :
    ∀ tr ∈ innerTraces two (· * ·) (· + ·) Ex.A Bc Ex.M 2 1 sch, ¬ Racy tr :=
  C81_balanced_partial two _ _ validBc (by decide) (by decide) (by decide) sch hs

/-- A mask with an entry in its first row only. -/
def topM : CSR Int := { rows := 3, cols := 3, nnz := 1, rowptr := [0, 1, 1, 1], colids := [0], values := [1] }

theorem topM_valid : ValidC Ex.A Bc topM :=
  ⟨Ex.wfA, validBc.wfB, ⟨rfl, rfl, rfl, by decide, rfl, rfl, rfl, by decide⟩, rfl, rfl, rfl, by decide, Ex.sortedA, validBc.sortedB⟩

/-- Three rows and three threads, but the second thread gets no row. -/
example (two : Bool) : ∃ sch, Admissible 3 sch ∧ ∃ tr ∈ innerTraces two (· * ·) (· + ·) Ex.A Bc topM 3 1 sch, Racy tr := by
  obtain ⟨sch, C, h1, h2⟩ := C81_returns two (· * ·) (· + ·) topM_valid true (numThreads := 3) (dflt := 1) (by decide)
  refine ⟨sch, h1, C81_violated two _ _ topM_valid (by decide) (Or.inr ⟨1, by decide, ?_⟩) sch h1 h2⟩
  rintro ⟨i, h3, h4⟩
  have e1 : innerFirstRow Ex.A Bc topM (setNumThreads 3 1) 1 = 1 := by decide
  have e2 : innerFirstRow Ex.A Bc topM (setNumThreads 3 1) (1 + 1) = 1 := by decide
  omega

end Verif.Props
