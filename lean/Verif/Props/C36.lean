import Verif.Lemmas.RaceMain
import Verif.Lemmas.Kinds
import Verif.Props.Examples

/-! # C36: data races -/

namespace Verif.Props

open Verif.Model Verif.Spec Verif.Model.Race

variable {V : Type}

/-- Products needed for the rows before row `i`. -/
def workBefore (compl : Bool) (A B M : CSR V) (i : Nat) : Nat := ((List.range i).map (rowWork compl A B M)).sum

/-- First row of thread `t` of `n`: the rows are cut where the `n`-th parts of the work begin. -/
def firstRow (compl : Bool) (A B M : CSR V) (n t : Nat) : Nat :=
  if t = 0 then 0 else if t = n then A.rows
  else ((List.range A.rows).filter fun i => workBefore compl A B M i < workBefore compl A B M A.rows / n * t).length

/-- Thread `t` gets a row. -/
def GetsRow (compl : Bool) (A B M : CSR V) (n t : Nat) : Prop :=
  ∃ i, firstRow compl A B M n t ≤ i ∧ i < firstRow compl A B M n (t + 1)

/-- The accesses of the one-phase or two-phase call, region by region. -/
def traces (two : Bool) (k : Kind) (mul add : V → V → V) (A B M : CSR V) (numThreads dflt : Nat) (sch : Scheds) :
    List (List (Nat × Access)) :=
  if two then traces2p k.alg mul add A B M numThreads dflt sch else traces1p k.alg mul add A B M numThreads dflt sch

/-- The call itself. -/
def genCall (two : Bool) (k : Kind) (mul add : V → V → V) (A B M : CSR V) (zb : Bool) (numThreads dflt : Nat) (sch : Scheds) :
    Res (Option (CSR V)) :=
  if two then spgemm2p k.alg mul add A B M zb numThreads dflt sch else spgemm1p k.alg mul add A B M zb numThreads dflt sch

theorem workBefore_eq (compl : Bool) (A B M : CSR V) (i : Nat) : workBefore compl A B M i = psum (flopsOf compl A B M) i := by
  unfold workBefore
  rw [sum_map_range]
  exact psum_congr fun k _ => rowWork_eq compl A B M k

theorem filter_lb {P : Nat → Nat} (hP : ∀ i j, i ≤ j → P i ≤ P j) (x : Nat) : ∀ r,
    ((List.range r).filter fun i => P i < x).length = lb P x r := by
  intro r
  induction r with
  | zero => rfl
  | succ r ih =>
    rw [List.range_succ, List.filter_append, List.length_append, ih]
    rw [show lb P x (r + 1) = if P r < x then r + 1 else lb P x r from rfl]
    by_cases h : P r < x
    · rw [if_pos h]
      have : lb P x r = r := lb_unique (Nat.le_refl _) (fun i hi => Nat.lt_of_le_of_lt (hP i r (by omega)) h)
        (fun i h1 h2 => by omega)
      rw [this]; simp [h]
    · rw [if_neg h]; simp [h]

theorem firstRow_eq (compl : Bool) (A B M : CSR V) (n t : Nat) : firstRow compl A B M n t = rowOf compl A B M n t := by
  unfold firstRow rowOf bnd
  have h : (fun i => decide (workBefore compl A B M i < workBefore compl A B M A.rows / n * t)) =
      fun i => decide (psum (flopsOf compl A B M) i < psum (flopsOf compl A B M) A.rows / n * t) := by
    funext i; rw [workBefore_eq, workBefore_eq]
  rw [h, filter_lb (fun i j h => psum_mono h)]

theorem idle_iff {compl : Bool} {A B M : CSR V} {n : Nat} :
    Idle compl A B M n ↔ ∃ u, u + 1 < n ∧ ¬ GetsRow compl A B M n u := by
  unfold Idle GetsRow
  simp only [firstRow_eq]
  constructor
  · rintro ⟨u, hu, he⟩
    exact ⟨u, hu, by rintro ⟨i, h1, h2⟩; omega⟩
  · rintro ⟨u, hu, he⟩
    refine ⟨u, hu, ?_⟩
    have := bnd_mono (psum (flopsOf compl A B M)) (psum (flopsOf compl A B M) A.rows) A.rows (show u < n by omega)
    rcases Nat.lt_or_ge (rowOf compl A B M n u) (rowOf compl A B M n (u + 1)) with h | h
    · exact absurd ⟨_, Nat.le_refl _, h⟩ he
    · exact Nat.le_antisymm this h

/-- The programs whose accesses are listed are the steps of the threads in the model of the drivers. -/
theorem C36_faithful (alg : RowAlg V) (mul add : V → V → V) (A B M : CSR V) (fpr src ps : List (Option Nat)) (n size : Nat)
    (rng : Nat → Nat × Nat) (outs : Nat → List (Nat × V)) (t : Nat) :
    (∀ x g, (progSum src size n t x).exec arrMem g = Scan.stepSum src size n t g x) ∧
    (∀ x g, (progWrite src ps size n t x).exec arrMem g = Scan.stepWrite false src ps size n t g x) ∧
    (∀ x g, (prog1 alg mul add A B M fpr t x).exec shMem g = step1 alg mul add A B M fpr t g x) ∧
    (∀ x g, (prog2 alg A B M fpr t x).exec shMem g = step2 alg A B M fpr t g x) ∧
    (∀ x g, (prog3 A.rows n rng outs t x).exec shMem g = step3 A.rows n rng outs t g x) ∧
    (∀ x g, (prog4 alg mul add A B M n rng t x).exec shMem g = step4 alg mul add A B M n rng t g x) :=
  ⟨exec_progSum src size n t, exec_progWrite src ps size n t, exec_prog1 alg mul add A B M fpr t,
    exec_prog2 alg A B M fpr t, exec_prog3 A.rows n rng outs t, exec_prog4 alg mul add A B M n rng t⟩

/-- C36 in full would say that no region of any call is racy. This is false (see `C36_violated`). What holds: for every row
algorithm, both drivers, all valid inputs, thread counts and schedules (also those that end before the call returns) a region
can only be racy if there are fewer rows than threads (and at least two rows), or if the distribution of the work leaves a thread
other than the last one without rows. -/
theorem C36_free_partial (two : Bool) (k : Kind) (mul add : V → V → V) {A B M : CSR V} (h : Valid A B M)
    (hr : k.Req add A B M) {numThreads dflt : Nat} (hn : 0 < setNumThreads numThreads dflt)
    (h1 : A.rows < 2 ∨ setNumThreads numThreads dflt ≤ A.rows)
    (h2 : ∀ t, t + 1 < setNumThreads numThreads dflt → GetsRow k.compl A B M (setNumThreads numThreads dflt) t)
    (sch : Scheds) (hs : Admissible A.rows sch) :
    ∀ tr ∈ traces two k mul add A B M numThreads dflt sch, ¬ Racy tr := by
  intro tr htr hrc
  have hc := (kind_contract (mul := mul) k h hr).contract
  have key : (2 ≤ A.rows ∧ A.rows < setNumThreads numThreads dflt) ∨ Idle k.compl A B M (setNumThreads numThreads dflt) := by
    rw [← kind_compl (V := V) k]
    cases two with
    | false => exact conflicts1p h.wfA h.wfB h.wfM h.shapes hc.toContract1 h.rowsPos hn sch hs tr htr hrc
    | true => exact conflicts2p h.wfA h.wfB h.wfM h.shapes hc h.rowsPos hn sch hs tr htr hrc
  rcases key with ⟨h3, h4⟩ | h3
  · omega
  · obtain ⟨u, hu, he⟩ := idle_iff.1 h3
    exact he (h2 u hu)

/-- The condition is met if no row has more than the `n`-th part of the work. -/
theorem C36_balanced_partial (two : Bool) (k : Kind) (mul add : V → V → V) {A B M : CSR V} (h : Valid A B M)
    (hr : k.Req add A B M) {numThreads dflt : Nat} (hn : 0 < setNumThreads numThreads dflt)
    (hpos : 0 < workBefore k.compl A B M A.rows / setNumThreads numThreads dflt)
    (hbal : ∀ i < A.rows, rowWork k.compl A B M i ≤ workBefore k.compl A B M A.rows / setNumThreads numThreads dflt)
    (sch : Scheds) (hs : Admissible A.rows sch) :
    ∀ tr ∈ traces two k mul add A B M numThreads dflt sch, ¬ Racy tr := by
  have hW := workBefore_eq k.compl A B M A.rows
  rw [hW] at hpos hbal
  simp only [rowWork_eq] at hbal
  generalize hnn : setNumThreads numThreads dflt = n at *
  generalize hww : psum (flopsOf k.compl A B M) A.rows / n = W at *
  have hWn : n * W ≤ psum (flopsOf k.compl A B M) A.rows := hww ▸ Nat.mul_div_le _ _
  -- partial sums grow slowly
  have hslow : ∀ i ≤ A.rows, psum (flopsOf k.compl A B M) i ≤ i * W := by
    intro i
    induction i with
    | zero => intro _; simp [psum]
    | succ i ih =>
      intro hi
      have e1 := ih (by omega)
      have e2 := hbal i (by omega)
      have : (i + 1) * W = i * W + W := Nat.succ_mul i W
      simp only [psum]; omega
  have hle : n ≤ A.rows := by
    rcases Nat.lt_or_ge A.rows n with h' | h'
    · exfalso
      have e1 := hslow A.rows (Nat.le_refl _)
      have e2 : A.rows * W < n * W := Nat.mul_lt_mul_of_pos_right h' hpos
      omega
    · exact h'
  refine C36_free_partial two k mul add h hr (by rw [hnn]; exact hn) (Or.inr (by rw [hnn]; exact hle)) ?_ sch hs
  rw [hnn]
  intro t ht
  -- facts about the cuts
  have hlb : ∀ x, lb (psum (flopsOf k.compl A B M)) x A.rows ≤ A.rows := fun x => lb_le _ x _
  have hspec : ∀ x i, i < A.rows → (i < lb (psum (flopsOf k.compl A B M)) x A.rows ↔ psum (flopsOf k.compl A B M) i < x) := by
    intro x i hi
    have key : ∀ r, i < r → (i < lb (psum (flopsOf k.compl A B M)) x r ↔ psum (flopsOf k.compl A B M) i < x) := by
      intro r
      induction r with
      | zero => intro h'; omega
      | succ r ih =>
        intro h'
        unfold lb
        by_cases hx : psum (flopsOf k.compl A B M) r < x
        · rw [if_pos hx]
          have := psum_mono (f := flopsOf k.compl A B M) (show i ≤ r by omega)
          constructor
          · intro _; omega
          · intro _; omega
        · rw [if_neg hx]
          by_cases hir : i = r
          · subst hir
            have := lb_le (psum (flopsOf k.compl A B M)) x i
            constructor
            · intro _; omega
            · intro _; omega
          · exact ih (by omega)
    exact key A.rows hi
  refine ⟨firstRow k.compl A B M n t, Nat.le_refl _, ?_⟩
  rw [firstRow_eq, firstRow_eq]
  have hb : ∀ s, s < n → rowOf k.compl A B M n s = lb (psum (flopsOf k.compl A B M)) (W * s) A.rows := by
    intro s hs'
    unfold rowOf bnd
    by_cases h0 : s = 0
    · subst h0
      rw [if_pos rfl]
      have hz : ∀ r, lb (psum (flopsOf k.compl A B M)) 0 r = 0 := by
        intro r
        induction r with
        | zero => rfl
        | succ r ih => unfold lb; rw [if_neg (by omega)]; exact ih
      rw [Nat.mul_zero, hz]
    · rw [if_neg h0, if_neg (by omega), hww]
  rw [hb t (by omega), hb (t + 1) ht]
  have hlast := hslow A.rows (Nat.le_refl _)
  -- the cut is inside
  obtain ⟨r, hrr⟩ : ∃ r, A.rows = r + 1 := ⟨A.rows - 1, by omega⟩
  have hin : lb (psum (flopsOf k.compl A B M)) (W * t) A.rows < A.rows := by
    rcases Nat.lt_or_ge (lb (psum (flopsOf k.compl A B M)) (W * t) A.rows) A.rows with h' | h'
    · exact h'
    · exfalso
      have e1 := (hspec (W * t) r (by omega)).1 (by omega)
      have e2 := hbal r (by omega)
      have e3 : psum (flopsOf k.compl A B M) A.rows = psum (flopsOf k.compl A B M) r + flopsOf k.compl A B M r := by rw [hrr]; rfl
      have e4 : W * (t + 1) ≤ W * n := Nat.mul_le_mul_left _ (by omega)
      have e5 : W * (t + 1) = W * t + W := Nat.mul_succ W t
      have e6 : n * W = W * n := Nat.mul_comm _ _
      omega
  rw [hspec _ _ hin]
  have e5 : W * (t + 1) = W * t + W := Nat.mul_succ W t
  generalize hi : lb (psum (flopsOf k.compl A B M)) (W * t) A.rows = i at hin ⊢
  cases i with
  | zero =>
    have : psum (flopsOf k.compl A B M) 0 = 0 := rfl
    omega
  | succ i =>
    have e1 := (hspec (W * t) i (by omega)).1 (by omega)
    have e2 := hbal i (by omega)
    simp only [psum]; omega

/-- C36 is violated: a call that returns has a race if there are at least two rows but fewer rows than threads, or if a thread
other than the last one gets no rows. -/
theorem C36_violated (two : Bool) (k : Kind) (mul add : V → V → V) {A B M : CSR V} (h : Valid A B M)
    (hr : k.Req add A B M) {zb : Bool} {numThreads dflt : Nat} (hn : 0 < setNumThreads numThreads dflt)
    (hbad : (2 ≤ A.rows ∧ A.rows < setNumThreads numThreads dflt) ∨
      ∃ t, t + 1 < setNumThreads numThreads dflt ∧ ¬ GetsRow k.compl A B M (setNumThreads numThreads dflt) t)
    (sch : Scheds) (hs : Admissible A.rows sch) {C : CSR V}
    (hret : genCall two k mul add A B M zb numThreads dflt sch = .ok (some C)) :
    ∃ tr ∈ traces two k mul add A B M numThreads dflt sch, Racy tr := by
  have hc := (kind_contract (mul := mul) k h hr).contract
  have hbad' : (2 ≤ A.rows ∧ A.rows < setNumThreads numThreads dflt) ∨
      Idle (k.alg : RowAlg V).compl A B M (setNumThreads numThreads dflt) := by
    rw [kind_compl (V := V) k]
    exact hbad.imp id idle_iff.2
  cases two with
  | false => exact races1p h.wfA h.wfB h.wfM h.shapes hc.toContract1 h.rowsPos hn sch hs hret hbad'
  | true => exact races2p h.wfA h.wfB h.wfM h.shapes hc h.rowsPos hn sch hs hret hbad'

/-- Such calls do return, so there are executions with a race. -/
theorem C36_returns (two : Bool) (k : Kind) (mul add : V → V → V) {A B M : CSR V} (h : Valid A B M)
    (hr : k.Req add A B M) (zb : Bool) {numThreads dflt : Nat} (hn : 0 < setNumThreads numThreads dflt) :
    ∃ sch C, Admissible A.rows sch ∧ genCall two k mul add A B M zb numThreads dflt sch = .ok (some C) := by
  have hc := (kind_contract (mul := mul) k h hr).contract
  have key : ∃ C, Computes (genCall two k mul add A B M zb numThreads dflt) A.rows (setNumThreads numThreads dflt) C := by
    cases two with
    | false => exact ⟨_, computes1p h.wfA h.wfB h.wfM h.shapes hc h.rowsPos zb hn⟩
    | true => exact ⟨_, computes2p h.wfA h.wfB h.wfM h.shapes hc h.rowsPos zb hn⟩
  obtain ⟨C, hC⟩ := key
  obtain ⟨K, hK⟩ := hC.live
  obtain ⟨sch, h1, h2⟩ := fair_exists A.rows (setNumThreads numThreads dflt) K
  exact ⟨sch, C, h1, hK sch h1 h2⟩

/-- Three rows and two threads: no race. -/
example (two : Bool) (sch : Scheds) (hs : Admissible 3 sch) :
    ∀ tr ∈ traces two .msa1 (· * ·) (· + ·) Ex.A Ex.B Ex.M 2 1 sch, ¬ Racy tr :=
  C36_free_partial two .msa1 _ _ Ex.validM Ex.nodupM (by decide) (Or.inr (by decide))
    (by
      intro t ht
      have : t = 0 := by
        have e : setNumThreads 2 1 = 2 := rfl
        omega
      subst this
      exact ⟨0, by decide, by decide⟩) sch hs

/-- The work of the complemented call is balanced: 4, 1 and 3 of 8 products. -/
example (two : Bool) (sch : Scheds) (hs : Admissible 3 sch) :
    ∀ tr ∈ traces two (.msa1C false) (· * ·) (· + ·) Ex.A Ex.B Ex.M 2 1 sch, ¬ Racy tr :=
  C36_balanced_partial two (.msa1C false) _ _ Ex.validM Ex.nodupM (by decide) (by decide) (by decide) sch hs

/-- Three rows and three threads, but the second thread gets no row. -/
example : ∃ sch, Admissible 3 sch ∧ ∃ tr ∈ traces true .hash (· * ·) (· + ·) Ex.A Ex.B Ex.M 3 1 sch, Racy tr := by
  obtain ⟨sch, C, h1, h2⟩ := C36_returns true .hash (· * ·) (· + ·) Ex.validM Ex.nodupM true (numThreads := 3) (dflt := 1) (by decide)
  refine ⟨sch, h1, C36_violated true .hash _ _ Ex.validM Ex.nodupM (by decide) (Or.inr ⟨1, by decide, ?_⟩) sch h1 h2⟩
  rintro ⟨i, h3, h4⟩
  have e1 : firstRow Kind.hash.compl Ex.A Ex.B Ex.M (setNumThreads 3 1) 1 = 1 := by decide
  have e2 : firstRow Kind.hash.compl Ex.A Ex.B Ex.M (setNumThreads 3 1) (1 + 1) = 1 := by decide
  omega

/-- Three rows and four threads. -/
example : ∃ sch, Admissible 3 sch ∧ ∃ tr ∈ traces false .msa1 (· * ·) (· + ·) Ex.A Ex.B Ex.M 4 1 sch, Racy tr := by
  obtain ⟨sch, C, h1, h2⟩ := C36_returns false .msa1 (· * ·) (· + ·) Ex.validM Ex.nodupM true (numThreads := 4) (dflt := 1) (by decide)
  exact ⟨sch, h1, C36_violated false .msa1 _ _ Ex.validM Ex.nodupM (by decide) (Or.inl (by decide)) sch h1 h2⟩

end Verif.Props
