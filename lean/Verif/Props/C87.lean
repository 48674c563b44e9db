import Verif.Lemmas.RowData

/-! # C87: the table with the statistics and the times per row -/

namespace Verif.Props
open Verif Model
open _root_.Verif.Spec (Timings RightTable SmallSum IsMean valuesAt)

variable {hd : List (List Int)} {tms : List (List (List Int))} {nrows niter k : Nat} {names : List String}

/-- The first line of the table -/
def tableHead (names : List String) : List String :=
  ["NCOLS", "ROW_SIZE_A", "ROW_SIZE_M", "ROW_FLOPS", "ROW_FLOPS_MASKED", "ROW_NVALS"] ++ names

theorem table_lines (h : Timings hd tms nrows niter) (hn : names.length = tms.length) (hk : 0 < k) (hle : k ≤ niter) :
    RowData.printRowData (hd ++ tms.flatten) nrows niter k names =
      .ok (tableHead names, (List.range nrows).map fun i => valuesAt hd i ++ RowData.means tms k i) := by
  unfold RowData.printRowData
  rw [hn, RowData.heads_eq h, mapM_ok fun i hi => RowData.line_eq h hk hle (List.mem_range.1 hi)]
  rfl

theorem values_nonneg (h : Timings hd tms nrows niter) {T : List (List Int)} (hT : T ∈ tms) {i : Nat} (hi : i < nrows) (k : Nat) :
    0 ≤ ((RowData.sorted (valuesAt T i)).take k).sum := by
  apply RowData.take_sum_nonneg
  intro x hx
  have hx := (RowData.sorted_of (valuesAt T i)).1.mem_iff.1 hx
  obtain ⟨y, hy, rfl⟩ := List.mem_map.1 hx
  have hl := h.timeLen T hT y hy
  have : y.getD i 0 = y[i]'(by omega) := by simp [List.getD_eq_getElem?_getD, show i < y.length by omega]
  rw [this]
  exact h.nonneg T hT y hy _ (List.getElem_mem _)

theorem table_iff (h : Timings hd tms nrows niter) (k : Nat) :
    RightTable hd tms nrows k ((List.range nrows).map fun i => valuesAt hd i ++ RowData.means tms k i) ↔
      ∀ i < nrows, ∀ T ∈ tms, RowData.printed ((RowData.sorted (valuesAt T i)).take k).sum k = ((RowData.sorted (valuesAt T i)).take k).sum / k := by
  constructor
  · rintro ⟨_, ht⟩ i hi T hT
    obtain ⟨ms, hms, _, hall⟩ := ht i hi
    obtain ⟨a, ha, rfl⟩ := List.mem_iff_getElem.1 hT
    obtain ⟨m, hm, hmean⟩ := hall a _ (List.getElem?_eq_getElem ha)
    rw [List.getElem?_map, List.getElem?_range hi, Option.map_some, Option.some.injEq] at hms
    have := List.append_cancel_left hms
    subst this
    rw [RowData.means, List.getElem?_map, List.getElem?_eq_getElem ha, Option.map_some, Option.some.injEq] at hm
    rw [hm]
    exact RowData.isMean_iff.1 hmean
  · intro hall
    refine ⟨by simp, fun i hi => ⟨RowData.means tms k i, by simp [List.getElem?_range hi], by simp [RowData.means], ?_⟩⟩
    intro a T hT
    refine ⟨_, by rw [RowData.means, List.getElem?_map, hT]; rfl, ?_⟩
    exact RowData.isMean_iff.2 (hall i hi T (List.mem_of_getElem? hT))

/-- C87: with at least one and at most `niter` samples, the table has the header, and one line per row with the statistics of the row and, per
algorithm, the mean of its fastest runs, if the sums of these times are below `2 ^ 31`. -/
theorem C87_partial (h : Timings hd tms nrows niter) (hn : names.length = tms.length) (hk : 0 < k) (hle : k ≤ niter)
    (hs : ∀ i < nrows, ∀ T ∈ tms, SmallSum (valuesAt T i) k) :
    ∃ lines, RowData.printRowData (hd ++ tms.flatten) nrows niter k names = .ok (tableHead names, lines) ∧ RightTable hd tms nrows k lines :=
  ⟨_, table_lines h hn hk hle, (table_iff h k).2 fun i hi T hT =>
    RowData.printed_small (values_nonneg h hT hi k) (RowData.smallSum_iff.1 (hs i hi T hT)) k⟩

/-- C87 is violated when a sum reaches `2 ^ 31`: the sums are computed in `int`, although times are `long`. For sums below `2 ^ 63`, the table
is right if and only if all sums are below `2 ^ 31`. -/
theorem C87_violated_sum (h : Timings hd tms nrows niter) (hn : names.length = tms.length) (hk : 0 < k) (hle : k ≤ niter) (hk2 : k < 2 ^ 32)
    (hS : ∀ i < nrows, ∀ T ∈ tms, (valuesAt T i).sum < 2 ^ 63) :
    ∃ lines, RowData.printRowData (hd ++ tms.flatten) nrows niter k names = .ok (tableHead names, lines) ∧
      (RightTable hd tms nrows k lines ↔ ∀ i < nrows, ∀ T ∈ tms, SmallSum (valuesAt T i) k) := by
  refine ⟨_, table_lines h hn hk hle, ?_⟩
  rw [table_iff h k]
  refine forall₂_congr fun i hi => forall₂_congr fun T hT => ?_
  rw [RowData.smallSum_iff]
  have h0 := values_nonneg h hT hi k
  constructor
  · intro e
    by_contra hc
    refine RowData.printed_large (by omega) ?_ hk hk2 e
    have hsum : (RowData.sorted (valuesAt T i)).sum = (valuesAt T i).sum := (RowData.sorted_of (valuesAt T i)).1.sum_eq
    have hfull := values_nonneg h hT hi (RowData.sorted (valuesAt T i)).length
    have hd : 0 ≤ ((RowData.sorted (valuesAt T i)).drop k).sum := by
      have : ∀ x ∈ (RowData.sorted (valuesAt T i)).drop k, 0 ≤ x := by
        intro x hx
        have hx := (RowData.sorted_of (valuesAt T i)).1.mem_iff.1 (List.mem_of_mem_drop hx)
        obtain ⟨y, hy, rfl⟩ := List.mem_map.1 hx
        have hl := h.timeLen T hT y hy
        have : y.getD i 0 = y[i]'(by omega) := by simp [List.getD_eq_getElem?_getD, show i < y.length by omega]
        rw [this]
        exact h.nonneg T hT y hy _ (List.getElem_mem _)
      have := RowData.take_sum_nonneg this ((RowData.sorted (valuesAt T i)).drop k).length
      rwa [List.take_length] at this
    have hsplit : ((RowData.sorted (valuesAt T i)).take k).sum + ((RowData.sorted (valuesAt T i)).drop k).sum = (valuesAt T i).sum := by
      rw [← hsum, ← List.sum_append, List.take_append_drop]
    have := hS i hi T hT
    omega
  · intro hlt
    exact RowData.printed_small h0 hlt k

/-- No samples: division by zero. More samples than runs: the sum reads behind the times. -/
theorem C87_violated_samples (h : Timings hd tms nrows niter) (hn : names.length = tms.length) (hr : 0 < nrows) (ht : tms ≠ []) {e : Err}
    (hbad : (k = 0 ∧ e = .divzero) ∨ (niter < k ∧ e = .oob)) : RowData.printRowData (hd ++ tms.flatten) nrows niter k names = .error e := by
  unfold RowData.printRowData
  rw [hn, RowData.heads_eq h, RowData.mapM_fails (e := e) (fun i hi => .inr (RowData.line_fails h (List.mem_range.1 hi) ht hbad))
    ⟨0, List.mem_range.2 hr, RowData.line_fails h hr ht hbad⟩]
  rfl

/-- Fewer arrays than runs: the number of statistics wraps around, and arrays behind the last are read. -/
theorem C87_violated_short {data : List (List Int)} (h : data.length < niter * names.length) (hs : niter * names.length < 2 ^ 64)
    (hr : 0 < nrows) : RowData.printRowData data nrows niter k names = .error .oob := by
  have hl := fun i => RowData.line_short (niter := niter) (k := k) (m := names.length) (i := i) (RowData.heads_short h hs)
  unfold RowData.printRowData
  rw [RowData.mapM_fails (e := .oob) (fun i _ => .inr (hl i)) ⟨0, List.mem_range.2 hr, hl 0⟩]
  rfl

/-! Cases that meet the hypotheses: one statistic, two algorithms with two runs each, two rows. -/

def tbHd : List (List Int) := [[7, 8]]
def tbTimes : List (List (List Int)) := [[[5, 1], [2, 3]], [[4, 4], [9, 0]]]
def tbSlow : List (List (List Int)) := [[[2147483648, 1], [2147483649, 3]], [[4, 4], [9, 0]]]

theorem tb_ok : Timings tbHd tbTimes 2 2 := ⟨by decide, by decide, by decide, by decide, by decide⟩
theorem tb_slow : Timings tbHd tbSlow 2 2 := ⟨by decide, by decide, by decide, by decide, by decide⟩

example : ∀ i < 2, ∀ T ∈ tbTimes, SmallSum (valuesAt T i) 2 := by
  intro i hi T hT
  have : i = 0 ∨ i = 1 := by omega
  have hT : T = [[5, 1], [2, 3]] ∨ T = [[4, 4], [9, 0]] := by simpa [tbTimes] using hT
  rcases this with rfl | rfl <;> rcases hT with rfl | rfl
  · exact ⟨[2, 5], by decide, by decide, by decide⟩
  · exact ⟨[4, 9], by decide, by decide, by decide⟩
  · exact ⟨[1, 3], by decide, by decide, by decide⟩
  · exact ⟨[0, 4], by decide, by decide, by decide⟩

example : ¬ SmallSum (valuesAt [[2147483648, 1], [2147483649, 3]] 0) 1 := by
  rw [RowData.smallSum_iff]
  have : RowData.sorted (valuesAt [[2147483648, 1], [2147483649, 3]] 0) = [2147483648, 2147483649] :=
    RowData.sorted_unique ((RowData.sorted_of _).1.trans (by decide)) (RowData.sorted_of _).2 (by decide)
  rw [this]
  decide

example : ∀ i < 2, ∀ T ∈ tbSlow, (valuesAt T i).sum < 2 ^ 63 := by decide

end Verif.Props
