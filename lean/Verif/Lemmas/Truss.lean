import Verif.Lemmas.Triangles

/-! # The k-truss loop -/

namespace Verif.Model.Graph

open Verif.Spec

variable {n k : Nat}

theorem support_comm (H : SimpleGraph (Fin n)) (u v : Fin n) : support H u v = support H v u := by
  unfold support
  congr 1
  ext w
  constructor <;> exact fun h => ⟨h.2.symm, h.1.symm⟩

theorem support_mono {H H' : SimpleGraph (Fin n)} (h : H' ≤ H) (u v : Fin n) : support H' u v ≤ support H u v :=
  Set.ncard_le_ncard (fun _ hw => ⟨h hw.1, h hw.2⟩) (Set.toFinite _)

/-- One round: drop the edges with too small support. -/
def trim (k : Nat) (H : SimpleGraph (Fin n)) : SimpleGraph (Fin n) where
  Adj u v := H.Adj u v ∧ k - 2 ≤ support H u v
  symm := ⟨fun u v h => ⟨h.1.symm, support_comm H u v ▸ h.2⟩⟩
  loopless := ⟨fun u h => H.loopless.irrefl u h.1⟩

theorem trim_le (H : SimpleGraph (Fin n)) : trim k H ≤ H := fun _ _ h => h.1

theorem le_trim {H H' : SimpleGraph (Fin n)} (h : H' ≤ H) (ht : IsTruss k H') : H' ≤ trim k H := fun u v huv =>
  ⟨h huv, (ht u v huv).trans (support_mono h u v)⟩

/-- The matrix after one round. -/
def round (ge : Nat → Bool) (T : CSR Nat) : CSR Nat := select (fun _ _ v => ge v) (sq T)

/-- The test keeps the numbers from `k - 2` on; what it does with 0 does not matter. -/
def Keeps (k : Nat) (ge : Nat → Bool) : Prop := 3 ≤ k ∧ ∀ v, v ≠ 0 → ge v = decide (k - 2 ≤ v)

section
variable {H : SimpleGraph (Fin n)} {T : CSR Nat} {ge : Nat → Bool}

theorem mid_eq (h : Represents H T) (u v : Fin n) : mid n T u v = support H u v := by
  unfold mid support
  congr 1
  ext w
  exact and_congr (h.adj u w) (h.adj w v)

theorem round_row (h : Represents H T) (hk : Keeps k ge) {i : Nat} (hi : i < n) : (round ge T).row i =
    (T.rowCols i).filterMap fun j => if k - 2 ≤ mid n T i j then some (j, mid n T i j) else none := by
  unfold round
  have hi' : i < (sq T).rows := by show i < T.rows; rw [h.rows]; exact hi
  rw [select_row hi', sq_row h.wf h.sorted h.rows h.cols hi, ← List.filterMap_eq_filter, List.filterMap_filterMap]
  refine List.filterMap_congr fun j _ => ?_
  obtain ⟨hk3, hk⟩ := hk
  have hk1 : 1 ≤ k - 2 := by omega
  generalize k - 2 = m at *
  by_cases h0 : mid n T i j = 0
  · rw [if_pos h0, if_neg (by omega)]; rfl
  · rw [if_neg h0]
    by_cases h1 : m ≤ mid n T i j
    · simp [h1, hk _ h0]
    · simp [hk _ h0, h1]

theorem round_wf (h : Represents H T) : (round ge T).WF := select_wf (sq_wf h.wf)

theorem round_rowCols (h : Represents H T) (hk : Keeps k ge) {i : Nat} (hi : i < n) : (round ge T).rowCols i =
    (T.rowCols i).filter fun j => decide (k - 2 ≤ mid n T i j) := by
  rw [← CSR.row_map_fst (round_wf h), round_row h hk hi, List.map_filterMap, ← List.filterMap_eq_filter]
  refine List.filterMap_congr fun j _ => ?_
  generalize k - 2 = m
  by_cases h1 : m ≤ mid n T i j
  · simp [h1, Option.guard]
  · simp [h1, Option.guard]

theorem round_sub (h : Represents H T) (hk : Keeps k ge) : ∀ i < T.rows, ((round ge T).rowCols i).Sublist (T.rowCols i) := by
  intro i hi
  rw [round_rowCols h hk (h.rows ▸ hi)]
  exact List.filter_sublist

theorem round_rep (h : Represents H T) (hk : Keeps k ge) : Represents (trim k H) (round ge T) where
  wf := round_wf h
  rows := h.rows
  cols := h.cols
  sorted := fun i hi => (h.sorted i hi).sublist (round_sub h hk i hi)
  adj := by
    intro i j
    rw [round_rowCols h hk i.2, List.mem_filter, h.adj, mid_eq h, decide_eq_true_eq]
    rfl

theorem round_nnz (h : Represents H T) (hk : Keeps k ge) : (round ge T).nnz ≤ T.nnz :=
  nnz_le h.wf (round_wf h) rfl (round_sub h hk)

theorem trim_eq_of_nnz (h : Represents H T) (hk : Keeps k ge) (e : (round ge T).nnz = T.nnz) : trim k H = H := by
  ext u v
  rw [← (round_rep h hk).adj, ← h.adj, rows_eq_of_nnz h.wf (round_wf h) rfl (round_sub h hk) e u (h.rows ▸ u.2)]

end

/-- The loop ends with the largest truss of the graph it starts with. -/
theorem loop_ok {a : Algo} {ge : Nat → Bool} (two : Bool) {nt dflt : Nat} (hn : 0 < n) (hk : Keeps k ge)
    (ht : 0 < setNumThreads nt dflt) :
    ∀ (m : Nat) (H : SimpleGraph (Fin n)) (T : CSR Nat) (step : Nat), Represents H T → Usable a T.nnz →
    T.nnz < m → ∃ K T' rounds F, IsLargestTruss k H K ∧ Represents K T' ∧
      (∀ u v : Fin n, ∀ x, (v.val, x) ∈ T'.row u → x = support K u v) ∧ ∀ fuel, m ≤ fuel →
      (∀ sch, (∀ s, Admissible n (sch s)) →
        ktrussLoop a two ge nt dflt sch fuel T T.nnz step = .ok none ∨
        ktrussLoop a two ge nt dflt sch fuel T T.nnz step = .ok (some (T', rounds))) ∧
      ∀ sch, (∀ s, Admissible n (sch s)) → (∀ s, Fair (setNumThreads nt dflt) F (sch s)) →
        ktrussLoop a two ge nt dflt sch fuel T T.nnz step = .ok (some (T', rounds)) := by
  intro m
  induction m with
  | zero => intro H T step _ _ hf; omega
  | succ m ih =>
    intro H T step hT ha hf
    have hc := square_computes (a := a) two hT.wf hT.sorted (hT.cols.trans hT.rows.symm) (hT.rows ▸ hn) ha ht
    rw [hT.rows] at hc
    obtain ⟨F1, hF1⟩ := hc.live
    have step_none : ∀ sch fuel, square a two T nt dflt (sch step) = .ok none →
        ktrussLoop a two ge nt dflt sch (fuel + 1) T T.nnz step = .ok none := by
      intro sch fuel e
      unfold ktrussLoop
      rw [e, ok_bind]
    have step_some : ∀ sch fuel, square a two T nt dflt (sch step) = .ok (some (sq T)) →
        ktrussLoop a two ge nt dflt sch (fuel + 1) T T.nnz step =
        if T.nnz = (round ge T).nnz then .ok (some (round ge T, step))
        else ktrussLoop a two ge nt dflt sch fuel (round ge T) (round ge T).nnz (step + 1) := by
      intro sch fuel e
      rw [ktrussLoop, e, ok_bind]
      rfl
    have pos : ∀ fuel, m + 1 ≤ fuel → ∃ f, fuel = f + 1 ∧ m ≤ f := fun fuel h => ⟨fuel - 1, by omega, by omega⟩
    by_cases hstop : T.nnz = (round ge T).nnz
    · have htr : trim k H = H := trim_eq_of_nnz hT hk hstop.symm
      refine ⟨trim k H, round ge T, step, F1, ?_, round_rep hT hk, ?_, fun fuel hle => ?_⟩
      · refine ⟨trim_le H, ?_, fun H' h1 h2 => le_trim h1 h2⟩
        rw [htr]
        intro u v huv
        rw [← htr] at huv
        exact huv.2
      · intro u v x hx
        rw [round_row hT hk u.2, List.mem_filterMap] at hx
        obtain ⟨j, -, hj⟩ := hx
        split at hj
        · cases hj
          rw [htr]
          exact mid_eq hT u v
        · cases hj
      obtain ⟨fuel, rfl, -⟩ := pos fuel hle
      refine ⟨?_, ?_⟩
      · intro sch hsch
        rcases hc.safe (sch step) (hsch step) with e | e
        · exact .inl (step_none sch _ e)
        · exact .inr (by rw [step_some sch _ e, if_pos hstop])
      · intro sch hsch hf
        rw [step_some sch _ (hF1 _ (hsch step) (hf step)), if_pos hstop]
    · have hlt : (round ge T).nnz < T.nnz := by
        have := round_nnz (T := T) hT hk
        omega
      obtain ⟨K, T', rounds, F2, h1, h2, h3, h4⟩ :=
        ih (trim k H) (round ge T) (step + 1) (round_rep hT hk) (ha.mono (by omega)) (by omega)
      refine ⟨K, T', rounds, max F1 F2, ⟨h1.sub.trans (trim_le H), h1.truss, fun H' hs htr => h1.largest H' (le_trim hs htr) htr⟩,
        h2, h3, fun fuel hle => ?_⟩
      obtain ⟨fuel, rfl, hle2⟩ := pos fuel hle
      obtain ⟨g1, g2⟩ := h4 fuel hle2
      refine ⟨?_, ?_⟩
      · intro sch hsch
        rcases hc.safe (sch step) (hsch step) with e | e
        · exact .inl (step_none sch _ e)
        · rw [step_some sch _ e, if_neg hstop]
          exact g1 sch hsch
      · intro sch hsch hf
        rw [step_some sch _ (hF1 _ (hsch step) fun t h => by have := hf step t h; omega), if_neg hstop]
        exact g2 sch hsch fun s t h => by have := hf s t h; omega

end Verif.Model.Graph
