import Verif.Lemmas.RaceHeap
import Verif.Lemmas.RaceDot
import Verif.Props.C53
import Verif.Props.C54

/-!
# C103: data races in the older heap and inner-product kernels

The full claim is that no parallel region of a call of `HeapSpGEMM` or `innerSpGEMM_nohash` has a data race. In both kernels the
region that finds out the number of threads lets every thread write the same variable and is racy. All other regions are free of
races: those of the heap kernel for matrices with fewer than `2^17 - 1` columns, those of the inner-product kernel for all
arguments with a well-formed mask. (The parallel parts of the prefix sums, which run only for larger sizes, are not listed; see C36.)
-/

namespace Verif.Props
open Verif.Model Verif.Model.RaceOld

variable {V : Type}

/-- The programs whose accesses are listed are the steps of the models of the two kernels. -/
theorem C103_faithful (mul add : V → V → V) (zero : V) (A B : CSC V) (X M : CSR V) (colStart colEnd colptr : List Nat)
    (cols per n i : Nat) (x : List Nat) (ys : List V) :
    (RaceHeap.flopProg A B i).exec (x, ys) =
      (HeapMult.flopCol A B i >>= fun m => wr x i m >>= fun x => .ok ((x, ys), ())) ∧
    (RaceHeap.endProg colStart i).exec (x, ys) =
      (rd colStart (i + 1) >>= fun e => wr x (i + 1) e >>= fun x => .ok ((x, ys), ())) ∧
    (RaceHeap.perProg colStart cols per i).exec (x, ys) =
      (lowerBound (colStart.map some) cols (per * (i + 1)) >>= fun e => wr x (i + 1) e >>= fun x => .ok ((x, ys), ())) ∧
    (∀ l, (RaceHeap.columnProg mul add A B colStart i l).exec (x, ys) =
      (HeapMult.column mul add A B colStart i x l >>= fun r => .ok ((r.1, ys), r.2))) ∧
    (RaceHeap.nzProg colStart colEnd i).exec (x, ys) =
      (rd colEnd i >>= fun e => rd colStart i >>= fun s => wr x i (e - s) >>= fun x => .ok ((x, ys), ())) ∧
    (∀ l, (RaceHeap.copyProg colStart colEnd colptr i l).exec (x, ys) =
      HeapMult.copyCol colStart colEnd colptr i (x, ys) l) ∧
    (∀ g l, (RaceDot.blockProg mul add zero X B M n i l).exec g =
      blockStep (Dot.starts M.rows n) (fun t lo _ => .ok (t, lo)) (fun i g (a : Nat × Nat) => do
        let g ← Dot.rowBody mul add zero X B M a.1 a.2 i g
        .ok (g, a)) i g l) := by
  refine ⟨?_, ?_, ?_, fun l => ?_, ?_, fun l => ?_, fun g l => RaceDot.exec_blockProg mul add zero X B M n i l g⟩
  · unfold RaceHeap.flopProg
    simp only [exec_priv_bind, exec_put]
  · unfold RaceHeap.endProg
    simp only [exec_priv_bind, exec_put]
  · unfold RaceHeap.perProg
    simp only [exec_priv_bind, exec_put]
  · apply RaceHeap.exec_columnProg
  · unfold RaceHeap.nzProg
    simp only [exec_priv_bind, exec_put]
  · apply RaceHeap.exec_copyProg

/-- C103 for the heap kernel: exactly the first region is racy, in every call with two or more threads. -/
theorem C103_heap_partial (mul add : V → V → V) (zero : V) {A B : CSC V} (h : Spec.ValidCols A B) (hpos : 0 < B.cols)
    (hsmall : B.cols + 1 < 2 ^ 17) {n : Nat} (hn : 0 < n) (w1 w2 w3 : Nat → Nat) {team : List Nat}
    (ht : team.Perm (List.range n)) (alloc sizes : List Nat) {sch : HeapMult.Sched} (hadm : sch.Adm B.cols n) :
    ∃ first rest, RaceHeap.allTraces mul add zero A B n w1 w2 w3 team alloc sizes sch = first :: rest ∧
      (Racy first ↔ 2 ≤ n) ∧ ∀ tr ∈ rest, ¬ Racy tr :=
  ⟨_, _, rfl, team_racy_iff V ht, RaceHeap.heap_free mul add zero h hpos hsmall hn hadm⟩

/-- C103, violated for the heap kernel: whatever the matrices, every call with two or more threads has a data race. -/
theorem C103_violated_heap (mul add : V → V → V) (zero : V) (A B : CSC V) {n : Nat} (hn : 2 ≤ n) (w1 w2 w3 : Nat → Nat)
    {team : List Nat} (ht : team.Perm (List.range n)) (alloc sizes : List Nat) (sch : HeapMult.Sched) :
    ∃ tr ∈ RaceHeap.allTraces mul add zero A B n w1 w2 w3 team alloc sizes sch, Racy tr :=
  ⟨_, List.mem_cons_self .., team_racy V hn ht⟩

/-- C103 for the inner-product kernel: only the region that finds out the number of threads can be racy, and it is so if there
are two or more threads. -/
theorem C103_inner_partial (mul add : V → V → V) (zero : V) (A : CSR V) (B : CSC V) {M : CSR V} (hM : M.WF) {n : Nat}
    (hn : 0 < n) (nd : Nat) (w1 w2 : Nat → Nat) {team : List Nat} (ht : team.Perm (List.range n)) (sch : Dot.Sched) :
    (Racy (teamTrace V n team) ↔ 2 ≤ n) ∧
    ∀ tr ∈ RaceDot.dotTraces mul add zero A B M n nd w1 w2 team sch, Racy tr → tr = teamTrace V n team := by
  refine ⟨team_racy_iff V ht, ?_⟩
  intro tr htr hr
  rcases List.mem_append.1 htr with htr | htr
  · exact absurd hr (bin_free tr htr)
  · unfold RaceDot.mainTraces at htr
    split at htr
    · rcases List.mem_cons.1 htr with rfl | htr
      · rfl
      · rw [List.mem_singleton.1 htr] at hr
        exact absurd hr (RaceDot.main_free mul add zero A B hM hn _ _ _ _)
    · cases htr

/-- C103, violated for the inner-product kernel: every call with two or more threads that returns a matrix has a data race. -/
theorem C103_violated_inner (mul add : V → V → V) (zero : V) (A : CSR V) (B : CSC V) (M : CSR V) {n : Nat} (hn : 2 ≤ n)
    (nd nnz0 : Nat) (w1 w2 : Nat → Nat) {team : List Nat} (ht : team.Perm (List.range n)) {sch : Dot.Sched} {C : CSR V}
    (hC : Dot.innerNohash mul add zero A B M n nd nnz0 sch = .ok (some C)) :
    ∃ tr ∈ RaceDot.dotTraces mul add zero A B M n nd w1 w2 team sch, Racy tr := by
  unfold Dot.innerNohash at hC
  obtain ⟨colids, h1, hC⟩ := Alias.bind_ok' hC
  obtain ⟨p, h2, hC⟩ := Alias.bind_ok' hC
  cases p with
  | none => cases hC
  | some p =>
    refine ⟨teamTrace V n team, List.mem_append.2 (Or.inr ?_), team_racy V hn ht⟩
    unfold RaceDot.mainTraces
    rw [h1, h2]
    exact List.mem_cons_self ..

/-! ## Examples -/

example := C103_heap_partial (· * ·) (· + ·) 0 col_valid (by decide) (by decide) (n := 2) (by decide) id id id (team := [1, 0])
  (by decide) [0, 1] [1, 0] colSched_adm
example := C103_inner_partial (· * ·) (· + ·) (0 : Int) Ex.A Bc Ex.wfM (n := 2) (by decide) 4 id id (team := [1, 0]) (by decide) exDot
example := C103_violated_inner (· * ·) (· + ·) (0 : Int) Ex.A Bc Ex.M (n := 2) (by decide) 4 0 id id (team := [1, 0]) (by decide)
  C53_run

/-- The last accesses of the main region of the inner-product kernel in one run: both threads count in `th_nnz`, each in its cell. -/
example : ((RaceDot.mainTraces (· * ·) (· + ·) 0 Ex.A Bc Ex.M 2 4 [0, 1] exDot)[1]?.map (·.drop 9)) = some
    [(0, ⟨.thNnz, 0, true⟩), (0, ⟨.rowNnz, 0, false⟩), (0, ⟨.rowNnz, 0, true⟩),
      (1, ⟨.thNnz, 1, false⟩), (1, ⟨.numbers, 2, true⟩), (1, ⟨.values, 2, true⟩), (1, ⟨.thNnz, 1, true⟩),
      (1, ⟨.rowNnz, 2, false⟩), (1, ⟨.rowNnz, 2, true⟩)] := by
  decide +kernel

/-- The regions of a call of the heap kernel: the numbers of their accesses. -/
example : (RaceHeap.allTraces (· * ·) (· + ·) 0 colA colB 2 id id id [0, 1] [0, 1] [1, 0] colSched).map List.length =
    [2, 3, 2, 2, 2, 2, 14, 3, 12] := by
  decide +kernel

end Verif.Props
