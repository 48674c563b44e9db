import Verif.Lemmas.RaceOldFree
import Verif.Props.C31

/-!
# C102: data races in the older kernels

The full claim is that no parallel region of a call of `HashSpGEMM`, `MaskedSPASpGEMM`, `mxm_hash_mask` or `mxm_hash_mask_wobin`
has a data race. It holds for the first two and for the last one with fewer than `2^17 - 1` rows. (For more rows the prefix sum
reads past the end of its source, see C31 and C34.) In `mxm_hash_mask` exactly the first region is racy.
-/

namespace Verif.Props
open Verif.Model Verif.Model.RaceOld

variable {V : Type}

/-- The programs whose accesses are listed are the steps of the models of the kernels: the rows of the five passes, and the
iterations of the loops of the partition. -/
theorem C102_faithful (sorted : Bool) (sortf : List (Nat × V) → List (Nat × V)) (mul add : V → V → V) (dflt : V)
    (A B M : CSR V) (rowptr binId ps : List Nat) (cols total rows n min i : Nat) (x : List Nat) (ys : List V) :
    (∀ t, (RaceOld.symRow A B binId i t).exec (x, ys) =
      (HashMult.symRow A B binId i x t >>= fun r => .ok ((r.1, ys), r.2))) ∧
    (∀ t, (RaceOld.numRow sorted sortf mul add dflt A B rowptr binId i t).exec (x, ys) =
      HashMult.numRow sorted sortf mul add dflt A B rowptr binId i (x, ys) t) ∧
    (∀ s, (spaCountRow A B M i s).exec (x, ys) = (Spa.countRow A B M i x s >>= fun r => .ok ((r.1, ys), r.2))) ∧
    (∀ s, (spaFillRow mul add A B M rowptr i s).exec (x, ys) = Spa.fillRow mul add A B M rowptr i (x, ys) s) ∧
    (∀ t, (lpCountRow A B M i t).exec (x, ys) = (LpMult.countRow A B M i x t >>= fun r => .ok ((r.1, ys), r.2))) ∧
    (∀ t, (RaceOld.countProducts A B i t).exec (x, ys) =
      (LpMult.countProducts A B i x t >>= fun r => .ok ((r.1, ys), r.2))) ∧
    (∀ t, (lpFillRow mul add dflt A B M rowptr i t).exec (x, ys) = LpMult.fillRow mul add dflt A B M rowptr i (x, ys) t) ∧
    (intprodProg A B i).exec (x, ys) = (Bin.intprodRow A B i >>= fun nz => wr x i nz >>= fun x => .ok ((x, ys), ())) ∧
    (offsetProg ps total rows n i).exec (x, ys) =
      (lowerBound (ps.map some) (rows + 1) ((total + n - 1) / n * (i + 1)) >>= fun e =>
        wr x (i + 1) (if e > rows then rows else e) >>= fun x => .ok ((x, ys), ())) ∧
    (binProg binId cols min i).exec (x, ys) =
      (rd binId i >>= fun nz => Bin.binIdOf nz cols min >>= fun b => wr x i b >>= fun x => .ok ((x, ys), ())) := by
  refine ⟨fun t => exec_symRow A B binId i t x ys, fun t => exec_numRow sorted sortf mul add dflt A B rowptr binId i t _,
    fun s => exec_spaCountRow A B M i s x ys, fun s => exec_spaFillRow mul add A B M rowptr i s _,
    fun t => exec_lpCountRow A B M i t x ys, fun t => exec_countProducts A B i t x ys,
    fun t => exec_lpFillRow mul add dflt A B M rowptr i t _, ?_, ?_, ?_⟩
  · unfold intprodProg
    simp only [exec_priv_bind, exec_put]
  · unfold offsetProg
    simp only [exec_priv_bind, exec_put]
  · unfold binProg
    simp only [exec_priv_bind, exec_put]

/-- C102 for the unmasked hash multiply: no region is racy, with sorted and unsorted output, for every team, every distribution
of the iterations among the threads and every schedule. -/
theorem C102_hash_partial {sorted : Bool} {sortf : List (Nat × V) → List (Nat × V)} (hs : Spec.SortsBy (·.1) sortf)
    (mul add : V → V → V) (dflt : V) {A B : CSR V} (hA : A.WF) (hB : B.WF) (hAB : A.cols = B.rows) (hpos : 0 < A.rows)
    (hsmall : A.rows + 1 < 2 ^ 17) {n : Nat} (hn : 0 < n) (nd : Nat) (w1 w2 : Nat → Nat) (tables : List Nat)
    {sch : HashMult.Sched} (hadm : HashMult.Adm A.rows n sch) :
    ∀ tr ∈ hashTraces sorted sortf mul add A B dflt n nd w1 w2 tables sch, ¬ Racy tr :=
  hash_free hs mul add dflt hA hB hAB hpos hsmall hn nd hadm

/-- C102 for the sparse accumulator kernel. -/
theorem C102_spa_partial (mul add : V → V → V) {A B M : CSR V} (h : Spec.Valid A B M) (hsmall : A.rows + 1 < 2 ^ 17) (dflt : V)
    {n : Nat} (hn : 0 < n) (nd : Nat) (w1 w2 : Nat → Nat) {sch : TwoPassSched} (hadm : sch.Adm A.rows n) :
    ∀ tr ∈ spaTraces mul add A B M dflt n nd w1 w2 sch, ¬ Racy tr :=
  spa_free mul add h hsmall dflt hn hadm

/-- C102 for the hash kernel without bins. -/
theorem C102_wobin_partial (mul add : V → V → V) {A B M : CSR V} (h : Spec.Valid A B M) (hsmall : A.rows + 1 < 2 ^ 17) (dflt : V)
    (nd : Nat) (w1 w2 : Nat → Nat) (s1 s2 : List Nat) {order1 order2 : List Nat}
    (ho1 : order1.Perm (List.range A.rows)) (ho2 : order2.Perm (List.range A.rows)) :
    ∀ tr ∈ wobinTraces mul add A B M dflt nd w1 w2 order1 s1 s2 order2, ¬ Racy tr :=
  wobin_free mul add h hsmall dflt ho1 ho2

/-- C102 for the hash kernel with bins: exactly the first region, in which every thread writes the variable `numThreads`, is
racy, and it is so in every call with two or more threads. -/
theorem C102_mask_partial (mul add : V → V → V) {A B M : CSR V} (h : Spec.Valid A B M) (hsmall : A.rows + 1 < 2 ^ 17) (dflt : V)
    {n : Nat} (hn : 0 < n) (nd : Nat) (w1 w2 : Nat → Nat) {team : List Nat} (ht : team.Perm (List.range n)) (tables : List Nat)
    {sch : TwoPassSched} (hadm : sch.Adm A.rows n) :
    ∃ first rest, maskTraces mul add A B M dflt n nd w1 w2 team tables sch = first :: rest ∧
      (Racy first ↔ 2 ≤ n) ∧ ∀ tr ∈ rest, ¬ Racy tr := by
  exact ⟨_, _, rfl, team_racy_iff V ht, lp_free mul add h hsmall dflt hn hadm⟩

/-- C102, violated: whatever the matrices, every call of `mxm_hash_mask` with two or more threads has a data race. -/
theorem C102_violated_mask (mul add : V → V → V) (A B M : CSR V) (dflt : V) {n : Nat} (hn : 2 ≤ n) (nd : Nat) (w1 w2 : Nat → Nat)
    {team : List Nat} (ht : team.Perm (List.range n)) (tables : List Nat) (sch : TwoPassSched) :
    ∃ tr ∈ maskTraces mul add A B M dflt n nd w1 w2 team tables sch, Racy tr :=
  ⟨_, List.mem_cons_self .., team_racy V hn ht⟩

/-! ## Examples -/

/-- Matrices and schedules that meet the hypotheses. -/
example := C102_spa_partial (· * ·) (· + ·) repM_valid (by decide) 0 (n := 2) (by decide) 4 id id exTwoPass_adm
example := C102_mask_partial (· * ·) (· + ·) repM_valid (by decide) 0 (n := 2) (by decide) 4 id id (team := [1, 0]) (by decide) [0, 1]
  exTwoPass_adm
example := C102_wobin_partial (· * ·) (· + ·) repM_valid (by decide) 0 4 id id [] [] (order1 := [2, 0, 1]) (order2 := [1, 2, 0])
  (by decide) (by decide)

example {sortf : List (Nat × Int) → List (Nat × Int)} (hs : Spec.SortsBy (·.1) sortf) :=
  C102_hash_partial (sorted := true) hs (· * ·) (· + ·) 0 Ex.wfA Ex.wfB rfl (by decide) (by decide) (n := 2) (by decide) 4 id id [1, 0]
    (sch := exHashSched) ⟨by decide, by decide, by decide⟩

/-- A call has six regions: three of the partition, one that allocates the tables, two passes. -/
example : (hashTraces false id (· * ·) (· + ·) Ex.A Ex.B 0 2 4 id id [1, 0] exHashSched).map List.length = [3, 2, 3, 2, 3, 12] := by
  decide +kernel

/-- The accesses of the second pass of the kernel without bins in one run: the threads 0 and 1 write different cells. -/
example : (wobinTraces (· * ·) (· + ·) Ex.A Ex.B repM 0 4 (· / 2) (· / 2) [2, 0, 1] [] [] [1, 2, 0])[1]? = some
    [(1, ⟨.numbers, 2, true⟩), (1, ⟨.values, 2, true⟩), (0, ⟨.numbers, 0, true⟩), (0, ⟨.values, 0, true⟩),
      (0, ⟨.numbers, 1, true⟩), (0, ⟨.values, 1, true⟩)] := by decide +kernel

/-- The notion of a race is not empty: two threads that write the same cell. -/
example : Racy [(0, ⟨.numbers, 3, true⟩), (1, ⟨.numbers, 3, true⟩)] := by decide
/-- Two threads that read the same cell do not race. -/
example : ¬ Racy [(0, ⟨.numbers, 3, false⟩), (1, ⟨.numbers, 3, false⟩)] := by decide

end Verif.Props
