import Verif.Lemmas.RaceAny
import Verif.Props.C36
import Verif.Props.C74
import Verif.Props.C104

/-! # C106: data races of the generic heap driver -/

namespace Verif.Props

open Verif.Model Verif.Model.Race
open _root_.Verif.Spec (Valid AssocComm Computes Admissible Fair)

variable {V : Type}

/-- The row algorithms of `heap_mult_generic.h`; `plain 0` is `BasicHeap`. -/
inductive GenKind where
  | masked (ver : Old.Ver)
  | mca (ver : Gen.MVer)
  | plain (threshold : Nat)

def GenKind.alg : GenKind → Gen.Alg V
  | .masked ver => Gen.masked ver
  | .mca ver => Gen.mca ver
  | .plain threshold => Gen.plain threshold

/-- The inputs for which they are shown to work (C74, C75, C76). -/
def GenKind.Req (add : V → V → V) (A B M : CSR V) : GenKind → Prop
  | .masked _ => AssocComm add ∧ B.SortedRows ∧ M.SortedRows
  | .mca ver => McaInputs ver A B M
  | .plain _ => AssocComm add ∧ B.SortedRows

theorem gen_contract (k : GenKind) (mul add : V → V → V) {A B M : CSR V} (h : Valid A B M) (hr : k.Req add A B M) :
    ∃ exp bound Inv, Gen.Contract (k.alg : Gen.Alg V) mul add A B M exp bound Inv := by
  cases k with
  | masked ver =>
    obtain ⟨hadd, sB, sM⟩ := hr
    have hnd : M.NodupRows := fun i hi => (sM i hi).imp (fun h => Nat.ne_of_lt h)
    refine ⟨_, _, _, Gen.contract_masked hadd h.wfA h.wfM h.shapes.ma (fun i hi => ?_) ver (fun i hi => ?_)⟩
    · have hi' : i < M.rows := h.shapes.ma ▸ hi
      exact { wfA := h.wfA, wfB := h.wfB, wfM := h.wfM, sh := h.shapes, nodup := hnd i hi', lt := hi, sB := sB, sM := sM i hi' }
    · exact masked_len h.wfM (hnd i (h.shapes.ma ▸ hi))
  | mca ver => exact ⟨_, _, _, mca_contract ver mul add h hr⟩
  | plain threshold => exact ⟨_, _, _, Gen.contract_plain hr.1 h.wfA h.wfB h.shapes.ab hr.2 threshold M⟩

/-- The programs whose accesses are listed are the steps of the threads in the model of the driver. -/
theorem C106_faithful (alg : Gen.Alg V) (mul add : V → V → V) (A B M : CSR V) (n : Nat) (rng : Nat → Nat × Nat)
    (outs : Nat → List (Nat × V)) (t : Nat) :
    (∀ x g, (Gen.prog alg mul add A B M t x).exec shMem g = Gen.step alg mul add A B M t g x) ∧
    ∀ x g, (prog3 A.rows n rng outs t x).exec shMem g = step3 A.rows n rng outs t g x :=
  ⟨Gen.exec_prog alg mul add A B M t, exec_prog3 A.rows n rng outs t⟩

/-- C106 in full would say that no region of any call is racy. This is false (see `C106_violated`). What holds: for every row algorithm,
right or wrong, and for all thread counts and schedules (also of calls that fail or have not yet returned), the loop that counts the
products and the two parts of the main region are free of races if every thread other than the last one gets a row. The rows are cut by
the number of all products, as in the complemented calls of C36. -/
theorem C106_free_partial (alg : Gen.Alg V) (mul add : V → V → V) (zero : V) {A B M : CSR V} (h : Valid A B M)
    {numThreads dflt : Nat} (hd : 0 < dflt) (hbig : A.rows < 2 ^ 17 ∨ dflt ≤ A.rows)
    (h2 : ∀ t, t + 1 < setNumThreads numThreads dflt → GetsRow true A B M (setNumThreads numThreads dflt) t)
    (sch : Scheds) (hs : Admissible A.rows sch) :
    ∀ tr ∈ Gen.traces alg mul add zero A B M numThreads dflt sch, ¬ Racy tr := by
  refine Gen.conflicts_any h.wfA h.wfB h.shapes.ab h.rowsPos zero hd hbig sch hs fun hi => ?_
  obtain ⟨u, hu, he⟩ := idle_iff.1 hi
  exact he (h2 u hu)

/-- C106 is violated: with any row algorithm at all, a call that returns has a race if a thread other than the last one gets no row. -/
theorem C106_violated (alg : Gen.Alg V) (mul add : V → V → V) {zero : V} {A B M : CSR V} (h : Valid A B M) {zb : Bool}
    {numThreads dflt : Nat} (hd : 0 < dflt) (hbig : A.rows < 2 ^ 17 ∨ dflt ≤ A.rows)
    (hbad : ∃ t, t + 1 < setNumThreads numThreads dflt ∧ ¬ GetsRow true A B M (setNumThreads numThreads dflt) t)
    (sch : Scheds) (hs : Admissible A.rows sch) {C : CSR V}
    (hret : Gen.heapSpGEMM alg mul add zero A B M zb numThreads dflt sch = .ok (some C)) :
    ∃ tr ∈ Gen.traces alg mul add zero A B M numThreads dflt sch, Racy tr :=
  Gen.races h.wfA h.wfB h.shapes.ab h.rowsPos hd hbig sch hs hret (idle_iff.2 hbad)

/-- So this is the exact condition for calls that return. -/
theorem C106_exact (alg : Gen.Alg V) (mul add : V → V → V) {zero : V} {A B M : CSR V} (h : Valid A B M) {zb : Bool}
    {numThreads dflt : Nat} (hd : 0 < dflt) (hbig : A.rows < 2 ^ 17 ∨ dflt ≤ A.rows) (sch : Scheds) (hs : Admissible A.rows sch) {C : CSR V}
    (hret : Gen.heapSpGEMM alg mul add zero A B M zb numThreads dflt sch = .ok (some C)) :
    (∃ tr ∈ Gen.traces alg mul add zero A B M numThreads dflt sch, Racy tr) ↔
      ∃ t, t + 1 < setNumThreads numThreads dflt ∧ ¬ GetsRow true A B M (setNumThreads numThreads dflt) t := by
  refine ⟨fun ⟨tr, htr, hrc⟩ => ?_, fun hbad => C106_violated alg mul add h hd hbig hbad sch hs hret⟩
  by_contra hno
  refine C106_free_partial alg mul add zero h hd hbig (fun t ht => ?_) sch hs tr htr hrc
  by_contra hg
  exact hno ⟨t, ht, hg⟩

/-- In particular with more threads than rows. -/
theorem C106_violated_threads (alg : Gen.Alg V) (mul add : V → V → V) {zero : V} {A B M : CSR V} (h : Valid A B M) {zb : Bool}
    {numThreads dflt : Nat} (hd : 0 < dflt) (hbig : A.rows < 2 ^ 17 ∨ dflt ≤ A.rows) (hmany : A.rows + 1 < setNumThreads numThreads dflt)
    (sch : Scheds) (hs : Admissible A.rows sch) {C : CSR V}
    (hret : Gen.heapSpGEMM alg mul add zero A B M zb numThreads dflt sch = .ok (some C)) :
    ∃ tr ∈ Gen.traces alg mul add zero A B M numThreads dflt sch, Racy tr := by
  refine C106_violated alg mul add h hd hbig ?_ sch hs hret
  generalize setNumThreads numThreads dflt = n at *
  by_contra hno
  have hall : ∀ t, t + 1 < n → firstRow true A B M n t < firstRow true A B M n (t + 1) := by
    intro t ht
    by_contra hlt
    exact hno ⟨t, ht, fun ⟨i, h1, h2⟩ => hlt (by omega)⟩
  have hgrow : ∀ t, t + 1 ≤ n → t ≤ firstRow true A B M n t := by
    intro t
    induction t with
    | zero => intro _; exact Nat.zero_le _
    | succ t ih => intro ht; have := ih (by omega); have := hall t (by omega); omega
  have h1 := hgrow (n - 1) (by omega)
  have h2 : firstRow true A B M n (n - 1) ≤ A.rows := by
    rw [firstRow_eq]; exact (split_bnd _ _ A.rows (by omega)).le _
  omega

/-- The calls do return, so there are executions with a race. -/
theorem C106_returns (k : GenKind) (mul add : V → V → V) (zero : V) {A B M : CSR V} (h : Valid A B M) (hr : k.Req add A B M) (zb : Bool)
    {numThreads dflt : Nat} (hd : 0 < dflt) (hbig : A.rows < 2 ^ 17 ∨ dflt ≤ A.rows) :
    ∃ sch C, Admissible A.rows sch ∧ Gen.heapSpGEMM k.alg mul add zero A B M zb numThreads dflt sch = .ok (some C) := by
  obtain ⟨exp, bound, Inv, hc⟩ := gen_contract k mul add h hr
  obtain ⟨K, hK⟩ := (gen_computes hc h.wfA h.wfB h.shapes.ab h.rowsPos zero zb (nt := numThreads) hd hbig).live
  obtain ⟨sch, h1, h2⟩ := Spec.fair_exists A.rows (max numThreads dflt) K
  exact ⟨sch, _, h1, hK sch h1 h2⟩

/-- The prefix sum of the call, which runs with the default team: it is free of races for less than `2^17` rows; from there on every
thread writes the number of threads (C104). -/
theorem C106_scan_partial (maxnnzc rowStart : List Nat) (A : CSR V) {dflt : Nat} (hbig : dflt ≤ A.rows) {team : List Nat}
    (ht : team.Perm (List.range dflt)) (s1 s2 : List Nat) :
    (∃ tr ∈ RaceOuter.scanTraces maxnnzc A.rows rowStart dflt team s1 s2, RaceOld.Racy tr) ↔ 2 ^ 17 ≤ A.rows ∧ 2 ≤ dflt := by
  rcases C104_scan_partial maxnnzc hbig rowStart ht s1 s2 with ⟨h1, h2⟩ | ⟨h1, first, rest, h2, h3, h4⟩
  · rw [h2]
    constructor
    · rintro ⟨tr, htr, -⟩; cases htr
    · rintro ⟨h, -⟩; omega
  · rw [h2]
    constructor
    · rintro ⟨tr, htr, hrc⟩
      rcases List.mem_cons.1 htr with rfl | htr
      · exact ⟨h1, h3.1 hrc⟩
      · exact absurd hrc (h4 tr htr)
    · rintro ⟨-, h⟩
      exact ⟨first, List.mem_cons_self, h3.2 h⟩

/-- Three rows and two threads: no race. -/
example (k : GenKind) (sch : Scheds) (hs : Admissible 3 sch) :
    ∀ tr ∈ Gen.traces k.alg (· * ·) (· + ·) 0 Ex.A Ex.B Ex.M 2 1 sch, ¬ Racy tr :=
  C106_free_partial _ _ _ 0 Ex.validM (by decide) (Or.inl (by decide))
    (by
      intro t ht
      have : t = 0 := by
        have e : setNumThreads 2 1 = 2 := rfl
        omega
      subst this
      exact ⟨0, by decide, by decide⟩) sch hs

/-- The traces of a run with two threads are not empty: the numbers of accesses in its regions. -/
example : (Gen.traces (Gen.masked .v1) (· * ·) (· + ·) 0 Ex.A Ex.B Ex.M 0 2 Ex.sched2).map List.length = [3, 4, 28] := by
  decide +kernel

/-- Five threads for three rows. -/
example : ∃ sch, Admissible 3 sch ∧ ∃ tr ∈ Gen.traces (Gen.plain 16) (· * ·) (· + ·) 0 Ex.A Ex.B Ex.M 5 1 sch, Racy tr := by
  obtain ⟨sch, C, h1, h2⟩ := C106_returns (.plain 16) (· * ·) (· + ·) (0 : Int) Ex.validM ⟨⟨Int.add_assoc, Int.add_comm⟩, Ex.sortedB⟩ true
    (numThreads := 5) (dflt := 1) (by decide) (Or.inl (by decide))
  exact ⟨sch, h1, C106_violated_threads _ _ _ Ex.validM (by decide) (Or.inl (by decide)) (by decide) sch h1 h2⟩

example (ver : Gen.MVer) := C106_returns (.mca ver) (· * ·) (· + ·) (0 : Int) lowK4_valid (lowK4_mca ver) true (numThreads := 3) (dflt := 1)
  (by decide) (Or.inl (by decide))

example := C106_scan_partial (List.replicate (2 ^ 17) 1) [] (V := Int) { rows := 2 ^ 17, cols := 1, nnz := 0, rowptr := [], colids := [], values := [] }
  (dflt := 2) (by show 2 ≤ 2 ^ 17; omega) (team := [1, 0]) (by decide) [0, 1] [1, 0]

end Verif.Props
