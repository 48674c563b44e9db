import Verif.Lemmas.RaceCoverHeap
import Verif.Lemmas.RaceCoverDot
import Verif.Props.C31
import Verif.Props.C36
import Verif.Props.C81

/-!
# The access lists of C36, C81, C102, C103 and C106 are complete

The races of these properties are about lists of memory accesses. Here it is shown that a piece of a thread, whatever it is, has no
other effect on shared memory and no other input from it than its list says: a cell that it changes is listed as written, and if the
memory had been another one, with arrays of the same sizes and the same contents of the cells listed as read, then its result and its
list would have been the same. The lists of the regions of the drivers are not too short either: if a call returns, the last two
regions list a store for every cell of its result. The arrays of the older kernels are given a content at first, so there it is said
that every cell of the result whose content is another one is listed.
-/

namespace Verif.Props
open Verif.Model

variable {V α : Type}

/-- The generic drivers after their arrays are set up (C36, C81, C106) -/
theorem C36_listed (p : Race.Prog V α) {g g' : Sh V} {x : α} (h : p.exec Race.shMem g = .ok (g', x)) :
    (∀ k, g'.rowNvals[k]? ≠ g.rowNvals[k]? → ⟨.rowNvals, k, true⟩ ∈ p.accesses Race.shMem g) ∧
    (∀ k, g'.threadsNvals[k]? ≠ g.threadsNvals[k]? → ⟨.threadsNvals, k, true⟩ ∈ p.accesses Race.shMem g) ∧
    (∀ k, g'.rowptr[k]? ≠ g.rowptr[k]? → ⟨.rowptr, k, true⟩ ∈ p.accesses Race.shMem g) ∧
    (∀ k, g'.colids[k]? ≠ g.colids[k]? → ⟨.colids, k, true⟩ ∈ p.accesses Race.shMem g) ∧
    (∀ k, g'.values[k]? ≠ g.values[k]? → ⟨.values, k, true⟩ ∈ p.accesses Race.shMem g) ∧
    (∀ f : Sh V, f.rowNvals.length = g.rowNvals.length → f.threadsNvals.length = g.threadsNvals.length →
      f.rowptr.length = g.rowptr.length → f.colids.length = g.colids.length → f.values.length = g.values.length →
      (∀ k, ⟨.rowNvals, k, false⟩ ∈ p.accesses Race.shMem g → f.rowNvals[k]? = g.rowNvals[k]?) →
      (∀ k, ⟨.threadsNvals, k, false⟩ ∈ p.accesses Race.shMem g → f.threadsNvals[k]? = g.threadsNvals[k]?) →
      (∀ k, ⟨.rowptr, k, false⟩ ∈ p.accesses Race.shMem g → f.rowptr[k]? = g.rowptr[k]?) →
      (∀ k, ⟨.colids, k, false⟩ ∈ p.accesses Race.shMem g → f.colids[k]? = g.colids[k]?) →
      ∃ f', p.exec Race.shMem f = .ok (f', x) ∧ p.accesses Race.shMem f = p.accesses Race.shMem g) := by
  obtain ⟨w1, w2⟩ := Race.writes Race.lawful_sh p h
  have w : ∀ a k, ((Race.shMem : Race.Mem V (Sh V)).get g' a)[k]? ≠ ((Race.shMem : Race.Mem V (Sh V)).get g a)[k]? →
      ⟨a, k, true⟩ ∈ p.accesses Race.shMem g := fun a k hne => by
    obtain ⟨b, hb, hm⟩ := w1 a k hne
    cases hb
    exact hm
  refine ⟨w .rowNvals, w .threadsNvals, w .rowptr, w .colids, w2, fun f l1 l2 l3 l4 l5 r1 r2 r3 r4 => ?_⟩
  obtain ⟨⟨f', y⟩, e1, e2, e3⟩ := Race.reads Race.lawful_sh p (g2 := f) h
    ⟨fun a => by cases a <;> first | exact l1 | exact l2 | exact l3 | exact l4 | rfl, l5⟩
    (fun a i hm => by cases a <;> first | exact r1 i hm | exact r2 i hm | exact r3 i hm | exact r4 i hm | rfl)
  cases e2
  exact ⟨f', e1, e3⟩

/-- The prefix sum of these drivers, whose regions write a single array -/
theorem C36_scan_listed (p : Race.Prog Unit α) {g g' : List (Option Nat)} {x : α} (h : p.exec Race.arrMem g = .ok (g', x)) :
    (∀ k, g'[k]? ≠ g[k]? → ∃ a, ⟨a, k, true⟩ ∈ p.accesses Race.arrMem g) ∧
    (∀ f : List (Option Nat), f.length = g.length → (∀ a k, ⟨a, k, false⟩ ∈ p.accesses Race.arrMem g → f[k]? = g[k]?) →
      ∃ f', p.exec Race.arrMem f = .ok (f', x) ∧ p.accesses Race.arrMem f = p.accesses Race.arrMem g) := by
  obtain ⟨w1, _⟩ := Race.writes Race.lawful_arr p h
  refine ⟨fun k hne => (w1 .rowptr k hne).imp fun _ h => h.2, fun f hl hr => ?_⟩
  obtain ⟨⟨f', y⟩, e1, e2, e3⟩ := Race.reads Race.lawful_arr p (g2 := f) h ⟨fun _ => hl, rfl⟩ hr
  cases e2
  exact ⟨f', e1, e3⟩

/-- The inner-product driver before its barrier: `tmpC` and `tmpV` are the buffers for column indices and values. -/
theorem C81_listed (p : Race.Prog V α) {g g' : Inner.Sh1 V} {x : α} (h : p.exec Race.bufMem g = .ok (g', x)) :
    (∀ k, g'.rowNvals[k]? ≠ g.rowNvals[k]? → ⟨.rowNvals, k, true⟩ ∈ p.accesses Race.bufMem g) ∧
    (∀ k, g'.threadsNvals[k]? ≠ g.threadsNvals[k]? → ⟨.threadsNvals, k, true⟩ ∈ p.accesses Race.bufMem g) ∧
    (∀ k, g'.tmpC[k]? ≠ g.tmpC[k]? → ⟨.colids, k, true⟩ ∈ p.accesses Race.bufMem g) ∧
    (∀ k, g'.tmpV[k]? ≠ g.tmpV[k]? → ⟨.values, k, true⟩ ∈ p.accesses Race.bufMem g) ∧
    (∀ f : Inner.Sh1 V, f.rowNvals.length = g.rowNvals.length → f.threadsNvals.length = g.threadsNvals.length →
      f.tmpC.length = g.tmpC.length → f.tmpV.length = g.tmpV.length →
      (∀ k, ⟨.rowNvals, k, false⟩ ∈ p.accesses Race.bufMem g → f.rowNvals[k]? = g.rowNvals[k]?) →
      (∀ k, ⟨.threadsNvals, k, false⟩ ∈ p.accesses Race.bufMem g → f.threadsNvals[k]? = g.threadsNvals[k]?) →
      (∀ k, ⟨.colids, k, false⟩ ∈ p.accesses Race.bufMem g → f.tmpC[k]? = g.tmpC[k]?) →
      ∃ f', p.exec Race.bufMem f = .ok (f', x) ∧ p.accesses Race.bufMem f = p.accesses Race.bufMem g) := by
  obtain ⟨w1, w2⟩ := Race.writes Race.lawful_buf p h
  have w : ∀ a k, ((Race.bufMem : Race.Mem V (Inner.Sh1 V)).get g' a)[k]? ≠ ((Race.bufMem : Race.Mem V (Inner.Sh1 V)).get g a)[k]? →
      ⟨a, k, true⟩ ∈ p.accesses Race.bufMem g := fun a k hne => by
    obtain ⟨b, hb, hm⟩ := w1 a k hne
    cases hb
    exact hm
  refine ⟨w .rowNvals, w .threadsNvals, w .colids, w2, fun f l1 l2 l3 l4 r1 r2 r3 => ?_⟩
  obtain ⟨⟨f', y⟩, e1, e2, e3⟩ := Race.reads Race.lawful_buf p (g2 := f) h
    ⟨fun a => by cases a <;> first | exact l1 | exact l2 | exact l3 | rfl, l4⟩
    (fun a i hm => by cases a <;> first | exact r1 i hm | exact r2 i hm | exact r3 i hm | rfl)
  cases e2
  exact ⟨f', e1, e3⟩

/-- The older kernels and the heap kernel, whose regions write an array of numbers and an array of values -/
theorem C102_listed (p : RaceOld.Prog V α) {g g' : List Nat × List V} {x : α} (h : p.exec g = .ok (g', x)) :
    (∀ k, g'.1[k]? ≠ g.1[k]? → ⟨.numbers, k, true⟩ ∈ p.accesses g) ∧ (∀ k, g'.2[k]? ≠ g.2[k]? → ⟨.values, k, true⟩ ∈ p.accesses g) ∧
    (∀ f : List Nat × List V, f.1.length = g.1.length → f.2.length = g.2.length →
      (∀ k, ⟨.numbers, k, false⟩ ∈ p.accesses g → f.1[k]? = g.1[k]?) →
      ∃ f', p.exec f = .ok (f', x) ∧ p.accesses f = p.accesses g) := by
  obtain ⟨w1, w2⟩ := RaceOld.writes p h
  refine ⟨w1, w2, fun f l1 l2 hr => ?_⟩
  obtain ⟨⟨f', y⟩, e1, e2, e3⟩ := RaceOld.reads p (g2 := f) h l1 l2 hr
  cases e2
  exact ⟨f', e1, e3⟩

/-- The inner-product kernel of C103 -/
theorem C103_listed (p : RaceDot.Prog V α) {g g' : Dot.Shared V} {x : α} (h : p.exec g = .ok (g', x)) :
    (∀ k, g'.colids[k]? ≠ g.colids[k]? → ⟨.numbers, k, true⟩ ∈ p.accesses g) ∧
    (∀ k, g'.thNnz[k]? ≠ g.thNnz[k]? → ⟨.thNnz, k, true⟩ ∈ p.accesses g) ∧
    (∀ k, g'.rowNnz[k]? ≠ g.rowNnz[k]? → ⟨.rowNnz, k, true⟩ ∈ p.accesses g) ∧
    (∀ k, g'.values[k]? ≠ g.values[k]? → ⟨.values, k, true⟩ ∈ p.accesses g) ∧
    (∀ f : Dot.Shared V, f.colids.length = g.colids.length → f.thNnz.length = g.thNnz.length → f.rowNnz.length = g.rowNnz.length →
      f.values.length = g.values.length →
      (∀ k, ⟨.numbers, k, false⟩ ∈ p.accesses g → f.colids[k]? = g.colids[k]?) →
      (∀ k, ⟨.thNnz, k, false⟩ ∈ p.accesses g → f.thNnz[k]? = g.thNnz[k]?) →
      (∀ k, ⟨.rowNnz, k, false⟩ ∈ p.accesses g → f.rowNnz[k]? = g.rowNnz[k]?) →
      ∃ f', p.exec f = .ok (f', x) ∧ p.accesses f = p.accesses g) := by
  obtain ⟨w1, w2⟩ := RaceDot.writes p h
  refine ⟨w1 .numbers, w1 .thNnz, w1 .rowNnz, w2, fun f l1 l2 l3 l4 r1 r2 r3 => ?_⟩
  obtain ⟨⟨f', y⟩, e1, e2, e3⟩ := RaceDot.reads p (g2 := f) h
    (fun a => by cases a <;> first | exact l1 | exact l2 | exact l3 | rfl) l4
    (fun a i hm => by cases a <;> first | exact r1 i hm | exact r2 i hm | exact r3 i hm | rfl)
  cases e2
  exact ⟨f', e1, e3⟩

/-- C36: in a call that returns, the last two regions list the stores of the numbers of entries of all threads, and then of all row
pointers, column indices and values of the result. No condition on the matrices, the row algorithm or the schedule. -/
theorem C36_stored (two : Bool) (k : Spec.Kind) (mul add : V → V → V) {A B M : CSR V} {zb : Bool} {numThreads dflt : Nat} {sch : Scheds}
    {C : CSR V} (hret : genCall two k mul add A B M zb numThreads dflt sch = .ok (some C)) :
    ∃ pre first last, traces two k mul add A B M numThreads dflt sch = pre ++ [first, last] ∧
      (∀ t < setNumThreads numThreads dflt, ∃ u < setNumThreads numThreads dflt, (u, ⟨.threadsNvals, t, true⟩) ∈ first) ∧
      (∀ i ≤ A.rows, ∃ t < setNumThreads numThreads dflt, (t, ⟨.rowptr, i, true⟩) ∈ last) ∧
      (∀ p < C.colids.length, ∃ t < setNumThreads numThreads dflt, (t, ⟨.colids, p, true⟩) ∈ last) ∧
      (∀ p < C.values.length, ∃ t < setNumThreads numThreads dflt, (t, ⟨.values, p, true⟩) ∈ last) := by
  cases two with
  | false =>
    obtain ⟨pre, first, last, e, h1, h2, h3⟩ := Race.stored1p hret
    exact ⟨pre, first, last, e, h1, fun i hi => h2 i (Nat.zero_le i) hi, h3⟩
  | true =>
    obtain ⟨pre, first, last, e, h1, h2, h3⟩ := Race.stored2p hret
    exact ⟨pre, first, last, e, h1, fun i hi => h2 i (Nat.zero_le i) hi, h3⟩

/-- C81: the same for the inner-product drivers -/
theorem C81_stored (two : Bool) (mul add : V → V → V) {A : CSR V} {B : CSC V} {M : CSR V} {zb : Bool} {numThreads dflt : Nat}
    {sch : Scheds} {C : CSR V} (hret : innerCall two mul add A B M zb numThreads dflt sch = .ok (some C)) :
    ∃ pre first last, innerTraces two mul add A B M numThreads dflt sch = pre ++ [first, last] ∧
      (∀ t < setNumThreads numThreads dflt, ∃ u < setNumThreads numThreads dflt, (u, ⟨.threadsNvals, t, true⟩) ∈ first) ∧
      (∀ i ≤ A.rows, ∃ t < setNumThreads numThreads dflt, (t, ⟨.rowptr, i, true⟩) ∈ last) ∧
      (∀ p < C.colids.length, ∃ t < setNumThreads numThreads dflt, (t, ⟨.colids, p, true⟩) ∈ last) ∧
      (∀ p < C.values.length, ∃ t < setNumThreads numThreads dflt, (t, ⟨.values, p, true⟩) ∈ last) := by
  cases two with
  | false =>
    obtain ⟨pre, first, last, e, h1, h2, h3⟩ := Race.storedInner1p hret
    exact ⟨pre, first, last, e, h1, fun i hi => h2 i (Nat.zero_le i) hi, h3⟩
  | true =>
    obtain ⟨pre, first, last, e, h1, h2, h3⟩ := Race.storedInner2p hret
    exact ⟨pre, first, last, e, h1, fun i hi => h2 i (Nat.zero_le i) hi, h3⟩

/-- C106: the same for the generic heap driver. (`rowptr[0]` is set before, the numbers of entries are set to zero first.) -/
theorem C106_stored (alg : Gen.Alg V) (mul add : V → V → V) {zero : V} {A B M : CSR V} {zb : Bool} {numThreads dflt : Nat}
    {sch : Scheds} {C : CSR V} (hret : Gen.heapSpGEMM alg mul add zero A B M zb numThreads dflt sch = .ok (some C)) :
    ∃ pre first last, Gen.traces alg mul add zero A B M numThreads dflt sch = pre ++ [first, last] ∧
      (∀ i, 1 ≤ i → i ≤ A.rows → ∃ t < setNumThreads numThreads dflt, (t, ⟨.rowptr, i, true⟩) ∈ last) ∧
      (∀ p < C.colids.length, ∃ t < setNumThreads numThreads dflt, (t, ⟨.colids, p, true⟩) ∈ last) ∧
      (∀ p < C.values.length, ∃ t < setNumThreads numThreads dflt, (t, ⟨.values, p, true⟩) ∈ last) :=
  Race.storedGen hret

/-- Column indices other than 0 and values other than `dflt` are listed as stored. -/
def ListsResult (C : CSR V) (dflt : V) (tr : List (Nat × RaceOld.Access)) : Prop :=
  (∀ k < C.colids.length, C.colids[k]? ≠ some 0 → ∃ t, (t, ⟨.numbers, k, true⟩) ∈ tr) ∧
  (∀ k < C.values.length, C.values[k]? ≠ some dflt → ∃ t, (t, ⟨.values, k, true⟩) ∈ tr)

/-- C102: in a call of an older kernel that returns, the last region lists the stores of the result. -/
theorem C102_stored (sorted : Bool) (sortf : List (Nat × V) → List (Nat × V)) (mul add : V → V → V) (A B M : CSR V) (dflt : V)
    (n nd : Nat) (w1 w2 : Nat → Nat) (team tables : List Nat) (C : CSR V) :
    (∀ sch, HashMult.hashSpGEMM sorted sortf mul add A B dflt n nd sch = .ok (some C) →
      ∃ pre count last, RaceOld.hashTraces sorted sortf mul add A B dflt n nd w1 w2 tables sch = pre ++ [count, last] ∧
        ListsResult C dflt last) ∧
    (∀ sch, Spa.spaSpGEMM mul add A B M dflt n nd sch = .ok (some C) →
      ∃ pre count last, RaceOld.spaTraces mul add A B M dflt n nd w1 w2 sch = pre ++ [count, last] ∧ ListsResult C dflt last) ∧
    (∀ sch, LpMult.hashMask mul add A B M dflt n nd sch = .ok (some C) →
      ∃ pre count last, RaceOld.maskTraces mul add A B M dflt n nd w1 w2 team tables sch = pre ++ [count, last] ∧
        ListsResult C dflt last) ∧
    (∀ order1 s1 s2 order2, LpMult.hashMaskWobin mul add A B M dflt nd order1 s1 s2 order2 = .ok (some C) →
      ∃ count last, RaceOld.wobinTraces mul add A B M dflt nd w1 w2 order1 s1 s2 order2 = [count, last] ∧ ListsResult C dflt last) :=
  ⟨fun _ h => RaceOld.stored_hash h, fun _ h => RaceOld.stored_spa h, fun _ h => RaceOld.stored_mask h,
    fun _ _ _ _ h => RaceOld.stored_wobin h⟩

/-- C103: the older heap kernel has nine regions if it returns, and the last one lists the stores of the result. -/
theorem C103_heap_stored (mul add : V → V → V) (zero : V) (A B : CSC V) (n : Nat) (w1 w2 w3 : Nat → Nat) (team alloc sizes : List Nat)
    {sch : HeapMult.Sched} {C : CSC V} (h : HeapMult.heapSpGEMM mul add zero A B n sch = .ok (some C)) :
    ∃ pre last, RaceHeap.allTraces mul add zero A B n w1 w2 w3 team alloc sizes sch = pre ++ [last] ∧ pre.length = 8 ∧
      (∀ k < C.rowids.length, C.rowids[k]? ≠ some 0 → ∃ t < n, (t, ⟨.numbers, k, true⟩) ∈ last) ∧
      (∀ k < C.values.length, C.values[k]? ≠ some zero → ∃ t < n, (t, ⟨.values, k, true⟩) ∈ last) :=
  RaceHeap.stored_heap h

/-- C103: the main region of the inner-product kernel lists a store to the counter of every row that has entries in the result. (The
entries themselves are copied afterwards by one thread.) -/
theorem C103_inner_stored (mul add : V → V → V) (zero : V) (A : CSR V) (B : CSC V) (M : CSR V) (n nd nnz0 : Nat) (w1 w2 : Nat → Nat)
    (team : List Nat) {sch : Dot.Sched} {C : CSR V} (h : Dot.innerNohash mul add zero A B M n nd nnz0 sch = .ok (some C)) :
    ∃ pre first last, RaceDot.dotTraces mul add zero A B M n nd w1 w2 team sch = pre ++ [first, last] ∧
      ∀ i < M.rows, C.rowptr[i]? ≠ C.rowptr[i + 1]? → ∃ t < n, (t, ⟨.rowNnz, i, true⟩) ∈ last :=
  RaceDot.stored_dot h

/-! ## Examples -/

/-- There are calls that meet the hypothesis. -/
example (two : Bool) : ∃ sch C, genCall two .msa1 (· * ·) (· + ·) Ex.A Ex.B Ex.M true 2 1 sch = .ok (some C) := by
  obtain ⟨sch, C, -, h⟩ := C36_returns two .msa1 (· * ·) (· + ·) Ex.validM Ex.nodupM true (numThreads := 2) (dflt := 1) (by decide)
  exact ⟨sch, C, h⟩

/-- A piece that loads a cell, stores the number after it in the next one, and stores a value. -/
def copyUp : RaceOld.Prog Int Nat := do
  let x ← RaceOld.get 0
  RaceOld.put 1 (x + 1)
  RaceOld.putV 2 7
  return x

example : copyUp.exec ([4, 0], [0, 0, 0]) = .ok (([4, 5], [0, 0, 7]), 4) := rfl
example : copyUp.accesses ([4, 0], [0, 0, 0]) = [⟨.numbers, 0, false⟩, ⟨.numbers, 1, true⟩, ⟨.values, 2, true⟩] := rfl
example := C102_listed copyUp (g := ([4, 0], [0, 0, 0])) rfl
/-- Another number in the cell that is not read: the same list. -/
example : copyUp.accesses ([4, 9], [0, 0, 0]) = copyUp.accesses ([4, 0], [0, 0, 0]) := rfl

/-- A call of the kernel without bins that returns, so that `C102_stored` applies. -/
example : ∃ C, LpMult.hashMaskWobin (· * ·) (· + ·) Ex.A Ex.B repM 0 4 [2, 0, 1] [] [] [1, 2, 0] = .ok (some C) := by
  obtain ⟨C, -, h⟩ := C31_wobin_partial (· * ·) (· + ·) repM_valid (by decide) 0 4
  exact ⟨C, h _ _ _ _ (by decide) (by decide)⟩

end Verif.Props
