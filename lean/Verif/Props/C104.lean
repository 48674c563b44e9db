import Verif.Lemmas.RaceOuterMain
import Verif.Lemmas.RaceOuterAcc
import Verif.Props.C85
import Verif.Props.C100

/-!
# C104: data races in the outer-product kernels and in the prefix sum

The full claim is that no parallel region of the four versions of `OuterSpGEMM` and of the function `scan` that all kernels call has a
data race. The regions of the outer-product kernels are free of races for all arguments, whether or not they are valid, with a
buffer of at least one product per block and fewer than `2^17 - 1` blocks. In `scan` the region that finds out the number of threads
lets every thread write the same variable: it is racy, in every call for `2^17` or more numbers with two or more threads. Its other
regions are free of races.
-/

namespace Verif.Props
open Verif.Model Verif.Model.RaceOld
open _root_.Verif.Spec (SortsBy32)

variable {V : Type}

/-- The programs whose accesses are listed are the steps of the models of the kernels and of the prefix sum. -/
theorem C104_faithful (mul : V → V → V) (A : CSC V) (B : CSR V) (blk : Nat → Res Nat) (nb width N n t b : Nat) (asg : Nat → List Nat)
    (inp cum nnz : List Nat) (vecs : List (List (Nat × Nat × V))) :
    (∀ l g, (RaceOuter.stepProg mul A B blk nb width asg t l).exec g = Outer.step mul A B blk nb width asg t g l) ∧
    (∀ o, (RaceOuter.copyProg cum nnz vecs b).exec o = (Outer.copyBlock cum nnz vecs o b >>= fun o => .ok (o, ()))) ∧
    (∀ c g, (RaceOuter.scanProg1 inp N n t c).exec g = UtilScan.step1 inp N n t g c) ∧
    (∀ x g, (RaceOuter.scanProg2 t x).exec g = (UtilScan.step2 g.2 t g.1 x.1 >>= fun r => .ok ((r.1, g.2), (r.2, x.2)))) :=
  ⟨fun l g => RaceOuter.exec_stepProg mul A B blk nb width asg t l g, fun o => RaceOuter.exec_copyProg cum nnz vecs b o,
    fun c g => RaceOuter.exec_scanProg1 inp N n t c g, fun x g => RaceOuter.exec_scanProg2 t x g⟩

section
variable (mul add : V → V → V) {sortf : (Nat × Nat × V → Nat) → List (Nat × Nat × V) → List (Nat × Nat × V)} (A : CSC V) (B : CSR V)
  (n : Nat) {nb width : Nat} (w1 w2 w3 : Nat → Nat)

/-- C104 for `outer_mult.h`: no region has a data race. -/
theorem C104_outer (hs : SortsBy32 sortf) (hw : 0 < width) (hnb : nb + 1 < 2 ^ 17) (sch : Outer.Sched) :
    ∀ tr ∈ RaceOuter.outerTraces mul add sortf A B n nb width w1 w2 sch, ¬ Racy tr := by
  intro tr htr
  unfold RaceOuter.outerTraces at htr
  split at htr
  · cases htr
  split at htr
  · cases htr
  exact RaceOuter.main_free hw (fun g hg => RaceOuter.tail1_free
    (fun l x hx => ((hs _ (Outer.key_lt _)).perm l).mem_iff.1 hx) hnb w1 w2 _ _ _ _ g hg) tr htr

/-- C104 for `outer_mult2.h` -/
theorem C104_outer2 (hs : SortsBy32 sortf) (hw : 0 < width) (hnb : nb + 1 < 2 ^ 17) (sch : Outer2.Sched) :
    ∀ tr ∈ RaceOuter.outer2Traces mul add sortf A B n nb width w1 w2 sch, ¬ Racy tr := by
  intro tr htr
  unfold RaceOuter.outer2Traces at htr
  split at htr
  · cases htr
  exact RaceOuter.main_free hw (fun g hg => RaceOuter.tail1_free
    (fun l x hx => ((hs _ Outer2.key_lt).perm l).mem_iff.1 hx) hnb w1 w2 _ _ _ _ g hg) tr htr

/-- C104 for `outer_profile.h` -/
theorem C104_profile (hs : SortsBy32 sortf) (hw : 0 < width) (hnb : nb + 1 < 2 ^ 17) (sch : Profile.Sched) :
    ∀ tr ∈ RaceOuter.profileTraces mul add sortf A B n nb width w1 w2 w3 sch, ¬ Racy tr := by
  intro tr htr
  unfold RaceOuter.profileTraces at htr
  split at htr
  · cases htr
  split at htr
  · cases htr
  exact RaceOuter.main_free hw (fun g hg => RaceOuter.tail2_free
    (fun l x hx => ((hs _ (Outer.key_lt _)).perm l).mem_iff.1 hx) hnb w1 w2 w3 _ _ _ _ _ g hg) tr htr

/-- C104 for `outer_profile2.h` -/
theorem C104_profile2 (hs : SortsBy32 sortf) (hw : 0 < width) (hnb : nb + 1 < 2 ^ 17) (sch : Profile.Sched2) :
    ∀ tr ∈ RaceOuter.profile2Traces mul add sortf A B n nb width w1 w2 w3 sch, ¬ Racy tr := by
  intro tr htr
  unfold RaceOuter.profile2Traces at htr
  split at htr
  · cases htr
  exact RaceOuter.main_free hw (fun g hg => RaceOuter.tail2_free
    (fun l x hx => ((hs _ Outer2.key_lt).perm l).mem_iff.1 hx) hnb w1 w2 w3 _ _ _ _ _ g hg) tr htr

/-- The list is complete: a call of `outer_mult.h` that returns a matrix has gone through the three regions, the accesses of
each of them are listed, and in the last one are listed the writes of all entries of the matrix, with the thread that copies the block. -/
theorem C104_regions {mem : List Nat} {sch : Outer.Sched} {C : CSR V}
    (h : Outer.outerSpGEMM mul add sortf A B n nb width mem sch = .ok (some C)) :
    ∃ products sorting copying, RaceOuter.outerTraces mul add sortf A B n nb width w1 w2 sch = [products, sorting, copying] ∧
      ∀ k, k < C.nnz → (∃ b ∈ sch.copy, (w2 b, ⟨.numbers, k, true⟩) ∈ copying) ∧ (∃ b ∈ sch.copy, (w2 b, ⟨.values, k, true⟩) ∈ copying) := by
  unfold Outer.outerSpGEMM at h
  obtain ⟨npb, h1, h⟩ := Alias.bind_ok' h
  obtain ⟨flops, h2, h⟩ := Alias.bind_ok' h
  obtain ⟨_, _, h⟩ := Alias.bind_ok' h
  obtain ⟨r, h3, h⟩ := Alias.bind_ok' h
  rcases r with _ | ⟨g, ls⟩
  · cases h
  obtain ⟨s, h4, h⟩ := Alias.bind_ok' h
  obtain ⟨tr, h5, h6⟩ := RaceOuter.finish_writes h w2
  simp only [RaceOuter.outerTraces, h1, h2, RaceOuter.mainTraces, h3, done, RaceOuter.tail1, h4, h5]
  exact ⟨_, _, tr, rfl, h6⟩

/-- The same for `outer_mult2.h` -/
theorem C104_regions2 {mem : List Nat} {sch : Outer2.Sched} {C : CSR V}
    (h : Outer2.outerSpGEMM mul add sortf A B n nb width mem sch = .ok (some C)) :
    ∃ products sorting copying, RaceOuter.outer2Traces mul add sortf A B n nb width w1 w2 sch = [products, sorting, copying] ∧
      ∀ k, k < C.nnz → (∃ b ∈ sch.last.copy, (w2 b, ⟨.numbers, k, true⟩) ∈ copying) ∧
        (∃ b ∈ sch.last.copy, (w2 b, ⟨.values, k, true⟩) ∈ copying) := by
  unfold Outer2.outerSpGEMM at h
  obtain ⟨sym, h1, h⟩ := Alias.bind_ok' h
  obtain ⟨_, _, h⟩ := Alias.bind_ok' h
  obtain ⟨r, h3, h⟩ := Alias.bind_ok' h
  rcases r with _ | ⟨g, ls⟩
  · cases h
  obtain ⟨s, h4, h⟩ := Alias.bind_ok' h
  obtain ⟨tr, h5, h6⟩ := RaceOuter.finish_writes h w2
  simp only [RaceOuter.outer2Traces, h1, RaceOuter.mainTraces, h3, done, RaceOuter.tail1, h4, h5]
  exact ⟨_, _, tr, rfl, h6⟩

/-- The same for a stage of `outer_profile.h`, which sorts and merges in two regions -/
theorem C104_profile_regions {mem : List Nat} {sch : Profile.Sched} {C : CSR V} {flops : Nat}
    (h : Profile.stage mul add sortf A B n nb width mem sch = .ok (some (C, flops))) :
    ∃ products sorting merging copying,
      RaceOuter.profileTraces mul add sortf A B n nb width w1 w2 w3 sch = [products, sorting, merging, copying] ∧
      ∀ k, k < C.nnz → (∃ b ∈ sch.base.copy, (w3 b, ⟨.numbers, k, true⟩) ∈ copying) ∧
        (∃ b ∈ sch.base.copy, (w3 b, ⟨.values, k, true⟩) ∈ copying) := by
  unfold Profile.stage at h
  obtain ⟨npb, h1, h⟩ := Alias.bind_ok' h
  obtain ⟨flops, h2, h⟩ := Alias.bind_ok' h
  obtain ⟨_, _, h⟩ := Alias.bind_ok' h
  obtain ⟨_, _, h⟩ := Alias.bind_ok' h
  obtain ⟨r, h3, h⟩ := Alias.bind_ok' h
  rcases r with _ | ⟨g, ls⟩
  · cases h
  obtain ⟨s, h4, h⟩ := Alias.bind_ok' h
  obtain ⟨r, h7, h⟩ := Alias.bind_ok' h
  rcases r with _ | C'
  · cases h
  cases h
  obtain ⟨tr, h5, h6⟩ := RaceOuter.finish_writes h7 w3
  simp only [RaceOuter.profileTraces, h1, h2, RaceOuter.mainTraces, h3, done, RaceOuter.tail2, h4, h5]
  exact ⟨_, _, _, tr, rfl, h6⟩

/-- The same for a stage of `outer_profile2.h` -/
theorem C104_profile2_regions {mem : List Nat} {sch : Profile.Sched2} {C : CSR V} {flops : Nat}
    (h : Profile.stage2 mul add sortf A B n nb width mem sch = .ok (some (C, flops))) :
    ∃ products sorting merging copying,
      RaceOuter.profile2Traces mul add sortf A B n nb width w1 w2 w3 sch = [products, sorting, merging, copying] ∧
      ∀ k, k < C.nnz → (∃ b ∈ sch.base.last.copy, (w3 b, ⟨.numbers, k, true⟩) ∈ copying) ∧
        (∃ b ∈ sch.base.last.copy, (w3 b, ⟨.values, k, true⟩) ∈ copying) := by
  unfold Profile.stage2 at h
  obtain ⟨_, _, h⟩ := Alias.bind_ok' h
  obtain ⟨sym, h1, h⟩ := Alias.bind_ok' h
  obtain ⟨_, _, h⟩ := Alias.bind_ok' h
  obtain ⟨r, h3, h⟩ := Alias.bind_ok' h
  rcases r with _ | ⟨g, ls⟩
  · cases h
  obtain ⟨s, h4, h⟩ := Alias.bind_ok' h
  obtain ⟨r, h7, h⟩ := Alias.bind_ok' h
  rcases r with _ | C'
  · cases h
  cases h
  obtain ⟨tr, h5, h6⟩ := RaceOuter.finish_writes h7 w3
  simp only [RaceOuter.profile2Traces, h1, RaceOuter.mainTraces, h3, done, RaceOuter.tail2, h4, h5]
  exact ⟨_, _, _, tr, rfl, h6⟩

/-- The region that forms the products (all four versions): if it has changed cell `k` of block `b`, one of its threads is listed as writing
it. The counters of the blocks are accessed atomically. -/
theorem C104_products_writes (blk : Nat → Res Nat) (asg : Nat → List Nat) {main : List Nat} {g : Outer.Glob V}
    {ls : Nat → Option (Outer.Loc V)} {r : Outer.Glob V × (Nat → Option (Outer.Loc V))}
    (h : phase n (Outer.step mul A B blk nb width asg) (Outer.fin nb) main g ls = .ok (some r)) (b k : Nat)
    (hne : (r.1.blk[b]?.bind (·[k]?)) ≠ (g.blk[b]?.bind (·[k]?))) :
    ∃ t, t < n ∧ (t, ⟨.block b, k, true⟩) ∈ RaceOuter.trace n (RaceOuter.stepProg mul A B blk nb width asg) (Outer.fin nb) main g ls :=
  RaceOuter.phase_writes (fun t l => RaceOuter.honest_step mul A B blk nb width asg t l)
    (fun t l g => RaceOuter.exec_stepProg mul A B blk nb width asg t l g) h (.block b) k hne

end

/-- C104 for the prefix sum: only the region that finds out the number of threads can be racy, and it is so if there are two or more threads. There are no
regions for fewer than `2^17` numbers. -/
theorem C104_scan_partial (inp : List Nat) {N n : Nat} (hnN : n ≤ N) (out : List Nat) {team : List Nat} (ht : team.Perm (List.range n)) (s1 s2 : List Nat) :
    (N < 2 ^ 17 ∧ RaceOuter.scanTraces inp N out n team s1 s2 = []) ∨
    (2 ^ 17 ≤ N ∧ ∃ first rest, RaceOuter.scanTraces inp N out n team s1 s2 = first :: rest ∧ (Racy first ↔ 2 ≤ n) ∧ ∀ tr ∈ rest, ¬ Racy tr) := by
  unfold RaceOuter.scanTraces
  by_cases hN : N < 2 ^ 17
  · rw [if_pos hN]
    exact Or.inl ⟨hN, rfl⟩
  · rw [if_neg hN]
    refine Or.inr ⟨by omega, _, _, rfl, team_racy_iff Nat ht, ?_⟩
    intro tr htr
    rcases List.mem_cons.1 htr with rfl | htr
    · exact RaceOuter.scan_free1 inp hnN s1 _
    · split at htr
      · cases htr
      · rw [List.mem_singleton.1 htr]
        exact RaceOuter.scan_free2 s2 _

/-- The region of the prefix sum up to the barrier: what it has changed in the result or in the array of partial sums is listed. -/
theorem C104_scan_writes (inp : List Nat) (N n : Nat) {s1 : List Nat} {g : List Nat × List Nat} {ls : Nat → UtilScan.Ctl1}
    {r : (List Nat × List Nat) × (Nat → UtilScan.Ctl1)}
    (h : phase n (UtilScan.step1 inp N n) (· == .done) s1 g ls = .ok (some r)) (k : Nat) :
    (r.1.1[k]? ≠ g.1[k]? → ∃ t, t < n ∧ (t, ⟨.numbers, k, true⟩) ∈ RaceOuter.trace n (RaceOuter.scanProg1 inp N n) (· == .done) s1 g ls) ∧
    (r.1.2[k]? ≠ g.2[k]? → ∃ t, t < n ∧ (t, ⟨.thNnz, k, true⟩) ∈ RaceOuter.trace n (RaceOuter.scanProg1 inp N n) (· == .done) s1 g ls) :=
  have hw := RaceOuter.phase_writes (fun t l => RaceOuter.honest_scan1 inp N n t l) (fun t l g => RaceOuter.exec_scanProg1 inp N n t l g) h
  ⟨hw .numbers k, hw .thNnz k⟩

/-- The rest of it: one step of a thread -/
theorem C104_scan_writes2 (t : Nat) (x : Nat × Nat) {g : List Nat × List Nat} {r : List Nat × Nat}
    (h : UtilScan.step2 g.2 t g.1 x.1 = .ok r) (k : Nat) (hne : r.1[k]? ≠ g.1[k]?) :
    ⟨.numbers, k, true⟩ ∈ (RaceOuter.scanProg2 t x).accesses g := by
  have he : (RaceOuter.scanProg2 t x).exec g = .ok ((r.1, g.2), (r.2, x.2)) := by rw [RaceOuter.exec_scanProg2, h]; rfl
  exact RaceConv.honest_accesses (RaceOuter.honest_scan2 t x) he .numbers k hne

/-- C104, violated for the prefix sum: every call for `2^17` or more numbers with two or more threads has a data race. -/
theorem C104_violated_scan (inp : List Nat) {N n : Nat} (hN : 2 ^ 17 ≤ N) (hn : 2 ≤ n) (out : List Nat) {team : List Nat}
    (ht : team.Perm (List.range n)) (s1 s2 : List Nat) : ∃ tr ∈ RaceOuter.scanTraces inp N out n team s1 s2, Racy tr := by
  unfold RaceOuter.scanTraces
  rw [if_neg (by omega)]
  exact ⟨_, List.mem_cons_self .., team_racy Nat hn ht⟩

/-! ## Examples -/

example := C104_outer (· * ·) (· + ·) ouA ouB 2 id id (width := 2) (nb := 1) (fun k _ => isort_sorts k) (by omega) (by omega) ouSch
example := C104_outer2 (· * ·) (· + ·) obA obB 2 id id (width := 2) (nb := 2) (fun k _ => isort_sorts k) (by omega) (by omega) obSch
example := C104_profile (· * ·) (· + ·) ouA ouB 2 id id id (width := 2) (nb := 1) (fun k _ => isort_sorts k) (by omega) (by omega) (opSch 0)
example := C104_profile2 (· * ·) (· + ·) obA obB 2 id id id (width := 2) (nb := 2) (fun k _ => isort_sorts k) (by omega) (by omega) (opSch2 0)
example := C104_scan_partial (List.replicate (2 ^ 17) 1) (N := 2 ^ 17) (n := 2) (by omega) [] (team := [1, 0]) (by decide) [0, 1] [1, 0]
example := C104_violated_scan (List.replicate (2 ^ 17) 1) (N := 2 ^ 17) (n := 2) (by omega) (by omega) [] (team := [1, 0]) (by decide) [0, 1] [1, 0]

/-- Calls that return, as `C104_regions` to `C104_profile2_regions` assume. -/
example : (Outer.outerSpGEMM (· * ·) (· + ·) isort ouA ouB 2 1 2 [9, 9, 9, 9] ouSch).toOption.join.isSome = true ∧
    (Outer2.outerSpGEMM (· * ·) (· + ·) isort obA obB 2 2 2 [9, 9, 9, 9, 9] obSch).toOption.join.isSome = true ∧
    (Profile.stage (· * ·) (· + ·) isort ouA ouB 2 1 2 [9, 9, 9, 9] (opSch 0)).toOption.join.isSome = true ∧
    (Profile.stage2 (· * ·) (· + ·) isort obA obB 2 2 2 [9, 9, 9, 9, 9] (opSch2 0)).toOption.join.isSome = true := by
  decide +kernel

/-- The regions of the kernels in a complete run: the numbers of their accesses. -/
example : (RaceOuter.outer2Traces (· * ·) (· + ·) isort obA obB 2 2 2 id id obSch).map List.length = [7, 9, 20] ∧
    (RaceOuter.profile2Traces (· * ·) (· + ·) isort obA obB 2 2 2 id id id (opSch2 0)).map List.length = [7, 9, 9, 20] := by
  decide +kernel

/-- Both threads write cells of the same block, never the same cell. -/
example : ((RaceOuter.outerTraces (· * ·) (· + ·) isort ouA ouB 2 1 2 id id ouSch)[0]?) = some
    [(0, ⟨.block 0, 0, true⟩), (0, ⟨.block 0, 1, true⟩), (1, ⟨.block 0, 2, true⟩), (1, ⟨.block 0, 3, true⟩), (0, ⟨.block 0, 4, true⟩),
      (0, ⟨.block 0, 5, true⟩)] := by
  decide +kernel

end Verif.Props
