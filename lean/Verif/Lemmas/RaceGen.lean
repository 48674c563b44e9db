import Verif.Model.RaceGen
import Verif.Lemmas.HeapGen
import Verif.Lemmas.RaceMain

/-! # Conflicts in calls of the generic heap driver -/

namespace Verif.Model.Gen

open Race
open Bin (nprod)

variable {V : Type} {alg : Alg V} {mul add : V → V → V} {A B M : CSR V}

theorem exec_prog (alg : Alg V) (mul add : V → V → V) (A B M : CSR V) (t : Nat) (l : Loc alg.Aux V) (g : Sh V) :
    (prog alg mul add A B M t l).exec shMem g = step alg mul add A B M t g l := by
  unfold prog step
  rw [exec_ite, exec_lift]
  split
  · refine congrArg _ (funext ?_)
    rintro ⟨x, b, k⟩
    cases k <;> rfl
  · rfl

theorem flopsOf_true (A B M : CSR V) : flopsOf true A B M = nprod A B := by
  funext i; simp [flopsOf, nprod]

/-- First row of thread `t`. -/
abbrev cut (A B : CSR V) (n t : Nat) : Nat := bnd (psum (nprod A B)) (psum (nprod A B) A.rows) A.rows n t

theorem rowOf_true (A B M : CSR V) (n t : Nat) : rowOf true A B M n t = cut A B n t := by
  unfold rowOf cut
  rw [flopsOf_true]

theorem ranges_ok (A B : CSR V) {n : Nat} :
    setup n (range (tab A.rows (psum (nprod A B))) (psum (nprod A B) A.rows) A.rows n) =
      .ok ((List.range n).map fun t => (cut A B n t, cut A B n (t + 1))) := by
  apply mapM_ok
  intro t ht
  rw [range_eq, distributeWork_eq _ (by simpa using ht) (fun i hi => ?_) (fun i j h _ => psum_mono h)]
  unfold Has; rw [List.getElem?_map, tab_getElem? hi]; rfl

/-- Whatever the row algorithm does: if a thread other than the last one has no rows then every call that returns has a race. -/
theorem races (hA : A.WF) (hB : B.WF) (hAB : A.cols = B.rows) (hrows : 0 < A.rows) {zero : V} {zb : Bool} {nt dflt : Nat} (hd : 0 < dflt)
    (hbig : A.rows < 2 ^ 17 ∨ dflt ≤ A.rows) (sch : Scheds) (ho : sch.flops.Perm (List.range A.rows)) {C : CSR V}
    (hret : heapSpGEMM alg mul add zero A B M zb nt dflt sch = .ok (some C)) (h : Idle true A B M (setNumThreads nt dflt)) :
    ∃ tr ∈ traces alg mul add zero A B M nt dflt sch, Racy tr := by
  have hn : 0 < setNumThreads nt dflt := by unfold setNumThreads; split <;> omega
  obtain ⟨u, hu, he⟩ := h
  simp only [rowOf_true] at he
  unfold heapSpGEMM at hret
  unfold traces
  generalize setNumThreads nt dflt = n at *
  simp only at hret ⊢
  rcases plan_ok hA hB hAB hrows hd hbig sch ho with ⟨h, -⟩ | h
  · rw [h] at hret; cases hret
  rw [h] at hret ⊢
  simp only [ok_bind] at hret ⊢
  unfold region at hret
  simp only [ranges_ok, ok_bind] at hret ⊢
  have hs : Split (cut A B n) A.rows n := split_bnd _ _ A.rows hn
  obtain ⟨ls, hls, hret⟩ := Race.bind_ok hret
  rw [hls]
  cases ls with
  | nil => cases hret
  | cons l0 ls =>
  simp only at hret ⊢
  obtain ⟨r, hr1, hret⟩ := Race.bind_ok hret
  cases r with
  | none => cases hret
  | some r =>
  rw [hr1]
  obtain ⟨g, hg, hret⟩ := Race.bind_ok hret
  simp only [hg]
  obtain ⟨q, hq, -⟩ := Race.bind_ok hret
  cases q with
  | none => simp_all
  | some q =>
  exact ⟨_, List.mem_cons_of_mem _ (List.mem_cons_of_mem _ List.mem_cons_self),
    racy3 hs hn (by intro t ht; exact list_getD_map_range _ _ ht) hq hu he⟩

end Verif.Model.Gen
