import Verif.Lemmas.OldAlg
import Verif.Props.C69
import Verif.Props.Examples

/-! # C72: the older row algorithms -/

namespace Verif.Props

open Verif.Model
open _root_.Verif.Spec (Kind Algo Valid Computes)

variable {V : Type}

/-- The older classes that the triangle counting program runs -/
inductive OldKind where
  | msa1
  | msa2
  | heap (v : Old.Ver)

def OldKind.alg : OldKind → RowAlg V
  | .msa1 => Old.msa1
  | .msa2 => Old.msa2
  | .heap v => Old.heap v

/-- The class that replaced it -/
def OldKind.now : OldKind → Kind
  | .msa1 => .msa1
  | .msa2 => .msa2
  | .heap .v0 => .heap 0
  | .heap .v1 => .heap 1
  | .heap .v2 => .heap (2 ^ 64 - 1)

theorem old_eq (k : OldKind) : (k.alg : RowAlg V) = k.now.alg := by
  cases k with
  | msa1 => rfl
  | msa2 => rfl
  | heap v => cases v <;> exact Old.old_heap_eq _

/-- C72: the older row algorithms give the same outcome as the ones that replaced them (the same result or the same error), for all
matrices, well-formed or not, all operations, thread counts and schedules, in one phase and in two. -/
theorem C72_same_outcome (k : OldKind) (mul add : V → V → V) (A B M : CSR V) (zb : Bool) (nt dflt : Nat) (sch : Scheds) :
    spgemm1p k.alg mul add A B M zb nt dflt sch = spgemm1p k.now.alg mul add A B M zb nt dflt sch ∧
    spgemm2p k.alg mul add A B M zb nt dflt sch = spgemm2p k.now.alg mul add A B M zb nt dflt sch := by
  rw [old_eq]
  exact ⟨rfl, rfl⟩

/-- C72: so they compute the masked product, with any number of threads and any schedule, one-phase or two-phase, whenever the inputs meet
the requirements of the newer classes. -/
theorem C72_product (k : OldKind) (two : Bool) (mul add : V → V → V) {A B M : CSR V} (h : Valid A B M) (hr : k.now.Req add A B M) (zb : Bool)
    {nt dflt : Nat} (hn : 0 < setNumThreads nt dflt) : ∃ C, Spec.IsMasked mul add A B M C ∧
      Computes (if two then spgemm2p k.alg mul add A B M zb nt dflt else spgemm1p k.alg mul add A B M zb nt dflt) A.rows
        (setNumThreads nt dflt) C := by
  have hc := algo_computes (.gen k.now) two mul add (Bc := { rows := 0, cols := 0, nnz := 0, colptr := [], rowids := [], values := [] }) h hr zb hn
  have hk : k.now.compl = false := by rcases k with _ | _ | v <;> first | rfl | (cases v <;> rfl)
  unfold algoMat at hc
  rw [show Algo.compl (.gen k.now) = false from hk, if_neg (by simp)] at hc
  refine ⟨_, maskedMat_isMasked h.shapes.ma zb (Spec.Algo.Req.nodup (a := .gen k.now) (Bc := { rows := 0, cols := 0, nnz := 0, colptr := [], rowids := [], values := [] }) hr), ?_⟩
  rw [old_eq]
  cases two <;> exact hc

/-- C72: the triangle counting program returns the same with the older classes. -/
theorem C72_triangle_count {n : Nat} {R : Type} [Semiring R] (k : OldKind) {A : CSC R} (h : A.WF) (hr : A.rows = n) (hc : A.cols = n)
    (hnz : 0 < A.nnz) {sortP : List (Nat × Nat) → List (Nat × Nat)} (hP : Spec.SortsGreater sortP)
    {sortT : List (Nat × Nat × R) → List (Nat × Nat × R)} (hT : Spec.SortsDown sortT)
    {sortf : List (Nat × R) → List (Nat × R)} (hs : Spec.SortsBy Prod.fst sortf) {order : List Nat} (ho : order.Perm (List.range n))
    (two : Bool) {nt dflt : Nat} (ht : 0 < setNumThreads nt dflt) {parts : Nat → List (List Nat)} (hp : ∀ k, Spec.Splits k (parts k)) :
    Returns (fun sch => TriCnt.countWith sortP sortT sortf order (fun X _ =>
        (if two then spgemm2p k.alg (fun x y => x * y) (fun x y => x + y) X X X true nt dflt
          else spgemm1p k.alg (fun x y => x * y) (fun x y => x + y) X X X true nt dflt) sch) A parts)
      n (setNumThreads nt dflt) (Spec.triangles (Spec.undirected n A) : R) := by
  have hu : Graph.Usable (.gen k.now) A.nnz := by
    rcases k with _ | _ | v
    · exact ⟨rfl, fun d hd => by cases hd⟩
    · exact ⟨rfl, fun d hd => by cases hd⟩
    · cases v
      · exact ⟨rfl, fun d hd => by cases hd; omega⟩
      · exact ⟨rfl, fun d hd => by cases hd; omega⟩
      · exact ⟨rfl, fun d hd => by cases hd; omega⟩
  have := C69_triangle_count_partial h hr hc hnz hP hT hs ho hu two ht hp
  rw [old_eq]
  cases two <;> exact this

/-! ## Examples -/

example := C72_product (.heap .v2) true (· * ·) (· + ·) Ex.validM ⟨⟨Int.add_assoc, Int.add_comm⟩, Ex.sortedB, Ex.sortedM, Or.inr (Or.inl rfl)⟩ true
  (nt := 2) (dflt := 4) (by decide)

example := C72_triangle_count (.heap .v1) exTri_wf rfl rfl (by decide) sortPairs_ok sortTriples_ok (isort_sorts Prod.fst) (order := [1, 0, 3, 2])
  (by decide) true (nt := 3) (dflt := 1) (by decide) splits_one

end Verif.Props
