import Verif.Props.C98
import Verif.Lemmas.NumaMain
import Mathlib.Tactic.IntervalCases

/-!
# Many columns in the programs for outer products

The kernel of `OuterSpGEMM` sorts the products by a key of 32 bits in which a column from `2^20` on runs into the bits of the row (`C64_violated_columns`). Here the whole
program prints a wrong number of entries because of this: equal positions are not next to each other after sorting, and are not merged.
-/

namespace Verif.Props

open Verif.Model Verif.Model.SampleMain Verif.Model.OuterMain Verif.Spec
open _root_.Verif.Model.Bench (Out seqAll Gives)
open _root_.Verif.Model.Sample (Env setInput)
open _root_.Verif.Model.MaskedAll (Good seq_good seq_done seq_stop)

/-- The entries of a matrix with two rows and three columns, and of a matrix with three rows and `2^20 + 1` columns -/
def crossAt : List (Nat × Nat) := [(0, 0), (1, 1), (0, 2)]
def farAt : List (Nat × Nat) := [(0, 2 ^ 20), (1, 0), (2, 2 ^ 20)]

/-- The list of entries with value 1 -/
def ones (ps : List (Nat × Nat)) : List (Nat × Nat × Nat) := ps.map fun p => (p.1, p.2, 1)

def crossA : CSC Nat := ⟨2, 3, 3, [0, 1, 2, 3], [0, 1, 0], [1, 1, 1], true⟩
def farB : CSR Nat := ⟨3, 2 ^ 20 + 1, 3, [0, 1, 2, 3], [2 ^ 20, 0, 2 ^ 20], [1, 1, 1], true⟩

theorem list3 {α : Type} {l : List α} (h : l.length = 3) : ∃ a b c, l = [a, b, c] := by
  match l, h with
  | [a, b, c], _ => exact ⟨a, b, c, rfl⟩

theorem list4 {α : Type} {l : List α} (h : l.length = 4) : ∃ a b c d, l = [a, b, c, d] := by
  match l, h with
  | [a, b, c, d], _ => exact ⟨a, b, c, d, rfl⟩

/-- There is only one matrix by columns with these entries. -/
theorem crossA_eq {A : CSC Nat} (wA : A.WF) (hr : A.rows = 2) (hc : A.cols = 3) (hp : (triplesC A).Perm (ones crossAt)) : A = crossA := by
  obtain ⟨r, c, nz, ptr, ids, vals, zb⟩ := A
  obtain ⟨h0, h1, h2, h3, h4, h5, h6, h7⟩ := wA
  simp only at hr hc h0 h1 h4 h5 h6
  subst hr hc h0
  have hl : nz = 3 := by
    have := hp.length_eq
    rw [HeatMap.triplesC_length ⟨rfl, h1, h2, h3, h4, h5, h6, h7⟩] at this
    exact this
  subst hl
  obtain ⟨p0, p1, p2, p3, rfl⟩ := list4 h1
  obtain ⟨a, b, c, rfl⟩ := list3 h5
  obtain ⟨x, y, z, rfl⟩ := list3 h6
  have e0 : p0 = 0 := h2
  have e3 : p3 = 3 := h4
  have m1 : p1 ≤ p2 := h3 1 (show 1 < 3 by decide)
  have m2 : p2 ≤ p3 := h3 2 (show 2 < 3 by decide)
  subst e0 e3
  have k0 := (hp.filter fun e => decide (e.2.1 = 0))
  have k1 := (hp.filter fun e => decide (e.2.1 = 1))
  have k2 := (hp.filter fun e => decide (e.2.1 = 2))
  have : p1 = 1 ∧ p2 = 2 := by
    have l0 := k0.length_eq
    have l1 := k1.length_eq
    have : p1 ≤ 3 := by omega
    interval_cases p2 <;> interval_cases p1 <;> first | exact ⟨rfl, rfl⟩ | (exfalso; revert l0 l1; simp [triplesC, CSC.col, CSC.ptr, slice, ones, crossAt, List.range_succ])
  obtain ⟨rfl, rfl⟩ := this
  simp [triplesC, CSC.col, CSC.ptr, slice, ones, crossAt, List.range_succ] at k0 k1 k2
  obtain ⟨rfl, rfl⟩ := k0
  obtain ⟨rfl, rfl⟩ := k1
  obtain ⟨rfl, rfl⟩ := k2
  rfl

/-- There is only one matrix by rows with these entries. -/
theorem farB_eq {B : CSR Nat} (wB : B.WF) (hr : B.rows = 3) (hc : B.cols = 2 ^ 20 + 1) (hp : (triples B).Perm (ones farAt)) : B = farB := by
  obtain ⟨r, c, nz, ptr, ids, vals, zb⟩ := B
  obtain ⟨h0, h1, h2, h3, h4, h5, h6, h7⟩ := wB
  simp only at hr hc h0 h1 h4 h5 h6
  subst hr hc h0
  have hl : nz = 3 := by
    have := hp.length_eq
    rw [Bench.triples_length ⟨rfl, h1, h2, h3, h4, h5, h6, h7⟩] at this
    exact this
  subst hl
  obtain ⟨p0, p1, p2, p3, rfl⟩ := list4 h1
  obtain ⟨a, b, c, rfl⟩ := list3 h5
  obtain ⟨x, y, z, rfl⟩ := list3 h6
  have e0 : p0 = 0 := h2
  have e3 : p3 = 3 := h4
  have m1 : p1 ≤ p2 := h3 1 (show 1 < 3 by decide)
  have m2 : p2 ≤ p3 := h3 2 (show 2 < 3 by decide)
  subst e0 e3
  have k0 := (hp.filter fun e => decide (e.1 = 0))
  have k1 := (hp.filter fun e => decide (e.1 = 1))
  have k2 := (hp.filter fun e => decide (e.1 = 2))
  have : p1 = 1 ∧ p2 = 2 := by
    have l0 := k0.length_eq
    have l1 := k1.length_eq
    have : p1 ≤ 3 := by omega
    interval_cases p2 <;> interval_cases p1 <;> first | exact ⟨rfl, rfl⟩ | (exfalso; revert l0 l1; simp [triples, CSR.row, CSR.ptr, slice, ones, farAt, List.range_succ])
  obtain ⟨rfl, rfl⟩ := this
  simp [triples, CSR.row, CSR.ptr, slice, ones, farAt, List.range_succ] at k0 k1 k2
  obtain ⟨rfl, rfl⟩ := k0
  obtain ⟨rfl, rfl⟩ := k1
  obtain ⟨rfl, rfl⟩ := k2
  rfl

def crossSch : Outer.Sched := ⟨[0, 1, 2], fun _ => [0, 1, 2], List.replicate 9 0, [0], [], [], [0], [], []⟩

/-- The call of the kernel with one thread: position `(0, 2^20)` is stored twice, and once it is put in row 1. -/
theorem cross_run : Outer.outerSpGEMM (fun x y => x * y) (fun x y => x + y) radixBy crossA farB 1 1 4 [0, 0, 0] crossSch =
    .ok (some ⟨2, 2 ^ 20 + 1, 3, [0, 2, 3], [2 ^ 20, 0, 2 ^ 20], [1, 1, 1], true⟩) := by decide +kernel

/-- The product has two entries. -/
theorem cross_entries {P : List (Nat × Nat × Nat)} (hP : ProductEntries (ones crossAt) (ones farAt) P) : P.length = 2 := by
  have hm : ∀ q : Nat × Nat, q ∈ P.map (fun e => (e.1, e.2.1)) ↔ q ∈ [(0, 2 ^ 20), (1, 0)] := by
    rintro ⟨i, j⟩
    rw [NumaMain.pos_mem hP]
    constructor
    · rintro ⟨k, ⟨e, he, h1⟩, f, hf, h2⟩
      simp only [ones, crossAt, farAt, List.map_cons, List.map_nil, List.mem_cons, List.not_mem_nil, or_false] at he hf
      rcases he with rfl | rfl | rfl <;> rcases hf with rfl | rfl | rfl <;> simp only [Prod.mk.injEq] at h1 h2 <;> obtain ⟨rfl, rfl⟩ := h1 <;> obtain ⟨h2, rfl⟩ := h2 <;>
        first | (exfalso; omega) | simp
    · intro h
      simp only [List.mem_cons, List.not_mem_nil, or_false, Prod.mk.injEq] at h
      rcases h with ⟨rfl, rfl⟩ | ⟨rfl, rfl⟩
      · exact ⟨0, ⟨(0, 0, 1), by simp [ones, crossAt], rfl⟩, (0, 2 ^ 20, 1), by simp [ones, farAt], rfl⟩
      · exact ⟨1, ⟨(1, 1, 1), by simp [ones, crossAt], rfl⟩, (1, 0, 1), by simp [ones, farAt], rfl⟩
  have := (List.perm_ext_iff_of_nodup hP.nodup (by decide)).2 hm
  simpa using this.length_eq

variable {F : Type} {env : Env Nat F} {neg : Nat → Nat} {args : List (List Char)} {oA oB oF : List Nat} {rA rB : Nat → Nat}

/-- C98 is violated for `2^20 + 1` columns in the second matrix, and otherwise as in `C98_outer_partial`: for the two matrices with the entries above, one thread and one
block, there is a run in which the program `OuterSpGEMM` comes to its end and prints that the product has three entries. It has two. -/
theorem C98_violated_wide_columns (hs : SortsBy Prod.fst env.sortf) (h : Input env neg args oA oB 2 3 (ones crossAt) 3 (2 ^ 20 + 1) (ones farAt))
    (hoF : oF.Perm (List.range 3)) (ha : OuterArgs args 1 1 4) :
    (∃ sch, OuterCalls 2 3 1 1 (sch 0) ∧ outerMain radixBy env args oA oB oF rA rB sch = ⟨[.flop 6, .result 3 3 1], .ok (some ())⟩) ∧
    ∀ P, ProductEntries (ones crossAt) (ones farAt) P → P.length = 2 := by
  refine ⟨⟨fun _ _ => ⟨crossSch, [0, 0, 0]⟩, fun i _ => ⟨rfl, .refl _, .refl _, .refl _, .refl _⟩, ?_⟩, fun P => cross_entries⟩
  obtain ⟨A, B, hx, wA, rA', cA, pA, wB, rB', cB, pB⟩ := setup_ok (rA := rA) (rB := rB) true hs h (noEmptyCol_of (by decide)) (noEmptyRow_of (by decide)) hoF
    (few_of (by decide))
  obtain rfl := crossA_eq wA rA' cA pA
  obtain rfl := farB_eq wB rB' cB pB
  unfold outerMain
  rw [if_neg ha.given, andThen_ok hx, ha.tnums]
  have hn : 2 * pairings (ones crossAt) (ones farAt) = 6 := by decide
  rw [List.zipIdx_cons, List.zipIdx_nil, List.map_cons, List.map_nil, seqAll_one]
  dsimp only
  rw [andThen_ok (ha.nums (by decide) (by decide)), hn]
  dsimp only
  have hl : lastOf (fun c : Call Outer.Sched => Outer.outerSpGEMM (fun x y => x * y) (fun x y => x + y) radixBy crossA farB 1 1 4 c.mem c.sch) ⟨crossSch, [0, 0, 0]⟩
      ((List.range 15).map fun i => ⟨crossSch, [0, 0, 0]⟩) = .ok (some ⟨2, 2 ^ 20 + 1, 3, [0, 2, 3], [2 ^ 20, 0, 2 ^ 20], [1, 1, 1], true⟩) := by
    have := calls_give (st := True) (f := fun c : Call Outer.Sched => Outer.outerSpGEMM (fun x y => x * y) (fun x y => x + y) radixBy crossA farB 1 1 4 c.mem c.sch)
      (sch := fun _ => ⟨crossSch, [0, 0, 0]⟩) (x := ⟨2, 2 ^ 20 + 1, 3, [0, 2, 3], [2 ^ 20, 0, 2 ^ 20], [1, 1, 1], true⟩) fun i _ => .inl cross_run
    rcases this with e | ⟨hf, -⟩
    · exact e
    · exact absurd trivial hf
  rw [andThen_ok hl]
  rfl

/-- There are such files. -/
example {rA rB : Nat → Nat} := C98_violated_wide_columns (rA := rA) (rB := rB) (isort_sorts Prod.fst)
  (pair_input (m := 2) (n := 3) (m' := 3) (n' := 2 ^ 20 + 1) (ps := crossAt) (qs := farAt) ["x".toList, "1".toList, "1".toList, "4".toList] (by decide) (by decide) (by decide)
    (by decide)) (oF := [1, 0, 2]) (by decide)
  ⟨⟨_, rfl, .digit 1 (by decide)⟩, ⟨_, rfl, .digit 1 (by decide)⟩, ⟨_, rfl, .digit 4 (by decide)⟩, by decide⟩

end Verif.Props
