import Verif.Props.C101
import Verif.Props.WideCols
import Verif.Lemmas.OneEntry

/-!
# Many columns in the programs that distribute the columns themselves

The keys of `OuterSpGEMM2` and `ProfileOuterSpGEMM2` have 16 bits for the column. As in `C98_violated_wide_columns`, the programs print a wrong number of entries for
more than `2^16` columns.
-/

namespace Verif.Props

open Verif.Model Verif.Model.SampleMain Verif.Spec
open _root_.Verif.Model.OuterMain (outer2Main Call calls_give seqAll_one)
open _root_.Verif.Model.ProfileMain (profile2Main Run2)
open _root_.Verif.Model.Bench (Out seqAll Gives)
open _root_.Verif.Model.Sample (Env setInput)

/-- The entries of a matrix with three rows and `2^16 + 1` columns -/
def far2At : List (Nat × Nat) := [(0, 2 ^ 16), (1, 0), (2, 2 ^ 16)]

/-- The matrices, the first with three rows, the last of them empty -/
def crossA2 : CSC Nat := ⟨3, 3, 3, [0, 1, 2, 3], [0, 1, 0], [1, 1, 1], true⟩
def farB2 : CSR Nat := ⟨3, 2 ^ 16 + 1, 3, [0, 1, 2, 3], [2 ^ 16, 0, 2 ^ 16], [1, 1, 1], true⟩

/-- What the kernels give -/
def wrong2 : CSR Nat := ⟨3, 2 ^ 16 + 1, 3, [0, 2, 3, 3], [2 ^ 16, 0, 2 ^ 16], [1, 1, 1], true⟩

/-- There is only one matrix by columns, and one by rows, with these entries. -/
theorem crossA2_eq {A : CSC Nat} (wA : A.WF) (hr : A.rows = 3) (hc : A.cols = 3) (hp : (triplesC A).Perm (ones crossAt)) : A = crossA2 :=
  OneEntry.csc_one wA (by constructor <;> decide) hr hc (hp.trans (by decide)) (by decide)

theorem farB2_eq {B : CSR Nat} (wB : B.WF) (hr : B.rows = 3) (hc : B.cols = 2 ^ 16 + 1) (hp : (triples B).Perm (ones far2At)) : B = farB2 :=
  OneEntry.csr_one wB (by constructor <;> decide) hr hc (hp.trans (by decide)) (by decide)

def crossSch2 : Outer2.Sched := ⟨List.replicate 9 0, [0], [], [], [0], [], []⟩

theorem cross2_run : Outer2.outerSpGEMM (fun x y => x * y) (fun x y => x + y) radixBy crossA2 farB2 1 1 4 [0, 0, 0, 0] crossSch2 = .ok (some wrong2) := by decide +kernel

theorem cross2_stage : Profile.stage2 (fun x y => x * y) (fun x y => x + y) radixBy crossA2 farB2 1 1 4 [0, 0, 0, 0] ⟨crossSch2, [0]⟩ = .ok (some (wrong2, 3)) := by
  decide +kernel

theorem cross2_profile : Profile.outerSpGEMM2 (fun x y => x * y) (fun x y => x + y) radixBy crossA2 farB2 1 1 4 (fun _ => [0, 0, 0, 0]) (fun _ => ⟨crossSch2, [0]⟩) =
    .ok (some (wrong2, 3)) := by
  unfold Profile.outerSpGEMM2
  simp only [Profile.repeated, cross2_stage, ok_bind]

/-- The product has two entries. -/
theorem cross2_entries {P : List (Nat × Nat × Nat)} (hP : ProductEntries (ones crossAt) (ones far2At) P) : P.length = 2 := by
  have hm : ∀ q : Nat × Nat, q ∈ P.map (fun e => (e.1, e.2.1)) ↔ q ∈ [(0, 2 ^ 16), (1, 0)] := by
    rintro ⟨i, j⟩
    rw [NumaMain.pos_mem hP]
    constructor
    · rintro ⟨k, ⟨e, he, h1⟩, f, hf, h2⟩
      simp only [ones, crossAt, far2At, List.map_cons, List.map_nil, List.mem_cons, List.not_mem_nil, or_false] at he hf
      rcases he with rfl | rfl | rfl <;> rcases hf with rfl | rfl | rfl <;> simp only [Prod.mk.injEq] at h1 h2 <;> obtain ⟨rfl, rfl⟩ := h1 <;> obtain ⟨h2, rfl⟩ := h2 <;>
        first | (exfalso; omega) | simp
    · intro h
      simp only [List.mem_cons, List.not_mem_nil, or_false, Prod.mk.injEq] at h
      rcases h with ⟨rfl, rfl⟩ | ⟨rfl, rfl⟩
      · exact ⟨0, ⟨(0, 0, 1), by simp [ones, crossAt], rfl⟩, (0, 2 ^ 16, 1), by simp [ones, far2At], rfl⟩
      · exact ⟨1, ⟨(1, 1, 1), by simp [ones, crossAt], rfl⟩, (1, 0, 1), by simp [ones, far2At], rfl⟩
  have := (List.perm_ext_iff_of_nodup hP.nodup (by decide)).2 hm
  simpa using this.length_eq

variable {F : Type} {env : Env Nat F} {neg : Nat → Nat} {args : List (List Char)} {oA oB oF : List Nat} {rA rB : Nat → Nat}

/-- C98 is violated for `OuterSpGEMM2` and `2^16 + 1` columns in the second matrix, and otherwise as in `C98_outer2_partial`: for the two matrices with the entries above,
one thread and one block, there is a run in which the program comes to its end and prints that the product has three entries. It has two. -/
theorem C98_violated_wide_columns2 (hs : SortsBy Prod.fst env.sortf) (h : Input env neg args oA oB 3 3 (ones crossAt) 3 (2 ^ 16 + 1) (ones far2At))
    (hoF : oF.Perm (List.range 3)) (ha : OuterArgs args 1 1 4) :
    (∃ sch, BalancedCalls 3 1 (sch 0) ∧ outer2Main radixBy env args oA oB oF rA rB sch = ⟨[.flop 6, .left 3 3 3, .result 3 3 1], .ok (some ())⟩) ∧
    ∀ P, ProductEntries (ones crossAt) (ones far2At) P → P.length = 2 := by
  refine ⟨⟨fun _ _ => ⟨crossSch2, [0, 0, 0, 0]⟩, fun i _ => ⟨rfl, .refl _, .refl _⟩, ?_⟩, fun P => cross2_entries⟩
  obtain ⟨A, B, hx, wA, rA', cA, pA, wB, rB', cB, pB⟩ := OuterMain.setup_ok (rA := rA) (rB := rB) false hs h (noEmptyCol_of (by decide)) (noEmptyRow_of (by decide)) hoF
    (few_of (by decide))
  obtain rfl := crossA2_eq wA rA' cA pA
  obtain rfl := farB2_eq wB rB' cB pB
  unfold outer2Main
  rw [if_neg ha.given, andThen_ok hx, ha.tnums]
  have hn : 2 * pairings (ones crossAt) (ones far2At) = 6 := by decide
  rw [List.zipIdx_cons, List.zipIdx_nil, List.map_cons, List.map_nil, seqAll_one]
  dsimp only
  rw [andThen_ok (ha.nums (by decide) (by decide)), hn]
  dsimp only
  have hl : lastOf (fun c : Call Outer2.Sched => Outer2.outerSpGEMM (fun x y => x * y) (fun x y => x + y) radixBy crossA2 farB2 1 1 4 c.mem c.sch)
      ⟨crossSch2, [0, 0, 0, 0]⟩ ((List.range 15).map fun i => ⟨crossSch2, [0, 0, 0, 0]⟩) = .ok (some wrong2) := by
    have := calls_give (st := True) (f := fun c : Call Outer2.Sched => Outer2.outerSpGEMM (fun x y => x * y) (fun x y => x + y) radixBy crossA2 farB2 1 1 4 c.mem c.sch)
      (sch := fun _ => ⟨crossSch2, [0, 0, 0, 0]⟩) (x := wrong2) fun i _ => .inl cross2_run
    rcases this with e | ⟨hf, -⟩
    · exact e
    · exact absurd trivial hf
  rw [andThen_ok hl]
  rfl

/-- C101 is violated for `ProfileOuterSpGEMM2` and `2^16 + 1` columns in the second matrix, and otherwise as in `C101_balanced_partial`: for the same matrices there is a run in
which the program comes to its end and prints that the product has three entries. It has two. -/
theorem C101_violated_wide_columns2 (hs : SortsBy Prod.fst env.sortf) (h : Input env neg args oA oB 3 3 (ones crossAt) 3 (2 ^ 16 + 1) (ones far2At))
    (hoF : oF.Perm (List.range 3)) (ha : OuterArgs args 1 1 4) :
    (∃ sch, (RunOk2 3 1 (sch 0).1 ∧ RunOk2 3 1 (sch 0).2) ∧
      profile2Main radixBy env args oA oB oF sch = ⟨[.flop 6, .total 3, .total 3, .left 3 3 3, .result 3 3 1], .ok (some ())⟩) ∧
    ∀ P, ProductEntries (ones crossAt) (ones far2At) P → P.length = 2 := by
  have hr : RunOk2 3 1 ⟨fun _ => ⟨crossSch2, [0]⟩, fun _ => [0, 0, 0, 0]⟩ := ⟨fun _ => rfl, fun _ _ => .refl _, fun _ _ => .refl _, fun _ _ => .refl _⟩
  refine ⟨⟨fun _ => (⟨fun _ => ⟨crossSch2, [0]⟩, fun _ => [0, 0, 0, 0]⟩, ⟨fun _ => ⟨crossSch2, [0]⟩, fun _ => [0, 0, 0, 0]⟩), ⟨hr, hr⟩, ?_⟩, fun P => cross2_entries⟩
  obtain ⟨A, B, hx, wA, rA', cA, pA, wB, rB', cB, pB⟩ := ProfileMain.setup2_ok hs h
  obtain rfl := crossA2_eq wA rA' cA pA
  obtain rfl := farB2_eq wB rB' cB pB
  unfold profile2Main
  have hn : 2 * pairings (ones crossAt) (ones far2At) = 6 := by decide
  rw [if_neg ha.given, andThen_ok hx, andThen_ok (ProfileMain.flops_ok (H := 3) wA wB rfl pA pB hoF (few_of (by decide))), ha.tnums, hn]
  rw [List.zipIdx_cons, List.zipIdx_nil, List.map_cons, List.map_nil, seqAll_one]
  dsimp only
  rw [andThen_ok ha.plain]
  dsimp only
  rw [andThen_ok cross2_profile, andThen_ok cross2_profile]
  rfl

/-- There are such files. -/
example {rA rB : Nat → Nat} := C98_violated_wide_columns2 (rA := rA) (rB := rB) (isort_sorts Prod.fst)
  (pair_input (m := 3) (n := 3) (m' := 3) (n' := 2 ^ 16 + 1) (ps := crossAt) (qs := far2At) ["x".toList, "1".toList, "1".toList, "4".toList] (by decide) (by decide) (by decide)
    (by decide)) (oF := [1, 0, 2]) (by decide)
  ⟨⟨_, rfl, .digit 1 (by decide)⟩, ⟨_, rfl, .digit 1 (by decide)⟩, ⟨_, rfl, .digit 4 (by decide)⟩, by decide⟩

example := C101_violated_wide_columns2 (isort_sorts Prod.fst)
  (pair_input (m := 3) (n := 3) (m' := 3) (n' := 2 ^ 16 + 1) (ps := crossAt) (qs := far2At) ["x".toList, "1".toList, "1".toList, "4".toList] (by decide) (by decide) (by decide)
    (by decide)) (oF := [1, 0, 2]) (by decide)
  ⟨⟨_, rfl, .digit 1 (by decide)⟩, ⟨_, rfl, .digit 1 (by decide)⟩, ⟨_, rfl, .digit 4 (by decide)⟩, by decide⟩

end Verif.Props
