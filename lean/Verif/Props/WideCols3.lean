import Verif.Props.C101
import Verif.Props.WideCols
import Verif.Lemmas.OneEntry

/-!
# Many columns in the programs that split the first matrix

`NUMA-aware` and `ProfileOuterSpGEMM` use the same keys as `OuterSpGEMM`, see `C98_violated_wide_columns`. They print a wrong number of entries for more than `2^20`
columns.
-/

namespace Verif.Props

open Verif.Model Verif.Model.SampleMain Verif.Spec
open _root_.Verif.Model.OuterMain (calls_give seqAll_one)
open _root_.Verif.Model.NumaMain (numaMain sections_gives Section)
open _root_.Verif.Model.ProfileMain (profileMain Run)
open _root_.Verif.Model.Bench (Out seqAll Gives)
open _root_.Verif.Model.Sample (Env setInput)

/-- One thread, four columns, one block -/
def splitSch : Outer.Sched := ⟨[0, 1, 2, 3], fun _ => [0, 1, 2, 3], List.replicate 9 0, [0], [], [], [0], [], []⟩

/-! ## The program that measures the kernel -/

/-- The first matrix with four rows, its upper half, and the second matrix, with the same entries as in `C98_violated_wide_columns` -/
def crossA4 : CSC Nat := ⟨4, 4, 3, [0, 1, 2, 3, 3], [0, 1, 0], [1, 1, 1], true⟩
def crossL4 : CSC Nat := ⟨2, 4, 3, [0, 1, 2, 3, 3], [0, 1, 0], [1, 1, 1], true⟩
def farB4 : CSR Nat := ⟨4, 2 ^ 20 + 1, 3, [0, 1, 2, 3, 3], [2 ^ 20, 0, 2 ^ 20], [1, 1, 1], true⟩

theorem split_stage : Profile.stage (fun x y => x * y) (fun x y => x + y) radixBy crossA4 farB4 1 1 4 [0, 0, 0, 0, 0] ⟨splitSch, [0]⟩ =
    .ok (some (⟨4, 2 ^ 20 + 1, 3, [0, 2, 3, 3, 3], [2 ^ 20, 0, 2 ^ 20], [1, 1, 1], true⟩, 3)) := by decide +kernel

theorem split_stage_left : Profile.stage (fun x y => x * y) (fun x y => x + y) radixBy crossL4 farB4 1 1 4 [0, 0, 0] ⟨splitSch, [0]⟩ =
    .ok (some (⟨2, 2 ^ 20 + 1, 3, [0, 2, 3], [2 ^ 20, 0, 2 ^ 20], [1, 1, 1], true⟩, 3)) := by decide +kernel

theorem split_profile : Profile.outerSpGEMM (fun x y => x * y) (fun x y => x + y) radixBy crossA4 farB4 1 1 4 (fun _ => [0, 0, 0, 0, 0]) (fun _ => ⟨splitSch, [0]⟩) =
    .ok (some (⟨4, 2 ^ 20 + 1, 3, [0, 2, 3, 3, 3], [2 ^ 20, 0, 2 ^ 20], [1, 1, 1], true⟩, 3)) := by
  unfold Profile.outerSpGEMM
  simp only [Profile.repeated, split_stage, ok_bind]

theorem split_profile_left : Profile.outerSpGEMM (fun x y => x * y) (fun x y => x + y) radixBy crossL4 farB4 1 1 4 (fun _ => [0, 0, 0]) (fun _ => ⟨splitSch, [0]⟩) =
    .ok (some (⟨2, 2 ^ 20 + 1, 3, [0, 2, 3], [2 ^ 20, 0, 2 ^ 20], [1, 1, 1], true⟩, 3)) := by
  unfold Profile.outerSpGEMM
  simp only [Profile.repeated, split_stage_left, ok_bind]

variable {F : Type} {env : Env Nat F} {neg : Nat → Nat} {args : List (List Char)} {oA oB oF oL oR : List Nat} {rA rB : Nat → Nat} {tmax : Nat}

/-- C101 is violated for `ProfileOuterSpGEMM` and `2^20 + 1` columns in the second matrix, and otherwise as in `C101_partial`: for these matrices, one thread and one block,
there is a run in which the program comes to its end and prints that the product has three entries. It has two. -/
theorem C101_violated_wide_columns (hs : SortsBy Prod.fst env.sortf) (h : Input env neg args oA oB 4 4 (ones crossAt) 4 (2 ^ 20 + 1) (ones farAt))
    (hoF : oF.Perm (List.range 4)) (hoL : oL.Perm (List.range 4)) (hoR : oR.Perm (List.range 4)) (ha : OuterArgs args 1 1 4) :
    (∃ sch, (RunOk 4 4 1 (sch 0).1 ∧ RunOk 2 4 1 (sch 0).2) ∧
      profileMain radixBy env args oA oB oF oL oR sch = ⟨[.flop 6, .total 3, .total 3, .left 3 3 4, .result 3 3 1], .ok (some ())⟩) ∧
    (∀ e ∈ ones crossAt, e.1 < 2) ∧ ∀ P, ProductEntries (ones crossAt) (ones farAt) P → P.length = 2 := by
  have hr : ∀ r mem, mem.length = r + 1 → RunOk r 4 1 ⟨1, fun _ => ⟨splitSch, [0]⟩, fun _ => mem⟩ := fun r mem hl =>
    ⟨fun _ => hl, fun _ _ => .refl _, fun _ _ => .refl _, fun _ _ => .refl _, fun _ _ => .refl _, fun _ _ => .refl _⟩
  refine ⟨⟨fun _ => (⟨1, fun _ => ⟨splitSch, [0]⟩, fun _ => [0, 0, 0, 0, 0]⟩, ⟨1, fun _ => ⟨splitSch, [0]⟩, fun _ => [0, 0, 0]⟩), ⟨hr 4 _ rfl, hr 2 _ rfl⟩, ?_⟩,
    by decide, fun P => cross_entries⟩
  obtain ⟨⟨L, A, B⟩, hx, wA, rA', cA, pA, wB, rB', cB, pB, rL, cL, pL, wL', wL⟩ := ProfileMain.setup_ok hs h hoL hoR (by decide)
  have wl : L.WF := wL (by decide)
  dsimp only at wA rA' cA pA wB rB' cB pB rL cL pL
  have hu : upperRows (4 / 2) (ones crossAt) = ones crossAt := by decide
  rw [hu] at pL
  obtain rfl : A = crossA4 := OneEntry.csc_one wA (by constructor <;> decide) rA' cA (pA.trans (by decide)) (by decide)
  obtain rfl : L = crossL4 := OneEntry.csc_one wl (by constructor <;> decide) rL cL (pL.trans (by decide)) (by decide)
  obtain rfl : B = farB4 := OneEntry.csr_one wB (by constructor <;> decide) rB' cB (pB.trans (by decide)) (by decide)
  unfold profileMain
  have hn : 2 * pairings (ones crossAt) (ones farAt) = 6 := by decide
  rw [if_neg ha.given, andThen_ok hx]
  dsimp only
  rw [andThen_ok (ProfileMain.flops_ok (H := 2) wl wB rfl pL pB hoF (few_of (by decide))), ha.tnums, hn]
  rw [List.zipIdx_cons, List.zipIdx_nil, List.map_cons, List.map_nil, seqAll_one]
  dsimp only
  rw [andThen_ok ha.plain]
  dsimp only
  rw [andThen_ok split_profile, andThen_ok split_profile_left]
  rfl

/-! ## The program for two sockets -/

/-- The entries of two matrices with four rows, the first with an entry in each column, the second with an entry in each row -/
def splitAt : List (Nat × Nat) := [(0, 0), (1, 1), (0, 2), (2, 3)]
def far4At : List (Nat × Nat) := [(0, 2 ^ 20), (1, 0), (2, 2 ^ 20), (3, 0)]

def splitR : CSC Nat := ⟨2, 4, 1, [0, 0, 0, 0, 1], [0], [1], true⟩
def farB5 : CSR Nat := ⟨4, 2 ^ 20 + 1, 4, [0, 1, 2, 3, 4], [2 ^ 20, 0, 2 ^ 20, 0], [1, 1, 1, 1], true⟩

theorem split_left : Outer.outerSpGEMM (fun x y => x * y) (fun x y => x + y) radixBy crossL4 farB5 1 1 4 [0, 0, 0] splitSch =
    .ok (some ⟨2, 2 ^ 20 + 1, 3, [0, 2, 3], [2 ^ 20, 0, 2 ^ 20], [1, 1, 1], true⟩) := by decide +kernel

theorem split_right : Outer.outerSpGEMM (fun x y => x * y) (fun x y => x + y) radixBy splitR farB5 1 1 4 [0, 0, 0] splitSch =
    .ok (some ⟨2, 2 ^ 20 + 1, 1, [0, 1, 1], [0], [1], true⟩) := by decide +kernel

/-- The product has three entries. -/
theorem split_entries {P : List (Nat × Nat × Nat)} (hP : ProductEntries (ones splitAt) (ones far4At) P) : P.length = 3 := by
  have hm : ∀ q : Nat × Nat, q ∈ P.map (fun e => (e.1, e.2.1)) ↔ q ∈ [(0, 2 ^ 20), (1, 0), (2, 0)] := by
    rintro ⟨i, j⟩
    rw [NumaMain.pos_mem hP]
    constructor
    · rintro ⟨k, ⟨e, he, h1⟩, f, hf, h2⟩
      simp only [ones, splitAt, far4At, List.map_cons, List.map_nil, List.mem_cons, List.not_mem_nil, or_false] at he hf
      rcases he with rfl | rfl | rfl | rfl <;> rcases hf with rfl | rfl | rfl | rfl <;> simp only [Prod.mk.injEq] at h1 h2 <;> obtain ⟨rfl, rfl⟩ := h1 <;>
        obtain ⟨h2, rfl⟩ := h2 <;> first | (exfalso; omega) | simp
    · intro h
      simp only [List.mem_cons, List.not_mem_nil, or_false, Prod.mk.injEq] at h
      rcases h with ⟨rfl, rfl⟩ | ⟨rfl, rfl⟩ | ⟨rfl, rfl⟩
      · exact ⟨0, ⟨(0, 0, 1), by simp [ones, splitAt], rfl⟩, (0, 2 ^ 20, 1), by simp [ones, far4At], rfl⟩
      · exact ⟨1, ⟨(1, 1, 1), by simp [ones, splitAt], rfl⟩, (1, 0, 1), by simp [ones, far4At], rfl⟩
      · exact ⟨3, ⟨(2, 3, 1), by simp [ones, splitAt], rfl⟩, (3, 0, 1), by simp [ones, far4At], rfl⟩
  have := (List.perm_ext_iff_of_nodup hP.nodup (by decide)).2 hm
  simpa using this.length_eq

/-- C99 is violated for `2^20 + 1` columns in the second matrix, and otherwise as in `C99_partial`: for the two matrices with the entries above, one thread in each section and
one block, there is a run in which the program comes to its end and prints that the product has four entries. It has three. -/
theorem C99_violated_wide_columns (hs : SortsBy Prod.fst env.sortf) (h : Input env neg args oA oB 4 4 (ones splitAt) 4 (2 ^ 20 + 1) (ones far4At))
    (hoF : oF.Perm (List.range 4)) (hoL : oL.Perm (List.range 4)) (hoR : oR.Perm (List.range 4)) (ha : BlockArgs args 1 4) :
    (∃ sch, SectionsOk 2 4 1 sch ∧
      numaMain radixBy env args oA oB oF oL oR rA rB tmax sch = ⟨[.part 3, .part 1, .flop 8, .result 4 4 tmax], .ok (some ())⟩) ∧
    ∀ P, ProductEntries (ones splitAt) (ones far4At) P → P.length = 3 := by
  have hr : SectionOk 2 4 1 ⟨1, splitSch, [0, 0, 0]⟩ := ⟨rfl, .refl _, .refl _, .refl _, .refl _⟩
  refine ⟨⟨fun _ => (⟨1, splitSch, [0, 0, 0]⟩, ⟨1, splitSch, [0, 0, 0]⟩), fun _ _ => ⟨hr, hr⟩, ?_⟩, fun P => split_entries⟩
  obtain ⟨⟨up, low, L, R, A, B⟩, hx, eu, el, wL, rL, cL, pL, wR, rR, cR, pR, wA, cA, pA, wB, rB', cB, pB, hlt⟩ := NumaMain.setup_ok (rA := rA) (rB := rB) hs h
    (noEmptyCol_of (by decide)) (noEmptyRow_of (by decide)) hoL hoR (by decide) (by decide)
  dsimp only at eu el wL rL cL pL wR rR cR pR wA cA pA wB rB' cB pB
  obtain rfl : L = crossL4 := OneEntry.csc_one wL (by constructor <;> decide) rL cL (pL.trans (by decide)) (by decide)
  obtain rfl : R = splitR := OneEntry.csc_one wR (by constructor <;> decide) rR cR (pR.trans (by decide)) (by decide)
  obtain rfl : B = farB5 := OneEntry.csr_one wB (by constructor <;> decide) rB' cB (pB.trans (by decide)) (by decide)
  have eu : up.length = 3 := eu.trans (by decide)
  have el : low.length = 1 := el.trans (by decide)
  have hn : 2 * pairings (ones splitAt) (ones far4At) = 8 := by decide
  have hf := numa_flops (x := ⟨up, low, crossL4, splitR, A, farB5⟩) wA cA pA wB rB' pB hoF (few_of (by decide))
  rw [hn] at hf
  have hb : OuterMain.blocks args = .ok (some (1, 4)) := ha.nums
  unfold numaMain
  rw [if_neg ha.given, andThen_ok hx, andThen_ok hf, andThen_ok hb]
  dsimp only
  rw [eu, el]
  have hl := calls_give (st := True) (f := fun s : Section × Section => NumaMain.sections
      (Outer.outerSpGEMM (fun x y => x * y) (fun x y => x + y) radixBy crossL4 farB5 s.1.threads 1 4 s.1.mem s.1.sch)
      (Outer.outerSpGEMM (fun x y => x * y) (fun x y => x + y) radixBy splitR farB5 s.2.threads 1 4 s.2.mem s.2.sch))
    (sch := fun _ => (⟨1, splitSch, [0, 0, 0]⟩, ⟨1, splitSch, [0, 0, 0]⟩)) fun i _ =>
      sections_gives (a := (⟨2, 2 ^ 20 + 1, 3, [0, 2, 3], [2 ^ 20, 0, 2 ^ 20], [1, 1, 1], true⟩ : CSR Nat)) (b := (⟨2, 2 ^ 20 + 1, 1, [0, 1, 1], [0], [1], true⟩ : CSR Nat))
        (.inl split_left) (.inl split_right)
  rcases hl with e | ⟨hf, -⟩
  · rw [andThen_ok e]
    rfl
  · exact absurd trivial hf

/-- There are such files. -/
example := C101_violated_wide_columns (isort_sorts Prod.fst)
  (pair_input (m := 4) (n := 4) (m' := 4) (n' := 2 ^ 20 + 1) (ps := crossAt) (qs := farAt) ["x".toList, "1".toList, "1".toList, "4".toList] (by decide) (by decide) (by decide)
    (by decide)) (oF := [1, 0, 2, 3]) (oL := [0, 1, 2, 3]) (oR := [0, 2, 1, 3]) (by decide) (by decide) (by decide)
  ⟨⟨_, rfl, .digit 1 (by decide)⟩, ⟨_, rfl, .digit 1 (by decide)⟩, ⟨_, rfl, .digit 4 (by decide)⟩, by decide⟩

example {rA rB : Nat → Nat} {tmax : Nat} := C99_violated_wide_columns (rA := rA) (rB := rB) (tmax := tmax) (isort_sorts Prod.fst)
  (pair_input (m := 4) (n := 4) (m' := 4) (n' := 2 ^ 20 + 1) (ps := splitAt) (qs := far4At) outerRest (by decide) (by decide) (by decide) (by decide))
  (oF := [1, 0, 2, 3]) (oL := [0, 1, 2, 3]) (oR := [0, 2, 1, 3]) (by decide) (by decide) (by decide) (numaRest_ok _ _ _)

end Verif.Props
