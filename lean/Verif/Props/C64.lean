import Verif.Lemmas.OuterProd
import Verif.Props.C58
import Verif.Props.C21

/-! # C64: the outer-product kernel -/

namespace Verif.Props
open Verif Model Model.Outer
open _root_.Verif.Spec (IsOuterProduct ValidOuter contribsOuter AssocComm SortsBy32 sum1)

variable {V : Type}

/-- The choices of one run: every column of `A` is handled by one thread, the parallel loops go through all their iterations. -/
structure OuterAdm (A : CSC V) (n nb : Nat) (sch : Sched) : Prop where
  flop : sch.flop.Perm (List.range A.cols)
  asg : ((List.range n).flatMap sch.asg).Perm (List.range A.cols)
  sort : sch.sort.Perm (List.range nb)
  copy : sch.copy.Perm (List.range nb)

/-- There is only one product. -/
theorem C64_unique {mul add : V → V → V} {A : CSC V} {B C D : CSR V} (hC : IsOuterProduct mul add A B C)
    (hD : IsOuterProduct mul add A B D) : C = D := by
  refine csr_ext_rows hD.wf hC.wf (hC.rows.trans hD.rows.symm) (hC.cols.trans hD.cols.symm) fun i hi => ?_
  rw [hD.rows] at hi
  have s1 : (C.row i).Pairwise (fun a b => a.1 < b.1) := by
    have := hC.sorted i (by rw [hC.rows]; exact hi)
    rwa [← CSR.row_map_fst hC.wf, List.pairwise_map] at this
  have s2 : (D.row i).Pairwise (fun a b => a.1 < b.1) := by
    have := hD.sorted i (by rw [hD.rows]; exact hi)
    rwa [← CSR.row_map_fst hD.wf, List.pairwise_map] at this
  have nd : ∀ {l : List (Nat × V)}, l.Pairwise (fun a b => a.1 < b.1) → l.Nodup :=
    fun h => h.imp fun hab e => by rw [e] at hab; exact Nat.lt_irrefl _ hab
  have hp : (C.row i).Perm (D.row i) := by
    rw [List.perm_ext_iff_of_nodup (nd s1) (nd s2)]
    rintro ⟨j, v⟩
    rw [hC.entries i hi, hD.entries i hi]
  exact hp.eq_of_pairwise (fun a b _ _ h1 h2 => absurd (Nat.lt_trans h1 h2) (Nat.lt_irrefl _)) s1 s2

/-- C64: if there are at most 2^17 - 2 rows, at most 4096 rows per block and at most 2^20 columns, then the result is the product of `A`
and `B`, whatever the threads do, unless a thread does not get enough steps to finish. What is missing is shown by `C64_violated_rows`,
`C64_violated_blocks`, `C64_violated_columns`, `C64_violated_empty` and `C64_violated_width`. -/
theorem C64_partial {mul add : V → V → V} (ha : AssocComm add) {A : CSC V} {B : CSR V} (h : ValidOuter A B) {n nb width : Nat}
    (hw : 0 < width) (hnb : 0 < nb) (hnb2 : nb < 2 ^ 16) (hsm : A.rows + 1 < 2 ^ 17) (hrow : A.rows ≤ 4096 * nb) (hc : B.cols ≤ 2 ^ 20) {sortf : (Nat × Nat × V → Nat) → List (Nat × Nat × V) → List (Nat × Nat × V)}
    (hs : SortsBy32 sortf) :
    ∃ C, IsOuterProduct mul add A B C ∧ ∀ mem : List Nat, mem.length = A.rows + 1 → ∀ sch, OuterAdm A n nb sch →
      (outerSpGEMM mul add sortf A B n nb width mem sch = .ok none ∧
        ∃ t < n, sch.main.count t ≤ 1 + ((sch.asg t).map fun k => (A.col k).length * (B.row k).length).sum + nb) ∨
      outerSpGEMM mul add sortf A B n nb width mem sch = .ok (some C) := by
  obtain ⟨npb, hp, hnpb⟩ := perBlock_le hnb hrow
  obtain ⟨hpp, hpb⟩ := perBlock_pos hnb hp
  have hmono : ∀ r s, r ≤ s → r / npb ≤ s / npb := fun r s hrs => Nat.div_le_div_right hrs
  have hkey : ∀ s t : Nat × Nat × V, s.1 < A.rows → t.1 < A.rows → s.2.1 < B.cols → t.2.1 < B.cols → s.1 / npb = t.1 / npb → key npb s ≤ key npb t →
      Conv.lexLe (s.1, s.2.1) (t.1, t.2.1) := fun s t _ _ h1 h2 h3 h4 => lexLe_of_key hnpb hpp (by omega) (by omega) h3 h4
  have hC := assemble_ok (mul := mul) ha h hmono hpb hkey (hs _ (key_lt npb))
    (L := fun b => sel (fun r => r / npb) b (prods mul A B (List.range A.cols))) (fun b _ => List.Perm.refl _)
  refine ⟨_, hC, fun mem hm sch adm => ?_⟩
  rcases outer_run (mul := mul) (add := add) (n := n) h hw hnb (by omega) hsm hs hm hp adm.flop adm.asg adm.sort adm.copy with e | ⟨L, hL, e⟩
  · simp only [prods_length] at e
    exact .inl e
  · right
    rw [e, C64_unique (assemble_ok ha h hmono hpb hkey (hs _ (key_lt npb)) hL) hC]

/-- C64 is violated if `A` has 2^17 - 1 rows or more: no run returns. -/
theorem C64_violated_rows {mul add : V → V → V} {sortf : (Nat × Nat × V → Nat) → List (Nat × Nat × V) → List (Nat × Nat × V)}
    {A : CSC V} {B : CSR V} {n nb width : Nat} (hn : 0 < n) (h : 2 ^ 17 ≤ A.rows + 1) (mem : List Nat) (sch : Sched) (C : CSR V) :
    outerSpGEMM mul add sortf A B n nb width mem sch ≠ .ok (some C) :=
  outer_large hn (by omega)

/-- C64 is violated without blocks: division by zero. -/
theorem C64_violated_empty {mul add : V → V → V} {sortf : (Nat × Nat × V → Nat) → List (Nat × Nat × V) → List (Nat × Nat × V)}
    {A : CSC V} {B : CSR V} (h : 0 < A.rows) (n width : Nat) (mem : List Nat) (sch : Sched) :
    outerSpGEMM mul add sortf A B n 0 width mem sch = .error .divzero := by
  unfold outerSpGEMM perBlock
  rw [if_neg (by omega)]
  rfl

/-- A matrix with `R` rows and one column, which has entries in rows 0 and `r`. -/
def twoRows (R r : Nat) (x y : V) : CSC V := ⟨R, 1, 2, [0, 2], [0, r], [x, y], true⟩

/-- A matrix with one row and `N` columns, which has entries in columns 0 and `c`. -/
def twoCols (N c : Nat) (x y : V) : CSR V := ⟨1, N, 2, [0, 2], [0, c], [x, y], true⟩

theorem two_valid {R r N c : Nat} (hr : r < R) (hc : c < N) (x y u v : V) : ValidOuter (twoRows R r x y) (twoCols N c u v) where
  wfA := ⟨rfl, rfl, rfl, by simp [twoRows, CSC.ptr], rfl, rfl, rfl, by simp [twoRows]; omega⟩
  wfB := ⟨rfl, rfl, rfl, by simp [twoCols, CSR.ptr], rfl, rfl, rfl, by simp [twoCols]; omega⟩
  ab := rfl

theorem two_prods {R r N c : Nat} (mul : V → V → V) (x y u v : V) :
    prods mul (twoRows R r x y) (twoCols N c u v) (List.range (twoRows R r x y).cols) =
      [(0, 0, mul x u), (0, c, mul x v), (r, 0, mul y u), (r, c, mul y v)] := rfl

/-- C64 is violated for blocks of more than 4096 rows. With one block, `A` with 4097 rows and entries in the first and the last row and
`B` with entries in columns 0 and 1, every result that is returned has the entries in the wrong rows. -/
theorem C64_violated_blocks {mul add : V → V → V} {sortf : (Nat × Nat × V → Nat) → List (Nat × Nat × V) → List (Nat × Nat × V)}
    (hs : SortsBy32 sortf) (x y u v : V) {n width : Nat} (hw : 0 < width) (mem : List Nat) (hm : mem.length = 4098)
    (sch : Sched) (adm : OuterAdm (twoRows 4097 4096 x y) n 1 sch) (C : CSR V)
    (e : outerSpGEMM mul add sortf (twoRows 4097 4096 x y) (twoCols 2 1 u v) n 1 width mem sch = .ok (some C)) :
    ¬ IsOuterProduct mul add (twoRows 4097 4096 x y) (twoCols 2 1 u v) C := by
  intro hC
  refine outer_bad (a := (0, 0, mul x u)) (b := (4096, 0, mul y u)) (c := (0, 1, mul x v)) (d := (4096, 1, mul y v))
    (two_valid (by omega) (by omega) x y u v) hw (show 4097 + 1 < 2 ^ 17 by omega) hs hm (npb := 4097) (by simp [perBlock, twoRows, Tuples.div]) adm.flop adm.asg adm.sort adm.copy
    ?_ (by simp) rfl ?_ ?_ ?_ rfl e hC.sorted
  · rw [two_prods]
    exact .cons _ (.swap _ _ _)
  · simp [key]
  · simp [key]
  · simp [key]

/-- C64 is violated for more than 2^20 columns. `A` has two rows and an entry in each, `B` has entries in the columns 0 and 2^20 + 1: every
result that is returned has the entries in the wrong rows. -/
theorem C64_violated_columns {mul add : V → V → V} {sortf : (Nat × Nat × V → Nat) → List (Nat × Nat × V) → List (Nat × Nat × V)}
    (hs : SortsBy32 sortf) (x y u v : V) {N n width : Nat} (hN : 2 ^ 20 + 1 < N) (hw : 0 < width) (mem : List Nat)
    (hm : mem.length = 3) (sch : Sched) (adm : OuterAdm (twoRows 2 1 x y) n 1 sch) (C : CSR V)
    (e : outerSpGEMM mul add sortf (twoRows 2 1 x y) (twoCols N (2 ^ 20 + 1) u v) n 1 width mem sch = .ok (some C)) :
    ¬ IsOuterProduct mul add (twoRows 2 1 x y) (twoCols N (2 ^ 20 + 1) u v) C := by
  intro hC
  refine outer_bad (a := (0, 0, mul x u)) (b := (1, 0, mul y u)) (c := (0, 2 ^ 20 + 1, mul x v)) (d := (1, 2 ^ 20 + 1, mul y v))
    (two_valid (by omega) hN x y u v) hw (show 2 + 1 < 2 ^ 17 by omega) hs hm (npb := 64) rfl adm.flop adm.asg adm.sort adm.copy
    ?_ (by simp) rfl ?_ ?_ ?_ rfl e hC.sorted
  · rw [two_prods]
    exact .cons _ (.swap _ _ _)
  · simp [key]
  · simp [key]
  · simp [key]

/-- C64 is violated for buffers without room: the first product is stored out of bounds. -/
theorem C64_violated_width : ∃ sch, OuterAdm (twoRows 2 1 1 1 : CSC Int) 1 1 sch ∧
    outerSpGEMM (· * ·) (· + ·) isort (twoRows 2 1 1 1) (twoCols 2 1 1 1) 1 1 0 [0, 0, 0] sch = (.error .oob : Res (Option (CSR Int))) :=
  ⟨⟨[0], fun _ => [0], [0, 0], [0], [], [], [0], [], []⟩, ⟨.refl _, .refl _, .refl _, .refl _⟩, by decide +kernel⟩

/-! A case that meets the hypotheses of `C64_partial`: two threads, buffers for two products, entries to be merged. -/

def ouA : CSC Int := ⟨3, 2, 4, [0, 2, 4], [0, 2, 2, 0], [1, 2, 3, 4], true⟩
def ouB : CSR Int := ⟨2, 2, 3, [0, 2, 3], [1, 0, 1], [5, 6, 7], true⟩
def ouSch : Sched :=
  ⟨[1, 0], fun t => [t], [0, 1, 1, 0, 0, 1, 0, 0, 1, 0, 1], [0], [], [], [0], [], []⟩

theorem ou_valid : ValidOuter ouA ouB :=
  ⟨⟨rfl, rfl, rfl, by decide, rfl, rfl, rfl, by decide⟩, ⟨rfl, rfl, rfl, by decide, rfl, rfl, rfl, by decide⟩, rfl⟩

theorem ou_adm : OuterAdm ouA 2 1 ouSch := ⟨.swap _ _ _, .refl _, .refl _, .refl _⟩

example := C64_partial (mul := (· * ·)) (n := 2) (nb := 1) (width := 2) ⟨Int.add_assoc, Int.add_comm⟩ ou_valid (by omega) (by omega) (by omega) (by decide)
  (by decide) (by decide) (fun k _ => isort_sorts k)

example : outerSpGEMM (· * ·) (· + ·) isort ouA ouB 2 1 2 [9, 9, 9, 9] ouSch =
    .ok (some (⟨3, 2, 4, [0, 2, 2, 4], [0, 1, 0, 1], [6, 33, 12, 31], true⟩ : CSR Int)) := by decide +kernel

example : OuterAdm (twoRows 4097 4096 (1 : Int) 1) 1 1 ⟨[0], fun _ => [0], List.replicate 6 0, [0], [], [], [0], [], []⟩ :=
  ⟨.refl _, .refl _, .refl _, .refl _⟩

/-- The program does return a wrong result. -/
example : outerSpGEMM (· * ·) (· + ·) isort (twoRows 2 1 1 2) (twoCols (2 ^ 20 + 2) (2 ^ 20 + 1) 3 5) 1 1 4 [0, 0, 0]
      ⟨[0], fun _ => [0], List.replicate 6 0, [0], [], [], [0], [], []⟩ =
    .ok (some (⟨2, 2 ^ 20 + 2, 4, [0, 2, 4], [0, 0, 2 ^ 20 + 1, 2 ^ 20 + 1], [3, 6, 5, 10], true⟩ : CSR Int)) := by decide +kernel

end Verif.Props
