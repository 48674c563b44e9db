import Verif.Lemmas.Outer2
import Verif.Props.C64

/-! # C85: the outer-product kernel with balanced blocks -/

namespace Verif.Props
open Verif Model
open _root_.Verif.Spec (IsOuterProduct ValidOuter AssocComm SortsBy32)

variable {V : Type}

/-- The choices of one run: the parallel loops go through all their iterations. -/
structure BalancedAdm (nb : Nat) (sch : Outer2.Sched) : Prop where
  sort : sch.sort.Perm (List.range nb)
  copy : sch.copy.Perm (List.range nb)

/-- C85: if `A` is square and not empty, and if there are at most 2^16 rows and at most 2^16 columns, then the result is the product of `A`
and `B`, whatever the threads do, unless a thread does not get enough steps to finish. The lists `cs` are the columns of the threads: every
column belongs to one thread. What is missing is shown by `C85_violated_shape`, `C85_violated_rows`, `C85_violated_key`,
`C85_violated_columns`, `C85_violated_empty` and `C85_violated_width`. -/
theorem C85_partial {mul add : V → V → V} (ha : AssocComm add) {A : CSC V} {B : CSR V} (h : ValidOuter A B) (hsq : A.rows = A.cols) (h0 : 0 < A.rows)
    {n nb width : Nat} (hn : 0 < n) (hw : 0 < width) (hnb : 0 < nb) (hnb2 : nb < 2 ^ 16) (hr : A.rows ≤ 2 ^ 16) (hc : B.cols ≤ 2 ^ 16)
    {sortf : (Nat × Nat × V → Nat) → List (Nat × Nat × V) → List (Nat × Nat × V)} (hs : SortsBy32 sortf) :
    ∃ (C : CSR V) (cs : Nat → List Nat), IsOuterProduct mul add A B C ∧ (List.range n).flatMap cs = List.range A.cols ∧
      ∀ mem : List Nat, mem.length = A.rows + 1 → ∀ sch, BalancedAdm nb sch →
        (Outer2.outerSpGEMM mul add sortf A B n nb width mem sch = .ok none ∧
          ∃ t < n, sch.main.count t ≤ 1 + ((cs t).map fun k => (A.col k).length * (B.row k).length).sum + nb) ∨
        Outer2.outerSpGEMM mul add sortf A B n nb width mem sch = .ok (some C) := by
  obtain ⟨bl, off, hmono, hb, hcs, run⟩ := Outer2.outer_run (mul := mul) (add := add) h hsq h0 hn hnb (by omega) (by omega) hw
  have hkey : ∀ s t : Nat × Nat × V, s.1 < A.rows → t.1 < A.rows → s.2.1 < B.cols → t.2.1 < B.cols → bl s.1 = bl t.1 → Outer2.key s ≤ Outer2.key t →
      Conv.lexLe (s.1, s.2.1) (t.1, t.2.1) := fun s t h1 h2 h3 h4 _ h6 => Outer2.lexLe_of_key (by omega) (by omega) (by omega) (by omega) h6
  have hC := Outer.assemble_ok (mul := mul) ha h hmono hb hkey (hs _ Outer2.key_lt)
    (L := fun b => Outer.sel bl b (Outer.prods mul A B (List.range A.cols))) (fun b _ => List.Perm.refl _)
  refine ⟨_, Outer2.colsOf off, hC, hcs, fun mem hm sch adm => ?_⟩
  rcases run hs hm adm.sort adm.copy with e | ⟨L, hL, e⟩
  · simp only [Outer.prods_length] at e
    exact .inl e
  · right
    rw [e, C64_unique (Outer.assemble_ok ha h hmono hb hkey (hs _ Outer2.key_lt) hL) hC]

/-- The two outer-product kernels return the same matrix, if they return. -/
theorem C85_agrees {mul add : V → V → V} (ha : AssocComm add) {A : CSC V} {B : CSR V} (h : ValidOuter A B) (hsq : A.rows = A.cols) (h0 : 0 < A.rows)
    {n nb width n' nb' width' : Nat} (hn : 0 < n) (hw : 0 < width) (hw' : 0 < width') (hnb : 0 < nb) (hnb2 : nb < 2 ^ 16) (hnb' : 0 < nb') (hnb2' : nb' < 2 ^ 16)
    (hr : A.rows ≤ 2 ^ 16) (hr' : A.rows ≤ 4096 * nb') (hc : B.cols ≤ 2 ^ 16)
    {sortf : (Nat × Nat × V → Nat) → List (Nat × Nat × V) → List (Nat × Nat × V)} (hs : SortsBy32 sortf)
    {mem mem' : List Nat} (hm : mem.length = A.rows + 1) (hm' : mem'.length = A.rows + 1) {sch : Outer2.Sched} (adm : BalancedAdm nb sch)
    {sch' : Outer.Sched} (adm' : OuterAdm A n' nb' sch') {C C' : CSR V}
    (e : Outer2.outerSpGEMM mul add sortf A B n nb width mem sch = .ok (some C))
    (e' : Outer.outerSpGEMM mul add sortf A B n' nb' width' mem' sch' = .ok (some C')) : C = C' := by
  obtain ⟨D, _, hD, _, run⟩ := C85_partial (mul := mul) ha h hsq h0 hn hw hnb hnb2 hr hc hs
  obtain ⟨D', hD', run'⟩ := C64_partial (mul := mul) (n := n') ha h hw' hnb' hnb2' (by omega) hr' (by omega) hs
  have h1 : C = D := by
    rcases run mem hm sch adm with ⟨e1, _⟩ | e1 <;> rw [e1] at e <;> cases e
    rfl
  have h2 : C' = D' := by
    rcases run' mem' hm' sch' adm' with ⟨e1, _⟩ | e1 <;> rw [e1] at e' <;> cases e'
    rfl
  rw [h1, h2, C64_unique hD hD']

/-- C85 is violated if `A` is not square: with more columns than rows every run writes out of bounds, with more rows than columns no run
returns (a column that does not exist is read). -/
theorem C85_violated_shape {mul add : V → V → V} {A : CSC V} {B : CSR V} (h : ValidOuter A B) (sortf : (Nat × Nat × V → Nat) → List (Nat × Nat × V) → List (Nat × Nat × V))
    {n nb : Nat} (hn : 0 < n) (hnb : 0 < nb) (width : Nat) (mem : List Nat) (sch : Outer2.Sched) :
    (A.rows < A.cols → Outer2.outerSpGEMM mul add sortf A B n nb width mem sch = .error .oob) ∧
    (A.cols < A.rows → ∀ C, Outer2.outerSpGEMM mul add sortf A B n nb width mem sch ≠ .ok (some C)) := by
  refine ⟨fun hlt => ?_, fun hlt C => Outer2.outer_tall h hlt hn hnb width sortf mem sch C⟩
  unfold Outer2.outerSpGEMM
  rw [Outer2.symbolic_wide mul h hlt]
  rfl

/-- C85 is violated if `A` has 2^17 - 1 rows or more: no run returns. -/
theorem C85_violated_rows {mul add : V → V → V} {sortf : (Nat × Nat × V → Nat) → List (Nat × Nat × V) → List (Nat × Nat × V)}
    {A : CSC V} {B : CSR V} {n nb width : Nat} (hn : 0 < n) (h : 2 ^ 17 ≤ A.rows + 1) (mem : List Nat) (sch : Outer2.Sched) (C : CSR V) :
    Outer2.outerSpGEMM mul add sortf A B n nb width mem sch ≠ .ok (some C) :=
  Outer2.outer_large hn (by omega)

/-- C85 is violated for a matrix without rows, which is written out of bounds, and without blocks or threads (division by zero). -/
theorem C85_violated_empty {mul add : V → V → V} (sortf : (Nat × Nat × V → Nat) → List (Nat × Nat × V) → List (Nat × Nat × V))
    {A : CSC V} {B : CSR V} (h : ValidOuter A B) (n nb width : Nat) (mem : List Nat) (sch : Outer2.Sched) :
    (A.rows = 0 → 0 < n → 0 < nb → Outer2.outerSpGEMM mul add sortf A B n nb width mem sch = .error .oob) ∧
    (A.cols ≤ A.rows → nb = 0 ∨ n = 0 → Outer2.outerSpGEMM mul add sortf A B n nb width mem sch = .error .divzero) := by
  refine ⟨fun h0 hn hnb => ?_, fun hsq h0 => ?_⟩
  · unfold Outer2.outerSpGEMM
    rw [Outer2.symbolic_empty mul h h0 hn hnb]
    rfl
  · unfold Outer2.outerSpGEMM Outer2.symbolic
    rw [Outer2.flops_eq (mul := mul) h hsq, ok_bind, Outer2.total_eq, ok_bind]
    rcases Nat.eq_zero_or_pos nb with rfl | hnb
    · rfl
    · rw [Outer.div_ok hnb, ok_bind]
      rcases h0 with h0 | rfl
      · omega
      · rfl

/-- A square matrix of size `N` with entries in rows 0 and `r` of the first column -/
def headCol (N r : Nat) (x y : V) : CSC V := ⟨N, N, 2, 0 :: List.replicate N 2, [0, r], [x, y], true⟩

/-- A matrix with `N` rows and `M` columns with entries in columns 0 and `c` of the first row -/
def headRow (N M c : Nat) (x y : V) : CSR V := ⟨N, M, 2, 0 :: List.replicate N 2, [0, c], [x, y], true⟩

theorem head_ptr {N k : Nat} (hk : k ≤ N) : (0 :: List.replicate N 2).getD k 0 = if k = 0 then 0 else 2 := by
  cases k with
  | zero => rfl
  | succ k => simp [List.getD_eq_getElem?_getD, show k < N by omega]

theorem head_valid {N r M c : Nat} (hr : r < N) (hc : c < M) (x y u v : V) : ValidOuter (headCol N r x y) (headRow N M c u v) where
  wfA := by
    refine ⟨rfl, by simp [headCol], rfl, ?_, ?_, rfl, rfl, by simp [headCol]; omega⟩
    · intro k hk
      show (0 :: List.replicate N 2).getD k 0 ≤ (0 :: List.replicate N 2).getD (k + 1) 0
      rw [head_ptr (N := N) (Nat.le_of_lt hk), head_ptr (N := N) hk]
      split <;> simp
    · show (0 :: List.replicate N 2).getD N 0 = 2
      rw [head_ptr (Nat.le_refl _), if_neg (by omega)]
  wfB := by
    refine ⟨rfl, by simp [headRow], rfl, ?_, ?_, rfl, rfl, by simp [headRow]; omega⟩
    · intro k hk
      show (0 :: List.replicate N 2).getD k 0 ≤ (0 :: List.replicate N 2).getD (k + 1) 0
      rw [head_ptr (N := N) (Nat.le_of_lt hk), head_ptr (N := N) hk]
      split <;> simp
    · show (0 :: List.replicate N 2).getD N 0 = 2
      rw [head_ptr (Nat.le_refl _), if_neg (by omega)]
  ab := rfl

theorem head_prods {N r M c : Nat} (hN : 0 < N) (mul : V → V → V) (x y u v : V) :
    Outer.prods mul (headCol N r x y) (headRow N M c u v) (List.range N) =
      [(0, 0, mul x u), (0, c, mul x v), (r, 0, mul y u), (r, c, mul y v)] := by
  obtain ⟨N, rfl⟩ : ∃ m, N = m + 1 := ⟨N - 1, by omega⟩
  unfold Outer.prods
  rw [List.range_succ_eq_map, List.flatMap_cons, List.flatMap_map]
  have : (List.range N).flatMap (fun a => Outer.prodsOf mul (headCol (N + 1) r x y) (headRow (N + 1) M c u v) (a + 1)) = [] := by
    rw [List.flatMap_eq_nil_iff]
    intro k hk
    have hk := List.mem_range.1 hk
    unfold Outer.prodsOf CSC.col
    have e1 : (headCol (N + 1) r x y).ptr (k + 1) = 2 := by
      show (0 :: List.replicate (N + 1) 2).getD (k + 1) 0 = 2
      rw [head_ptr (by omega), if_neg (by omega)]
    have e2 : (headCol (N + 1) r x y).ptr (k + 1 + 1) = 2 := by
      show (0 :: List.replicate (N + 1) 2).getD (k + 1 + 1) 0 = 2
      rw [head_ptr (by omega), if_neg (by omega)]
    rw [e1, e2]
    rfl
  rw [this, List.append_nil]
  rfl

theorem key_mk (r c : Nat) (v : V) : Outer2.key (r, c, v) = r <<< 16 % 2 ^ 32 ||| c % 2 ^ 32 := rfl

/-- C85 is violated for more than 2^16 rows. With one block, entries of `A` in rows 0 and 2^16 and entries of `B` in columns 0 and 1, every
result that is returned has entries in the wrong rows. -/
theorem C85_violated_key {mul add : V → V → V} {sortf : (Nat × Nat × V → Nat) → List (Nat × Nat × V) → List (Nat × Nat × V)}
    (hs : SortsBy32 sortf) (x y u v : V) {N n width : Nat} (hN : 2 ^ 16 < N) (hn : 0 < n) (hw : 0 < width) (mem : List Nat) (hm : mem.length = N + 1)
    (sch : Outer2.Sched) (adm : BalancedAdm 1 sch) (C : CSR V)
    (e : Outer2.outerSpGEMM mul add sortf (headCol N (2 ^ 16) x y) (headRow N 2 1 u v) n 1 width mem sch = .ok (some C)) :
    ¬ IsOuterProduct mul add (headCol N (2 ^ 16) x y) (headRow N 2 1 u v) C := by
  intro hC
  refine Outer2.outer_bad (a := (0, 0, mul x u)) (b := (2 ^ 16, 0, mul y u)) (c := (0, 1, mul x v)) (d := (2 ^ 16, 1, mul y v))
    (head_valid hN (by omega) x y u v) rfl hn hw hs hm adm.sort adm.copy ?_ (by simp) rfl ?_ ?_ ?_ (by simp [Conv.cnt, Conv.bucket]) e hC.sorted
  · rw [show (headCol N (2 ^ 16) x y).cols = N from rfl, head_prods (by omega)]
    exact .cons _ (.swap _ _ _)
  · rw [key_mk, key_mk]
    decide +kernel
  · rw [key_mk, key_mk]
    decide +kernel
  · rw [key_mk, key_mk]
    decide +kernel

/-- C85 is violated for more than 2^16 columns. With one block, entries of `A` in rows 0 and 1 and entries of `B` in columns 0 and 2^16 + 1,
every result that is returned has entries in the wrong rows. -/
theorem C85_violated_columns {mul add : V → V → V} {sortf : (Nat × Nat × V → Nat) → List (Nat × Nat × V) → List (Nat × Nat × V)}
    (hs : SortsBy32 sortf) (x y u v : V) {N M n width : Nat} (hN : 1 < N) (hM : 2 ^ 16 + 1 < M) (hn : 0 < n) (hw : 0 < width) (mem : List Nat)
    (hm : mem.length = N + 1) (sch : Outer2.Sched) (adm : BalancedAdm 1 sch) (C : CSR V)
    (e : Outer2.outerSpGEMM mul add sortf (headCol N 1 x y) (headRow N M (2 ^ 16 + 1) u v) n 1 width mem sch = .ok (some C)) :
    ¬ IsOuterProduct mul add (headCol N 1 x y) (headRow N M (2 ^ 16 + 1) u v) C := by
  intro hC
  refine Outer2.outer_bad (a := (0, 0, mul x u)) (b := (1, 0, mul y u)) (c := (0, 2 ^ 16 + 1, mul x v)) (d := (1, 2 ^ 16 + 1, mul y v))
    (head_valid hN hM x y u v) rfl hn hw hs hm adm.sort adm.copy ?_ (by simp) rfl ?_ ?_ ?_ (by simp [Conv.cnt, Conv.bucket]) e hC.sorted
  · rw [show (headCol N 1 x y).cols = N from rfl, head_prods (by omega)]
    exact .cons _ (.swap _ _ _)
  · rw [key_mk, key_mk]
    decide +kernel
  · rw [key_mk, key_mk]
    decide +kernel
  · rw [key_mk, key_mk]
    decide +kernel

/-- C85 is violated for buffers without room: the first product is stored out of bounds. -/
theorem C85_violated_width : ∃ sch, BalancedAdm 1 sch ∧
    Outer2.outerSpGEMM (· * ·) (· + ·) isort (headCol 2 1 1 1) (headRow 2 2 1 1 1) 1 1 0 [0, 0, 0] sch = (.error .oob : Res (Option (CSR Int))) :=
  ⟨⟨[0, 0], [0], [], [], [0], [], []⟩, ⟨.refl _, .refl _⟩, by decide +kernel⟩

/-! A case that meets the hypotheses of `C85_partial`: two threads, two blocks, buffers for two products, entries to be merged. -/

def obA : CSC Int := ⟨3, 3, 5, [0, 1, 3, 5], [1, 0, 2, 2, 0], [5, 1, 2, 3, 4], true⟩
def obB : CSR Int := ⟨3, 2, 4, [0, 1, 3, 4], [1, 1, 0, 1], [8, 5, 6, 7], true⟩
def obSch : Outer2.Sched := ⟨[0, 1, 1, 1, 0, 1, 1, 0, 1, 1, 0, 1, 1], [1, 0], [], [], [0, 1], [], []⟩

theorem ob_valid : ValidOuter obA obB :=
  ⟨⟨rfl, rfl, rfl, by decide, rfl, rfl, rfl, by decide⟩, ⟨rfl, rfl, rfl, by decide, rfl, rfl, rfl, by decide⟩, rfl⟩

theorem ob_adm : BalancedAdm 2 obSch := ⟨.swap _ _ _, .refl _⟩

example := C85_partial (mul := (· * ·)) (n := 2) (nb := 2) (width := 2) ⟨Int.add_assoc, Int.add_comm⟩ ob_valid rfl (by decide) (by omega) (by omega) (by omega) (by omega)
  (by decide) (by decide) (fun k _ => isort_sorts k)

example : Outer2.outerSpGEMM (· * ·) (· + ·) isort obA obB 2 2 2 [9, 9, 9, 9] obSch =
    .ok (some (⟨3, 2, 5, [0, 2, 3, 5], [0, 1, 1, 0, 1], [6, 33, 40, 12, 31], true⟩ : CSR Int)) := by decide +kernel

/-- The program does return a wrong result. -/
example : Outer2.outerSpGEMM (· * ·) (· + ·) isort (headCol 2 1 1 2) (headRow 2 (2 ^ 16 + 2) (2 ^ 16 + 1) 3 5) 1 1 4 [0, 0, 0]
      ⟨List.replicate 6 0, [0], [], [], [0], [], []⟩ =
    .ok (some (⟨2, 2 ^ 16 + 2, 4, [0, 2, 4], [0, 0, 2 ^ 16 + 1, 2 ^ 16 + 1], [3, 6, 5, 10], true⟩ : CSR Int)) := by decide +kernel

example : BalancedAdm 1 ⟨List.replicate 6 0, [0], [], [], [0], [], []⟩ := ⟨.refl _, .refl _⟩

/-- Not square -/
example : ValidOuter ouA ouB ∧ ouA.cols < ouA.rows := ⟨ou_valid, by decide⟩

end Verif.Props
