import Verif.Lemmas.OuterProfile
import Verif.Lemmas.OuterSquare
import Verif.Props.C64
import Verif.Props.C85

/-! # C100: the outer-product kernels that measure their parts -/

namespace Verif.Props
open Verif Model
open _root_.Verif.Spec (IsOuterProduct ValidOuter contribsOuter AssocComm SortsBy32 sum1)
open _root_.Verif.Model.Profile (Sched Sched2 stage stage2 repeated)

variable {V : Type}

/-- The number of products of an entry of `A` and an entry of `B` -/
def outerCount (A : CSC V) (B : CSR V) : Nat := ((List.range A.cols).map fun k => (A.col k).length * (B.row k).length).sum

/-- The choices of the five stages: every column of `A` is handled by one thread, the parallel loops go through all their iterations. -/
def ProfileAdm (A : CSC V) (n nb : Nat) (sch : Nat → Sched) : Prop := ∀ i < 5, OuterAdm A n nb (sch i).base ∧ (sch i).merge.Perm (List.range nb)

/-- The same for the second kernel -/
def ProfileAdm2 (nb : Nat) (sch : Nat → Sched2) : Prop := ∀ i < 5, BalancedAdm nb (sch i).base ∧ (sch i).merge.Perm (List.range nb)

theorem repeated_gives {α : Type} {run : Nat → Res (Option α)} {P : Nat → Prop} {x : α} : ∀ {k : Nat},
    (∀ i < k + 1, (run i = .ok none ∧ P i) ∨ run i = .ok (some x)) → (repeated run k = .ok none ∧ ∃ i < k + 1, P i) ∨ repeated run k = .ok (some x)
  | 0, h => by
    rcases h 0 (by omega) with ⟨e, p⟩ | e
    · exact .inl ⟨e, 0, by omega, p⟩
    · exact .inr e
  | k + 1, h => by
    rcases repeated_gives (k := k) fun i hi => h i (by omega) with ⟨e, i, hi, p⟩ | e
    · left
      refine ⟨?_, i, by omega, p⟩
      rw [repeated, e]
      rfl
    · rw [repeated, e]
      rcases h (k + 1) (by omega) with ⟨e', p⟩ | e'
      · exact .inl ⟨e', k + 1, by omega, p⟩
      · exact .inr e'

theorem repeated_last {α : Type} {run : Nat → Res (Option α)} {x : α} : ∀ {k : Nat}, repeated run k = .ok (some x) → run k = .ok (some x)
  | 0, h => h
  | k + 1, h => by
    rw [repeated] at h
    obtain ⟨r, _, e⟩ := Alias.bind_ok' h
    cases r with
    | none => cases e
    | some y => exact e

theorem repeated_error {α : Type} {run : Nat → Res (Option α)} {er : Err} (h : run 0 = .error er) : ∀ k, repeated run k = .error er
  | 0 => h
  | k + 1 => by
    rw [repeated, repeated_error h k]
    rfl

/-- C100, first kernel: if there are at most 2^17 - 2 rows, at most 2^17 - 2 blocks, at most 4096 rows per block and at most 2^20 columns, then the result is
the product of `A` and `B` and the number that is printed is the number of products, whatever the threads do, unless a thread does not get enough steps to
finish. What is missing is shown by `C100_violated_rows`, `C100_violated_blocks`, `C100_violated_columns`, `C100_violated_empty` and
`C100_violated_width`. -/
theorem C100_partial {mul add : V → V → V} (ha : AssocComm add) {A : CSC V} {B : CSR V} (h : ValidOuter A B) {n nb width : Nat}
    (hw : 0 < width) (hnb : 0 < nb) (hnb2 : nb + 1 < 2 ^ 17) (hsm : A.rows + 1 < 2 ^ 17) (hrow : A.rows ≤ 4096 * nb) (hc : B.cols ≤ 2 ^ 20)
    {sortf : (Nat × Nat × V → Nat) → List (Nat × Nat × V) → List (Nat × Nat × V)} (hs : SortsBy32 sortf) :
    ∃ C, IsOuterProduct mul add A B C ∧ ∀ mem : Nat → List Nat, (∀ i, (mem i).length = A.rows + 1) → ∀ sch, ProfileAdm A n nb sch →
      (Profile.outerSpGEMM mul add sortf A B n nb width mem sch = .ok none ∧
        ∃ i < 5, ∃ t < n, (sch i).base.main.count t ≤ 1 + (((sch i).base.asg t).map fun k => (A.col k).length * (B.row k).length).sum + nb) ∨
      Profile.outerSpGEMM mul add sortf A B n nb width mem sch = .ok (some (C, outerCount A B)) := by
  obtain ⟨npb, hp, hnpb⟩ := Outer.perBlock_le hnb hrow
  obtain ⟨hpp, hpb⟩ := Outer.perBlock_pos hnb hp
  have hmono : ∀ r s, r ≤ s → r / npb ≤ s / npb := fun r s hrs => Nat.div_le_div_right hrs
  have hkey : ∀ s t : Nat × Nat × V, s.1 < A.rows → t.1 < A.rows → s.2.1 < B.cols → t.2.1 < B.cols → s.1 / npb = t.1 / npb → Outer.key npb s ≤ Outer.key npb t →
      Conv.lexLe (s.1, s.2.1) (t.1, t.2.1) := fun s t _ _ h1 h2 h3 h4 => Outer.lexLe_of_key hnpb hpp (by omega) (by omega) h3 h4
  have hC := Outer.assemble_ok (mul := mul) ha h hmono hpb hkey (hs _ (Outer.key_lt npb))
    (L := fun b => Outer.sel (fun r => r / npb) b (Outer.prods mul A B (List.range A.cols))) (fun b _ => List.Perm.refl _)
  refine ⟨_, hC, fun mem hm sch adm => ?_⟩
  refine repeated_gives (k := 4) fun i hi => ?_
  obtain ⟨a, am⟩ := adm i hi
  rw [Profile.stage_eq h hw hnb hnb2 hsm (by omega) hs (hm i) hp a.flop a.asg a.sort a.copy am, Outer.prods_length]
  rcases Outer.outer_run (mul := mul) (add := add) (n := n) h hw hnb hnb2 hsm hs (hm i) hp a.flop a.asg a.sort a.copy with ⟨e, t, ht, hcnt⟩ | ⟨L, hL, e⟩
  · rw [e]
    rw [Outer.prods_length] at hcnt
    exact .inl ⟨rfl, t, ht, hcnt⟩
  · right
    rw [e, C64_unique (Outer.assemble_ok ha h hmono hpb hkey (hs _ (Outer.key_lt npb)) hL) hC]
    rfl

/-- C100, second kernel: the same for a square matrix `A` with at least one row if there are at most 2^16 rows and 2^16 columns. What is missing is shown by
`C100_wide` and `C100_violated_wide`, `C100_violated_tall`, `C100_violated_rows`, `C100_violated_key`, `C100_violated_columns2`, `C100_violated_empty` and
`C100_violated_width`. -/
theorem C100_balanced_partial {mul add : V → V → V} (ha : AssocComm add) {A : CSC V} {B : CSR V} (h : ValidOuter A B) (hsq : A.rows = A.cols) (h0 : 0 < A.rows)
    {n nb width : Nat} (hn : 0 < n) (hw : 0 < width) (hnb : 0 < nb) (hnb2 : nb + 1 < 2 ^ 17) (hr : A.rows ≤ 2 ^ 16) (hc : B.cols ≤ 2 ^ 16)
    {sortf : (Nat × Nat × V → Nat) → List (Nat × Nat × V) → List (Nat × Nat × V)} (hs : SortsBy32 sortf) :
    ∃ (C : CSR V) (cs : Nat → List Nat), IsOuterProduct mul add A B C ∧ (List.range n).flatMap cs = List.range A.cols ∧
      ∀ mem : Nat → List Nat, (∀ i, (mem i).length = A.rows + 1) → ∀ sch, ProfileAdm2 nb sch →
        (Profile.outerSpGEMM2 mul add sortf A B n nb width mem sch = .ok none ∧
          ∃ i < 5, ∃ t < n, (sch i).base.main.count t ≤ 1 + ((cs t).map fun k => (A.col k).length * (B.row k).length).sum + nb) ∨
        Profile.outerSpGEMM2 mul add sortf A B n nb width mem sch = .ok (some (C, outerCount A B)) := by
  obtain ⟨bl, off, hmono, hb, hcs, run⟩ := Outer2.outer_run (mul := mul) (add := add) h hsq h0 hn hnb hnb2 (by omega) hw
  have hkey : ∀ s t : Nat × Nat × V, s.1 < A.rows → t.1 < A.rows → s.2.1 < B.cols → t.2.1 < B.cols → bl s.1 = bl t.1 → Outer2.key s ≤ Outer2.key t →
      Conv.lexLe (s.1, s.2.1) (t.1, t.2.1) := fun s t h1 h2 h3 h4 _ h6 => Outer2.lexLe_of_key (by omega) (by omega) (by omega) (by omega) h6
  have hC := Outer.assemble_ok (mul := mul) ha h hmono hb hkey (hs _ Outer2.key_lt)
    (L := fun b => Outer.sel bl b (Outer.prods mul A B (List.range A.cols))) (fun b _ => List.Perm.refl _)
  refine ⟨_, Outer2.colsOf off, hC, hcs, fun mem hm sch adm => ?_⟩
  refine repeated_gives (k := 4) fun i hi => ?_
  obtain ⟨a, am⟩ := adm i hi
  rw [Profile.stage2_eq h hsq h0 hn hw hnb hnb2 (by omega) (by omega) hs (hm i) a.sort a.copy am, Outer.prods_length]
  rcases run hs (hm i) a.sort a.copy with ⟨e, t, ht, hcnt⟩ | ⟨L, hL, e⟩
  · rw [e]
    rw [Outer.prods_length] at hcnt
    exact .inl ⟨rfl, t, ht, hcnt⟩
  · right
    rw [e, C64_unique (Outer.assemble_ok ha h hmono hb hkey (hs _ Outer2.key_lt) hL) hC]
    rfl

/-- C100, second kernel, for matrices with more columns than rows: the kernel only uses as many columns of `A` and rows of `B` as `A` has rows. The result is the
product of these parts `A'` and `B'`, and the number that is printed is their number of products, whatever the threads do, unless a thread does not get enough
steps to finish. `C100_violated_wide` says when this number is too small. -/
theorem C100_wide {mul add : V → V → V} (ha : AssocComm add) {A : CSC V} {B : CSR V} (h : ValidOuter A B) (hwide : A.rows ≤ A.cols) (h0 : 0 < A.rows)
    {n nb width : Nat} (hn : 0 < n) (hw : 0 < width) (hnb : 0 < nb) (hnb2 : nb + 1 < 2 ^ 17) (hr : A.rows ≤ 2 ^ 16) (hc : B.cols ≤ 2 ^ 16)
    {sortf : (Nat × Nat × V → Nat) → List (Nat × Nat × V) → List (Nat × Nat × V)} (hs : SortsBy32 sortf) :
    ∃ (A' : CSC V) (B' : CSR V), ValidOuter A' B' ∧ A'.rows = A.rows ∧ A'.cols = A.rows ∧ (∀ j < A.rows, A'.col j = A.col j) ∧ B'.cols = B.cols ∧
      (∀ i < A.rows, B'.row i = B.row i) ∧
      ∃ (C : CSR V) (cs : Nat → List Nat), IsOuterProduct mul add A' B' C ∧ (List.range n).flatMap cs = List.range A.rows ∧
        ∀ mem : Nat → List Nat, (∀ i, (mem i).length = A.rows + 1) → ∀ sch, ProfileAdm2 nb sch →
          (Profile.outerSpGEMM2 mul add sortf A B n nb width mem sch = .ok none ∧
            ∃ i < 5, ∃ t < n, (sch i).base.main.count t ≤ 1 + ((cs t).map fun k => (A'.col k).length * (B'.row k).length).sum + nb) ∨
          Profile.outerSpGEMM2 mul add sortf A B n nb width mem sch = .ok (some (C, outerCount A' B')) := by
  have hab := h.ab
  have hv : ValidOuter (Profile.firstCols A A.rows) (Profile.firstRows B A.rows) := ⟨Profile.firstCols_wf h.wfA hwide, Profile.firstRows_wf h.wfB (by omega), rfl⟩
  refine ⟨Profile.firstCols A A.rows, Profile.firstRows B A.rows, hv, rfl, rfl, fun j hj => Profile.firstCols_col h.wfA hwide hj, rfl,
    fun i hi => Profile.firstRows_row h.wfB (by omega) hi, ?_⟩
  obtain ⟨C, cs, hC, hcs, hg⟩ := C100_balanced_partial (mul := mul) ha hv rfl h0 hn hw hnb hnb2 hr hc hs
  refine ⟨C, cs, hC, hcs, fun mem hm sch adm => ?_⟩
  have le := Profile.outerSpGEMM2_le (Profile.first_part A B A.rows) mul add sortf n nb width mem sch
  exact (hg mem hm sch adm).imp (fun h => ⟨le _ h.1, h.2⟩) (le _)

/-- The last stage of the first kernel has returned what the kernel of `outer_mult.h` returns. -/
theorem profile_last {mul add : V → V → V} {A : CSC V} {B : CSR V} (h : ValidOuter A B) {n nb width npb : Nat} (hw : 0 < width) (hnb : 0 < nb) (hnb2 : nb + 1 < 2 ^ 17)
    (hsm : A.rows + 1 < 2 ^ 17) (hc : B.cols ≤ 2 ^ 32) {sortf : (Nat × Nat × V → Nat) → List (Nat × Nat × V) → List (Nat × Nat × V)}
    (hs : SortsBy32 sortf) {mem : Nat → List Nat} (hm : ∀ i, (mem i).length = A.rows + 1) (hp : Outer.perBlock A.rows nb = .ok npb) {sch : Nat → Sched}
    (adm : ProfileAdm A n nb sch) {C : CSR V} {p : Nat} (e : Profile.outerSpGEMM mul add sortf A B n nb width mem sch = .ok (some (C, p))) :
    Outer.outerSpGEMM mul add sortf A B n nb width (mem 4) (sch 4).base = .ok (some C) := by
  obtain ⟨a, am⟩ := adm 4 (by omega)
  have e := repeated_last e
  beta_reduce at e
  rw [Profile.stage_eq h hw hnb hnb2 hsm hc hs (hm 4) hp a.flop a.asg a.sort a.copy am] at e
  obtain ⟨r, hr, e⟩ := Alias.bind_ok' e
  cases r with
  | none => cases e
  | some D =>
    cases e
    exact hr

/-- The same for the second kernel -/
theorem profile2_last {mul add : V → V → V} {A : CSC V} {B : CSR V} (h : ValidOuter A B) (hsq : A.rows = A.cols) (h0 : 0 < A.rows) {n nb width : Nat} (hn : 0 < n)
    (hw : 0 < width) (hnb : 0 < nb) (hnb2 : nb + 1 < 2 ^ 17) (hsm : A.rows + 1 < 2 ^ 17) (hc : B.cols ≤ 2 ^ 32)
    {sortf : (Nat × Nat × V → Nat) → List (Nat × Nat × V) → List (Nat × Nat × V)} (hs : SortsBy32 sortf) {mem : Nat → List Nat}
    (hm : ∀ i, (mem i).length = A.rows + 1) {sch : Nat → Sched2} (adm : ProfileAdm2 nb sch) {C : CSR V} {p : Nat}
    (e : Profile.outerSpGEMM2 mul add sortf A B n nb width mem sch = .ok (some (C, p))) :
    Outer2.outerSpGEMM mul add sortf A B n nb width (mem 4) (sch 4).base = .ok (some C) := by
  obtain ⟨a, am⟩ := adm 4 (by omega)
  have e := repeated_last e
  beta_reduce at e
  rw [Profile.stage2_eq h hsq h0 hn hw hnb hnb2 hsm hc hs (hm 4) a.sort a.copy am] at e
  obtain ⟨r, hr, e⟩ := Alias.bind_ok' e
  cases r with
  | none => cases e
  | some D =>
    cases e
    exact hr

/-- The last part of a stage does not return a result if there are 2^17 - 1 rows or blocks or more. -/
theorem finish_large {A : CSC V} {B : CSR V} {n nb : Nat} {mem : List Nat} {s : List (List (Nat × Nat × V)) × List Nat} {sch : Outer.Sched} {C : CSR V} (hn : 0 < n)
    (hl : s.2.length = nb) (h : 2 ^ 17 ≤ A.rows + 1 ∨ 2 ^ 17 ≤ nb + 1) : Outer.finish A B n nb mem s sch ≠ .ok (some C) := by
  intro e
  unfold Outer.finish at e
  obtain ⟨r, hr, e⟩ := Alias.bind_ok' e
  match r, e, hr with
  | none, e, _ => cases e
  | some cum, e, hr =>
    simp only at e
    rcases h with h | h
    · obtain ⟨total, _, e⟩ := Alias.bind_ok' e
      obtain ⟨rp, _, e⟩ := Alias.bind_ok' e
      obtain ⟨o, ho, e⟩ := Alias.bind_ok' e
      obtain ⟨r, hr, e⟩ := Alias.bind_ok' e
      match r, e, hr with
      | none, e, _ => cases e
      | some x, e, hr =>
        refine UtilScan.scan_short hn (by omega) ?_ _ _ _ hr
        have := Alias.foldlM_pres (fun s : Outer.Out V => s.byRow.length = A.rows) (fun s a s' hs he => by rw [Outer.copyBlock_length he, hs])
          _ _ _ (by simp) ho
        rw [this]
    · exact UtilScan.scan_short hn (by omega) (by rw [hl]) _ _ _ hr

theorem sortMerge_length {add : V → V → V} {sortf : (Nat × Nat × V → Nat) → List (Nat × Nat × V) → List (Nat × Nat × V)} {key : Nat × Nat × V → Nat} {nb : Nat}
    {o1 o2 : List Nat} {g : Outer.Glob V} {s : List (List (Nat × Nat × V)) × List Nat} (e : Profile.sortMerge add sortf key nb o1 o2 g = .ok s) : s.2.length = nb := by
  unfold Profile.sortMerge at e
  obtain ⟨v, _, e⟩ := Alias.bind_ok' e
  refine Alias.foldlM_pres (fun s : List (List (Nat × Nat × V)) × List Nat => s.2.length = nb) (fun s b s' hs he => ?_) _ _ _ (by simp) e
  unfold Profile.mergeOne at he
  obtain ⟨_, _, he⟩ := Alias.bind_ok' he
  obtain ⟨_, _, he⟩ := Alias.bind_ok' he
  obtain ⟨_, _, he⟩ := Alias.bind_ok' he
  obtain ⟨_, _, he⟩ := Alias.bind_ok' he
  obtain ⟨_, _, he⟩ := Alias.bind_ok' he
  obtain ⟨y, hy, he⟩ := Alias.bind_ok' he
  cases he
  unfold wr at hy
  split at hy
  · cases hy
    simpa using hs
  · cases hy

/-- A stage does not return a result if there are 2^17 - 1 rows or blocks or more. -/
theorem stage_large {mul add : V → V → V} {sortf : (Nat × Nat × V → Nat) → List (Nat × Nat × V) → List (Nat × Nat × V)} {A : CSC V} {B : CSR V} {n nb width : Nat}
    (hn : 0 < n) (h : 2 ^ 17 ≤ A.rows + 1 ∨ 2 ^ 17 ≤ nb + 1) (mem : List Nat) (x : CSR V × Nat) :
    (∀ sch, stage mul add sortf A B n nb width mem sch ≠ .ok (some x)) ∧ ∀ sch, stage2 mul add sortf A B n nb width mem sch ≠ .ok (some x) := by
  constructor
  · intro sch e
    unfold stage at e
    obtain ⟨_, _, e⟩ := Alias.bind_ok' e
    obtain ⟨_, _, e⟩ := Alias.bind_ok' e
    obtain ⟨_, _, e⟩ := Alias.bind_ok' e
    obtain ⟨_, _, e⟩ := Alias.bind_ok' e
    obtain ⟨r, _, e⟩ := Alias.bind_ok' e
    match r, e with
    | none, e => cases e
    | some (g, _), e =>
      simp only at e
      obtain ⟨s, hs, e⟩ := Alias.bind_ok' e
      obtain ⟨r, hr, e⟩ := Alias.bind_ok' e
      cases r with
      | none => cases e
      | some C => exact finish_large hn (sortMerge_length hs) h hr
  · intro sch e
    unfold stage2 at e
    obtain ⟨_, _, e⟩ := Alias.bind_ok' e
    obtain ⟨_, _, e⟩ := Alias.bind_ok' e
    obtain ⟨_, _, e⟩ := Alias.bind_ok' e
    obtain ⟨r, _, e⟩ := Alias.bind_ok' e
    match r, e with
    | none, e => cases e
    | some (g, _), e =>
      simp only at e
      obtain ⟨s, hs, e⟩ := Alias.bind_ok' e
      obtain ⟨r, hr, e⟩ := Alias.bind_ok' e
      cases r with
      | none => cases e
      | some C => exact finish_large hn (sortMerge_length hs) h hr

/-- C100 is violated if `A` has 2^17 - 1 rows or more, or if there are 2^17 - 1 blocks or more: no run of either kernel returns. -/
theorem C100_violated_rows {mul add : V → V → V} {sortf : (Nat × Nat × V → Nat) → List (Nat × Nat × V) → List (Nat × Nat × V)} {A : CSC V} {B : CSR V} {n nb width : Nat}
    (hn : 0 < n) (h : 2 ^ 17 ≤ A.rows + 1 ∨ 2 ^ 17 ≤ nb + 1) (mem : Nat → List Nat) (x : CSR V × Nat) :
    (∀ sch, Profile.outerSpGEMM mul add sortf A B n nb width mem sch ≠ .ok (some x)) ∧
    ∀ sch, Profile.outerSpGEMM2 mul add sortf A B n nb width mem sch ≠ .ok (some x) :=
  ⟨fun sch e => (stage_large hn h (mem 4) x).1 (sch 4) (repeated_last e), fun sch e => (stage_large hn h (mem 4) x).2 (sch 4) (repeated_last e)⟩

/-- C100 is violated without blocks: division by zero. -/
theorem C100_violated_empty {mul add : V → V → V} {sortf : (Nat × Nat × V → Nat) → List (Nat × Nat × V) → List (Nat × Nat × V)}
    {A : CSC V} {B : CSR V} (h : 0 < A.rows) (n width : Nat) (mem : Nat → List Nat) :
    (∀ sch, Profile.outerSpGEMM mul add sortf A B n 0 width mem sch = .error .divzero) ∧
    ∀ sch, Profile.outerSpGEMM2 mul add sortf A B n 0 width mem sch = .error .divzero := by
  constructor
  · intro sch
    refine repeated_error ?_ 4
    unfold stage Outer.perBlock
    rw [if_neg (by omega)]
    rfl
  · intro sch
    refine repeated_error ?_ 4
    unfold stage2 Outer.perBlock
    rw [if_neg (by omega)]
    rfl

/-- C100 is violated for blocks of more than 4096 rows, as in `C64_violated_blocks`. -/
theorem C100_violated_blocks {mul add : V → V → V} {sortf : (Nat × Nat × V → Nat) → List (Nat × Nat × V) → List (Nat × Nat × V)}
    (hs : SortsBy32 sortf) (x y u v : V) {n width : Nat} (hw : 0 < width) (mem : Nat → List Nat) (hm : ∀ i, (mem i).length = 4098)
    (sch : Nat → Sched) (adm : ProfileAdm (twoRows 4097 4096 x y) n 1 sch) (C : CSR V) (p : Nat)
    (e : Profile.outerSpGEMM mul add sortf (twoRows 4097 4096 x y) (twoCols 2 1 u v) n 1 width mem sch = .ok (some (C, p))) :
    ¬ IsOuterProduct mul add (twoRows 4097 4096 x y) (twoCols 2 1 u v) C :=
  C64_violated_blocks hs x y u v hw (mem 4) (hm 4) (sch 4).base (adm 4 (by omega)).1 C
    (profile_last (two_valid (by omega) (by omega) x y u v) hw (by omega) (by omega) (show 4097 + 1 < 2 ^ 17 by omega) (show 2 ≤ 2 ^ 32 by omega) hs hm
      (npb := 4097) (by simp [Outer.perBlock, twoRows, Tuples.div]) adm e)

/-- C100 is violated for more than 2^20 columns, as in `C64_violated_columns`. -/
theorem C100_violated_columns {mul add : V → V → V} {sortf : (Nat × Nat × V → Nat) → List (Nat × Nat × V) → List (Nat × Nat × V)}
    (hs : SortsBy32 sortf) (x y u v : V) {N n width : Nat} (hN : 2 ^ 20 + 1 < N) (hN2 : N ≤ 2 ^ 32) (hw : 0 < width) (mem : Nat → List Nat)
    (hm : ∀ i, (mem i).length = 3) (sch : Nat → Sched) (adm : ProfileAdm (twoRows 2 1 x y) n 1 sch) (C : CSR V) (p : Nat)
    (e : Profile.outerSpGEMM mul add sortf (twoRows 2 1 x y) (twoCols N (2 ^ 20 + 1) u v) n 1 width mem sch = .ok (some (C, p))) :
    ¬ IsOuterProduct mul add (twoRows 2 1 x y) (twoCols N (2 ^ 20 + 1) u v) C :=
  C64_violated_columns hs x y u v hN hw (mem 4) (hm 4) (sch 4).base (adm 4 (by omega)).1 C
    (profile_last (two_valid (by omega) hN x y u v) hw (by omega) (by omega) (show 2 + 1 < 2 ^ 17 by omega) hN2 hs hm
      (npb := 64) rfl adm e)

/-- C100 is violated for the second kernel if `A` has more than 2^16 rows, as in `C85_violated_key`. -/
theorem C100_violated_key {mul add : V → V → V} {sortf : (Nat × Nat × V → Nat) → List (Nat × Nat × V) → List (Nat × Nat × V)}
    (hs : SortsBy32 sortf) (x y u v : V) {N n width : Nat} (hN : 2 ^ 16 < N) (hN2 : N + 1 < 2 ^ 17) (hn : 0 < n) (hw : 0 < width) (mem : Nat → List Nat)
    (hm : ∀ i, (mem i).length = N + 1) (sch : Nat → Sched2) (adm : ProfileAdm2 1 sch) (C : CSR V) (p : Nat)
    (e : Profile.outerSpGEMM2 mul add sortf (headCol N (2 ^ 16) x y) (headRow N 2 1 u v) n 1 width mem sch = .ok (some (C, p))) :
    ¬ IsOuterProduct mul add (headCol N (2 ^ 16) x y) (headRow N 2 1 u v) C :=
  C85_violated_key hs x y u v hN hn hw (mem 4) (hm 4) (sch 4).base (adm 4 (by omega)).1 C
    (profile2_last (head_valid hN (by omega) x y u v) rfl (show 0 < N by omega) hn hw (by omega) (by omega) hN2 (show 2 ≤ 2 ^ 32 by omega) hs hm adm e)

/-- C100 is violated for the second kernel if `B` has more than 2^16 + 1 columns, as in `C85_violated_columns`. -/
theorem C100_violated_columns2 {mul add : V → V → V} {sortf : (Nat × Nat × V → Nat) → List (Nat × Nat × V) → List (Nat × Nat × V)}
    (hs : SortsBy32 sortf) (x y u v : V) {N M n width : Nat} (hN : 1 < N) (hN2 : N + 1 < 2 ^ 17) (hM : 2 ^ 16 + 1 < M) (hM2 : M ≤ 2 ^ 32) (hn : 0 < n) (hw : 0 < width)
    (mem : Nat → List Nat) (hm : ∀ i, (mem i).length = N + 1) (sch : Nat → Sched2) (adm : ProfileAdm2 1 sch) (C : CSR V) (p : Nat)
    (e : Profile.outerSpGEMM2 mul add sortf (headCol N 1 x y) (headRow N M (2 ^ 16 + 1) u v) n 1 width mem sch = .ok (some (C, p))) :
    ¬ IsOuterProduct mul add (headCol N 1 x y) (headRow N M (2 ^ 16 + 1) u v) C :=
  C85_violated_columns hs x y u v hN hM hn hw (mem 4) (hm 4) (sch 4).base (adm 4 (by omega)).1 C
    (profile2_last (head_valid hN hM x y u v) rfl (show 0 < N by omega) hn hw (by omega) (by omega) hN2 hM2 hs hm adm e)

/-- C100 is violated for the second kernel if `A` has more rows than columns: it reads out of bounds. -/
theorem C100_violated_tall {mul add : V → V → V} {sortf : (Nat × Nat × V → Nat) → List (Nat × Nat × V) → List (Nat × Nat × V)} {A : CSC V} {B : CSR V}
    (h : ValidOuter A B) (hlt : A.cols < A.rows) {n nb : Nat} (hnb : 0 < nb) (width : Nat) (mem : Nat → List Nat) (sch : Nat → Sched2) :
    Profile.outerSpGEMM2 mul add sortf A B n nb width mem sch = .error .oob := by
  refine repeated_error ?_ 4
  unfold stage2
  obtain ⟨npb, hp⟩ : ∃ npb, Outer.perBlock A.rows nb = .ok npb := by
    unfold Outer.perBlock
    split
    · exact ⟨_, rfl⟩
    · exact ⟨_, Outer.div_ok hnb⟩
  rw [hp, ok_bind]
  have hs : Profile.symbolic A B n nb = .error .oob := by
    have hab := h.ab
    unfold Profile.symbolic
    rw [Outer2.forRange_err (er := .oob) (fun i s => ∃ f g, s = (tab A.rows g, tab A.rows f)) hlt ?_ ?_ A.cols 0 _ (by omega)
      ⟨_, _, by rw [Conv.replicate_eq_tab]⟩]
    · rfl
    · rintro i s hi ⟨f, g, rfl⟩
      exact ⟨_, Outer2.flopCol_eq (mul := mul) h hi (by omega) _ _, _, _, rfl⟩
    · rintro s ⟨f, g, rfl⟩
      unfold Outer2.flopCol
      have : rd B.rowptr (A.cols + 1) = .error .oob := by
        unfold rd
        rw [List.getElem?_eq_none (by rw [h.wfB.ptrLen, ← hab])]
      rw [this]
      rfl
  rw [hs]
  rfl

/-- C100 is violated for the second kernel if `A` has more columns than rows and there are products behind the square part: the number that is printed is too
small, since only as many columns as there are rows are used. -/
theorem C100_violated_wide {mul add : V → V → V} {sortf : (Nat × Nat × V → Nat) → List (Nat × Nat × V) → List (Nat × Nat × V)} {A : CSC V} {B : CSR V}
    (h : ValidOuter A B) {k : Nat} (hk : A.rows ≤ k) (hk2 : k < A.cols) (hA : A.col k ≠ []) (hB : B.row k ≠ []) {n nb width : Nat} {mem : Nat → List Nat}
    {sch : Nat → Sched2} {C : CSR V} {p : Nat} (e : Profile.outerSpGEMM2 mul add sortf A B n nb width mem sch = .ok (some (C, p))) :
    p < outerCount A B := by
  have e := repeated_last e
  beta_reduce at e
  unfold stage2 at e
  obtain ⟨_, _, e⟩ := Alias.bind_ok' e
  obtain ⟨sym, hsym, e⟩ := Alias.bind_ok' e
  obtain ⟨_, _, e⟩ := Alias.bind_ok' e
  obtain ⟨r, _, e⟩ := Alias.bind_ok' e
  have hp : p = sym.2.2.2 := by
    match r, e with
    | none, e => cases e
    | some (g, _), e =>
      simp only at e
      obtain ⟨_, _, e⟩ := Alias.bind_ok' e
      obtain ⟨r, _, e⟩ := Alias.bind_ok' e
      cases r with
      | none => cases e
      | some D => cases e; rfl
  have hlt : A.rows < A.cols := by omega
  unfold Profile.symbolic at hsym
  obtain ⟨s, e1, g, e2⟩ := forRange_inv (body := Outer2.flopCol A B)
    (fun i s => ∃ g, s = (tab A.rows g, tab A.rows (Conv.cnt (Outer.prods mul A B (List.range i)))))
    0 A.rows (Nat.zero_le _) (List.replicate A.rows 0, List.replicate A.rows 0) ⟨fun _ => 0, by
      rw [Conv.replicate_eq_tab]
      congr 1⟩ (by
      rintro i s _ hi ⟨g, rfl⟩
      refine ⟨_, Outer2.flopCol_eq (mul := mul) h (by omega) (by omega) _ _, upd g i (Outer.prodsOf mul A B i).length, ?_⟩
      refine Prod.ext rfl (tab_ext fun r _ => ?_)
      rw [Outer2.prods_succ]
      unfold Conv.cnt
      rw [Conv.bucket_append, List.length_append])
  obtain ⟨rev, hb⟩ := Profile.back_eq (Conv.cnt (Outer.prods mul A B (List.range A.rows))) g A.rows
  rw [e1, ok_bind, e2] at hsym
  simp only at hsym
  rw [hb, ok_bind] at hsym
  obtain ⟨_, _, hsym⟩ := Alias.bind_ok' hsym
  obtain ⟨_, _, hsym⟩ := Alias.bind_ok' hsym
  obtain ⟨_, _, hsym⟩ := Alias.bind_ok' hsym
  obtain ⟨_, _, hsym⟩ := Alias.bind_ok' hsym
  obtain ⟨_, _, hsym⟩ := Alias.bind_ok' hsym
  obtain ⟨_, _, hsym⟩ := Alias.bind_ok' hsym
  have hsub : ∀ t ∈ Outer.prods mul A B (List.range A.rows), t ∈ Outer.prods mul A B (List.range A.cols) := by
    intro t ht
    obtain ⟨c, hc, ht⟩ := List.mem_flatMap.1 ht
    exact List.mem_flatMap.2 ⟨c, List.mem_range.2 (by have := List.mem_range.1 hc; omega), ht⟩
  rw [Conv.psum_cnt _ fun t ht => (Outer.prods_row h (hsub t ht)).1, Outer.prods_length] at hsym
  cases hsym
  rw [hp]
  show ((List.range A.rows).map fun k => (A.col k).length * (B.row k).length).sum < outerCount A B
  unfold outerCount
  obtain ⟨d, hd⟩ : ∃ d, A.cols = A.rows + d := ⟨A.cols - A.rows, by omega⟩
  rw [hd, List.range_add, List.map_append, List.sum_append]
  have hpos : 0 < (A.col k).length * (B.row k).length := Nat.mul_pos (List.length_pos_iff.2 hA) (List.length_pos_iff.2 hB)
  have hle : (A.col k).length * (B.row k).length ≤ (((List.range d).map fun x => A.rows + x).map fun k => (A.col k).length * (B.row k).length).sum := by
    have hm : (A.col k).length * (B.row k).length ∈ ((List.range d).map fun x => A.rows + x).map fun k => (A.col k).length * (B.row k).length :=
      List.mem_map.2 ⟨k, List.mem_map.2 ⟨k - A.rows, by simp; omega, by omega⟩, rfl⟩
    obtain ⟨s, t, est⟩ := List.append_of_mem hm
    rw [est, List.sum_append, List.sum_cons]
    omega
  omega

/-- C100 is violated for buffers without room: the first product is stored out of bounds. -/
theorem C100_violated_width : ∃ sch, ProfileAdm (twoRows 2 1 1 1 : CSC Int) 1 1 sch ∧
    Profile.outerSpGEMM (· * ·) (· + ·) isort (twoRows 2 1 1 1) (twoCols 2 1 1 1) 1 1 0 (fun _ => [0, 0, 0]) sch = (.error .oob : Res (Option (CSR Int × Nat))) :=
  ⟨fun _ => ⟨⟨[0], fun _ => [0], [0, 0], [0], [], [], [0], [], []⟩, [0]⟩, fun _ _ => ⟨⟨.refl _, .refl _, .refl _, .refl _⟩, .refl _⟩,
    repeated_error (by decide +kernel) 4⟩

/-! Cases that meet the hypotheses: two threads, buffers for two products, entries to be merged. -/

def opSch : Nat → Sched := fun i => ⟨ouSch, if i % 2 = 0 then [0] else [0]⟩
def opSch2 : Nat → Sched2 := fun i => ⟨obSch, if i % 2 = 0 then [0, 1] else [1, 0]⟩

theorem op_adm : ProfileAdm ouA 2 1 opSch := fun i _ => ⟨ou_adm, by unfold opSch; dsimp only; split <;> exact .refl _⟩
theorem op_adm2 : ProfileAdm2 2 opSch2 := fun i _ => ⟨ob_adm, by unfold opSch2; dsimp only; split; exacts [.refl _, .swap _ _ _]⟩

example := C100_partial (mul := (· * ·)) (n := 2) (nb := 1) (width := 2) ⟨Int.add_assoc, Int.add_comm⟩ ou_valid (by omega) (by omega) (by omega) (by decide)
  (by decide) (by decide) (fun k _ => isort_sorts k)

example := C100_balanced_partial (mul := (· * ·)) (n := 2) (nb := 2) (width := 2) ⟨Int.add_assoc, Int.add_comm⟩ ob_valid rfl (by decide) (by omega) (by omega)
  (by omega) (by omega) (by decide) (by decide) (fun k _ => isort_sorts k)

example := C100_wide (mul := (· * ·)) (A := (⟨1, 2, 2, [0, 1, 2], [0, 0], [1, 1], true⟩ : CSC Int)) (B := ⟨2, 1, 2, [0, 1, 2], [0, 0], [1, 1], true⟩) (n := 2) (nb := 2) (width := 2)
  ⟨Int.add_assoc, Int.add_comm⟩ ⟨by constructor <;> decide, by constructor <;> decide, rfl⟩ (by decide) (by decide) (by omega) (by omega) (by omega) (by omega) (by decide) (by decide)
  (fun k _ => isort_sorts k)

example : stage (· * ·) (· + ·) isort ouA ouB 2 1 2 [9, 9, 9, 9] (opSch 1) =
    .ok (some ((⟨3, 2, 4, [0, 2, 2, 4], [0, 1, 0, 1], [6, 33, 12, 31], true⟩ : CSR Int), 6)) := by decide +kernel

example : stage2 (· * ·) (· + ·) isort obA obB 2 2 2 [9, 9, 9, 9] (opSch2 1) =
    .ok (some ((⟨3, 2, 5, [0, 2, 3, 5], [0, 1, 1, 0, 1], [6, 33, 40, 12, 31], true⟩ : CSR Int), 7)) := by decide +kernel

/-- One row and two columns: the second kernel does return, without the product of the second column. -/
example : stage2 (· * ·) (· + ·) isort (⟨1, 2, 2, [0, 1, 2], [0, 0], [1, 1], true⟩ : CSC Int) ⟨2, 1, 2, [0, 1, 2], [0, 0], [1, 1], true⟩ 1 1 2 [9, 9]
      ⟨⟨[0, 0, 0], [0], [], [], [0], [], []⟩, [0]⟩ = .ok (some (⟨1, 1, 1, [0, 1], [0], [1], true⟩, 1)) := by decide +kernel

end Verif.Props
