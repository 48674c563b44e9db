import Verif.Lemmas.OuterProfile

/-!
# The square part of a matrix with more columns than rows

The second measuring kernel only uses as many columns of the first matrix as there are rows. Its runs are those for the square part.
-/

namespace Verif.Model.Profile

open Tuples (div)
open _root_.Verif.Spec (ValidOuter)

variable {V : Type}

/-- If the first run ends well, the second one ends in the same way. -/
def Le {α : Type _} (r s : Res α) : Prop := ∀ x, r = .ok x → s = .ok x

theorem Le.refl {α : Type _} (r : Res α) : Le r r := fun _ h => h

theorem Le.bind {α β : Type _} {r s : Res α} {f g : α → Res β} (h : Le r s) (h' : ∀ x, Le (f x) (g x)) : Le (r >>= f) (s >>= g) := by
  intro y hy
  obtain ⟨x, e, hy⟩ := Alias.bind_ok' hy
  rw [h x e, ok_bind]
  exact h' x y hy

theorem Le.foldlM {α σ : Type _} {f g : σ → α → Res σ} (h : ∀ s a, Le (f s a) (g s a)) : ∀ (l : List α) (s : σ), Le (l.foldlM f s) (l.foldlM g s)
  | [], _ => Le.refl _
  | a :: l, s => by
    rw [List.foldlM_cons, List.foldlM_cons]
    exact Le.bind (h s a) fun s => Le.foldlM h l s

theorem Le.forRange {σ : Type _} {f g : Nat → σ → Res σ} (h : ∀ i s, Le (f i s) (g i s)) (lo hi : Nat) (s : σ) : Le (forRange lo hi s f) (forRange lo hi s g) :=
  Le.foldlM (fun s i => h i s) _ _

theorem Le.rd {α : Type _} {a b : List α} (h : a <+: b) (i : Nat) : Le (rd a i) (rd b i) := by
  obtain ⟨c, rfl⟩ := h
  intro x hx
  unfold Verif.rd at hx ⊢
  split at hx
  · next e =>
    rw [List.getElem?_append_left (List.getElem?_eq_some_iff.1 e).1, e]
    exact hx
  · cases hx

theorem Le.runs {σ l : Type} {n : Nat} {f g : Nat → σ → l → Res (σ × l)} {fin : l → Bool} (h : ∀ t s x, Le (f t s x) (g t s x)) :
    ∀ (sch : List Nat) (s : σ) (ls : Nat → l), Le (runs n f fin sch s ls) (runs n g fin sch s ls)
  | [], _, _ => Le.refl _
  | t :: ts, s, ls => by
    unfold Model.runs
    split
    · exact Le.bind (h t s _) fun x => Le.runs h ts _ _
    · exact Le.runs h ts _ _

theorem Le.phase {σ l : Type} {n : Nat} {f g : Nat → σ → l → Res (σ × l)} {fin : l → Bool} (h : ∀ t s x, Le (f t s x) (g t s x)) (sch : List Nat) (s : σ) (ls : Nat → l) :
    Le (phase n f fin sch s ls) (phase n g fin sch s ls) := Le.bind (Le.runs h sch s ls) fun _ => Le.refl _

/-- The arrays of the first pair of matrices are the first parts of those of the second. -/
structure Part (A' A : CSC V) (B' B : CSR V) : Prop where
  rows : A'.rows = A.rows
  cols : B'.cols = B.cols
  colptr : A'.colptr <+: A.colptr
  rowids : A'.rowids <+: A.rowids
  valuesA : A'.values <+: A.values
  rowptr : B'.rowptr <+: B.rowptr
  colids : B'.colids <+: B.colids
  valuesB : B'.values <+: B.values

section
variable {A' A : CSC V} {B' B : CSR V} (h : Part A' A B' B)
include h

theorem symbolic_le (n nb : Nat) : Le (symbolic A' B' n nb) (symbolic A B n nb) := by
  unfold symbolic
  rw [h.rows]
  refine Le.bind (Le.forRange (fun i s => ?_) _ _ _) fun _ => Le.refl _
  unfold Outer2.flopCol
  refine Le.bind (Le.rd h.rowptr _) fun _ => Le.bind (Le.rd h.rowptr _) fun _ => Le.bind (Le.rd h.colptr _) fun _ => Le.bind (Le.rd h.colptr _) fun _ =>
    Le.bind (Le.refl _) fun _ => Le.bind (Le.forRange (fun j s => ?_) _ _ _) fun _ => Le.refl _
  exact Le.bind (Le.rd h.rowids _) fun _ => Le.refl _

theorem step_le (mul : V → V → V) (blk : Nat → Res Nat) (nb width : Nat) (asg : Nat → List Nat) (t : Nat) (g : Outer.Glob V) (l : Option (Outer.Loc V)) :
    Le (Outer.step mul A' B' blk nb width asg t g l) (Outer.step mul A B blk nb width asg t g l) := by
  cases l with
  | none =>
    refine Le.bind ?_ fun _ => Le.refl _
    refine Le.foldlM (fun w i => ?_) _ _
    refine Le.bind (Le.rd h.colptr _) fun _ => Le.bind (Le.rd h.colptr _) fun _ => Le.forRange (fun j w => ?_) _ _ _
    exact Le.bind (Le.rd h.rowptr _) fun _ => Le.bind (Le.rd h.rowptr _) fun _ => Le.refl _
  | some l =>
    unfold Outer.step
    dsimp only
    split
    · refine Le.bind ?_ fun _ => Le.refl _
      exact Le.bind (Le.rd h.rowids _) fun _ => Le.bind (Le.refl _) fun _ => Le.bind (Le.refl _) fun _ => Le.bind (Le.rd h.colids _) fun _ =>
        Le.bind (Le.rd h.valuesA _) fun _ => Le.bind (Le.rd h.valuesB _) fun _ => Le.refl _
    · exact Le.refl _

theorem stage2_le (mul add : V → V → V) (sortf : (Nat × Nat × V → Nat) → List (Nat × Nat × V) → List (Nat × Nat × V)) (n nb width : Nat) (mem : List Nat)
    (sch : Sched2) : Le (stage2 mul add sortf A' B' n nb width mem sch) (stage2 mul add sortf A B n nb width mem sch) := by
  unfold stage2
  rw [h.rows]
  refine Le.bind (Le.refl _) fun _ => Le.bind (symbolic_le h n nb) fun sym => Le.bind (Le.refl _) fun _ => Le.bind (Le.phase (step_le h mul _ _ _ _) _ _ _) fun r => ?_
  cases r with
  | none => exact Le.refl _
  | some g =>
    refine Le.bind (Le.refl _) fun s => Le.bind ?_ fun _ => Le.refl _
    unfold Outer.finish
    rw [h.rows, h.cols]
    exact Le.refl _

theorem outerSpGEMM2_le (mul add : V → V → V) (sortf : (Nat × Nat × V → Nat) → List (Nat × Nat × V) → List (Nat × Nat × V)) (n nb width : Nat) (mem : Nat → List Nat)
    (sch : Nat → Sched2) : Le (outerSpGEMM2 mul add sortf A' B' n nb width mem sch) (outerSpGEMM2 mul add sortf A B n nb width mem sch) := by
  unfold outerSpGEMM2
  generalize 4 = k
  induction k with
  | zero => exact stage2_le h mul add sortf n nb width (mem 0) (sch 0)
  | succ k ih =>
    refine Le.bind ih fun r => ?_
    cases r with
    | none => exact Le.refl _
    | some _ => exact stage2_le h mul add sortf n nb width _ _

end

/-- The first `c` columns -/
def firstCols (A : CSC V) (c : Nat) : CSC V :=
  { rows := A.rows, cols := c, nnz := A.ptr c, colptr := A.colptr.take (c + 1), rowids := A.rowids.take (A.ptr c), values := A.values.take (A.ptr c) }

/-- The first `c` rows -/
def firstRows (B : CSR V) (c : Nat) : CSR V :=
  { rows := c, cols := B.cols, nnz := B.ptr c, rowptr := B.rowptr.take (c + 1), colids := B.colids.take (B.ptr c), values := B.values.take (B.ptr c) }

theorem slice_take {α : Type} (l : List α) {a b n : Nat} (hb : b ≤ n) : slice (l.take n) a b = slice l a b := by
  unfold slice
  rw [List.drop_take, List.take_take, Nat.min_eq_left (by omega)]

theorem take_zip' {α β : Type} : ∀ (n : Nat) (l : List α) (m : List β), (l.zip m).take n = (l.take n).zip (m.take n)
  | 0, _, _ => by simp
  | _ + 1, [], _ => by simp
  | _ + 1, _ :: _, [] => by simp
  | n + 1, a :: l, b :: m => by simp [take_zip' n l m]

theorem getD_take (l : List Nat) {i n : Nat} (h : i < n) : (l.take n).getD i 0 = l.getD i 0 := by
  rw [List.getD_eq_getElem?_getD, List.getD_eq_getElem?_getD, List.getElem?_take, if_pos h]

theorem mono_le {p : Nat → Nat} {n : Nat} (h : ∀ i < n, p i ≤ p (i + 1)) {i j : Nat} (hij : i ≤ j) (hj : j ≤ n) : p i ≤ p j := by
  induction j with
  | zero => rw [Nat.le_zero.1 hij]
  | succ j ih =>
    rcases Nat.lt_or_ge i (j + 1) with h' | h'
    · exact Nat.le_trans (ih (by omega) (by omega)) (h j (by omega))
    · rw [Nat.le_antisymm hij h']

theorem firstCols_ptr (A : CSC V) {c i : Nat} (hi : i ≤ c) : (firstCols A c).ptr i = A.ptr i := getD_take _ (by omega)
theorem firstRows_ptr (B : CSR V) {c i : Nat} (hi : i ≤ c) : (firstRows B c).ptr i = B.ptr i := getD_take _ (by omega)

theorem firstCols_wf {A : CSC V} (w : A.WF) {c : Nat} (hc : c ≤ A.cols) : (firstCols A c).WF where
  zero := rfl
  ptrLen := by show (A.colptr.take (c + 1)).length = c + 1; rw [List.length_take, w.ptrLen]; omega
  ptrFirst := (firstCols_ptr A (Nat.zero_le _)).trans w.ptrFirst
  ptrMono := fun i (hi : i < c) => by
    rw [firstCols_ptr A (by omega), firstCols_ptr A (by omega)]
    exact w.ptrMono i (by omega)
  ptrLast := firstCols_ptr A (Nat.le_refl _)
  rowLen := by
    have := mono_le w.ptrMono hc (Nat.le_refl _)
    rw [w.ptrLast] at this
    show (A.rowids.take (A.ptr c)).length = A.ptr c
    rw [List.length_take, w.rowLen]; omega
  valLen := by
    have := mono_le w.ptrMono hc (Nat.le_refl _)
    rw [w.ptrLast] at this
    show (A.values.take (A.ptr c)).length = A.ptr c
    rw [List.length_take, w.valLen]; omega
  inBounds := fun r hr => w.inBounds r (List.mem_of_mem_take hr)

theorem firstRows_wf {B : CSR V} (w : B.WF) {c : Nat} (hc : c ≤ B.rows) : (firstRows B c).WF where
  zero := rfl
  ptrLen := by show (B.rowptr.take (c + 1)).length = c + 1; rw [List.length_take, w.ptrLen]; omega
  ptrFirst := (firstRows_ptr B (Nat.zero_le _)).trans w.ptrFirst
  ptrMono := fun i (hi : i < c) => by
    rw [firstRows_ptr B (by omega), firstRows_ptr B (by omega)]
    exact w.ptrMono i (by omega)
  ptrLast := firstRows_ptr B (Nat.le_refl _)
  colLen := by
    have := mono_le w.ptrMono hc (Nat.le_refl _)
    rw [w.ptrLast] at this
    show (B.colids.take (B.ptr c)).length = B.ptr c
    rw [List.length_take, w.colLen]; omega
  valLen := by
    have := mono_le w.ptrMono hc (Nat.le_refl _)
    rw [w.ptrLast] at this
    show (B.values.take (B.ptr c)).length = B.ptr c
    rw [List.length_take, w.valLen]; omega
  inBounds := fun r hr => w.inBounds r (List.mem_of_mem_take hr)

theorem firstCols_col {A : CSC V} (w : A.WF) {c j : Nat} (hc : c ≤ A.cols) (hj : j < c) : (firstCols A c).col j = A.col j := by
  unfold CSC.col
  rw [firstCols_ptr A (by omega), firstCols_ptr A (by omega)]
  show slice ((A.rowids.take _).zip (A.values.take _)) _ _ = _
  rw [← take_zip', slice_take]
  exact mono_le w.ptrMono (by omega) hc

theorem firstRows_row {B : CSR V} (w : B.WF) {c i : Nat} (hc : c ≤ B.rows) (hi : i < c) : (firstRows B c).row i = B.row i := by
  unfold CSR.row
  rw [firstRows_ptr B (by omega), firstRows_ptr B (by omega)]
  show slice ((B.colids.take _).zip (B.values.take _)) _ _ = _
  rw [← take_zip', slice_take]
  exact mono_le w.ptrMono (by omega) hc

theorem first_part (A : CSC V) (B : CSR V) (c : Nat) : Part (firstCols A c) A (firstRows B c) B :=
  ⟨rfl, rfl, List.take_prefix _ _, List.take_prefix _ _, List.take_prefix _ _, List.take_prefix _ _, List.take_prefix _ _, List.take_prefix _ _⟩

end Verif.Model.Profile
