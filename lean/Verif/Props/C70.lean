import Verif.Lemmas.SumAll
import Verif.SpecTri
import Mathlib.Tactic.Linarith

/-! # C70: the sum of the stored values -/

namespace Verif.Props

open Verif.Model Verif.Model.SumAll
open _root_.Verif.Spec (Splits)

/-- C70, when values and indices are numbers of the same kind (any commutative monoid, for example the integers modulo `2^64`): the sum of
all stored values, however the loop is distributed over the threads. -/
theorem C70_same_type_partial {R : Type} [AddCommMonoid R] (X : CSR R) (h : X.WF) {parts : List (List Nat)} (hp : Splits X.nnz parts) :
    sumall (fun s v => s + v) (fun s t => s + t) (0 : R) id X.values parts = .ok X.values.sum := by
  rw [sumall_acc (acc := fun s v : R => s + v) (f := id) (fun _ _ => rfl) id (by rw [h.valLen]; exact hp), List.map_id]
  rfl

theorem trunc_add_int {s v : ℚ} (z w : ℤ) (hs : s = z) (hv : v = w) : trunc (s + v) = z + ⌊v⌋ := by
  subst hs hv
  have e : ((z : ℚ) + (w : ℚ)) = ((z + w : ℤ) : ℚ) := by push_cast; rfl
  unfold trunc
  rw [e, Int.floor_intCast, Int.ceil_intCast, Int.floor_intCast, ite_self]

theorem trunc_add_nonneg {z : ℤ} {v : ℚ} (hz : 0 ≤ z) (hv : 0 ≤ v) : trunc ((z : ℚ) + v) = z + ⌊v⌋ := by
  unfold trunc
  have : (0 : ℚ) ≤ z := by exact_mod_cast hz
  rw [if_pos (by linarith), Int.floor_intCast_add]

/-- C70, floating-point values that are integers: the sum of all stored values. -/
theorem C70_integers_partial (X : CSR ℚ) (h : X.WF) (hi : ∀ v ∈ X.values, ∃ z : ℤ, v = z) {parts : List (List Nat)}
    (hp : Splits X.nnz parts) : sumallQ X.values parts = .ok X.values.sum := by
  unfold sumallQ
  rw [sumall_on (f := fun v : ℚ => ⌊v⌋) (fun _ => True) trivial _ (fun v hv s _ => by
    obtain ⟨w, hw⟩ := hi v hv
    exact ⟨trunc_add_int s w rfl hw, trivial⟩) (by rw [h.valLen]; exact hp)]
  congr 1
  have : ∀ l : List ℚ, (∀ v ∈ l, ∃ z : ℤ, v = z) → (((l.map fun v => ⌊v⌋).sum : ℤ) : ℚ) = l.sum := by
    intro l
    induction l with
    | nil => simp
    | cons v l ih =>
      intro hl
      obtain ⟨z, rfl⟩ := hl v (by simp)
      have := ih fun w hw => hl w (by simp [hw])
      rw [List.map_cons, List.sum_cons, List.sum_cons, Int.floor_intCast, ← this]
      push_cast
      rfl
  exact this _ hi

/-- C70, violated: for non-negative values the result is the sum of the values without their fractional parts. -/
theorem C70_violated_floor (X : CSR ℚ) (h : X.WF) (h0 : ∀ v ∈ X.values, 0 ≤ v) {parts : List (List Nat)} (hp : Splits X.nnz parts) :
    sumallQ X.values parts = .ok (((X.values.map fun v => ⌊v⌋).sum : ℤ) : ℚ) := by
  unfold sumallQ
  exact sumall_on (f := fun v : ℚ => ⌊v⌋) (fun s => 0 ≤ s) (le_refl _) _ (fun v hv s hs =>
    ⟨trunc_add_nonneg hs (h0 v hv), add_nonneg hs (Int.floor_nonneg.2 (h0 v hv))⟩) (by rw [h.valLen]; exact hp)

/-- C70, violated: as soon as one of the non-negative values is not an integer the result is too small; for example 0 if all values are
less than 1. -/
theorem C70_violated_fraction (X : CSR ℚ) (h : X.WF) (h0 : ∀ v ∈ X.values, 0 ≤ v) {x : ℚ} (hx : x ∈ X.values) (hf : ∀ z : ℤ, x ≠ z)
    {parts : List (List Nat)} (hp : Splits X.nnz parts) : ∃ s, sumallQ X.values parts = .ok s ∧ s < X.values.sum := by
  refine ⟨_, C70_violated_floor X h h0 hp, ?_⟩
  have hlt : ((⌊x⌋ : ℤ) : ℚ) < x := lt_of_le_of_ne (Int.floor_le x) fun e => hf _ e.symm
  clear hf h h0 hp
  have le : ∀ l : List ℚ, (((l.map fun v => ⌊v⌋).sum : ℤ) : ℚ) ≤ l.sum := by
    intro l
    induction l with
    | nil => simp
    | cons v l ih =>
      rw [List.map_cons, List.sum_cons, List.sum_cons]
      push_cast
      have := Int.floor_le v
      push_cast at ih
      linarith
  generalize X.values = l at hx
  induction l with
  | nil => cases hx
  | cons v l ih =>
    rw [List.map_cons, List.sum_cons, List.sum_cons]
    rcases List.mem_cons.1 hx with rfl | hx
    · have := le l
      push_cast at this ⊢
      linarith
    · have := ih hx
      have := Int.floor_le v
      push_cast at *
      linarith

/-- C70, violated: with values of both signs the result depends on how the loop is distributed over the threads. -/
theorem C70_violated_threads : ∃ (X : CSR ℚ) (p q : List (List Nat)), X.WF ∧ Splits X.nnz p ∧ Splits X.nnz q ∧
    sumallQ X.values p = .ok 0 ∧ sumallQ X.values q = .ok 1 := by
  refine ⟨⟨1, 2, 2, [0, 2], [0, 1], [1, -1 / 2], true⟩, [[0, 1]], [[0], [1]],
    ⟨rfl, rfl, rfl, by decide, rfl, rfl, rfl, by decide⟩, by unfold Splits; decide, by unfold Splits; decide, ?_, ?_⟩ <;> decide +kernel

/-! ## Examples -/

def exQ : CSR ℚ := ⟨2, 2, 3, [0, 2, 3], [0, 1, 1], [3, -2, 4], true⟩
theorem exQ_wf : exQ.WF := ⟨rfl, rfl, rfl, by decide, rfl, rfl, rfl, by decide⟩

example := C70_same_type_partial exQ exQ_wf (parts := [[1], [2, 0]]) (by unfold Splits; decide)
example := C70_integers_partial exQ exQ_wf (by
  intro v hv
  simp only [exQ, List.mem_cons, List.not_mem_nil, or_false] at hv
  rcases hv with rfl | rfl | rfl
  · exact ⟨3, by norm_num⟩
  · exact ⟨-2, by norm_num⟩
  · exact ⟨4, by norm_num⟩) (parts := [[1], [2, 0]]) (by unfold Splits; decide)

def exQ2 : CSR ℚ := ⟨2, 2, 3, [0, 2, 3], [0, 1, 1], [1/2, 1/2, 7/4], true⟩
theorem exQ2_wf : exQ2.WF := ⟨rfl, rfl, rfl, by decide, rfl, rfl, rfl, by decide⟩
example := C70_violated_fraction exQ2 exQ2_wf (by decide +kernel) (x := 1/2) (by decide +kernel) (by
  intro z hz
  have h1 : (1 : ℚ) = 2 * z := by linarith
  have h2 : (1 : ℤ) = 2 * z := by exact_mod_cast h1
  omega) (parts := [[1], [2, 0]]) (by unfold Splits; decide)
example : sumallQ exQ2.values [[1], [2, 0]] = .ok 1 := by decide +kernel

end Verif.Props
