import Verif.Lemmas.Rows

/-! # The rows the algorithms are expected to produce -/

namespace Verif.Model

variable {V : Type _}

/-- Masked row: walk over the mask row and keep the columns with a product entry. -/
def maskedRow (mul add : V → V → V) (A B M : CSR V) (i : Nat) : List (Nat × V) :=
  (M.rowCols i).filterMap fun j => (Spec.dot mul add A B i j).map fun v => (j, v)

/-- Columns in order of first occurrence. -/
def firsts (l : List Nat) : List Nat :=
  l.foldl (fun acc x => if x ∈ acc then acc else acc ++ [x]) []

theorem firsts_append_singleton (l : List Nat) (x : Nat) :
    firsts (l ++ [x]) = if x ∈ firsts l then firsts l else firsts l ++ [x] := by
  unfold firsts
  rw [List.foldl_append]
  rfl

@[simp] theorem firsts_nil : firsts [] = [] := rfl

/-- Induction from the right end of a list. -/
theorem list_snoc_induction {α : Type _} {P : List α → Prop} (h0 : P [])
    (h1 : ∀ l a, P l → P (l ++ [a])) : ∀ l, P l := by
  intro l
  have : P l.reverse.reverse := by
    induction l.reverse with
    | nil => exact h0
    | cons a t ih => rw [List.reverse_cons]; exact h1 _ _ ih
  simpa using this

theorem mem_firsts {l : List Nat} {x : Nat} : x ∈ firsts l ↔ x ∈ l := by
  induction l using list_snoc_induction with
  | h0 => simp
  | h1 l a ih =>
    rw [firsts_append_singleton]
    by_cases h : x = a
    · subst h
      by_cases hx : x ∈ firsts l
      · simp [hx]
      · simp [hx]
    · split <;> simp [h, ih]

theorem firsts_nodup (l : List Nat) : (firsts l).Nodup := by
  induction l using list_snoc_induction with
  | h0 => simp
  | h1 l a ih =>
    rw [firsts_append_singleton]
    by_cases h : a ∈ firsts l
    · simp [h, ih]
    · simp only [h, if_false]
      rw [List.nodup_append]
      refine ⟨ih, by simp, ?_⟩
      intro x hx y hy
      simp at hy; subst hy
      intro hxy; subst hxy; exact h hx

/-- Columns of the complement-masked row in order of first contribution. -/
def complCols (A B M : CSR V) (i : Nat) : List Nat :=
  firsts (((visits A B i).map (·.1)).filter (fun c => c ∉ M.rowCols i))

/-- Complement-masked row; with `sorted` the columns are sorted. -/
def complRow (sorted : Bool) (mul add : V → V → V) (A B M : CSR V) (i : Nat) : List (Nat × V) :=
  (if sorted then (complCols A B M i).mergeSort (· ≤ ·) else complCols A B M i).filterMap
    fun j => (Spec.dot mul add A B i j).map fun v => (j, v)

end Verif.Model
