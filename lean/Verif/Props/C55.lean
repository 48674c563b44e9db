import Verif.Lemmas.MatObj

/-! # C55: matrix variables behave like values -/

namespace Verif.Props
open Verif MatObj

variable {V : Type}

/-- C55, for CSC. Every program over matrix variables that makes sense for values (it names existing
variables, indexes inside the arrays and meets the constructors' assertions) runs without touching freed or
unset memory, ends with every variable holding the matrix it should hold, with no block of
memory shared between variables, and with no block left that no variable owns. -/
theorem C55_csc (dflt : V) (ops : List (Op V)) (env : List (Option (Spec.Mat V)))
    (hv : Spec.valRun .csc dflt ops [] = .ok env) :
    ∃ s, run .csc dflt ops ⟨[], []⟩ = .ok s ∧ Spec.RepresentsVars s env ∧
      ((∀ e ∈ env, e = none) → ∀ (p : Nat) b, s.heap[p]? ≠ some (some b)) := by
  obtain ⟨s, h1, I⟩ := run_ok (Inv.init _) (by simp) hv
  exact ⟨s, h1, I.represents, I.no_leak⟩

/-- C55, for CSR, for programs whose matrices have at least one column. What is missing for the full
claim is refuted by `C55_violated_unset` and `C55_violated_freed`. -/
theorem C55_csr_partial (dflt : V) (ops : List (Op V)) (env : List (Option (Spec.Mat V)))
    (hcols : ∀ nnz rows cols, Op.sized nnz rows cols ∈ ops → cols ≠ 0)
    (hv : Spec.valRun .csr dflt ops [] = .ok env) :
    ∃ s, run .csr dflt ops ⟨[], []⟩ = .ok s ∧ Spec.RepresentsVars s env ∧
      ((∀ e ∈ env, e = none) → ∀ (p : Nat) b, s.heap[p]? ≠ some (some b)) := by
  obtain ⟨s, h1, I⟩ := run_ok (Inv.init _) (fun a b c h _ => hcols a b c h) hv
  exact ⟨s, h1, I.represents, I.no_leak⟩

/-- The claim fails for CSR matrices without columns: `B = A; ` into a default-constructed `B` and then the end of the
life of `B` frees a pointer that was never set. -/
theorem C55_violated_unset (dflt : V) (nnz rows : Nat) (hr : rows ≠ 0) :
    (∃ env, Spec.valRun .csr dflt [.sized nnz rows 0, .default, .assign 1 0, .destroy 1] [] = .ok env) ∧
    run .csr dflt [.sized nnz rows 0, .default, .assign 1 0, .destroy 1] ⟨[], []⟩ = .error .uninit := by
  have hr' : 0 < rows := by omega
  refine ⟨⟨_, by simp [Spec.valRun, Spec.valStep, Spec.val, hr, check]; rfl⟩, ?_⟩
  rcases Nat.eq_zero_or_pos nnz with rfl | hn
  · simp [run, step, sized, check, hr, hr', alloc, var, assign, frees, dup, cols, MatObj.default, makeEmpty, free, use]
  · simp [run, step, sized, check, hr, hr', hn, alloc, var, assign, frees, dup, cols, MatObj.default, makeEmpty, free, use,
      dupVals, dupInts, vals, ints]

/-- The claim fails for CSR matrices without columns: after `B = A` for a `B` with rows, `B` keeps the freed pointer
array, so that reading it is a use after free and the end of the life of `B` frees it again. -/
theorem C55_violated_freed (dflt : V) (rows rows' cols' : Nat) (hr : rows ≠ 0) (hr' : rows' ≠ 0) :
    (∃ env, Spec.valRun .csr dflt [.sized 0 rows 0, .sized 0 rows' cols', .assign 1 0, .setPtr 1 0 0, .destroy 1] []
      = .ok env) ∧
    run .csr dflt [.sized 0 rows 0, .sized 0 rows' cols', .assign 1 0, .setPtr 1 0 0] ⟨[], []⟩ = .error .freed ∧
    run .csr dflt [.sized 0 rows 0, .sized 0 rows' cols', .assign 1 0, .destroy 1] ⟨[], []⟩ = .error .freed := by
  have h1 : 0 < rows := by omega
  have h2 : 0 < rows' := by omega
  refine ⟨⟨_, by simp [Spec.valRun, Spec.valStep, Spec.val, hr, hr', check, wr]; rfl⟩, ?_, ?_⟩
  · simp [run, step, sized, check, hr, hr', h2, alloc, var, assign, frees, dup, cols, free, use, putInts, ints]
  · simp [run, step, sized, check, hr, hr', h1, h2, alloc, var, assign, frees, dup, cols, makeEmpty, free, use]

/-- A program that meets the hypotheses: two matrices, a copy, an assignment, a self-assignment and writes. -/
def progCsr : List (Op Nat) :=
  [.sized 2 2 3, .setPtr 0 1 1, .setPtr 0 2 2, .setId 0 1 2, .setVal 0 1 7, .copy 0, .setVal 1 1 9, .default,
   .assign 2 1, .assign 2 2, .setId 2 0 1, .destroy 0, .makeEmpty 1]

/-- The result on values: the copy and the assigned matrix are changed without changing the others. -/
theorem C55_example : Spec.valRun .csr 0 progCsr [] = .ok
    [none, some ⟨0, 0, 0, [], [], [], true⟩, some ⟨2, 3, 2, [0, 1, 2], [1, 2], [0, 9], true⟩] := by decide

example : ∀ nnz rows cols, Op.sized nnz rows cols ∈ progCsr → cols ≠ 0 := by
  intro a b c h
  simp [progCsr] at h
  omega

example : Spec.valRun .csc 0 progCsr [] = .ok
    [none, some ⟨0, 0, 0, [], [], [], true⟩, some ⟨2, 3, 2, [0, 1, 2], [1, 2], [0, 9], true⟩] := by decide

end Verif.Props
