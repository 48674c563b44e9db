import Verif.Spec
import Verif.Model.Driver

/-!
# What it means that a parallel call computes a matrix

Used in the statements of the properties.
-/

namespace Verif.Spec

open Verif.Model (Scheds)

variable {V : Type}

/-- The iterations of the flops loop are executed in some order, each once. -/
def Admissible (rows : Nat) (sch : Scheds) : Prop := sch.flops.Perm (List.range rows)

/-- Each of the `n` threads gets at least `K` turns in every part of the call. -/
def Fair (n K : Nat) (sch : Scheds) : Prop :=
  ∀ t < n, K ≤ sch.scan1.count t ∧ K ≤ sch.scan2.count t ∧ K ≤ sch.first.count t ∧ K ≤ sch.second.count t

/-- Under every schedule the call makes no error (no access out of bounds, no use of
unset memory, no failing assertion, no endless loop); when it returns it returns
`C`; and it does return when every thread gets enough turns. -/
structure Computes (call : Scheds → Res (Option (CSR V))) (rows n : Nat) (C : CSR V) : Prop where
  safe : ∀ sch, Admissible rows sch → call sch = .ok none ∨ call sch = .ok (some C)
  live : ∃ K, ∀ sch, Admissible rows sch → Fair n K sch → call sch = .ok (some C)

/-- Fair admissible schedules exist, so `live` is not empty. -/
theorem fair_exists (rows n K : Nat) : ∃ sch, Admissible rows sch ∧ Fair n K sch := by
  let l := (List.range n).flatMap fun t => List.replicate K t
  refine ⟨⟨List.range rows, l, l, l, l⟩, List.Perm.refl _, ?_⟩
  intro t ht
  have : K ≤ l.count t := by
    have key : ∀ m, t < m → K ≤ ((List.range m).flatMap fun t => List.replicate K t).count t := by
      intro m
      induction m with
      | zero => intro h; omega
      | succ m ih =>
        intro h
        rw [List.range_succ, List.flatMap_append, List.count_append]
        by_cases hm : t < m
        · have := ih hm; omega
        · have : t = m := by omega
          subst this
          simp
    exact key n ht
  exact ⟨this, this, this, this⟩

/-- A call computes at most one matrix. -/
theorem Computes.unique {call : Scheds → Res (Option (CSR V))} {rows n : Nat} {C C' : CSR V}
    (h : Computes call rows n C) (h' : Computes call rows n C') : C = C' := by
  obtain ⟨K, hK⟩ := h.live
  obtain ⟨K', hK'⟩ := h'.live
  obtain ⟨sch, h1, h2⟩ := fair_exists rows n (max K K')
  have e1 := hK sch h1 (fun t ht => by have := h2 t ht; omega)
  have e2 := hK' sch h1 (fun t ht => by have := h2 t ht; omega)
  rw [e1] at e2
  simpa using e2

end Verif.Spec
