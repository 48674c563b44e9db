import Verif.Lemmas.RaceCoverOld
import Verif.Lemmas.RaceDot

/-!
# What the main region of the older inner-product kernel changes is listed as written
-/

namespace Verif.Model.RaceDot
open RaceOld (done_ok)
open Alias (bind_ok')
open Race (phase_runs)

variable {V l : Type}

theorem trace_writes {n : Nat} {prog : Nat → l → Prog V l} {step : Nat → Dot.Shared V → l → Res (Dot.Shared V × l)}
    (hstep : ∀ t x g, (prog t x).exec g = step t g x) (fin : l → Bool) : ∀ (sched : List Nat) {g : Dot.Shared V} {ls : Nat → l}
    {r : Dot.Shared V × (Nat → l)}, runs n step fin sched g ls = .ok r →
    ∀ a k, (arr r.1 a)[k]? ≠ (arr g a)[k]? → ∃ t < n, (t, ⟨a, k, true⟩) ∈ trace n prog fin sched g ls := by
  intro sched
  induction sched with
  | nil => intro g ls r h; cases h; exact fun _ _ h => absurd rfl h
  | cons t ts ih =>
    intro g ls r h
    unfold runs at h
    unfold trace
    by_cases hc : t < n ∧ fin (ls t) = false
    · rw [if_pos hc] at h ⊢
      obtain ⟨s, h1, h2⟩ := bind_ok' h
      rw [← hstep] at h1
      have w1 := (writes (prog t (ls t)) h1).1
      have v1 := ih h2
      rw [h1]
      intro a k hne
      by_cases he : (arr s.1 a)[k]? = (arr g a)[k]?
      · obtain ⟨u, hu, hm⟩ := v1 a k (by rw [he]; exact hne)
        exact ⟨u, hu, List.mem_append_right _ hm⟩
      · exact ⟨t, hc.1, List.mem_append_left _ (List.mem_map.2 ⟨_, w1 a k he, rfl⟩)⟩
    · rw [if_neg hc] at h ⊢
      exact ih h

/-- An invariant of a loop that has run to its end. -/
theorem forRange_after {s : Type} {f : Nat → s → Res s} (P : Nat → s → Prop) : ∀ {lo hi : Nat} {x y : s}, lo ≤ hi →
    forRange lo hi x f = .ok y → P lo x → (∀ i a b, lo ≤ i → i < hi → P i a → f i a = .ok b → P (i + 1) b) → P hi y := by
  intro lo hi
  induction hk : hi - lo generalizing lo with
  | zero =>
    intro x y hle h h0 _
    have : lo = hi := by omega
    subst this
    rw [forRange_self] at h
    cases h
    exact h0
  | succ k ih =>
    intro x y hle h h0 hs
    rw [forRange_step (by omega)] at h
    obtain ⟨b, e1, e2⟩ := bind_ok' h
    exact ih (lo := lo + 1) (by omega) (by omega) e2 (hs lo x b (Nat.le_refl _) (by omega) h0 e1)
      (fun i a c h1 h2 h3 h4 => hs i a c (by omega) h2 h3 h4)

theorem rowptr_shrink {zero : V} {A M : CSR V} {n nnz0 : Nat} {g : Dot.Shared V} {C : CSR V}
    (h : Dot.shrink zero A M n nnz0 g = .ok C) :
    ∀ i < M.rows, ∃ x y, C.rowptr[i]? = some x ∧ g.rowNnz[i]? = some y ∧ C.rowptr[i + 1]? = some (x + y) := by
  unfold Dot.shrink at h
  obtain ⟨_, _, h⟩ := bind_ok' h
  obtain ⟨_, _, h⟩ := bind_ok' h
  obtain ⟨_, _, h⟩ := bind_ok' h
  obtain ⟨_, _, h⟩ := bind_ok' h
  obtain ⟨_, _, h⟩ := bind_ok' h
  obtain ⟨r0, _, h⟩ := bind_ok' h
  obtain ⟨rp, e, h⟩ := bind_ok' h
  cases h
  have key := forRange_after (fun j (xs : List Nat) => ∀ i, i + 1 < j →
      ∃ x y, xs[i]? = some x ∧ g.rowNnz[i]? = some y ∧ xs[i + 1]? = some (x + y)) (by omega) e (fun i hi => by omega) (by
    intro j a b h1 h2 hP hb i hi
    obtain ⟨x, e1, hb⟩ := bind_ok' hb
    obtain ⟨y, e2, hb⟩ := bind_ok' hb
    obtain ⟨hlt, hset⟩ := set_of_wr hb
    by_cases hij : i + 1 = j
    · subst hij
      refine ⟨x, y, ?_, get_of_rd e2, ?_⟩
      · rw [hset, List.getElem?_set_ne (by omega)]
        exact get_of_rd e1
      · rw [hset, List.getElem?_set_self hlt]
    · obtain ⟨x, y, q1, q2, q3⟩ := hP i (by omega)
      exact ⟨x, y, by rw [hset, List.getElem?_set_ne (by omega)]; exact q1, q2,
        by rw [hset, List.getElem?_set_ne (by omega)]; exact q3⟩)
  intro i hi
  exact key i (by omega)

theorem stored_dot {mul add : V → V → V} {zero : V} {A : CSR V} {B : CSC V} {M : CSR V} {n nd nnz0 : Nat} {w1 w2 : Nat → Nat}
    {team : List Nat} {sch : Dot.Sched} {C : CSR V} (h : Dot.innerNohash mul add zero A B M n nd nnz0 sch = .ok (some C)) :
    ∃ pre first last, dotTraces mul add zero A B M n nd w1 w2 team sch = pre ++ [first, last] ∧
      ∀ i < M.rows, C.rowptr[i]? ≠ C.rowptr[i + 1]? → ∃ t < n, (t, ⟨.rowNnz, i, true⟩) ∈ last := by
  unfold Dot.innerNohash at h
  obtain ⟨cs, e1, h⟩ := bind_ok' h
  obtain ⟨p, e2, h⟩ := bind_ok' h
  obtain _ | p := p
  · cases h
  obtain ⟨r, e3, h⟩ := bind_ok' h
  obtain _ | ⟨g, xs⟩ := r
  · cases h
  obtain ⟨C', e4, h⟩ := bind_ok' h
  cases h
  unfold blocks at e3
  obtain ⟨r, e5, e3⟩ := bind_ok' e3
  obtain _ | r := r
  · cases e3
  cases e3
  have w := trace_writes (exec_blockProg mul add zero A B M n) blockFin sch.main (phase_runs e5)
  unfold dotTraces mainTraces
  simp only [e1, e2, done_ok]
  refine ⟨_, _, _, rfl, fun i hi hne => w .rowNnz i ?_⟩
  obtain ⟨x, y, q1, q2, q3⟩ := rowptr_shrink e4 i hi
  show r.1.rowNnz[i]? ≠ (List.replicate M.rows 0)[i]?
  rw [q2, List.getElem?_replicate, if_pos hi]
  intro e
  cases e
  exact hne (by rw [q1, q3]; rfl)

end Verif.Model.RaceDot
