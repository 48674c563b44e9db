import Verif.SpecBcMain
import Verif.Lemmas.Paths
import Mathlib.Algebra.BigOperators.Ring.Finset
import Mathlib.Data.Nat.Cast.Order.Field

/-! # The sum of the centralities -/

namespace Verif.Paths

open Verif.Spec

variable {n : Nat} {R : Fin n → Fin n → Prop}

theorem twice_of_not_nodup {α : Type} : ∀ {l : List α}, ¬l.Nodup → ∃ x y z a, l = x ++ a :: (y ++ a :: z)
  | [], h => absurd List.nodup_nil h
  | a :: l, h => by
    rw [List.nodup_cons, not_and_or, not_not] at h
    rcases h with h | h
    · obtain ⟨y, z, rfl⟩ := List.append_of_mem h
      exact ⟨[], y, z, a, rfl⟩
    · obtain ⟨x, y, z, b, rfl⟩ := twice_of_not_nodup h
      exact ⟨a :: x, y, z, b, rfl⟩

theorem shortest_nodup {s t : Fin n} {l : List (Fin n)} (h : IsShortest R s t l) : l.Nodup := by
  by_contra hno
  obtain ⟨x, y, z, a, rfl⟩ := twice_of_not_nodup hno
  obtain ⟨⟨h1, h2, h3⟩, hmin⟩ := h
  have h4 : IsPath R s t (x ++ a :: z) := by
    refine ⟨?_, ?_, ?_⟩
    · cases x with
      | nil => simpa using h1
      | cons b x => simpa using h1
    · have e : x ++ a :: (y ++ a :: z) = (x ++ a :: y) ++ a :: z := by simp
      rw [e, List.getLast?_append_of_ne_nil _ (by simp)] at h2
      rw [List.getLast?_append_of_ne_nil _ (by simp)]
      exact h2
    · rw [List.isChain_append] at h3 ⊢
      refine ⟨h3.1, ?_, fun b hb c hc => h3.2.2 b hb c (by simpa using hc)⟩
      have e : a :: (y ++ a :: z) = (a :: y) ++ a :: z := by simp
      rw [e] at h3
      exact (List.isChain_append.1 h3.2.1).2.1
  have := hmin _ h4
  simp at this
  omega

theorem between_shortest {s t : Fin n} {l : List (Fin n)} (h : IsShortest R s t l) : between R s t = l.length - 2 := by
  unfold between
  apply Nat.le_antisymm
  · exact Nat.sInf_le ⟨l, h.1, rfl⟩
  · obtain ⟨l', h1, h2⟩ := Nat.sInf_mem (s := {k | ∃ l, IsPath R s t l ∧ k = l.length - 2}) ⟨_, l, h.1, rfl⟩
    rw [h2]
    have := h.2 l' h1
    omega

theorem exists_shortest {s t : Fin n} {l : List (Fin n)} (h : IsPath R s t l) : ∃ l', IsShortest R s t l' := by
  have hne : {k | ∃ l, IsPath R s t l ∧ k = l.length}.Nonempty := ⟨_, l, h, rfl⟩
  obtain ⟨l', h1, h2⟩ := Nat.sInf_mem hne
  exact ⟨l', h1, fun l'' h3 => h2 ▸ Nat.sInf_le ⟨l'', h3, rfl⟩⟩

open Classical in
/-- The vertices strictly inside a shortest path -/
theorem inside_card {s t : Fin n} {l : List (Fin n)} (h : IsShortest R s t l) :
    (Finset.univ.filter fun v => ¬(v = s ∨ v = t) ∧ v ∈ l).card = between R s t := by
  have hnd := shortest_nodup h
  rw [between_shortest h]
  have hs : s ∈ l := List.mem_of_mem_head? h.1.1
  have ht : t ∈ l := List.mem_of_getLast? h.1.2.1
  have hset : (Finset.univ.filter fun v => ¬(v = s ∨ v = t) ∧ v ∈ l) = l.toFinset \ {s, t} := by
    ext v
    simp only [Finset.mem_filter, Finset.mem_univ, true_and, Finset.mem_sdiff, List.mem_toFinset, Finset.mem_insert, Finset.mem_singleton]
    tauto
  have hsub : ({s, t} : Finset (Fin n)) ⊆ l.toFinset := by
    intro v hv
    simp only [Finset.mem_insert, Finset.mem_singleton] at hv
    rw [List.mem_toFinset]
    rcases hv with rfl | rfl
    · exact hs
    · exact ht
  rw [hset, Finset.card_sdiff_of_subset hsub, List.toFinset_card_of_nodup hnd]
  by_cases hst : s = t
  · subst hst
    have := h.2 [s] ⟨rfl, rfl, by simp⟩
    simp at this ⊢
    omega
  · rw [Finset.card_pair hst]

theorem share_sum (K : Type) [Field K] [CharZero K] (s t : Fin n) :
    (∑ v, if v = s ∨ v = t then (0 : K) else (pathsThrough R s t v : K) / (paths R s t : K)) = (between R s t : K) := by
  classical
  have hS : {l | IsShortest R s t l} = ↑(walks R (dst R s t) s t) := by
    ext l
    exact shortest_iff
  have hp : paths R s t = (walks R (dst R s t) s t).card := by
    unfold paths
    rw [hS, Set.ncard_coe_finset]
  have ht : ∀ v, pathsThrough R s t v = ((walks R (dst R s t) s t).filter fun l => v ∈ l).card := by
    intro v
    unfold pathsThrough
    rw [← Set.ncard_coe_finset]
    congr 1
    ext l
    simp [shortest_iff]
  by_cases h0 : paths R s t = 0
  · have hno : ∀ l, ¬IsPath R s t l := by
      intro l hl
      obtain ⟨l', hl'⟩ := exists_shortest hl
      rw [hp, Finset.card_eq_zero] at h0
      have := shortest_iff.1 hl'
      rw [h0] at this
      simp at this
    have hb : between R s t = 0 := by
      unfold between
      have : {k | ∃ l, IsPath R s t l ∧ k = l.length - 2} = ∅ := by
        ext k
        simp only [Set.mem_setOf_eq, Set.mem_empty_iff_false, iff_false]
        rintro ⟨l, hl, -⟩
        exact hno l hl
      rw [this, Nat.sInf_empty]
    simp [h0, hb]
  · have hK : (paths R s t : K) ≠ 0 := by exact_mod_cast h0
    have key : (∑ v, if v = s ∨ v = t then 0 else pathsThrough R s t v) = paths R s t * between R s t := by
      have e : ∀ v, (if v = s ∨ v = t then 0 else pathsThrough R s t v) =
          ∑ l ∈ walks R (dst R s t) s t, if ¬(v = s ∨ v = t) ∧ v ∈ l then 1 else 0 := by
        intro v
        by_cases hv : v = s ∨ v = t
        · simp [hv]
        · rw [if_neg hv, ht, Finset.card_filter]
          simp [hv]
      rw [Finset.sum_congr rfl fun v _ => e v, Finset.sum_comm, hp, ← smul_eq_mul, ← Finset.sum_const]
      refine Finset.sum_congr rfl fun l hl => ?_
      rw [← Finset.card_filter, inside_card (shortest_iff.2 hl)]
    have e2 : ∀ v, (if v = s ∨ v = t then (0 : K) else (pathsThrough R s t v : K) / (paths R s t : K)) =
        ((if v = s ∨ v = t then 0 else pathsThrough R s t v : Nat) : K) / (paths R s t : K) := by
      intro v
      split <;> simp
    rw [Finset.sum_congr rfl fun v _ => e2 v, ← Finset.sum_div, ← Nat.cast_sum, key, Nat.cast_mul, mul_comm, mul_div_assoc, div_self hK, mul_one]

/-- The centralities of all vertices add up to the number of vertices between sources and other vertices. -/
theorem centrality_sum (K : Type) [Field K] [CharZero K] (srcs : List (Fin n)) : ∑ v, centrality K R srcs v = (betweenAll R srcs : K) := by
  unfold centrality betweenAll
  induction srcs with
  | nil => simp
  | cons s srcs ih =>
    simp only [List.map_cons, List.sum_cons, Finset.sum_add_distrib, ih, Nat.cast_add, Nat.cast_sum]
    rw [Finset.sum_comm]
    congr 1
    exact Finset.sum_congr rfl fun t _ => share_sum K s t

end Verif.Paths
