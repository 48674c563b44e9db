import Verif.SpecBc
import Mathlib.Algebra.BigOperators.Field
import Mathlib.Order.Lattice.Nat
import Mathlib.Tactic.FieldSimp

/-! # Counting shortest paths -/

namespace Verif.Paths

open Verif.Spec

variable {n : Nat} {R : Fin n → Fin n → Prop}

section
open Classical

/-- The walks with `k` edges. -/
noncomputable def walks (R : Fin n → Fin n → Prop) : Nat → Fin n → Fin n → Finset (List (Fin n))
  | 0, u, v => if u = v then {[u]} else ∅
  | k + 1, u, v => (Finset.univ.filter fun w => R u w).biUnion fun w => (walks R k w v).image fun l => u :: l

/-- Their number. -/
noncomputable def W (R : Fin n → Fin n → Prop) (k : Nat) (u v : Fin n) : Nat := (walks R k u v).card

theorem mem_walks {k : Nat} {u v : Fin n} {l : List (Fin n)} :
    l ∈ walks R k u v ↔ l.length = k + 1 ∧ IsPath R u v l := by
  induction k generalizing u l with
  | zero =>
    unfold walks
    by_cases h : u = v
    · subst h
      rw [if_pos rfl, Finset.mem_singleton]
      constructor
      · rintro rfl; simp [IsPath]
      · rintro ⟨h1, h2, -⟩
        match l, h1 with
        | [a], _ => simpa using h2
    · rw [if_neg h]
      simp only [Finset.notMem_empty, false_iff]
      rintro ⟨h1, h2, h3, -⟩
      match l, h1 with
      | [a], _ =>
        simp only [List.head?_cons, Option.some.injEq, List.getLast?_singleton] at h2 h3
        exact h (h2.symm.trans h3)
  | succ k ih =>
    unfold walks
    simp only [Finset.mem_biUnion, Finset.mem_filter, Finset.mem_univ, true_and, Finset.mem_image]
    constructor
    · rintro ⟨w, hw, l', hl', rfl⟩
      obtain ⟨h1, h2, h3, h4⟩ := ih.1 hl'
      match l', h2 with
      | b :: l', h2 =>
        simp only [List.head?_cons, Option.some.injEq] at h2
        subst h2
        exact ⟨by simp [h1], rfl, by simpa [List.getLast?_cons] using h3, List.isChain_cons_cons.2 ⟨hw, h4⟩⟩
    · rintro ⟨h1, h2, h3, h4⟩
      match l, h1 with
      | a :: b :: l, h1 =>
        simp only [List.head?_cons, Option.some.injEq] at h2
        subst h2
        rw [List.isChain_cons_cons] at h4
        exact ⟨b, h4.1, b :: l, ih.2 ⟨by simpa using h1, rfl, by simpa [List.getLast?_cons] using h3, h4.2⟩, rfl⟩

theorem W_zero (u v : Fin n) : W R 0 u v = if u = v then 1 else 0 := by
  unfold W walks
  split <;> simp

theorem W_succ (k : Nat) (u v : Fin n) : W R (k + 1) u v = ∑ w, if R u w then W R k w v else 0 := by
  unfold W
  rw [walks, Finset.card_biUnion]
  · rw [← Finset.sum_filter]
    refine Finset.sum_congr rfl fun w _ => ?_
    exact Finset.card_image_of_injective _ fun a b h => by simpa using h
  · intro w _ w' _ hne
    rw [Function.onFun, Finset.disjoint_left]
    rintro l hl hl'
    simp only [Finset.mem_image] at hl hl'
    obtain ⟨a, ha, rfl⟩ := hl
    obtain ⟨b, hb, hab⟩ := hl'
    simp only [List.cons.injEq, true_and] at hab
    subst hab
    have h1 := (mem_walks.1 ha).2.1
    have h2 := (mem_walks.1 hb).2.1
    rw [h1] at h2
    exact hne (by simpa using h2)

theorem W_snoc (k : Nat) (u v : Fin n) : W R (k + 1) u v = ∑ w, if R w v then W R k u w else 0 := by
  induction k generalizing u with
  | zero =>
    rw [W_succ]
    simp only [W_zero]
    rw [Finset.sum_eq_single v, Finset.sum_eq_single u]
    · simp
    · intro b _ hb; simp [Ne.symm hb]
    · simp
    · intro b _ hb; simp [hb]
    · simp
  | succ k ih =>
    rw [W_succ]
    have : ∀ x, (if R u x then W R (k + 1) x v else 0) =
        ∑ w, if R u x then (if R w v then W R k x w else 0) else 0 := by
      intro x
      split
      · rw [ih]
      · simp
    rw [Finset.sum_congr rfl fun x _ => this x, Finset.sum_comm]
    refine Finset.sum_congr rfl fun w _ => ?_
    by_cases hw : R w v
    · simp only [hw, if_true, W_succ k u w]
    · simp [hw]

theorem W_pos_succ {k : Nat} {u v : Fin n} : W R (k + 1) u v ≠ 0 ↔ ∃ w, R u w ∧ W R k w v ≠ 0 := by
  rw [W_succ, ne_eq, Finset.sum_eq_zero_iff]
  simp

theorem W_pos_snoc {k : Nat} {u v : Fin n} : W R (k + 1) u v ≠ 0 ↔ ∃ w, R w v ∧ W R k u w ≠ 0 := by
  rw [W_snoc, ne_eq, Finset.sum_eq_zero_iff]
  simp

theorem W_comp {j k : Nat} {u x v : Fin n} (h1 : W R j u x ≠ 0) (h2 : W R k x v ≠ 0) : W R (j + k) u v ≠ 0 := by
  induction j generalizing u with
  | zero =>
    rw [W_zero] at h1
    have : u = x := by by_contra h; simp [h] at h1
    subst this
    simpa using h2
  | succ j ih =>
    obtain ⟨w, hw, h⟩ := W_pos_succ.1 h1
    rw [Nat.add_right_comm]
    exact W_pos_succ.2 ⟨w, hw, ih h⟩

/-- walks through `v` after `j` edges -/
theorem card_at (j k : Nat) (s t v : Fin n) :
    ((walks R (j + k) s t).filter fun l => l[j]? = some v).card = W R j s v * W R k v t := by
  induction j generalizing s with
  | zero =>
    rw [W_zero, Nat.zero_add]
    by_cases h : s = v
    · subst h
      rw [if_pos rfl, Nat.one_mul, W, Finset.filter_true_of_mem]
      intro l hl
      rw [← List.head?_eq_getElem?]
      exact (mem_walks.1 hl).2.1
    · rw [if_neg h, Nat.zero_mul, Finset.card_eq_zero, Finset.filter_eq_empty_iff]
      intro l hl hv
      rw [← List.head?_eq_getElem?, (mem_walks.1 hl).2.1] at hv
      exact h (by simpa using hv)
  | succ j ih =>
    rw [W_succ, Finset.sum_mul, Nat.add_right_comm, walks, Finset.filter_biUnion, Finset.card_biUnion]
    · rw [Finset.sum_filter]
      refine Finset.sum_congr rfl fun w _ => ?_
      split
      · rw [← ih w, ← Finset.card_image_of_injective ((walks R (j + k) w t).filter fun l => l[j]? = some v)
          (f := fun l => s :: l) fun a b h => by simpa using h]
        congr 1
        ext l
        simp only [Finset.mem_filter, Finset.mem_image]
        constructor
        · rintro ⟨⟨a, ha, rfl⟩, h⟩; exact ⟨a, ⟨ha, by simpa using h⟩, rfl⟩
        · rintro ⟨a, ⟨ha, h⟩, rfl⟩; exact ⟨⟨a, ha, rfl⟩, by simpa using h⟩
      · simp
    · intro w _ w' _ hne
      rw [Function.onFun, Finset.disjoint_left]
      rintro l hl hl'
      simp only [Finset.mem_image, Finset.mem_filter] at hl hl'
      obtain ⟨⟨a, ha, rfl⟩, -⟩ := hl
      obtain ⟨⟨b, hb, hab⟩, -⟩ := hl'
      simp only [List.cons.injEq, true_and] at hab
      subst hab
      have h1 := (mem_walks.1 ha).2.1
      have h2 := (mem_walks.1 hb).2.1
      rw [h1] at h2
      exact hne (by simpa using h2)

/-- `v` can be reached from `s` -/
def Reach (R : Fin n → Fin n → Prop) (s v : Fin n) : Prop := ∃ k, W R k s v ≠ 0

/-- the distance (0 if there is no path) -/
noncomputable def dst (R : Fin n → Fin n → Prop) (s v : Fin n) : Nat := sInf {k | W R k s v ≠ 0}

/-- the number of shortest paths -/
noncomputable def sig (R : Fin n → Fin n → Prop) (s v : Fin n) : Nat := W R (dst R s v) s v

theorem sig_ne {s v : Fin n} : sig R s v ≠ 0 ↔ Reach R s v :=
  ⟨fun h => ⟨_, h⟩, fun ⟨k, hk⟩ => Nat.sInf_mem (s := {k | W R k s v ≠ 0}) ⟨k, hk⟩⟩

theorem dst_le {s v : Fin n} {k : Nat} (h : W R k s v ≠ 0) : dst R s v ≤ k := Nat.sInf_le h

theorem W_dst {s v : Fin n} (h : Reach R s v) : W R (dst R s v) s v ≠ 0 := sig_ne.2 h

theorem reach_self (s : Fin n) : Reach R s s := ⟨0, by simp [W_zero]⟩

theorem dst_self (s : Fin n) : dst R s s = 0 := Nat.le_zero.1 (dst_le (by simp [W_zero]))

theorem dst_eq_zero {s v : Fin n} (h : Reach R s v) (h0 : dst R s v = 0) : s = v := by
  have := W_dst h
  rw [h0, W_zero] at this
  by_contra hne
  simp [hne] at this

theorem sig_self (s : Fin n) : sig R s s = 1 := by simp [sig, dst_self, W_zero]

theorem reach_step {s u w : Fin n} (h : Reach R s u) (hw : R u w) : Reach R s w ∧ dst R s w ≤ dst R s u + 1 := by
  have := W_pos_snoc.2 ⟨u, hw, W_dst h⟩
  exact ⟨⟨_, this⟩, dst_le this⟩

theorem exists_pred {s w : Fin n} {k : Nat} (h : Reach R s w) (hk : dst R s w = k + 1) :
    ∃ u, R u w ∧ Reach R s u ∧ dst R s u = k := by
  have := W_dst h
  rw [hk] at this
  obtain ⟨u, hu, hW⟩ := W_pos_snoc.1 this
  have h1 := dst_le hW
  have h2 := (reach_step ⟨k, hW⟩ hu).2
  exact ⟨u, hu, ⟨k, hW⟩, by omega⟩

/-- the forward recurrence -/
theorem sig_succ {s w : Fin n} {k : Nat} (h : Reach R s w) (hk : dst R s w = k + 1) :
    sig R s w = ∑ u, if R u w ∧ Reach R s u ∧ dst R s u = k then sig R s u else 0 := by
  unfold sig
  rw [hk, W_snoc]
  refine Finset.sum_congr rfl fun u _ => ?_
  by_cases hu : R u w
  · by_cases hW : W R k s u = 0
    · rw [if_pos hu, hW]
      split
      · rename_i h'
        rw [h'.2.2, hW]
      · rfl
    · have h1 := dst_le hW
      have h2 := (reach_step ⟨k, hW⟩ hu).2
      have h3 : dst R s u = k := by omega
      rw [if_pos hu, if_pos ⟨hu, ⟨k, hW⟩, h3⟩, h3]
  · rw [if_neg hu, if_neg (fun h => hu h.1)]

/-! ### The specification in these terms -/

theorem path_mem {s t : Fin n} {l : List (Fin n)} (h : IsPath R s t l) : l ∈ walks R (l.length - 1) s t := by
  refine mem_walks.2 ⟨?_, h⟩
  have := h.1
  cases l with
  | nil => simp at this
  | cons a l => simp

theorem shortest_iff {s t : Fin n} {l : List (Fin n)} : IsShortest R s t l ↔ l ∈ walks R (dst R s t) s t := by
  constructor
  · rintro ⟨h1, h2⟩
    have h3 := path_mem h1
    have hW : W R (l.length - 1) s t ≠ 0 := Finset.card_ne_zero_of_mem h3
    have hr : Reach R s t := ⟨_, hW⟩
    have h4 := dst_le hW
    obtain ⟨l', hl'⟩ := Finset.card_ne_zero.1 (W_dst hr)
    obtain ⟨h5, h6⟩ := mem_walks.1 hl'
    have := h2 l' h6
    have h7 := (mem_walks.1 h3).1
    rw [show dst R s t = l.length - 1 by omega]
    exact h3
  · intro h
    obtain ⟨h1, h2⟩ := mem_walks.1 h
    refine ⟨h2, fun l' hl' => ?_⟩
    have h3 := path_mem hl'
    have hW : W R (l'.length - 1) s t ≠ 0 := Finset.card_ne_zero_of_mem h3
    have h4 := dst_le hW
    have h7 := (mem_walks.1 h3).1
    omega

theorem paths_eq (s t : Fin n) : paths R s t = sig R s t := by
  unfold paths sig W
  rw [← Set.ncard_coe_finset]
  congr 1
  ext l
  exact shortest_iff

/-- the number of continuations of shortest paths from `s` over `u` to `t` -/
noncomputable def T (R : Fin n → Fin n → Prop) (s u t : Fin n) : Nat :=
  if Reach R s t ∧ dst R s u ≤ dst R s t then W R (dst R s t - dst R s u) u t else 0

theorem through_eq (s t v : Fin n) : pathsThrough R s t v = sig R s v * T R s v t := by
  have key : ∀ l, IsShortest R s t l ∧ v ∈ l →
      Reach R s v ∧ Reach R s t ∧ dst R s v ≤ dst R s t ∧ l ∈ walks R (dst R s t) s t ∧ l[dst R s v]? = some v := by
    rintro l ⟨hl, hv⟩
    have hl := shortest_iff.1 hl
    have hr : Reach R s t := ⟨_, Finset.card_ne_zero_of_mem hl⟩
    obtain ⟨i, hi⟩ := List.mem_iff_getElem?.1 hv
    have hlen := (mem_walks.1 hl).1
    have hile : i < l.length := by
      by_contra h
      rw [List.getElem?_eq_none (by omega)] at hi
      exact absurd hi (by simp)
    obtain ⟨k, hk⟩ : ∃ k, dst R s t = i + k := ⟨dst R s t - i, by omega⟩
    have hc := card_at (R := R) i k s t v
    rw [← hk] at hc
    have hne : ((walks R (dst R s t) s t).filter fun l => l[i]? = some v).card ≠ 0 :=
      Finset.card_ne_zero_of_mem (Finset.mem_filter.2 ⟨hl, hi⟩)
    rw [hc] at hne
    have h1 := left_ne_zero_of_mul hne
    have h2 := right_ne_zero_of_mul hne
    have h3 := dst_le h1
    have h4 := dst_le (W_comp (W_dst ⟨i, h1⟩) h2)
    have h5 : dst R s v = i := by omega
    exact ⟨⟨i, h1⟩, hr, by omega, hl, by rw [h5]; exact hi⟩
  by_cases h : Reach R s v ∧ Reach R s t ∧ dst R s v ≤ dst R s t
  · obtain ⟨h1, h2, h3⟩ := h
    have hc := card_at (R := R) (dst R s v) (dst R s t - dst R s v) s t v
    rw [Nat.add_sub_cancel' h3] at hc
    rw [T, if_pos ⟨h2, h3⟩, sig, ← hc, ← Set.ncard_coe_finset]
    unfold pathsThrough
    congr 1
    ext l
    simp only [Finset.coe_filter, Set.mem_ofPred_eq]
    constructor
    · intro hl
      have := key l hl
      exact this.2.2.2
    · rintro ⟨hl, hv⟩
      exact ⟨shortest_iff.2 hl, List.mem_of_getElem? hv⟩
  · have h0 : sig R s v * T R s v t = 0 := by
      by_contra hne
      have h1 := sig_ne.1 (left_ne_zero_of_mul hne)
      have h2 := right_ne_zero_of_mul hne
      unfold T at h2
      split at h2
      · rename_i h'; exact h ⟨h1, h'⟩
      · exact h2 rfl
    rw [h0]
    unfold pathsThrough
    have hempty : {l | IsShortest R s t l ∧ v ∈ l} = ∅ := by
      ext l
      simp only [Set.mem_ofPred_eq, Set.mem_empty_iff_false, iff_false]
      intro hl
      have := key l hl
      exact h ⟨this.1, this.2.1, this.2.2.1⟩
    rw [hempty, Set.ncard_empty]

theorem T_self {s u : Fin n} (h : Reach R s u) : T R s u u = 1 := by
  simp [T, h, W_zero]

/-- the backward recurrence -/
theorem T_rec {s u : Fin n} (h : Reach R s u) (t : Fin n) :
    T R s u t = (if t = u then 1 else 0) + ∑ w, if R u w ∧ dst R s w = dst R s u + 1 then T R s w t else 0 := by
  by_cases ht : Reach R s t
  · by_cases hlt : dst R s u < dst R s t
    · have hne : t ≠ u := by rintro rfl; omega
      obtain ⟨k, hk⟩ : ∃ k, dst R s t = dst R s u + (k + 1) := ⟨dst R s t - dst R s u - 1, by omega⟩
      rw [if_neg hne, Nat.zero_add, T, if_pos ⟨ht, by omega⟩, show dst R s t - dst R s u = k + 1 by omega, W_succ]
      refine Finset.sum_congr rfl fun w _ => ?_
      by_cases hw : R u w
      · obtain ⟨h1, h2⟩ := reach_step h hw
        by_cases hd : dst R s w = dst R s u + 1
        · rw [if_pos hw, if_pos ⟨hw, hd⟩, T, if_pos ⟨ht, by omega⟩, show dst R s t - dst R s w = k by omega]
        · rw [if_pos hw, if_neg (fun h => hd h.2)]
          by_contra hW
          have := dst_le (W_comp (W_dst h1) hW)
          omega
      · rw [if_neg hw, if_neg (fun h => hw h.1)]
    · have hs : (∑ w, if R u w ∧ dst R s w = dst R s u + 1 then T R s w t else 0) = 0 := by
        refine Finset.sum_eq_zero fun w _ => ?_
        split
        · rename_i hw
          rw [T, if_neg (by omega)]
        · rfl
      rw [hs, Nat.add_zero]
      by_cases htu : t = u
      · subst htu; rw [if_pos rfl, T_self h]
      · rw [if_neg htu, T]
        split
        · rename_i h'
          rw [show dst R s t - dst R s u = 0 by omega, W_zero, if_neg (Ne.symm htu)]
        · rfl
  · have htu : t ≠ u := by rintro rfl; exact ht h
    rw [if_neg htu, Nat.zero_add, T, if_neg (fun h => ht h.1)]
    symm
    refine Finset.sum_eq_zero fun w _ => ?_
    split
    · rw [T, if_neg (fun h => ht h.1)]
    · rfl

/-! ### Dependencies -/

variable (K : Type) [Field K]

/-- the sum of the shares of `u` in the shortest paths from `s`, counting `u` itself as a target -/
noncomputable def dep (R : Fin n → Fin n → Prop) (s u : Fin n) : K := ∑ t, (sig R s u : K) * T R s u t / sig R s t

variable {K} [CharZero K]

theorem dep_rec {s u : Fin n} (h : Reach R s u) :
    dep K R s u = 1 + (sig R s u : K) *
      ∑ w, if R u w ∧ dst R s w = dst R s u + 1 then dep K R s w / sig R s w else 0 := by
  have hu : (sig R s u : K) ≠ 0 := by exact_mod_cast sig_ne.2 h
  have e1 : dep K R s u = (sig R s u : K) * ∑ t, (T R s u t : K) / sig R s t := by
    unfold dep
    rw [Finset.mul_sum]
    exact Finset.sum_congr rfl fun t _ => by rw [mul_div_assoc]
  have e2 : ∀ t, (T R s u t : K) / sig R s t = (if t = u then 1 / (sig R s u : K) else 0) +
      ∑ w, if R u w ∧ dst R s w = dst R s u + 1 then (T R s w t : K) / sig R s t else 0 := by
    intro t
    rw [T_rec h t]
    push_cast
    rw [add_div, Finset.sum_div]
    congr 1
    · split
      · rename_i h'; subst h'; rfl
      · simp
    · refine Finset.sum_congr rfl fun w _ => ?_
      split <;> simp
  rw [e1, Finset.sum_congr rfl fun t _ => e2 t, Finset.sum_add_distrib, mul_add, Finset.sum_ite_eq' Finset.univ u,
    if_pos (Finset.mem_univ u), mul_one_div_cancel hu, Finset.sum_comm]
  congr 2
  refine Finset.sum_congr rfl fun w _ => ?_
  split
  · rename_i hw
    have hr := (reach_step h hw.1).1
    have hw0 : (sig R s w : K) ≠ 0 := by exact_mod_cast sig_ne.2 hr
    unfold dep
    rw [Finset.sum_div]
    refine Finset.sum_congr rfl fun t _ => ?_
    field_simp
  · simp

/-- the centrality as a sum of dependencies -/
theorem centrality_eq (srcs : List (Fin n)) (v : Fin n) : centrality K R srcs v =
    (srcs.map fun s => if Reach R s v ∧ v ≠ s then dep K R s v - 1 else 0).sum := by
  unfold centrality
  congr 1
  refine List.map_congr_left fun s _ => ?_
  simp only [paths_eq, through_eq]
  by_cases hvs : v = s
  · simp [hvs]
  · by_cases hr : Reach R s v
    · rw [if_pos ⟨hr, hvs⟩]
      have hv0 : (sig R s v : K) ≠ 0 := by exact_mod_cast sig_ne.2 hr
      have : dep K R s v = ∑ t, ((if v = s ∨ v = t then 0 else ((sig R s v * T R s v t : Nat) : K) / sig R s t) +
          if t = v then 1 else 0) := by
        unfold dep
        refine Finset.sum_congr rfl fun t _ => ?_
        by_cases htv : t = v
        · subst htv
          simp [T_self hr, hv0]
        · simp [hvs, htv, Ne.symm htv]
      rw [this, Finset.sum_add_distrib, Finset.sum_ite_eq' Finset.univ v]
      simp
    · rw [if_neg (fun h => hr h.1)]
      have h0 : sig R s v = 0 := by by_contra h; exact hr (sig_ne.1 h)
      simp [h0]

end

end Verif.Paths
