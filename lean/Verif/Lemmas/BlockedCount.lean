import Verif.Lemmas.BlockedTc
import Verif.Lemmas.Triangles

/-!
# Triangles and positions of a matrix that is split into blocks
-/

namespace Verif.Model.Blocked

open Verif.Spec

/-! ## Triangles -/

theorem filter_product {α β : Type} (l : List α) (l' : List β) (p : α → β → Prop) [∀ a b, Decidable (p a b)] :
    ((l ×ˢ l').filter fun x => decide (p x.1 x.2)).length = (l.map fun a => (l'.map fun b => if p a b then 1 else 0).sum).sum := by
  induction l with
  | nil => rfl
  | cons a l ih =>
    rw [List.product_cons, List.filter_append, List.length_append, ih, List.map_cons, List.sum_cons]
    congr 1
    clear ih
    induction l' with
    | nil => rfl
    | cons b l' ih =>
      rw [List.map_cons, List.filter_cons, List.map_cons, List.sum_cons, ← ih]
      by_cases h : p a b
      · simp [h, Nat.add_comm]
      · simp [h]

theorem cast_sum {R : Type} [Semiring R] {α : Type} (l : List α) (f : α → Nat) : (((l.map f).sum : Nat) : R) = (l.map fun a => (f a : R)).sum := by
  induction l with
  | nil => simp
  | cons a l ih => simp [ih]

/-- The sum of the masked product of a strictly lower triangular matrix of ones with itself is the number of triangles. -/
theorem masked_triangles {R : Type} [Semiring R] {n : Nat} {E : List (Nat × Nat × R)} (hnd : (E.map fun e => (e.1, e.2.1)).Nodup)
    (h1 : ∀ e ∈ E, e.2.2 = 1) (hlow : ∀ e ∈ E, e.2.1 < e.1) (hn : ∀ e ∈ E, e.1 < n) :
    maskedSum E E E = (triangles (graphOf n E) : R) := by
  classical
  let p : Nat × Nat × R → (Nat × Nat × R) × (Nat × Nat × R) → Prop := fun m x => x.1.1 = m.1 ∧ x.1.2.1 = x.2.1 ∧ x.2.2.1 = m.2.1
  let l := (E ×ˢ (E ×ˢ E)).filter fun x => decide (p x.1 x.2)
  have e1 : maskedSum E E E = (l.length : R) := by
    rw [show l.length = _ from filter_product E (E ×ˢ E) p]
    unfold maskedSum
    rw [cast_sum]
    refine congrArg List.sum (List.map_congr_left fun m hm => ?_)
    rw [productAt_sum]
    have : ((E ×ˢ E).map fun b => if p m b then 1 else 0).sum =
        (E.map fun a => (E.map fun b => if a.2.1 = b.1 then (if a.1 = m.1 ∧ b.2.1 = m.2.1 then 1 else 0) else 0).sum).sum := by
      have : ∀ l' : List (Nat × Nat × R), ((l' ×ˢ E).map fun b => if p m b then 1 else 0).sum =
          (l'.map fun a => (E.map fun b => if a.2.1 = b.1 then (if a.1 = m.1 ∧ b.2.1 = m.2.1 then 1 else 0) else 0).sum).sum := by
        intro l'
        induction l' with
        | nil => rfl
        | cons a l' ih =>
          rw [List.product_cons, List.map_append, List.sum_append, ih, List.map_cons, List.sum_cons, List.map_map]
          congr 2
          refine List.map_congr_left fun b _ => ?_
          simp only [Function.comp_apply, p]
          by_cases hx : a.2.1 = b.1 <;> by_cases hy : a.1 = m.1 <;> by_cases hz : b.2.1 = m.2.1 <;> simp [hx, hy, hz]
      exact this E
    rw [this, cast_sum]
    refine congrArg List.sum (List.map_congr_left fun a ha => ?_)
    rw [cast_sum]
    refine congrArg List.sum (List.map_congr_left fun b hb => ?_)
    rw [h1 a ha, h1 b hb, one_mul]
    split
    · split <;> simp
    · simp
  rw [e1]
  congr 1
  -- the list as a set
  have hE : E.Nodup := List.Nodup.of_map _ hnd
  have inj : ∀ a ∈ E, ∀ b ∈ E, a.1 = b.1 → a.2.1 = b.2.1 → a = b := fun a ha b hb h1 h2 =>
    List.inj_on_of_nodup_map hnd ha hb (by simp only [h1, h2])
  have hl : (l.map fun x => (x.1.1, x.1.2.1, x.2.1.2.1)).Nodup := by
    refine List.Nodup.map_on ?_ ((hE.product (hE.product hE)).filter _)
    rintro ⟨m, a, b⟩ hx ⟨m', a', b'⟩ hx' e
    simp only [l, p, List.mem_filter, decide_eq_true_eq] at hx hx'
    obtain ⟨hx, q1, q2, q3⟩ := hx
    obtain ⟨hx', q1', q2', q3'⟩ := hx'
    obtain ⟨hm, hx⟩ := List.pair_mem_product.1 hx
    obtain ⟨ha, hb⟩ := List.pair_mem_product.1 hx
    obtain ⟨hm', hx'⟩ := List.pair_mem_product.1 hx'
    obtain ⟨ha', hb'⟩ := List.pair_mem_product.1 hx'
    simp only [Prod.mk.injEq] at e
    obtain ⟨x1, x2, x3⟩ := e
    rw [inj m hm m' hm' x1 x2, inj a ha a' ha' (by rw [q1, q1', x1]) x3, inj b hb b' hb' (by rw [← q2, ← q2', x3]) (by rw [q3, q3', x2])]
  rw [Graph.triangles_eq, ← List.length_map (as := l) (f := fun x => (x.1.1, x.1.2.1, x.2.1.2.1))]
  have adj : ∀ u v : Fin n, v < u → ((graphOf n E).Adj u v ↔ Stored E u v) := by
    intro u v huv
    constructor
    · rintro ⟨-, e, he, h | h⟩
      · exact ⟨e, he, h⟩
      · simp only [Prod.mk.injEq] at h
        have := hlow e he
        rw [h.1, h.2] at this
        exact absurd huv (not_lt.2 (le_of_lt this))
    · rintro ⟨e, he, h⟩
      exact ⟨ne_of_gt huv, e, he, .inl h⟩
  have bound : ∀ {u v}, Stored E u v → v < u ∧ u < n := by
    rintro u v ⟨e, he, h⟩
    simp only [Prod.mk.injEq] at h
    have h1 := hlow e he
    have h2 := hn e he
    omega
  have hinj : Function.Injective (fun t : Fin n × Fin n × Fin n => ((t.1 : Nat), (t.2.1 : Nat), (t.2.2 : Nat))) := by
    rintro ⟨a, b, c⟩ ⟨a', b', c'⟩ e
    simp only [Prod.mk.injEq, Fin.val_inj] at e
    rw [e.1, e.2.1, e.2.2]
  rw [← Set.ncard_image_of_injective _ hinj]
  refine (ncard_list hl ?_).symm
  rintro ⟨i, j, k⟩
  simp only [Set.mem_image, Set.mem_ofPred_eq, List.mem_map, l, p, List.mem_filter, decide_eq_true_eq, Prod.exists]
  constructor
  · rintro ⟨i', j', k', ⟨h1, h2, h3, h4, h5⟩, e⟩
    simp only [Prod.mk.injEq] at e
    obtain ⟨rfl, rfl, rfl⟩ := e
    obtain ⟨m, hm, em⟩ := (adj _ _ (h1.trans h2)).1 h3
    obtain ⟨a, ha, ea⟩ := (adj _ _ h2).1 h4
    obtain ⟨b, hb, eb⟩ := (adj _ _ h1).1 h5
    simp only [Prod.mk.injEq] at em ea eb
    exact ⟨m.1, m.2.1, m.2.2, a.1, a.2.1, a.2.2, b.1, b.2.1, b.2.2, ⟨List.pair_mem_product.2 ⟨hm, List.pair_mem_product.2 ⟨ha, hb⟩⟩,
      ea.1.trans em.1.symm, ea.2.trans eb.1.symm, eb.2.trans em.2.symm⟩, by rw [em.1, em.2, ea.2]⟩
  · rintro ⟨m1, m2, mv, a1, a2, av, b1, b2, bv, ⟨hx, q1, q2, q3⟩, e⟩
    obtain ⟨hm, hx⟩ := List.pair_mem_product.1 hx
    obtain ⟨ha, hb⟩ := List.pair_mem_product.1 hx
    simp only [Prod.mk.injEq] at q1 q2 q3 e
    obtain ⟨rfl, rfl, rfl⟩ := e
    subst q1
    subst q2
    subst q3
    have sm : Stored E a1 b2 := ⟨_, hm, rfl⟩
    have sa : Stored E a1 a2 := ⟨_, ha, rfl⟩
    have sb : Stored E a2 b2 := ⟨_, hb, rfl⟩
    have hm' := bound sm
    have ha' := bound sa
    have hb' := bound sb
    exact ⟨⟨a1, hm'.2⟩, ⟨b2, by omega⟩, ⟨a2, hb'.2⟩, ⟨hb'.1, ha'.1, (adj _ _ hm'.1).2 sm, (adj _ _ ha'.1).2 sa, (adj _ _ hb'.1).2 sb⟩, rfl⟩

/-! ## Positions that are counted more than once -/

variable {R : Type} {g : Nat} {w : Nat → Nat} {es : Nat → Nat → List (Nat × Nat × R)}

/-- The block of a middle -/
theorem through_of (hb : Bounded g w es) {u v x : Nat} (h1 : Stored (assembled g w es) u x) (h2 : Stored (assembled g w es) x v) :
    ∃ k < g, Through w (assembled g w es) u v k := by
  obtain ⟨i, hi, k, hk, r, hr, c, hc, rfl, rfl⟩ := stored_split hb h1
  exact ⟨k, hk, _, Nat.le_add_right _ _, by rw [blockStart_succ]; omega, h1, h2⟩

theorem through_lt (hb : Bounded g w es) {u v k : Nat} (h : Through w (assembled g w es) u v k) : k < g := by
  obtain ⟨x, h1, h2, h3, -⟩ := h
  obtain ⟨i, hi, k', hk, r, hr, c, hc, rfl, e⟩ := stored_split hb h3
  rw [blockStart_succ] at h2
  have := (blockStart_inj (w := w) (i := k') (i' := k) (r := c) (r' := x - blockStart w k) hc (by omega) (by omega)).1
  omega

/-- Counting positions once for each block in the middle counts them once if and only if there is at most one such block. -/
theorem through_count (hb : Bounded g w es) (p : Nat → Nat → Prop) :
    let E := assembled g w es
    let S := {t : Nat × Nat × Nat | p t.1 t.2.1 ∧ Through w E t.1 t.2.1 t.2.2}
    let Q := {x : Nat × Nat | p x.1 x.2 ∧ ∃ y, Stored E x.1 y ∧ Stored E y x.2}
    Q.ncard ≤ S.ncard ∧ (S.ncard = Q.ncard ↔ ∀ u v k k', p u v → Through w E u v k → Through w E u v k' → k = k') := by
  classical
  intro E S Q
  have hfin : S.Finite := by
    refine Set.Finite.subset (Finset.finite_toSet ((E.map fun e => e.1).toFinset ×ˢ ((E.map fun e => e.2.1).toFinset ×ˢ Finset.range g))) ?_
    rintro ⟨u, v, k⟩ ⟨-, h⟩
    have hk := through_lt hb h
    obtain ⟨x, -, -, ⟨a, ha, ea⟩, ⟨b, hb', eb⟩⟩ := h
    simp only [Prod.mk.injEq] at ea eb
    simp only [Finset.coe_product, Set.mem_prod, Finset.mem_coe, List.mem_toFinset, List.mem_map, Finset.mem_range]
    exact ⟨⟨a, ha, ea.1⟩, ⟨b, hb', eb.2⟩, hk⟩
  have himg : (fun t : Nat × Nat × Nat => (t.1, t.2.1)) '' S = Q := by
    ext ⟨u, v⟩
    constructor
    · rintro ⟨⟨u', v', k⟩, ⟨h1, x, -, -, h2, h3⟩, e⟩
      cases e
      exact ⟨h1, x, h2, h3⟩
    · rintro ⟨h1, y, h2, h3⟩
      obtain ⟨k, -, hk⟩ := through_of hb h2 h3
      exact ⟨(u, v, k), ⟨h1, hk⟩, rfl⟩
  rw [← himg]
  refine ⟨Set.ncard_image_le hfin, ?_⟩
  rw [eq_comm, Set.ncard_image_iff hfin]
  constructor
  · intro h u v k k' h1 h2 h3
    have := h (x₁ := (u, v, k)) ⟨h1, h2⟩ (x₂ := (u, v, k')) ⟨h1, h3⟩ rfl
    exact congrArg (fun t => t.2.2) this
  · rintro h ⟨u, v, k⟩ ⟨h1, h2⟩ ⟨u', v', k'⟩ ⟨h1', h2'⟩ e
    simp only [Prod.mk.injEq] at e
    obtain ⟨rfl, rfl⟩ := e
    rw [h u v k k' h1 h2 h2']

end Verif.Model.Blocked

namespace Verif.Model.BlockedTc

open Verif.Spec

/-! ## Runs that do not return -/

theorem andThen_some {α β : Type} {x : Res (Option α)} {f : α → Res (Option β)} {b : β} (h : andThen x f = .ok (some b)) :
    ∃ a, x = .ok (some a) ∧ f a = .ok (some b) := by
  unfold andThen at h
  obtain ⟨r, hr, h⟩ := Alias.bind_ok' h
  cases r with
  | none => cases h
  | some a => exact ⟨a, hr, h⟩

theorem fill_some {f : Nat → Res (Option Counts)} : ∀ {order : List Nat} {cs ds : List Counts}, fill f order cs = .ok (some ds) →
    ∀ q ∈ order, ∃ c, f q = .ok (some c)
  | [], _, _, _, _, hq => absurd hq (by simp)
  | a :: order, cs, ds, h, q, hq => by
    obtain ⟨c, hc, h⟩ := andThen_some h
    obtain ⟨cs', -, h⟩ := Alias.bind_ok' h
    rcases List.mem_cons.1 hq with rfl | hq
    · exact ⟨c, hc⟩
    · exact fill_some h q hq

end Verif.Model.BlockedTc
