import Verif.Lemmas.Blocks

/-! # Regions with an invariant for every thread -/

namespace Verif.Model

variable {σ α : Type}

/-- `J t i g` is what thread `t` knows about the shared state when its next row is `i`. A row of one thread leaves what the
other threads know. `W` holds throughout. -/
theorem blocks_own_loc {n rows : Nat} {o : Nat → Nat} {off : List Nat} (ho : Bounds n rows o)
    (hoff : ∀ t ≤ n, off[t]? = some (o t)) {init : Nat → Nat → Nat → Res α} {row : Nat → σ → α → Res (σ × α)}
    (J : Nat → Nat → σ → Prop) (W : σ → Prop) (I : Nat → Nat → α → Prop)
    (hinit : ∀ t < n, ∃ a, init t (o t) (o (t + 1)) = .ok a ∧ I t (o t) a)
    (hrow : ∀ t < n, ∀ i a g, o t ≤ i → i < o (t + 1) → W g → J t i g → I t i a →
      ∃ g' a', row i g a = .ok (g', a') ∧ W g' ∧ J t (i + 1) g' ∧ I t (i + 1) a' ∧
        ∀ u < n, u ≠ t → ∀ j, o u ≤ j → j ≤ o (u + 1) → J u j g → J u j g')
    (sched : List Nat) (g0 : σ) (h0 : W g0) (h1 : ∀ t < n, J t (o t) g0) :
    (blocks n off init row sched g0 = .ok none ∧ ∃ t < n, sched.count t ≤ rows + 1) ∨
    ∃ g as, blocks n off init row sched g0 = .ok (some (g, as)) ∧ W g ∧
      ∀ t < n, J t (o (t + 1)) g ∧ ∃ a, as[t]? = some a ∧ I t (o (t + 1)) a := by
  have hph := phase_glob (n := n) (step := blockStep off init row) (fin := blockFin)
    (fun g ls => W g ∧ ∀ t < n, match ls t with
      | none => J t (o t) g
      | some (a, i, hi) => hi = o (t + 1) ∧ o t ≤ i ∧ i ≤ hi ∧ I t i a ∧ J t i g)
    (fun t x => match x with
      | none => rows + 1
      | some (_, i, hi) => hi - i)
    (by
      rintro t g ls ht ⟨hw, hl⟩ hfin
      cases hx : ls t with
      | none =>
        obtain ⟨a, ha, hIa⟩ := hinit t ht
        refine ⟨g, some (a, o t, o (t + 1)), ?_, ⟨hw, ?_⟩, ?_⟩
        · unfold blockStep
          simp only [rd_of_getElem? (hoff t (by omega)), rd_of_getElem? (hoff (t + 1) (by omega)), ok_bind, ha]
        · intro u hu
          by_cases hut : u = t
          · subst hut
            rw [upd_same]
            have := hl u hu
            rw [hx] at this
            exact ⟨rfl, Nat.le_refl _, ho.mono u hu, hIa, this⟩
          · rw [upd_ne _ _ hut]
            exact hl u hu
        · right
          have := ho.le (t := t + 1) (by omega)
          simp only; omega
      | some x =>
        obtain ⟨a, i, hi⟩ := x
        have hlt := hl t ht
        rw [hx] at hlt
        obtain ⟨h1, h2, h3, h4, h5⟩ := hlt
        have hlt : i < hi := by
          rw [hx] at hfin
          simpa [blockFin] using hfin
        obtain ⟨g', a', e1, e2, e3, e4, e5⟩ := hrow t ht i a g h2 (by omega) hw h5 h4
        refine ⟨g', some (a', i + 1, hi), ?_, ⟨e2, ?_⟩, ?_⟩
        · unfold blockStep
          simp only [e1, ok_bind]
        · intro u hu
          by_cases hut : u = t
          · subst hut
            rw [upd_same]
            exact ⟨h1, by omega, by omega, e4, e3⟩
          · rw [upd_ne _ _ hut]
            have := hl u hu
            cases hy : ls u with
            | none => rw [hy] at this; exact e5 u hu hut _ (Nat.le_refl _) (ho.mono u hu) this
            | some y =>
              obtain ⟨b, j, hj⟩ := y
              rw [hy] at this
              obtain ⟨k1, k2, k3, k4, k5⟩ := this
              exact ⟨k1, k2, k3, k4, e5 u hu hut _ k2 (by omega) k5⟩
        · right
          simp only; omega)
    sched g0 (fun _ => none) ⟨h0, h1⟩
  unfold blocks
  rcases hph with ⟨e, t, ht, hc⟩ | ⟨g', ls', e, ⟨hg, hl⟩, hfin⟩
  · left
    rw [e]
    exact ⟨rfl, t, ht, hc⟩
  · right
    have hsome : ∀ t < n, ∃ a, ls' t = some (a, o (t + 1), o (t + 1)) ∧ I t (o (t + 1)) a ∧ J t (o (t + 1)) g' := by
      intro t ht
      have h2 := hfin t ht
      have h3 := hl t ht
      cases hx : ls' t with
      | none => rw [hx] at h2; simp [blockFin] at h2
      | some x =>
        obtain ⟨a, i, hi⟩ := x
        rw [hx] at h2 h3
        obtain ⟨k1, k2, k3, k4, k5⟩ := h3
        have : hi ≤ i := by simpa [blockFin] using h2
        have : i = o (t + 1) := by omega
        subst this k1
        exact ⟨a, rfl, k4, k5⟩
    refine ⟨g', _, by rw [e]; rfl, hg, ?_⟩
    intro t ht
    obtain ⟨a, h1, h2, h3⟩ := hsome t ht
    refine ⟨h3, a, ?_, h2⟩
    have key : ∀ m, m ≤ n → ((List.range m).filterMap fun t => (ls' t).map (·.1)).length = m := by
      intro m
      induction m with
      | zero => intro _; rfl
      | succ m ih =>
        intro hm
        obtain ⟨a, e, -⟩ := hsome m (by omega)
        rw [List.range_succ, List.filterMap_append, List.length_append, ih (by omega)]
        simp [e]
    have hsplit : List.range n = List.range t ++ t :: List.range' (t + 1) (n - (t + 1)) := by
      rw [List.range_eq_range', List.range_eq_range', ← List.range'_succ]
      have := (List.range'_append_1 (s := 0) (m := t) (n := n - (t + 1) + 1)).symm
      simp only [Nat.zero_add] at this
      rw [show t + (n - (t + 1) + 1) = n by omega] at this
      exact this
    rw [hsplit, List.filterMap_append, List.getElem?_append_right (by rw [key t (by omega)]; exact Nat.le_refl _),
      key t (by omega), Nat.sub_self, List.filterMap_cons, h1]
    rfl

/-- The same when the table of a thread does not depend on its progress. -/
theorem blocks_own {n rows : Nat} {o : Nat → Nat} {off : List Nat} (ho : Bounds n rows o)
    (hoff : ∀ t ≤ n, off[t]? = some (o t)) {init : Nat → Nat → Nat → Res α} {row : Nat → σ → α → Res (σ × α)}
    (J : Nat → Nat → σ → Prop) (W : σ → Prop) (I : Nat → α → Prop)
    (hinit : ∀ t < n, ∃ a, init t (o t) (o (t + 1)) = .ok a ∧ I t a)
    (hrow : ∀ t < n, ∀ i a g, o t ≤ i → i < o (t + 1) → W g → J t i g → I t a →
      ∃ g' a', row i g a = .ok (g', a') ∧ W g' ∧ J t (i + 1) g' ∧ I t a' ∧
        ∀ u < n, u ≠ t → ∀ j, o u ≤ j → j ≤ o (u + 1) → J u j g → J u j g')
    (sched : List Nat) (g0 : σ) (h0 : W g0) (h1 : ∀ t < n, J t (o t) g0) :
    (blocks n off init row sched g0 = .ok none ∧ ∃ t < n, sched.count t ≤ rows + 1) ∨
    ∃ g as, blocks n off init row sched g0 = .ok (some (g, as)) ∧ W g ∧ ∀ t < n, J t (o (t + 1)) g := by
  rcases blocks_own_loc ho hoff J W (fun t _ => I t) hinit hrow sched g0 h0 h1 with h | ⟨g, as, e1, e2, e3⟩
  · exact Or.inl h
  · exact Or.inr ⟨g, as, e1, e2, fun t ht => (e3 t ht).1⟩

end Verif.Model
