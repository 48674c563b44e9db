import Verif.Model.Threads

/-! # Rule for parallel regions -/

namespace Verif.Model

variable {σ l : Type}

/-- Owicki-Gries rule. `I t g x` is the assertion of thread `t` with local state `x`.
It also counts steps: a thread that is not finished has used up part of its measure. -/
theorem runs_inv {n : Nat} {step : Nat → σ → l → Res (σ × l)} {fin : l → Bool}
    (I : Nat → σ → l → Prop) (μ : Nat → l → Nat)
    (hstep : ∀ t g x, t < n → I t g x → fin x = false → ∃ g' x', step t g x = .ok (g', x') ∧ I t g' x' ∧
      (fin x' = true ∨ μ t x' < μ t x) ∧ ∀ u y, u < n → u ≠ t → I u g y → I u g' y) :
    ∀ (sched : List Nat) (g : σ) (ls : Nat → l), (∀ t, t < n → I t g (ls t)) →
    ∃ g' ls', runs n step fin sched g ls = .ok (g', ls') ∧ (∀ t, t < n → I t g' (ls' t)) ∧
      ∀ t, t < n → fin (ls' t) = true ∨ μ t (ls' t) + sched.count t ≤ μ t (ls t) := by
  intro sched
  induction sched with
  | nil =>
    intro g ls h
    exact ⟨g, ls, rfl, h, fun t _ => Or.inr (by simp)⟩
  | cons t ts ih =>
    intro g ls h
    unfold runs
    by_cases hc : t < n ∧ fin (ls t) = false
    · rw [if_pos hc]
      obtain ⟨g1, x1, h1, h2, h3, h4⟩ := hstep t g (ls t) hc.1 (h t hc.1) hc.2
      have hI : ∀ u, u < n → I u g1 (upd ls t x1 u) := by
        intro u hu
        by_cases hut : u = t
        · subst hut; simpa using h2
        · rw [upd_ne _ _ hut]; exact h4 u _ hu hut (h u hu)
      obtain ⟨g2, ls2, e1, e2, e3⟩ := ih g1 (upd ls t x1) hI
      refine ⟨g2, ls2, ?_, e2, ?_⟩
      · rw [h1]; exact e1
      · intro u hu
        by_cases hut : u = t
        · subst hut
          rcases e3 u hu with h | h
          · exact Or.inl h
          · rw [upd_same] at h
            rcases h3 with h3 | h3
            · left
              -- once finished, a thread stays finished
              have := runs_fin_stable (n := n) (step := step) (fin := fin) ts g1 (upd ls u x1) u
                (by simpa using h3)
              obtain ⟨g3, ls3, f1, f2⟩ : ∃ g3 ls3, runs n step fin ts g1 (upd ls u x1) = .ok (g3, ls3) ∧ True :=
                ⟨g2, ls2, e1, trivial⟩
              exact this g2 ls2 e1
            · right
              rw [List.count_cons_self]; omega
        · rcases e3 u hu with h | h
          · exact Or.inl h
          · right
            rw [upd_ne _ _ hut] at h
            have : (t :: ts).count u = ts.count u := by
              rw [List.count_cons]; simp; omega
            omega
    · rw [if_neg hc]
      obtain ⟨g2, ls2, e1, e2, e3⟩ := ih g ls h
      refine ⟨g2, ls2, e1, e2, ?_⟩
      intro u hu
      rcases e3 u hu with h' | h'
      · exact Or.inl h'
      · by_cases hut : u = t
        · subst hut
          have hf : fin (ls u) = true := by
            cases hfu : fin (ls u)
            · exact absurd ⟨hu, hfu⟩ hc
            · rfl
          exact Or.inl (runs_fin_stable ts g ls u hf g2 ls2 e1)
        · right
          have : (t :: ts).count u = ts.count u := by
            rw [List.count_cons]; simp; omega
          omega
where
  runs_fin_stable {n : Nat} {step : Nat → σ → l → Res (σ × l)} {fin : l → Bool} :
      ∀ (ts : List Nat) (g : σ) (ls : Nat → l) (u : Nat), fin (ls u) = true →
      ∀ g' ls', runs n step fin ts g ls = .ok (g', ls') → fin (ls' u) = true := by
    intro ts
    induction ts with
    | nil =>
      intro g ls u hf g' ls' h
      simp only [runs, Except.ok.injEq, Prod.mk.injEq] at h
      rw [← h.2]; exact hf
    | cons t ts ih =>
      intro g ls u hf g' ls' h
      unfold runs at h
      by_cases hc : t < n ∧ fin (ls t) = false
      · rw [if_pos hc] at h
        cases hs : step t g (ls t) with
        | error e => rw [hs] at h; simp at h
        | ok r =>
          rw [hs] at h
          refine ih r.1 (upd ls t r.2) u ?_ g' ls' h
          have : u ≠ t := by
            intro hut; subst hut; rw [hc.2] at hf; simp at hf
          rw [upd_ne _ _ this]; exact hf
      · rw [if_neg hc] at h
        exact ih g ls u hf g' ls' h

/-- A region never fails; when it ends, all assertions hold and all threads are
finished; it does end under every schedule that gives each thread enough steps. -/
theorem phase_inv {n : Nat} {step : Nat → σ → l → Res (σ × l)} {fin : l → Bool}
    (I : Nat → σ → l → Prop) (μ : Nat → l → Nat)
    (hstep : ∀ t g x, t < n → I t g x → fin x = false → ∃ g' x', step t g x = .ok (g', x') ∧ I t g' x' ∧
      (fin x' = true ∨ μ t x' < μ t x) ∧ ∀ u y, u < n → u ≠ t → I u g y → I u g' y)
    (sched : List Nat) (g : σ) (ls : Nat → l) (h0 : ∀ t, t < n → I t g (ls t)) :
    (phase n step fin sched g ls = .ok none ∧ ∃ t, t < n ∧ sched.count t ≤ μ t (ls t)) ∨
    ∃ g' ls', phase n step fin sched g ls = .ok (some (g', ls')) ∧
      ∀ t, t < n → fin (ls' t) = true ∧ I t g' (ls' t) := by
  obtain ⟨g', ls', h1, h2, h3⟩ := runs_inv I μ hstep sched g ls h0
  unfold phase
  rw [h1]
  simp only [ok_bind]
  by_cases hall : (List.range n).all (fun t => fin (ls' t)) = true
  · right
    refine ⟨g', ls', by simp [hall], ?_⟩
    intro t ht
    rw [List.all_eq_true] at hall
    exact ⟨hall t (by simpa using ht), h2 t ht⟩
  · left
    refine ⟨by simp [hall], ?_⟩
    rw [Bool.not_eq_true, List.all_eq_false] at hall
    obtain ⟨t, ht, hf⟩ := hall
    have ht' : t < n := by simpa using ht
    refine ⟨t, ht', ?_⟩
    rcases h3 t ht' with h | h
    · exact absurd h hf
    · omega

end Verif.Model
