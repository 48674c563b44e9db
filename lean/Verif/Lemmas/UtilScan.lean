import Verif.Model.UtilScan
import Verif.Lemmas.Scan
import Verif.Lemmas.Place

/-! # The prefix sum of `utility.h`: proofs -/

namespace Verif.Model.UtilScan

theorem start_eq (N n t : Nat) : start N n t = Scan.start N n t := by
  unfold start Scan.start; rw [Nat.mul_comm]

theorem stop_eq {N n t : Nat} (ht : t < n) : stop N n t = Scan.stop N n t := by
  unfold stop Scan.stop start
  by_cases h : t < n - 1
  · rw [if_pos h, if_pos (by omega), Nat.add_mul, Nat.one_mul, Nat.mul_comm]
  · rw [if_neg h, if_neg (by omega)]

theorem seqScan_eq {inp out : List Nat} {N : Nat} {f : Nat → Nat} (hN : 0 < N)
    (hin : ∀ i, i + 1 < N → inp[i]? = some (f i)) (hout : out.length = N) :
    seqScan inp N out = .ok (tab N (psum f)) := by
  unfold seqScan
  have hd := eq_tab out 0
  rw [hout] at hd
  rw [hd, wr_tab hN, ok_bind]
  obtain ⟨s, e1, g, e2, e3⟩ := forRange_inv (body := fun i (out : List Nat) => do
      let p ← rd out i
      let x ← rd inp i
      wr out (i + 1) (p + x))
    (fun k o => ∃ g, o = tab N g ∧ ∀ i ≤ k, g i = psum f i) 0 (N - 1) (by omega)
    (tab N (upd (fun i => out.getD i 0) 0 0)) ⟨_, rfl, fun i hi => by
      have : i = 0 := by omega
      subst this; rw [upd_same]; rfl⟩
    (by
      rintro k s _ hk ⟨g, rfl, hg⟩
      refine ⟨_, by rw [rd_tab (by omega), ok_bind, rd_of_getElem? (hin k (by omega)), ok_bind,
        wr_tab (by omega)], _, rfl, ?_⟩
      intro i hi
      by_cases hik : i = k + 1
      · subst hik
        rw [upd_same, hg k (Nat.le_refl _)]; rfl
      · rw [upd_ne _ _ hik]; exact hg i (by omega))
  rw [e1, e2]
  congr 1
  apply tab_ext
  intro i hi
  exact e3 i (by omega)

/-- Local sums of a block. -/
private def loc (f : Nat → Nat) (N n t k : Nat) : Nat := psum f k - psum f (start N n t)

theorem disj {N n t u k : Nat} (ht : t < n) (hu : u < n) (hne : u ≠ t) (h1 : start N n t ≤ k) (h2 : k < stop N n t)
    (h3 : start N n u ≤ k) (h4 : k < stop N n u) : False := by
  unfold stop start at *
  rcases Nat.lt_or_ge t u with h | h
  · rw [if_pos (by omega)] at h2
    have : N / n * (t + 1) ≤ N / n * u := Nat.mul_le_mul_left _ h
    rw [Nat.mul_add] at this; omega
  · rw [if_pos (by omega)] at h4
    have : N / n * (u + 1) ≤ N / n * t := Nat.mul_le_mul_left _ (by omega)
    rw [Nat.mul_add] at this; omega

/-- Every source cell `0, …, N-1` exists, the team has at most `N` threads: the result is the exclusive
prefix sum. -/
theorem scan_spec {inp out : List Nat} {N n : Nat} {f : Nat → Nat} (hN : 0 < N) (hn : 0 < n)
    (hnN : N < 2 ^ 17 ∨ n ≤ N) (hin : ∀ i, (i < N ∧ ¬ N < 2 ^ 17) ∨ i + 1 < N → inp[i]? = some (f i))
    (hout : out.length = N) (s1 s2 : List Nat) :
    (scan inp N out n s1 s2 = .ok none ∧ ∃ t < n, s1.count t ≤ N + 2 ∨ s2.count t ≤ N) ∨
    scan inp N out n s1 s2 = .ok (some (tab N (psum f))) := by
  unfold scan
  by_cases hc : N < 2 ^ 17
  · rw [if_pos hc, seqScan_eq hN (fun i hi => hin i (Or.inr hi)) hout]
    exact Or.inr rfl
  rw [if_neg hc]
  have hnN : n ≤ N := by omega
  have hin : ∀ i < N, inp[i]? = some (f i) := fun i hi => hin i (Or.inl ⟨hi, hc⟩)
  have hq : 0 < N / n := Nat.div_pos hnN hn
  have hlt : ∀ t, t < n → start N n t < stop N n t := by
    intro t ht
    unfold stop
    by_cases h : t < n - 1
    · rw [if_pos h]; omega
    · rw [if_neg h]
      rw [start_eq]; exact Scan.start_lt ht hN
  have hle : ∀ t, t < n → stop N n t ≤ N := by
    intro t ht; rw [stop_eq ht]; exact Scan.stop_le ht
  rcases phase_inv (n := n) (step := step1 inp N n) (fin := (· == .done))
    (fun t g c => g.1.length = N ∧ g.2.length = n ∧
      match c with
      | .first => True
      | .at i => start N n t ≤ i ∧ i < stop N n t ∧ ∀ k, start N n t ≤ k → k ≤ i → g.1[k]? = some (loc f N n t k)
      | .done => (∀ k, start N n t ≤ k → k < stop N n t → g.1[k]? = some (loc f N n t k)) ∧
          g.2[t]? = some (loc f N n t (stop N n t)))
    (fun t c => match c with
      | .first => N + 2
      | .at i => stop N n t + 1 - i
      | .done => 0)
    (by
      rintro t ⟨o, ps⟩ c ht ⟨hl1, hl2, hc⟩ hf
      simp only at hl1 hl2
      have h1 := hlt t ht
      have h2 := hle t ht
      cases c with
      | done => simp at hf
      | first =>
        refine ⟨(o.set (start N n t) 0, ps), .at (start N n t), ?_, ⟨by simp [hl1], hl2, Nat.le_refl _, h1, ?_⟩,
          Or.inr (by simp only; omega), ?_⟩
        · unfold step1; simp only; rw [wr_of_lt (by omega)]; rfl
        · intro k hk1 hk2
          have : k = start N n t := by omega
          subst this
          simp only
          rw [List.getElem?_set_self (by omega)]
          simp [loc]
        · rintro u y hu hne ⟨a, b, c⟩
          refine ⟨by simp [a], b, ?_⟩
          have hset : ∀ k, start N n u ≤ k → k < stop N n u → (o.set (start N n t) 0)[k]? = o[k]? := by
            intro k hk1 hk2
            rw [List.getElem?_set_ne]
            intro he
            exact disj (k := k) ht hu hne (by omega) (by omega) hk1 hk2
          cases y with
          | first => trivial
          | «at» i =>
            obtain ⟨c1, c2, c3⟩ := c
            exact ⟨c1, c2, fun k hk1 hk2 => by simp only; rw [hset k hk1 (by omega)]; exact c3 k hk1 hk2⟩
          | done =>
            exact ⟨fun k hk1 hk2 => by simp only; rw [hset k hk1 hk2]; exact c.1 k hk1 hk2, c.2⟩
      | «at» i =>
        obtain ⟨c1, c2, c3⟩ := hc
        simp only at c3
        by_cases hi : i < stop N n t - 1
        · refine ⟨(o.set (i + 1) (loc f N n t (i + 1)), ps), .at (i + 1), ?_,
            ⟨by simp [hl1], hl2, by omega, by omega, ?_⟩, Or.inr (by simp only; omega), ?_⟩
          · unfold step1
            simp only
            rw [if_neg (by omega), if_pos hi, rd_of_getElem? (c3 i c1 (Nat.le_refl _)), ok_bind,
              rd_of_getElem? (hin i (by omega)), ok_bind, wr_of_lt (by omega), ok_bind]
            have := psum_mono (f := f) c1
            congr 5
            unfold loc; simp only [psum]; omega
          · intro k hk1 hk2
            simp only
            by_cases hk : k = i + 1
            · subst hk; rw [List.getElem?_set_self (by omega)]
            · rw [List.getElem?_set_ne (by omega)]; exact c3 k hk1 (by omega)
          · rintro u y hu hne ⟨a, b, c⟩
            refine ⟨by simp [a], b, ?_⟩
            have hset : ∀ k, start N n u ≤ k → k < stop N n u →
                (o.set (i + 1) (loc f N n t (i + 1)))[k]? = o[k]? := by
              intro k hk1 hk2
              rw [List.getElem?_set_ne]
              intro he
              exact disj (k := k) ht hu hne (by omega) (by omega) hk1 hk2
            cases y with
            | first => trivial
            | «at» i =>
              obtain ⟨c1, c2, c3⟩ := c
              exact ⟨c1, c2, fun k hk1 hk2 => by simp only; rw [hset k hk1 (by omega)]; exact c3 k hk1 hk2⟩
            | done =>
              exact ⟨fun k hk1 hk2 => by simp only; rw [hset k hk1 hk2]; exact c.1 k hk1 hk2, c.2⟩
        · have hi2 : i = stop N n t - 1 := by omega
          refine ⟨(o, ps.set t (loc f N n t (stop N n t))), .done, ?_,
            ⟨hl1, by simp [hl2], ?_, ?_⟩, Or.inl rfl, ?_⟩
          · unfold step1
            simp only
            rw [if_neg (by omega), if_neg hi, rd_of_getElem? (c3 (stop N n t - 1) (by omega) (by omega)), ok_bind,
              rd_of_getElem? (hin (stop N n t - 1) (by omega)), ok_bind, wr_of_lt (by omega), ok_bind]
            have hm := psum_mono (f := f) (show start N n t ≤ stop N n t - 1 by omega)
            congr 5
            obtain ⟨j, hj⟩ : ∃ j, stop N n t = j + 1 := ⟨stop N n t - 1, by omega⟩
            unfold loc
            rw [hj] at hm ⊢
            simp only [psum, Nat.add_sub_cancel] at hm ⊢; omega
          · intro k hk1 hk2
            exact c3 k hk1 (by omega)
          · simp only
            rw [List.getElem?_set_self (by omega)]
          · rintro u y hu hne ⟨a, b, c⟩
            refine ⟨a, by simp [b], ?_⟩
            cases y with
            | first => trivial
            | «at» i => exact c
            | done => exact ⟨c.1, by simp only; rw [List.getElem?_set_ne (by omega)]; exact c.2⟩)
    s1 (out, List.replicate n 0) (fun _ => .first)
    (fun t ht => ⟨hout, by simp, trivial⟩) with ⟨h1, t, ht, hct⟩ | ⟨⟨o, ps⟩, ls, h1, h2⟩
  · left
    rw [h1]
    exact ⟨rfl, t, ht, Or.inl (by simpa using hct)⟩
  · rw [h1]
    simp only [ok_bind]
    have hfin : ∀ t < n, (∀ k, start N n t ≤ k → k < stop N n t → o[k]? = some (loc f N n t k)) ∧
          ps[t]? = some (loc f N n t (stop N n t)) := by
      intro t ht
      obtain ⟨hf, -, -, hc⟩ := h2 t ht
      have : ls t = .done := by simpa using hf
      rw [this] at hc
      exact hc
    have hol : o.length = N := (h2 0 hn).2.1
    have hoff : ∀ t < n, (forRange 0 t 0 fun j s => do
        let x ← rd ps j
        .ok (s + x) : Res Nat) = .ok (psum f (start N n t)) := by
      intro t ht
      obtain ⟨s, e1, e2⟩ := forRange_inv (body := fun j s => (do
        let x ← rd ps j
        .ok (s + x) : Res Nat)) (fun j s => s = psum f (start N n j)) 0 t (by omega) 0
        (by simp [start, psum])
        (by
          rintro j s _ hj rfl
          refine ⟨_, by rw [rd_of_getElem? (hfin j (by omega)).2, ok_bind], ?_⟩
          have hs : stop N n j = start N n (j + 1) := by
            unfold stop start; rw [if_pos (by omega), Nat.mul_add, Nat.mul_one]
          have := psum_mono (f := f) (Nat.le_of_lt (hlt j (by omega)))
          unfold loc
          rw [← hs]; omega)
      rw [e1, e2]
    rcases phase_inv (n := n) (step := fun t out (x : Nat × Nat) => (do
          let (out, i) ← step2 ps t out x.1
          .ok (out, (i, x.2)) : Res (List Nat × Nat × Nat))) (fin := fun x => decide (x.2 ≤ x.1))
      (fun t out x => out.length = N ∧ x.2 = stop N n t ∧ start N n t ≤ x.1 ∧
        (∀ k, start N n t ≤ k → k < x.1 → k < stop N n t → out[k]? = some (psum f k)) ∧
        ∀ k, x.1 ≤ k → k < stop N n t → out[k]? = some (loc f N n t k))
      (fun t x => stop N n t - x.1)
      (by
        rintro t o' ⟨i, e⟩ ht ⟨a, b, c, d1, d2⟩ hf
        simp only at b c d1 d2
        subst b
        have hf : i < stop N n t := by simpa using hf
        have h4 := hle t ht
        refine ⟨o'.set i (psum f i), (i + 1, stop N n t), ?_, ⟨by simp [a], rfl, by simp only; omega, ?_, ?_⟩,
          Or.inr (by simp only; omega), ?_⟩
        · unfold step2
          simp only
          rw [hoff t ht, ok_bind, rd_of_getElem? (d2 i (Nat.le_refl _) hf), ok_bind, wr_of_lt (by omega)]
          simp only [ok_bind]
          have := psum_mono (f := f) c
          have e : loc f N n t i + psum f (start N n t) = psum f i := by unfold loc; omega
          rw [e]
        · intro k hk1 hk2 hk3
          by_cases hk : k = i
          · subst hk; rw [List.getElem?_set_self (by omega)]
          · rw [List.getElem?_set_ne (by omega)]; exact d1 k hk1 (by simp only at hk2; omega) hk3
        · intro k hk1 hk2
          simp only at hk1
          rw [List.getElem?_set_ne (by omega)]; exact d2 k (by omega) hk2
        · rintro u ⟨j, e⟩ hu hne ⟨a', b', c', d1', d2'⟩
          have hset : ∀ k, start N n u ≤ k → k < stop N n u → (o'.set i (psum f i))[k]? = o'[k]? := by
            intro k hk1 hk2
            rw [List.getElem?_set_ne]
            intro he
            subst he
            exact disj ht hu hne c hf hk1 hk2
          exact ⟨by simp [a'], b', c', fun k h1 h2 h3 => by rw [hset k h1 h3]; exact d1' k h1 h2 h3,
            fun k h1 h2 => by
              rw [hset k (by simp only at c' h1; omega) h2]; exact d2' k h1 h2⟩)
      s2 o (fun t => (start N n t, stop N n t))
      (fun t ht => ⟨hol, rfl, Nat.le_refl _, fun k h1 h2 => by simp only at h2; omega, (hfin t ht).1⟩)
      with ⟨h3, t, ht, hct⟩ | ⟨o2, ls2, h3, h4⟩
    · left
      refine ⟨by rw [h3]; rfl, t, ht, Or.inr ?_⟩
      have := hle t ht
      simp only at hct; omega
    · right
      rw [h3]
      simp only [ok_bind]
      congr 2
      apply List.ext_getElem?
      intro i
      by_cases hi : i < N
      · rw [tab_getElem? hi]
        obtain ⟨t, ht, c1, c2⟩ := Scan.covered hn hi
        rw [← start_eq] at c1
        rw [← stop_eq ht] at c2
        obtain ⟨hf, -, e1, -, e2, -⟩ := h4 t ht
        have hf : stop N n t ≤ (ls2 t).1 := by rw [e1] at hf; simpa using hf
        exact e2 i c1 (by omega) c2
      · rw [List.getElem?_eq_none (by rw [(h4 0 hn).2.1]; omega), List.getElem?_eq_none (by simp; omega)]

/-- The source has one cell less than the destination, as in all callers, and the array is large: the last
thread always reads past the end, so no run gets past the barrier. -/
theorem scan_short {inp out : List Nat} {N n : Nat} (hn : 0 < n) (hN : ¬ N < 2 ^ 17) (hin : inp.length + 1 = N)
    (s1 s2 : List Nat) (r : List Nat) : scan inp N out n s1 s2 ≠ .ok (some r) := by
  intro h
  unfold scan at h
  rw [if_neg hN] at h
  have key : ∀ (sched : List Nat) (g : List Nat × List Nat) (ls : Nat → Ctl1) g' ls',
      ls (n - 1) ≠ .done → runs n (step1 inp N n) (· == .done) sched g ls = .ok (g', ls') → ls' (n - 1) ≠ .done := by
    intro sched
    induction sched with
    | nil =>
      intro g ls g' ls' h0 hr
      simp only [runs, Except.ok.injEq, Prod.mk.injEq] at hr
      rw [← hr.2]; exact h0
    | cons t ts ih =>
      intro g ls g' ls' h0 hr
      unfold runs at hr
      by_cases hc : t < n ∧ (ls t == Ctl1.done) = false
      · rw [if_pos hc] at hr
        cases hs : step1 inp N n t g (ls t) with
        | error e => rw [hs] at hr; simp at hr
        | ok q =>
          rw [hs] at hr
          refine ih q.1 (upd ls t q.2) g' ls' ?_ hr
          by_cases ht : t = n - 1
          · subst ht
            rw [upd_same]
            intro hq
            revert hs
            unfold step1
            have hst : stop N n (n - 1) = N := by unfold stop; rw [if_neg (by omega)]
            cases hl : ls (n - 1) with
            | done => exact fun _ => h0 hl
            | first =>
              simp only
              cases wr g.1 (start N n (n - 1)) 0 with
              | error e => simp
              | ok o => simp only [ok_bind, Except.ok.injEq]; rintro rfl; cases hq
            | «at» i =>
              simp only [hst]
              rw [if_neg (by omega)]
              split
              · cases rd g.1 i with
                | error e => simp
                | ok p =>
                  cases rd inp i with
                  | error e => simp
                  | ok x =>
                    simp only [ok_bind]
                    cases wr g.1 (i + 1) (p + x) with
                    | error e => simp
                    | ok o => simp only [ok_bind, Except.ok.injEq]; rintro rfl; cases hq
              · rw [rd_oob (a := inp) (by omega)]
                cases rd g.1 (N - 1) with
                | error e => simp
                | ok p => simp
          · rw [upd_ne _ _ (Ne.symm ht)]; exact h0
      · rw [if_neg hc] at hr
        exact ih g ls g' ls' h0 hr
  unfold phase at h
  cases hr : runs n (step1 inp N n) (· == .done) s1 (out, List.replicate n 0) (fun _ => .first) with
  | error e => rw [hr] at h; simp at h
  | ok q =>
    obtain ⟨g', ls'⟩ := q
    have := key s1 _ _ g' ls' (by simp) hr
    rw [hr] at h
    have hall : ((List.range n).all fun t => ls' t == Ctl1.done) = false := by
      rw [List.all_eq_false]
      exact ⟨n - 1, by simp; omega, by simpa using this⟩
    simp only [ok_bind, hall] at h
    simp at h

end Verif.Model.UtilScan
