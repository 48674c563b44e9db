import Verif.Model.Blocks
import Verif.Lemmas.Threads
import Verif.Lemmas.Assemble

/-! # Rule for regions in which every thread works on its own block of rows -/

namespace Verif.Model

variable {σ l α : Type}

/-- Rule for regions with an invariant of the whole state. -/
theorem runs_glob {n : Nat} {step : Nat → σ → l → Res (σ × l)} {fin : l → Bool}
    (G : σ → (Nat → l) → Prop) (μ : Nat → l → Nat)
    (hstep : ∀ t g ls, t < n → G g ls → fin (ls t) = false → ∃ g' x', step t g (ls t) = .ok (g', x') ∧
      G g' (upd ls t x') ∧ (fin x' = true ∨ μ t x' < μ t (ls t))) :
    ∀ (sched : List Nat) (g : σ) (ls : Nat → l), G g ls →
    ∃ g' ls', runs n step fin sched g ls = .ok (g', ls') ∧ G g' ls' ∧
      ∀ t, t < n → fin (ls' t) = true ∨ μ t (ls' t) + sched.count t ≤ μ t (ls t) := by
  intro sched
  induction sched with
  | nil =>
    intro g ls h
    exact ⟨g, ls, rfl, h, fun t _ => Or.inr (by simp)⟩
  | cons t ts ih =>
    intro g ls h
    unfold runs
    by_cases hc : t < n ∧ fin (ls t) = false
    · rw [if_pos hc]
      obtain ⟨g1, x1, h1, h2, h3⟩ := hstep t g ls hc.1 h hc.2
      obtain ⟨g2, ls2, e1, e2, e3⟩ := ih g1 (upd ls t x1) h2
      refine ⟨g2, ls2, by rw [h1]; exact e1, e2, ?_⟩
      intro u hu
      by_cases hut : u = t
      · subst hut
        rcases e3 u hu with h | h
        · exact Or.inl h
        · rw [upd_same] at h
          rcases h3 with h3 | h3
          · exact Or.inl (runs_inv.runs_fin_stable ts g1 (upd ls u x1) u (by simpa using h3) g2 ls2 e1)
          · right; rw [List.count_cons_self]; omega
      · rcases e3 u hu with h | h
        · exact Or.inl h
        · right
          rw [upd_ne _ _ hut] at h
          have : (t :: ts).count u = ts.count u := by
            rw [List.count_cons]; simp; omega
          omega
    · rw [if_neg hc]
      obtain ⟨g2, ls2, e1, e2, e3⟩ := ih g ls h
      refine ⟨g2, ls2, e1, e2, ?_⟩
      intro u hu
      rcases e3 u hu with h' | h'
      · exact Or.inl h'
      · by_cases hut : u = t
        · subst hut
          have hf : fin (ls u) = true := by
            cases hfu : fin (ls u)
            · exact absurd ⟨hu, hfu⟩ hc
            · rfl
          exact Or.inl (runs_inv.runs_fin_stable ts g ls u hf g2 ls2 e1)
        · right
          have : (t :: ts).count u = ts.count u := by
            rw [List.count_cons]; simp; omega
          omega

theorem phase_glob {n : Nat} {step : Nat → σ → l → Res (σ × l)} {fin : l → Bool}
    (G : σ → (Nat → l) → Prop) (μ : Nat → l → Nat)
    (hstep : ∀ t g ls, t < n → G g ls → fin (ls t) = false → ∃ g' x', step t g (ls t) = .ok (g', x') ∧
      G g' (upd ls t x') ∧ (fin x' = true ∨ μ t x' < μ t (ls t)))
    (sched : List Nat) (g : σ) (ls : Nat → l) (h0 : G g ls) :
    (phase n step fin sched g ls = .ok none ∧ ∃ t, t < n ∧ sched.count t ≤ μ t (ls t)) ∨
    ∃ g' ls', phase n step fin sched g ls = .ok (some (g', ls')) ∧ G g' ls' ∧ ∀ t, t < n → fin (ls' t) = true := by
  obtain ⟨g', ls', h1, h2, h3⟩ := runs_glob G μ hstep sched g ls h0
  unfold phase
  rw [h1]
  simp only [ok_bind]
  by_cases hall : (List.range n).all (fun t => fin (ls' t)) = true
  · right
    refine ⟨g', ls', by simp [hall], h2, ?_⟩
    intro t ht
    rw [List.all_eq_true] at hall
    exact hall t (by simpa using ht)
  · left
    refine ⟨by simp [hall], ?_⟩
    rw [Bool.not_eq_true, List.all_eq_false] at hall
    obtain ⟨t, ht, hf⟩ := hall
    have ht' : t < n := by simpa using ht
    refine ⟨t, ht', ?_⟩
    rcases h3 t ht' with h | h
    · exact absurd h hf
    · omega

/-- Block boundaries. -/
structure Bounds (n rows : Nat) (o : Nat → Nat) : Prop where
  first : o 0 = 0
  last : o n = rows
  mono : ∀ t < n, o t ≤ o (t + 1)

theorem Bounds.mono' {n rows : Nat} {o : Nat → Nat} (h : Bounds n rows o) {s t : Nat} (hst : s ≤ t) (ht : t ≤ n) :
    o s ≤ o t := by
  induction t with
  | zero => have : s = 0 := by omega
            subst this; exact Nat.le_refl _
  | succ t ih =>
    rcases Nat.lt_or_ge s (t + 1) with hs | hs
    · exact Nat.le_trans (ih (by omega) (by omega)) (h.mono t (by omega))
    · have : s = t + 1 := by omega
      subst this; exact Nat.le_refl _

theorem Bounds.le {n rows : Nat} {o : Nat → Nat} (h : Bounds n rows o) {t : Nat} (ht : t ≤ n) : o t ≤ rows := by
  rw [← h.last]; exact h.mono' ht (Nat.le_refl _)

theorem Bounds.disj {n rows : Nat} {o : Nat → Nat} (h : Bounds n rows o) {s t i : Nat} (hs : s < n) (ht : t < n)
    (h1 : o s ≤ i) (h2 : i < o (s + 1)) (h3 : o t ≤ i) (h4 : i < o (t + 1)) : s = t := by
  rcases Nat.lt_trichotomy s t with hlt | heq | hgt
  · have := h.mono' (s := s + 1) (t := t) (by omega) (by omega); omega
  · exact heq
  · have := h.mono' (s := t + 1) (t := s) (by omega) (by omega); omega

theorem Bounds.cover {n rows : Nat} {o : Nat → Nat} (h : Bounds n rows o) {i : Nat} (hi : i < rows) :
    ∃ t < n, o t ≤ i ∧ i < o (t + 1) := by
  have : ∀ m, m ≤ n → i < o m → ∃ t < m, o t ≤ i ∧ i < o (t + 1) := by
    intro m
    induction m with
    | zero => intro _ hm; rw [h.first] at hm; omega
    | succ m ih =>
      intro hm hlt
      by_cases hc : i < o m
      · obtain ⟨t, h1, h2⟩ := ih (by omega) hc
        exact ⟨t, by omega, h2⟩
      · exact ⟨m, by omega, by omega, hlt⟩
  obtain ⟨t, h1, h2⟩ := this n (Nat.le_refl _) (by rw [h.last]; exact hi)
  exact ⟨t, h1, h2⟩

/-- The rows that are done. -/
def doneRows (n : Nat) (o : Nat → Nat) (ls : Nat → Option (α × Nat × Nat)) (j : Nat) : Bool :=
  (List.range n).any fun t =>
    match ls t with
    | none => false
    | some (_, i, _) => decide (o t ≤ j) && decide (j < i)

theorem doneRows_iff {n : Nat} {o : Nat → Nat} {ls : Nat → Option (α × Nat × Nat)} {j : Nat} :
    doneRows n o ls j = true ↔ ∃ t < n, ∃ a i hi, ls t = some (a, i, hi) ∧ o t ≤ j ∧ j < i := by
  unfold doneRows
  rw [List.any_eq_true]
  constructor
  · rintro ⟨t, ht, h⟩
    refine ⟨t, by simpa using ht, ?_⟩
    cases hl : ls t with
    | none => simp [hl] at h
    | some x =>
      obtain ⟨a, i, hi⟩ := x
      simp only [hl, Bool.and_eq_true, decide_eq_true_eq] at h
      exact ⟨a, i, hi, rfl, h.1, h.2⟩
  · rintro ⟨t, ht, a, i, hi, hl, h⟩
    exact ⟨t, by simpa using ht, by simp [hl, h.1, h.2]⟩

/-- A region in which row `i` turns the state `S D` into the state with `i` added to the set `D` of done rows. `I t a` is what
thread `t` knows about its tables. -/
theorem blocks_ok {n rows : Nat} {o : Nat → Nat} {off : List Nat} (ho : Bounds n rows o)
    (hoff : ∀ t ≤ n, off[t]? = some (o t)) {init : Nat → Nat → Nat → Res α} {row : Nat → σ → α → Res (σ × α)}
    (S : (Nat → Bool) → σ) (I : Nat → α → Prop)
    (hinit : ∀ t < n, ∃ a, init t (o t) (o (t + 1)) = .ok a ∧ I t a)
    (hrow : ∀ t < n, ∀ D i a, o t ≤ i → i < o (t + 1) → D i = false → I t a →
      ∃ a', row i (S D) a = .ok (S (fun j => D j || j == i), a') ∧ I t a')
    (sched : List Nat) :
    (blocks n off init row sched (S fun _ => false) = .ok none ∧ ∃ t < n, sched.count t ≤ rows + 1) ∨
    ∃ as, blocks n off init row sched (S fun _ => false) = .ok (some (S fun j => decide (j < rows), as)) ∧
      ∀ t < n, ∃ a, as[t]? = some a ∧ I t a := by
  have hph := phase_glob (n := n) (step := blockStep off init row) (fin := blockFin)
    (fun g ls => g = S (doneRows n o ls) ∧ ∀ t < n, ∀ a i hi, ls t = some (a, i, hi) →
      hi = o (t + 1) ∧ o t ≤ i ∧ i ≤ hi ∧ I t a)
    (fun t x => match x with
      | none => rows + 1
      | some (_, i, hi) => hi - i)
    (by
      rintro t g ls ht ⟨hg, hl⟩ hfin
      cases hx : ls t with
      | none =>
        obtain ⟨a, ha, hIa⟩ := hinit t ht
        refine ⟨g, some (a, o t, o (t + 1)), ?_, ⟨?_, ?_⟩, ?_⟩
        · unfold blockStep
          simp only [rd_of_getElem? (hoff t (by omega)), rd_of_getElem? (hoff (t + 1) (by omega)), ok_bind, ha]
        · rw [hg]
          congr 1
          funext j
          rw [Bool.eq_iff_iff, doneRows_iff, doneRows_iff]
          constructor
          · rintro ⟨u, hu, b, i, hi, e, h1, h2⟩
            have hut : u ≠ t := by intro h; subst h; rw [hx] at e; cases e
            exact ⟨u, hu, b, i, hi, by rw [upd_ne _ _ hut]; exact e, h1, h2⟩
          · rintro ⟨u, hu, b, i, hi, e, h1, h2⟩
            by_cases hut : u = t
            · subst hut; rw [upd_same] at e; cases e; omega
            · rw [upd_ne _ _ hut] at e
              exact ⟨u, hu, b, i, hi, e, h1, h2⟩
        · intro u hu b i hi e
          by_cases hut : u = t
          · subst hut; rw [upd_same] at e; cases e
            exact ⟨rfl, Nat.le_refl _, ho.mono u hu, hIa⟩
          · rw [upd_ne _ _ hut] at e
            exact hl u hu b i hi e
        · right
          have := ho.le (t := t + 1) (by omega)
          simp only; omega
      | some x =>
        obtain ⟨a, i, hi⟩ := x
        obtain ⟨h1, h2, h3, h4⟩ := hl t ht a i hi hx
        have hlt : i < hi := by
          rw [hx] at hfin
          simpa [blockFin] using hfin
        have hD : doneRows n o ls i = false := by
          cases hd : doneRows n o ls i with
          | false => rfl
          | true =>
            exfalso
            obtain ⟨u, hu, b, i', hi', e, k1, k2⟩ := doneRows_iff.1 hd
            obtain ⟨m1, m2, m3, _⟩ := hl u hu b i' hi' e
            have := ho.disj hu ht k1 (by omega) h2 (by omega)
            subst this
            rw [hx] at e; cases e; omega
        obtain ⟨a', e1, e2⟩ := hrow t ht _ i a h2 (by omega) hD h4
        refine ⟨S fun j => doneRows n o ls j || j == i, some (a', i + 1, hi), ?_, ⟨?_, ?_⟩, ?_⟩
        · unfold blockStep
          simp only [hg, e1, ok_bind]
        · congr 1
          funext j
          rw [Bool.eq_iff_iff, doneRows_iff, Bool.or_eq_true, doneRows_iff, beq_iff_eq]
          constructor
          · rintro (⟨u, hu, b, i', hi', e, k1, k2⟩ | rfl)
            · by_cases hut : u = t
              · subst hut; rw [hx] at e; cases e
                exact ⟨u, hu, a', i + 1, hi, upd_same _ _ _, k1, by omega⟩
              · exact ⟨u, hu, b, i', hi', by rw [upd_ne _ _ hut]; exact e, k1, k2⟩
            · exact ⟨t, ht, a', j + 1, hi, upd_same _ _ _, h2, by omega⟩
          · rintro ⟨u, hu, b, i', hi', e, k1, k2⟩
            by_cases hut : u = t
            · subst hut; rw [upd_same] at e; cases e
              by_cases hji : j = i
              · exact Or.inr hji
              · exact Or.inl ⟨u, hu, a, i, hi, hx, k1, by omega⟩
            · rw [upd_ne _ _ hut] at e
              exact Or.inl ⟨u, hu, b, i', hi', e, k1, k2⟩
        · intro u hu b i' hi' e
          by_cases hut : u = t
          · subst hut; rw [upd_same] at e; cases e
            exact ⟨h1, by omega, by omega, e2⟩
          · rw [upd_ne _ _ hut] at e
            exact hl u hu b i' hi' e
        · right
          simp only; omega)
    sched (S fun _ => false) (fun _ => none)
    ⟨by congr 1; funext j; unfold doneRows; simp, by intro t _ a i hi e; cases e⟩
  unfold blocks
  rcases hph with ⟨e, t, ht, hc⟩ | ⟨g', ls', e, ⟨hg, hl⟩, hfin⟩
  · left
    rw [e]
    exact ⟨rfl, t, ht, hc⟩
  · right
    have hsome : ∀ t < n, ∃ a i hi, ls' t = some (a, i, hi) ∧ hi ≤ i := by
      intro t ht
      have := hfin t ht
      cases hx : ls' t with
      | none => rw [hx] at this; simp [blockFin] at this
      | some x =>
        obtain ⟨a, i, hi⟩ := x
        rw [hx] at this
        exact ⟨a, i, hi, rfl, by simpa [blockFin] using this⟩
    refine ⟨(List.range n).filterMap fun t => (ls' t).map (·.1), ?_, ?_⟩
    · rw [e]
      simp only [ok_bind]
      have : g' = S fun j => decide (j < rows) := by
        rw [hg]
        congr 1
        funext j
        rw [Bool.eq_iff_iff, doneRows_iff, decide_eq_true_eq]
        constructor
        · rintro ⟨t, ht, a, i, hi, e, k1, k2⟩
          have := hl t ht a i hi e
          have := ho.le (t := t + 1) (by omega)
          omega
        · intro hj
          obtain ⟨t, ht, k1, k2⟩ := ho.cover hj
          obtain ⟨a, i, hi, e, h⟩ := hsome t ht
          have := hl t ht a i hi e
          exact ⟨t, ht, a, i, hi, e, k1, by omega⟩
      rw [this]
    · intro t ht
      obtain ⟨a, i, hi, e, h⟩ := hsome t ht
      refine ⟨a, ?_, (hl t ht a i hi e).2.2.2⟩
      have key : ∀ m, m ≤ n → ((List.range m).filterMap fun t => (ls' t).map (·.1)).length = m := by
        intro m
        induction m with
        | zero => intro _; rfl
        | succ m ih =>
          intro hm
          obtain ⟨a, i, hi, e, h⟩ := hsome m (by omega)
          rw [List.range_succ, List.filterMap_append, List.length_append, ih (by omega)]
          simp [e]
      have hsplit : List.range n = List.range t ++ t :: List.range' (t + 1) (n - (t + 1)) := by
        rw [List.range_eq_range', List.range_eq_range', ← List.range'_succ]
        have := (List.range'_append_1 (s := 0) (m := t) (n := n - (t + 1) + 1)).symm
        simp only [Nat.zero_add] at this
        rw [show t + (n - (t + 1) + 1) = n by omega] at this
        exact this
      rw [hsplit, List.filterMap_append, List.getElem?_append_right (by rw [key t (by omega)]; omega),
        key t (by omega), Nat.sub_self, List.filterMap_cons, e]
      rfl

end Verif.Model

namespace Verif.Model

variable {V α : Type}

/-- The prefix sum of `utility.h` for fewer than 2^17 cells. -/
theorem scan_small {rows : Nat} {f : Nat → Nat} (h : rows + 1 < 2 ^ 17) (nd : Nat) (s1 s2 : List Nat) :
    UtilScan.scan (tab rows f) (rows + 1) (List.replicate (rows + 1) 0) nd s1 s2 = .ok (some (tab (rows + 1) (psum f))) := by
  unfold UtilScan.scan
  rw [if_pos h, UtilScan.seqScan_eq (f := f) (by omega) (by intro i hi; rw [tab_getElem? (by omega)]) (by simp)]
  rfl

/-- First pass of the older kernels: each row stores its number of entries. -/
theorem count_ok {n rows : Nat} {o : Nat → Nat} {off : List Nat} (ho : Bounds n rows o)
    (hoff : ∀ t ≤ n, off[t]? = some (o t)) {init : Nat → Nat → Nat → Res α} {row : Nat → List Nat → α → Res (List Nat × α)}
    {cnt : Nat → Nat} (I : Nat → α → Prop) (hinit : ∀ t < n, ∃ a, init t (o t) (o (t + 1)) = .ok a ∧ I t a)
    (hrow : ∀ t < n, ∀ i a, o t ≤ i → i < o (t + 1) → I t a → ∀ g, ∃ a', row i (tab rows g) a = .ok (tab rows (upd g i (cnt i)), a') ∧ I t a')
    (g0 : Nat → Nat) (sched : List Nat) :
    (blocks n off init row sched (tab rows g0) = .ok none ∧ ∃ t < n, sched.count t ≤ rows + 1) ∨
    ∃ as, blocks n off init row sched (tab rows g0) = .ok (some (tab rows cnt, as)) ∧ ∀ t < n, ∃ a, as[t]? = some a ∧ I t a := by
  have := blocks_ok ho hoff (S := fun D => tab rows fun i => if D i then cnt i else g0 i) I hinit (row := row) (by
    intro t ht D i a h1 h2 _ hI
    obtain ⟨a', e1, e2⟩ := hrow t ht i a h1 h2 hI (fun i => if D i then cnt i else g0 i)
    refine ⟨a', ?_, e2⟩
    rw [e1]
    congr 2
    apply tab_ext
    intro j _
    by_cases hj : j = i
    · subst hj; rw [upd_same]; simp
    · rw [upd_ne _ _ hj]; simp [hj]) sched
  have e0 : (tab rows fun i => if (fun _ => false : Nat → Bool) i then cnt i else g0 i) = tab rows g0 := by simp
  have e1 : (tab rows fun i => if (fun j => decide (j < rows)) i then cnt i else g0 i) = tab rows cnt := by
    apply tab_ext; intro i hi; simp [hi]
  rw [e0, e1] at this
  exact this

/-- The arrays after row `i` has been written. -/
def putRow (exp : Nat → List (Nat × V)) (i : Nat) (X : List (Nat × V)) : List (Nat × V) :=
  X.take (psum (lens exp) i) ++ exp i ++ X.drop (psum (lens exp) (i + 1))

/-- Second pass of the older kernels: each row writes its entries. -/
theorem fill_ok {n rows : Nat} {o : Nat → Nat} {off : List Nat} (ho : Bounds n rows o)
    (hoff : ∀ t ≤ n, off[t]? = some (o t)) {init : Nat → Nat → Nat → Res α}
    {row : Nat → List Nat × List V → α → Res ((List Nat × List V) × α)}
    {exp : Nat → List (Nat × V)} (I : Nat → α → Prop) (hinit : ∀ t < n, ∃ a, init t (o t) (o (t + 1)) = .ok a ∧ I t a)
    (hrow : ∀ t < n, ∀ i a, o t ≤ i → i < o (t + 1) → I t a → ∀ X : List (Nat × V), psum (lens exp) (i + 1) ≤ X.length →
      ∃ a', row i (X.map (·.1), X.map (·.2)) a = .ok (((putRow exp i X).map (·.1), (putRow exp i X).map (·.2)), a') ∧ I t a')
    (dflt : V) (sched : List Nat) :
    (blocks n off init row sched (List.replicate (psum (lens exp) rows) 0, List.replicate (psum (lens exp) rows) dflt) = .ok none ∧
      ∃ t < n, sched.count t ≤ rows + 1) ∨
    ∃ as, blocks n off init row sched (List.replicate (psum (lens exp) rows) 0, List.replicate (psum (lens exp) rows) dflt) =
      .ok (some (((seg exp 0 rows).map (·.1), (seg exp 0 rows).map (·.2)), as)) := by
  have := blocks_ok ho hoff (S := fun D => ((partly exp (0, dflt) D rows).map (·.1), (partly exp (0, dflt) D rows).map (·.2)))
    I hinit (row := row) (by
    intro t ht D i a h1 h2 _ hI
    have hi : i < rows := by have := ho.le (t := t + 1) (by omega); omega
    obtain ⟨a', e1, e2⟩ := hrow t ht i a h1 h2 hI (partly exp (0, dflt) D rows)
      (by rw [partly_length]; exact psum_mono hi)
    refine ⟨a', ?_, e2⟩
    rw [e1]
    unfold putRow
    rw [partly_add _ _ _ hi]) sched
  have e0 : ((partly exp (0, dflt) (fun _ => false) rows).map (·.1), (partly exp (0, dflt) (fun _ => false) rows).map (·.2)) =
      (List.replicate (psum (lens exp) rows) 0, List.replicate (psum (lens exp) rows) dflt) := by
    rw [partly_none]; simp
  simp only [e0, partly_all] at this
  rcases this with h | ⟨as, h, _⟩
  · exact Or.inl h
  · exact Or.inr ⟨as, h⟩

end Verif.Model
