import Verif.Model.StlHeap

/-! # Correctness of the heap functions of libstdc++ -/

namespace Verif.Model.Heap

open List (Perm)

variable {P : Type}

theorem lt_iff {a b : EntOf P} : a.lt b = true ↔ b.key < a.key := by simp [EntOf.lt]

/-- Heap order on all edges whose parent is at index `T` or later. -/
def HF (T n : Nat) (f : Nat → EntOf P) : Prop :=
  ∀ i, 0 < i → i < n → T ≤ (i - 1) / 2 → (f ((i - 1) / 2)).key ≤ (f i).key

/-- Heap order on all those edges that avoid the hole `h`; the parent of the hole is in order
with the children of the hole. -/
structure Hole (T n : Nat) (f : Nat → EntOf P) (h : Nat) : Prop where
  edge : ∀ i, 0 < i → i < n → T ≤ (i - 1) / 2 → i ≠ h → (i - 1) / 2 ≠ h →
    (f ((i - 1) / 2)).key ≤ (f i).key
  gp : ∀ i, 0 < i → i < n → (i - 1) / 2 = h → T < h → T ≤ (h - 1) / 2 →
    (f ((h - 1) / 2)).key ≤ (f i).key

/-- `h` is `T` or a descendant of `T`. -/
inductive Desc (T : Nat) : Nat → Prop
  | refl : Desc T T
  | step {h : Nat} : 0 < h → Desc T ((h - 1) / 2) → Desc T h

theorem Desc.le {T h : Nat} (d : Desc T h) : T ≤ h := by
  induction d with
  | refl => exact Nat.le_refl _
  | step h _ ih => omega

theorem Desc.parent {T h : Nat} (d : Desc T h) (hlt : T < h) : Desc T ((h - 1) / 2) := by
  cases d with
  | refl => omega
  | step _ d => exact d

theorem Desc.child {T h c : Nat} (d : Desc T h) (hc : 0 < c) (e : (c - 1) / 2 = h) : Desc T c :=
  .step hc (e ▸ d)

/-- Moving the hole from `h` to `c` permutes the array. -/
theorem move_perm {n h c : Nat} (f : Nat → EntOf P) (v : EntOf P) (hh : h < n) (hc : c < n) (hne : h ≠ c) :
    (tab n (upd (upd f h (f c)) c v)).Perm (tab n (upd f h v)) := by
  have := List.set_set_perm (as := tab n (upd f h v)) (i := h) (j := c) (by simpa using hh) (by simpa using hc)
  have e1 : (tab n (upd f h v))[c]'(by simpa using hc) = f c := by
    simp [tab, upd, Ne.symm hne]
  have e2 : (tab n (upd f h v))[h]'(by simpa using hh) = v := by
    simp [tab, upd]
  rw [e1, e2, tab_set, tab_set] at this
  refine Perm.trans (Perm.of_eq ?_) this
  apply tab_ext
  intro i _
  unfold upd
  split
  · rfl
  · split <;> rfl

theorem pushHole_ok {T n N : Nat} (hN : n ≤ N) (v : EntOf P) : ∀ (fuel hole : Nat) (f : Nat → EntOf P), hole < fuel →
    hole < n → Desc T hole → Hole T n f hole →
    (∀ i, 0 < i → i < n → (i - 1) / 2 = hole → v.key ≤ (f i).key) →
    ∃ g, pushHole T v fuel hole (tab N f) = .ok (tab N g) ∧ HF T n g ∧
      (tab n g).Perm (tab n (upd f hole v)) ∧ ∀ i, n ≤ i → g i = f i := by
  intro fuel
  induction fuel with
  | zero => intro hole f h; omega
  | succ fuel ih =>
    intro hole f hfuel hn hd hh hch
    -- the case in which the loop ends
    have stop : (T < hole → (f ((hole - 1) / 2)).key ≤ v.key) →
        ∃ g, (.ok (tab N (upd f hole v)) : Res _) = .ok (tab N g) ∧ HF T n g ∧
          (tab n g).Perm (tab n (upd f hole v)) ∧ ∀ i, n ≤ i → g i = f i := by
      intro hpv
      refine ⟨upd f hole v, rfl, ?_, Perm.refl _, ?_⟩
      · intro i hi0 hin hT
        by_cases h1 : i = hole
        · subst h1
          rw [upd_same, upd_ne _ _ (by omega)]
          exact hpv (by omega)
        · rw [upd_ne _ _ h1]
          by_cases h2 : (i - 1) / 2 = hole
          · rw [h2, upd_same]; exact hch i hi0 hin h2
          · rw [upd_ne _ _ h2]; exact hh.edge i hi0 hin hT h1 h2
      · intro i hi
        rw [upd_ne _ _ (by omega)]
    unfold pushHole
    by_cases hT : T < hole
    · rw [if_pos hT]
      have hpar : (hole - 1) / 2 < hole := by omega
      rw [rd_tab (by omega)]
      simp only [ok_bind]
      by_cases hk : v.key < (f ((hole - 1) / 2)).key
      · rw [if_pos (lt_iff.2 hk), wr_tab (by omega)]
        simp only [ok_bind]
        have hdp := hd.parent hT
        have hTp := hdp.le
        obtain ⟨g, hg1, hg2, hg3, hg4⟩ := ih ((hole - 1) / 2) (upd f hole (f ((hole - 1) / 2))) (by omega)
          (by omega) hdp
          ⟨by
            intro i hi0 hin hTi h1 h2
            by_cases h3 : i = hole
            · exact absurd (h3 ▸ rfl) h2
            · rw [upd_ne _ _ h3]
              by_cases h4 : (i - 1) / 2 = hole
              · rw [h4, upd_same]; exact hh.gp i hi0 hin h4 hT hTp
              · rw [upd_ne _ _ h4]; exact hh.edge i hi0 hin hTi h3 h4,
           by
            intro i hi0 hin hpi hTp' hTpp
            have e1 : (f (((hole - 1) / 2 - 1) / 2)).key ≤ (f ((hole - 1) / 2)).key :=
              hh.edge _ (by omega) (by omega) hTpp (by omega) (by omega)
            rw [upd_ne (i := hole) (j := ((hole - 1) / 2 - 1) / 2) _ _ (by omega)]
            by_cases h3 : i = hole
            · rw [h3, upd_same]; exact e1
            · rw [upd_ne _ _ h3]
              have := hh.edge i hi0 hin (by omega) h3 (by omega)
              rw [hpi] at this; omega⟩
          (by
            intro i hi0 hin hpi
            by_cases h3 : i = hole
            · rw [h3, upd_same]; omega
            · rw [upd_ne _ _ h3]
              have := hh.edge i hi0 hin (by omega) h3 (by omega)
              rw [hpi] at this; omega)
        refine ⟨g, hg1, hg2, hg3.trans (move_perm f v hn (by omega) (by omega)), ?_⟩
        intro i hi
        rw [hg4 i hi, upd_ne _ _ (by omega)]
      · rw [if_neg (fun h => hk (lt_iff.1 h)), wr_tab (by omega)]
        exact stop (fun _ => by omega)
    · rw [if_neg hT, wr_tab (by omega)]
      exact stop (fun h => absurd h hT)

/-- One step of the hole towards a smallest child. -/
theorem Hole.down {T n h c : Nat} {f : Nat → EntOf P} (hh : Hole T n f h) (hd : Desc T h) (hc0 : 0 < c) (hcn : c < n)
    (hpc : (c - 1) / 2 = h) (hmin : ∀ i, 0 < i → i < n → (i - 1) / 2 = h → (f c).key ≤ (f i).key) :
    Hole T n (upd f h (f c)) c where
  edge := by
    intro i hi0 hin hT h1 h2
    by_cases h3 : i = h
    · subst h3
      have : (i - 1) / 2 ≠ i := by omega
      rw [upd_same, upd_ne _ _ this]
      exact hh.gp c hc0 hcn hpc (by omega) hT
    · rw [upd_ne _ _ h3]
      by_cases h4 : (i - 1) / 2 = h
      · rw [h4, upd_same]; exact hmin i hi0 hin h4
      · rw [upd_ne _ _ h4]; exact hh.edge i hi0 hin hT h3 h4
  gp := by
    intro i hi0 hin hpi hT hTp
    have hle := hd.le
    rw [hpc, upd_same, upd_ne _ _ (by omega)]
    have := hh.edge i hi0 hin (by omega) (by omega) (by omega)
    rwa [hpi] at this

theorem sinkHole_ok {T n N : Nat} (hN : n ≤ N) (v : EntOf P) : ∀ (fuel hole : Nat) (f : Nat → EntOf P), n < fuel + hole →
    hole < n → Desc T hole → Hole T n f hole →
    ∃ g hole', sinkHole n fuel hole (tab N f) = .ok (tab N g, hole') ∧ hole' < n ∧ Desc T hole' ∧
      Hole T n g hole' ∧ (n - 1) / 2 ≤ hole' ∧
      (tab n (upd g hole' v)).Perm (tab n (upd f hole v)) ∧ ∀ i, n ≤ i → g i = f i := by
  intro fuel
  induction fuel with
  | zero => intro hole f h1 h2; omega
  | succ fuel ih =>
    intro hole f hfuel hn hd hh
    unfold sinkHole
    by_cases hlt : hole < (n - 1) / 2
    · rw [if_pos hlt]
      simp only []
      rw [rd_tab (by omega), ok_bind, rd_tab (by omega), ok_bind]
      -- the chosen child
      obtain ⟨c, hc⟩ : ∃ c, (if (f (2 * (hole + 1))).lt (f (2 * (hole + 1) - 1)) = true then 2 * (hole + 1) - 1
        else 2 * (hole + 1)) = c := ⟨_, rfl⟩
      simp only [hc]
      have hcc : c = 2 * (hole + 1) - 1 ∧ (f (2 * (hole + 1) - 1)).key ≤ (f (2 * (hole + 1))).key ∨
          c = 2 * (hole + 1) ∧ (f (2 * (hole + 1))).key ≤ (f (2 * (hole + 1) - 1)).key := by
        rw [← hc]
        by_cases h : (f (2 * (hole + 1) - 1)).key < (f (2 * (hole + 1))).key
        · rw [if_pos (lt_iff.2 h)]; exact .inl ⟨rfl, by omega⟩
        · rw [if_neg (fun h' => h (lt_iff.1 h'))]; exact .inr ⟨rfl, by omega⟩
      have hc1 : c < n := by omega
      have hc2 : 0 < c := by omega
      have hc3 : (c - 1) / 2 = hole := by omega
      rw [rd_tab (by omega), ok_bind, wr_tab (by omega), ok_bind]
      have hmin : ∀ i, 0 < i → i < n → (i - 1) / 2 = hole → (f c).key ≤ (f i).key := by
        intro i hi0 hin hpi
        have : i = 2 * (hole + 1) - 1 ∨ i = 2 * (hole + 1) := by omega
        rcases this with rfl | rfl <;> rcases hcc with ⟨rfl, h⟩ | ⟨rfl, h⟩ <;> omega
      obtain ⟨g, hole', h1, h2, h3, h4, h5, h6, h7⟩ := ih c (upd f hole (f c)) (by omega) hc1
        (hd.child hc2 hc3) (hh.down hd hc2 hc1 hc3 hmin)
      refine ⟨g, hole', h1, h2, h3, h4, h5, h6.trans (move_perm f v hn hc1 (by omega)), ?_⟩
      intro i hi
      rw [h7 i hi, upd_ne _ _ (by omega)]
    · rw [if_neg hlt]
      exact ⟨f, hole, rfl, hn, hd, hh, by omega, Perm.refl _, fun _ _ => rfl⟩

theorem adjust_ok {T n N : Nat} (hN : n ≤ N) (v : EntOf P) (f : Nat → EntOf P) (hT : T < n)
    (hh : HF (T + 1) n f) :
    ∃ g, adjust (tab N f) T n v = .ok (tab N g) ∧ HF T n g ∧ (tab n g).Perm (tab n (upd f T v)) ∧
      ∀ i, n ≤ i → g i = f i := by
  have h0 : Hole T n f T := ⟨fun i hi0 hin hTi h1 h2 => hh i hi0 hin (by omega), fun _ _ _ _ h => by omega⟩
  obtain ⟨g, hole, h1, h2, h3, h4, h5, h6, h7⟩ := sinkHole_ok hN v (n + 1) T f (by omega) hT .refl h0
  unfold adjust
  rw [h1]
  simp only [ok_bind]
  by_cases hc : n % 2 = 0 ∧ hole = (n - 2) / 2
  · rw [if_pos hc, rd_tab (by omega), ok_bind, wr_tab (by omega), ok_bind]
    have hc1 : 2 * (hole + 1) - 1 < n := by omega
    have hc2 : 0 < 2 * (hole + 1) - 1 := by omega
    have hc3 : (2 * (hole + 1) - 1 - 1) / 2 = hole := by omega
    obtain ⟨g', k1, k2, k3, k4⟩ := pushHole_ok hN v (2 * (hole + 1) - 1 + 1) (2 * (hole + 1) - 1)
      (upd g hole (g (2 * (hole + 1) - 1))) (by omega) hc1 (h3.child hc2 hc3)
      (h4.down h3 hc2 hc1 hc3 (by
        intro i hi0 hin hpi
        have : i = 2 * (hole + 1) - 1 := by omega
        rw [this]; exact Nat.le_refl _))
      (by intro i hi0 hin hpi; omega)
    refine ⟨g', k1, k2, (k3.trans (move_perm g v h2 hc1 (by omega))).trans h6, ?_⟩
    intro i hi
    rw [k4 i hi, upd_ne _ _ (by omega), h7 i hi]
  · rw [if_neg hc]
    obtain ⟨g', k1, k2, k3, k4⟩ := pushHole_ok hN v (hole + 1) hole g (by omega) h2 h3 h4
      (by intro i hi0 hin hpi; omega)
    exact ⟨g', k1, k2, k3.trans h6, fun i hi => (k4 i hi).trans (h7 i hi)⟩

/-! ## Lists -/

/-- Heap order for lists. -/
def IsHeap [Inhabited P] (T : Nat) (a : List (EntOf P)) : Prop := HF T a.length fun i => a.getD i ⟨0, 0, default⟩

theorem tab_getD [Inhabited P] {n : Nat} (f : Nat → EntOf P) {i : Nat} (h : i < n) : (tab n f).getD i ⟨0, 0, default⟩ = f i := by
  simp [List.getD, tab_getElem? h]

theorem HF.congr {T n : Nat} {f g : Nat → EntOf P} (h : HF T n f) (e : ∀ i < n, f i = g i) : HF T n g := by
  intro i h0 hn hT
  rw [← e i hn, ← e _ (by omega)]
  exact h i h0 hn hT

theorem isHeap_tab [Inhabited P] {T n : Nat} {f : Nat → EntOf P} : IsHeap T (tab n f) ↔ HF T n f := by
  unfold IsHeap
  rw [tab_length]
  exact ⟨fun h => h.congr fun i hi => tab_getD f hi, fun h => h.congr fun i hi => (tab_getD f hi).symm⟩

/-- Lists as tables. -/
theorem exists_tab [Inhabited P] (a : List (EntOf P)) : ∃ f, a = tab a.length f := ⟨_, eq_tab a ⟨0, 0, default⟩⟩

theorem tab_succ {n : Nat} (f : Nat → EntOf P) : tab (n + 1) f = tab n f ++ [f n] := by
  simp [tab, List.range_succ]

theorem tab_cons {n : Nat} (f : Nat → EntOf P) : tab (n + 1) f = f 0 :: tab n (fun i => f (i + 1)) := by
  simp [tab, List.range_succ_eq_map, List.map_map, Function.comp_def]

/-- `pop_heap` on a range that is a heap except perhaps at its root: the root moves to the
end and the rest becomes a heap. -/
theorem popHeap_ok [Inhabited P] (e : EntOf P) (r : List (EntOf P)) (h : IsHeap 1 (e :: r)) :
    ∃ r', popHeap (e :: r) = .ok (r' ++ [e]) ∧ r'.Perm r ∧ IsHeap 0 r' := by
  obtain ⟨f, hf⟩ := exists_tab (e :: r)
  rw [hf, isHeap_tab] at h
  simp only [List.length_cons] at hf h
  unfold popHeap
  by_cases hr : r = []
  · subst hr
    exact ⟨[], by simp, .refl _, by intro i _ h; simp at h⟩
  have hl : 0 < r.length := List.length_pos_iff.2 hr
  rw [if_pos (by simp; omega)]
  have hl1 : (e :: r).length - 1 = r.length := by simp
  simp only [hl1]
  rw [hf, rd_tab (by omega), ok_bind, rd_tab (by omega), ok_bind, wr_tab (by omega), ok_bind]
  obtain ⟨g, h1, h2, h3, h4⟩ := adjust_ok (T := 0) (n := r.length) (N := r.length + 1) (by omega) (f r.length)
    (upd f r.length (f 0)) hl (by
      intro i hi0 hin hT
      rw [upd_ne _ _ (by omega), upd_ne _ _ (by omega)]
      exact h i hi0 (by omega) hT)
  have he : f 0 = e := by
    have := hf
    rw [tab_cons] at this
    exact (List.cons.inj this).1.symm
  refine ⟨tab r.length g, ?_, ?_, isHeap_tab.2 h2⟩
  · rw [h1, tab_succ, h4 _ (Nat.le_refl _), upd_same, he]
  · refine h3.trans ?_
    obtain ⟨n, hn⟩ : ∃ n, r.length = n + 1 := ⟨r.length - 1, by omega⟩
    have hr' : r = tab r.length (fun i => f (i + 1)) := by
      have := hf
      rw [tab_cons] at this
      exact (List.cons.inj this).2
    rw [hr', tab_length, hn, tab_cons, tab_succ]
    rw [upd_same]
    have : tab n (fun i => upd (upd f (n + 1) (f 0)) 0 (f (n + 1)) (i + 1)) = tab n (fun i => f (i + 1)) := by
      apply tab_ext
      intro i hi
      rw [upd_ne _ _ (by omega), upd_ne _ _ (by omega)]
    rw [this]
    exact (List.perm_append_singleton _ _).symm

/-- `push_heap` on a heap followed by one more element. -/
theorem pushHeap_ok [Inhabited P] (r : List (EntOf P)) (e : EntOf P) (h : IsHeap 0 r) :
    ∃ a, pushHeap (r ++ [e]) = .ok a ∧ a.Perm (r ++ [e]) ∧ IsHeap 0 a := by
  obtain ⟨f, hf⟩ := exists_tab (r ++ [e])
  simp only [List.length_append, List.length_singleton] at hf
  have hr : r = tab r.length f ∧ e = f r.length := by
    have := hf
    rw [tab_succ] at this
    have := List.append_inj' this (by simp)
    simpa using this
  have hH : HF 0 r.length f := by
    have := h
    rw [hr.1, isHeap_tab] at this
    simpa using this
  unfold pushHeap
  have hl : (r ++ [e]).length - 1 = r.length := by simp
  simp only [hl]
  rw [hf, rd_tab (by omega), ok_bind]
  have hd : ∀ k, Desc 0 k := by
    intro k
    induction k using Nat.strongRecOn with
    | ind k ih =>
      by_cases hk : k = 0
      · subst hk; exact .refl
      · exact .step (by omega) (ih _ (by omega))
  obtain ⟨g, h1, h2, h3, -⟩ := pushHole_ok (T := 0) (n := r.length + 1) (N := r.length + 1) (Nat.le_refl _)
    (f r.length) (r.length + 1) r.length f (by omega) (by omega) (hd _)
    ⟨fun i hi0 hin hT h1 h2 => hH i hi0 (by omega) hT, fun i hi0 hin hp => by omega⟩
    (fun i hi0 hin hp => by omega)
  refine ⟨_, h1, h3.trans (.of_eq ?_), isHeap_tab.2 h2⟩
  apply tab_ext
  intro i _
  unfold upd
  split
  · rename_i h; rw [h]
  · rfl

/-- `make_heap` -/
theorem makeHeap_ok [Inhabited P] (a : List (EntOf P)) : ∃ a', makeHeap a = .ok a' ∧ a'.Perm a ∧ IsHeap 0 a' := by
  unfold makeHeap
  by_cases hl : a.length < 2
  · rw [if_pos hl]
    exact ⟨a, rfl, .refl _, fun i h0 hi => by omega⟩
  rw [if_neg hl]
  have loop : ∀ p (f : Nat → EntOf P), p < a.length → HF (p + 1) a.length f →
      ∃ g, makeLoop a.length p (tab a.length f) = .ok (tab a.length g) ∧
        (tab a.length g).Perm (tab a.length f) ∧ HF 0 a.length g := by
    intro p
    have self : ∀ (f : Nat → EntOf P) p, upd f p (f p) = f := by
      intro f p; funext i; unfold upd; split
      · rename_i h; rw [h]
      · rfl
    induction p with
    | zero =>
      intro f hp hf
      unfold makeLoop
      rw [rd_tab hp, ok_bind]
      obtain ⟨g, h1, h2, h3, -⟩ := adjust_ok (Nat.le_refl _) (f 0) f hp hf
      rw [self] at h3
      exact ⟨g, h1, h3, h2⟩
    | succ p ih =>
      intro f hp hf
      unfold makeLoop
      rw [rd_tab hp, ok_bind]
      obtain ⟨g, h1, h2, h3, -⟩ := adjust_ok (Nat.le_refl _) (f (p + 1)) f hp hf
      rw [self] at h3
      rw [h1, ok_bind]
      obtain ⟨g', k1, k2, k3⟩ := ih g (by omega) h2
      exact ⟨g', k1, k2.trans h3, k3⟩
  obtain ⟨f, hf⟩ := exists_tab a
  obtain ⟨g, h1, h2, h3⟩ := loop ((a.length - 2) / 2) f (by omega) (by intro i h0 hi hT; omega)
  rw [← hf] at h1 h2
  exact ⟨_, h1, h2, isHeap_tab.2 h3⟩

/-- The root of a heap has a smallest key. -/
theorem IsHeap.top [Inhabited P] {e : EntOf P} {r : List (EntOf P)} (h : IsHeap 0 (e :: r)) : ∀ x ∈ r, e.key ≤ x.key := by
  have key : ∀ i, i < (e :: r).length → e.key ≤ ((e :: r).getD i ⟨0, 0, default⟩).key := by
    intro i
    induction i using Nat.strongRecOn with
    | ind i ih =>
      intro hi
      by_cases h0 : i = 0
      · subst h0; simp
      · exact Nat.le_trans (ih _ (by omega) (by omega)) (h i (by omega) hi (by omega))
  intro x hx
  obtain ⟨i, hi, rfl⟩ := List.mem_iff_getElem.1 hx
  have := key (i + 1) (by simpa using hi)
  simpa [hi] using this

/-- Replacing the root keeps the order below the root. -/
theorem IsHeap.replace [Inhabited P] {e : EntOf P} {r : List (EntOf P)} (e' : EntOf P) (h : IsHeap 0 (e :: r)) : IsHeap 1 (e' :: r) := by
  intro i h0 hi hT
  have := h i h0 (by simpa using hi) (by omega)
  obtain ⟨i, rfl⟩ : ∃ k, i = k + 1 := ⟨i - 1, by omega⟩
  obtain ⟨p, hp⟩ : ∃ p, (i + 1 - 1) / 2 = p + 1 := ⟨(i + 1 - 1) / 2 - 1, by omega⟩
  rw [hp] at this ⊢
  simpa using this

end Verif.Model.Heap
