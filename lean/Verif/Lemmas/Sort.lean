import Verif.Model.Sort

/-! # Lemmas on merge sort -/

namespace Verif.KeySort

variable {ν : Type _}

/-- Merge of two lists of pairs by key, the first list first on ties. -/
def mrg : List (Nat × ν) → List (Nat × ν) → List (Nat × ν)
  | [], ys => ys
  | x :: xs, [] => x :: xs
  | x :: xs, y :: ys => if x.1 ≤ y.1 then x :: mrg xs (y :: ys) else y :: mrg (x :: xs) ys
termination_by xs ys => xs.length + ys.length

def KSorted (l : List (Nat × ν)) : Prop := l.Pairwise (fun a b => a.1 ≤ b.1)

theorem mrg_nil_left (ys : List (Nat × ν)) : mrg [] ys = ys := by rw [mrg]
theorem mrg_nil_right (xs : List (Nat × ν)) : mrg xs [] = xs := by
  cases xs <;> rw [mrg]

theorem mem_mrg {a : Nat × ν} : ∀ (xs ys : List (Nat × ν)), a ∈ mrg xs ys ↔ a ∈ xs ∨ a ∈ ys
  | [], ys => by simp [mrg_nil_left]
  | x :: xs, [] => by simp [mrg_nil_right]
  | x :: xs, y :: ys => by
    rw [mrg]
    split
    · rw [List.mem_cons, mem_mrg xs (y :: ys), List.mem_cons (l := xs), or_assoc]
    · rw [List.mem_cons, mem_mrg (x :: xs) ys, List.mem_cons (l := ys), or_left_comm]
termination_by xs ys => xs.length + ys.length

theorem mrg_length : ∀ (xs ys : List (Nat × ν)), (mrg xs ys).length = xs.length + ys.length
  | [], ys => by simp [mrg_nil_left]
  | x :: xs, [] => by simp [mrg_nil_right]
  | x :: xs, y :: ys => by
    rw [mrg]
    split
    · simp [mrg_length xs (y :: ys)]; omega
    · simp [mrg_length (x :: xs) ys]; omega
termination_by xs ys => xs.length + ys.length

theorem mrg_sorted : ∀ (xs ys : List (Nat × ν)), KSorted xs → KSorted ys → KSorted (mrg xs ys)
  | [], ys => by intro _ h; rwa [mrg_nil_left]
  | x :: xs, [] => by intro h _; rwa [mrg_nil_right]
  | x :: xs, y :: ys => by
    intro h1 h2
    have h1' := List.pairwise_cons.1 h1
    have h2' := List.pairwise_cons.1 h2
    rw [mrg]
    split
    · rename_i hle
      refine List.pairwise_cons.2 ⟨?_, mrg_sorted xs (y :: ys) h1'.2 h2⟩
      intro a ha
      rcases (mem_mrg _ _).1 ha with h | h
      · exact h1'.1 a h
      · rcases List.mem_cons.1 h with rfl | h
        · exact hle
        · exact Nat.le_trans hle (h2'.1 a h)
    · rename_i hle
      refine List.pairwise_cons.2 ⟨?_, mrg_sorted (x :: xs) ys h1 h2'.2⟩
      intro a ha
      rcases (mem_mrg _ _).1 ha with h | h
      · rcases List.mem_cons.1 h with rfl | h
        · omega
        · have := h1'.1 a h; omega
      · exact h2'.1 a h
termination_by xs ys => xs.length + ys.length

theorem mrg_filter (k : Nat) : ∀ (xs ys : List (Nat × ν)), KSorted xs → KSorted ys →
    (mrg xs ys).filter (fun a => a.1 = k) =
      xs.filter (fun a => a.1 = k) ++ ys.filter (fun a => a.1 = k)
  | [], ys => by intro _ _; simp [mrg_nil_left]
  | x :: xs, [] => by intro _ _; simp [mrg_nil_right]
  | x :: xs, y :: ys => by
    intro h1 h2
    have h1' := List.pairwise_cons.1 h1
    have h2' := List.pairwise_cons.1 h2
    rw [mrg]
    split
    · rw [List.filter_cons, mrg_filter k xs (y :: ys) h1'.2 h2, List.filter_cons (x := x)]
      split <;> simp
    · rename_i hle
      rw [List.filter_cons, mrg_filter k (x :: xs) ys h1 h2'.2, List.filter_cons (x := y)]
      by_cases hy : y.1 = k
      · have : (x :: xs).filter (fun a => decide (a.1 = k)) = [] := by
          rw [List.filter_eq_nil_iff]
          intro a ha
          rcases List.mem_cons.1 ha with rfl | h
          · simp; omega
          · have := h1'.1 a h; simp; omega
        simp [this, hy]
      · simp [hy]
termination_by xs ys => xs.length + ys.length

theorem mrg_perm : ∀ (xs ys : List (Nat × ν)), (mrg xs ys).Perm (xs ++ ys)
  | [], ys => by rw [mrg_nil_left]; exact List.Perm.refl _
  | x :: xs, [] => by rw [mrg_nil_right, List.append_nil]
  | x :: xs, y :: ys => by
    rw [mrg]
    split
    · exact (mrg_perm xs (y :: ys)).cons x
    · exact ((mrg_perm (x :: xs) ys).cons y).trans List.perm_middle.symm
termination_by xs ys => xs.length + ys.length

/-! ## Segments of a table -/

/-- Entries `l, ..., l + n - 1` as pairs. -/
def sg (f : Nat → Nat) (g : Nat → ν) (l n : Nat) : List (Nat × ν) :=
  (List.range' l n).map (fun i => (f i, g i))

@[simp] theorem sg_length (f : Nat → Nat) (g : Nat → ν) (l n : Nat) : (sg f g l n).length = n := by
  simp [sg]

theorem sg_getElem? (f : Nat → Nat) (g : Nat → ν) (l n : Nat) {t : Nat} (h : t < n) :
    (sg f g l n)[t]? = some (f (l + t), g (l + t)) := by
  simp [sg, h]

theorem sg_append (f : Nat → Nat) (g : Nat → ν) (l m n : Nat) :
    sg f g l m ++ sg f g (l + m) n = sg f g l (m + n) := by
  unfold sg
  rw [← List.map_append]
  congr 1
  have := List.range'_append (s := l) (m := m) (n := n) (step := 1)
  rwa [Nat.one_mul] at this

theorem sg_congr {f f' : Nat → Nat} {g g' : Nat → ν} {l n : Nat}
    (h : ∀ i, l ≤ i → i < l + n → f i = f' i ∧ g i = g' i) : sg f g l n = sg f' g' l n := by
  unfold sg
  apply List.map_congr_left
  intro i hi
  rw [List.mem_range'_1] at hi
  obtain ⟨h1, h2⟩ := h i hi.1 hi.2
  rw [h1, h2]

def mkA (N : Nat) (f : Nat → Nat) (g : Nat → ν) (tf : Nat → Nat) (tg : Nat → ν) : Arrs ν :=
  ⟨tab N f, tab N g, tab N tf, tab N tg⟩

theorem copyLeft_eq {N l m : Nat} (f : Nat → Nat) (g : Nat → ν) (tf : Nat → Nat) (tg : Nat → ν)
    (hlm : l ≤ m) (hm : m < N) :
    copyLeft l m (mkA N f g tf tg) = .ok (mkA N f g
      (fun i => if l ≤ i ∧ i ≤ m then f i else tf i)
      (fun i => if l ≤ i ∧ i ≤ m then g i else tg i)) := by
  unfold copyLeft
  obtain ⟨s, h1, h2⟩ := forRange_inv (body := fun i (s : Arrs ν) => do
      let tnum ← wr s.tnum i (← rd s.num i)
      let tsrt ← wr s.tsrt i (← rd s.srt i)
      .ok { s with tnum := tnum, tsrt := tsrt })
    (fun k s => s = mkA N f g
      (fun i => if l ≤ i ∧ i < k then f i else tf i)
      (fun i => if l ≤ i ∧ i < k then g i else tg i)) l (m + 1) (by omega) (mkA N f g tf tg)
    (by
      unfold mkA
      congr 1 <;> (apply tab_ext; intro i _; rw [if_neg (by omega)]))
    (by
      intro i s hi1 hi2 hs
      subst hs
      refine ⟨_, by
        simp only [mkA]
        rw [rd_tab (by omega), ok_bind, wr_tab (by omega), ok_bind, rd_tab (by omega), ok_bind,
          wr_tab (by omega), ok_bind], ?_⟩
      unfold mkA
      congr 1 <;>
      · apply tab_ext
        intro t _
        unfold upd
        by_cases ht : t = i
        · subst ht; rw [if_pos rfl, if_pos (by omega)]
        · rw [if_neg ht]
          simp only []
          by_cases hc : l ≤ t ∧ t < i
          · rw [if_pos hc, if_pos (by omega)]
          · rw [if_neg hc, if_neg (by omega)])
  rw [h1, h2]
  unfold mkA
  congr 2 <;>
  · apply tab_ext
    intro t _
    by_cases hc : l ≤ t ∧ t ≤ m
    · rw [if_pos hc, if_pos (by omega)]
    · rw [if_neg hc, if_neg (by omega)]

theorem copyRight_eq {N m r : Nat} (f : Nat → Nat) (g : Nat → ν) (tf : Nat → Nat) (tg : Nat → ν)
    (hmr : m < r) (hr : r < N) :
    copyRight m r (mkA N f g tf tg) = .ok (mkA N f g
      (fun i => if m < i ∧ i ≤ r then f (r - (i - (m + 1))) else tf i)
      (fun i => if m < i ∧ i ≤ r then g (r - (i - (m + 1))) else tg i)) := by
  unfold copyRight
  obtain ⟨s, h1, h2⟩ := forRange_inv (body := fun i (s : Arrs ν) => do
      let j := r - (i - (m + 1))
      let tsrt ← wr s.tsrt i (← rd s.srt j)
      let tnum ← wr s.tnum i (← rd s.num j)
      .ok { s with tnum := tnum, tsrt := tsrt })
    (fun k s => s = mkA N f g
      (fun i => if m < i ∧ i < k then f (r - (i - (m + 1))) else tf i)
      (fun i => if m < i ∧ i < k then g (r - (i - (m + 1))) else tg i)) (m + 1) (r + 1) (by omega)
    (mkA N f g tf tg)
    (by
      unfold mkA
      congr 1 <;> (apply tab_ext; intro i _; rw [if_neg (by omega)]))
    (by
      intro i s hi1 hi2 hs
      subst hs
      refine ⟨_, by
        simp only [mkA]
        rw [rd_tab (by omega), ok_bind, wr_tab (by omega), ok_bind, rd_tab (by omega), ok_bind,
          wr_tab (by omega), ok_bind], ?_⟩
      unfold mkA
      congr 1 <;>
      · apply tab_ext
        intro t _
        unfold upd
        by_cases ht : t = i
        · subst ht; rw [if_pos rfl, if_pos (by omega)]
        · rw [if_neg ht]
          simp only []
          by_cases hc : m < t ∧ t < i
          · rw [if_pos hc, if_pos (by omega)]
          · rw [if_neg hc, if_neg (by omega)])
  rw [h1, h2]
  unfold mkA
  congr 2 <;>
  · apply tab_ext
    intro t _
    by_cases hc : m < t ∧ t ≤ r
    · rw [if_pos hc, if_pos (by omega)]
    · rw [if_neg hc, if_neg (by omega)]

theorem drop_cons {α : Type _} {l : List α} {n : Nat} {x : α} (h : l[n]? = some x) :
    l.drop n = x :: l.drop (n + 1) := by
  obtain ⟨hn, rfl⟩ := List.getElem?_eq_some_iff.1 h
  exact List.drop_eq_getElem_cons hn

/-- The merge loop writes the merge of the two runs. -/
theorem mergeLoop_eq {N l m r : Nat} (f : Nat → Nat) (g : Nat → ν) (tf : Nat → Nat) (tg : Nat → ν)
    (X Y : List (Nat × ν)) (hlm : l ≤ m) (hmr : m < r) (hr : r < N)
    (hX : X.length = m + 1 - l) (hY : Y.length = r - m)
    (htX : ∀ i, l ≤ i → i ≤ m → X[i - l]? = some (tf i, tg i))
    (htY : ∀ j, m < j → j ≤ r → Y[r - j]? = some (tf j, tg j))
    (hs : KSorted X) :
    ∃ f' g', mergeLoop l m r (mkA N f g tf tg) = .ok (mkA N f' g' tf tg) ∧
      (∀ i, i < l ∨ r < i → f' i = f i ∧ g' i = g i) ∧
      sg f' g' l (r + 1 - l) = mrg X Y := by
  unfold mergeLoop
  have hlen := mrg_length X Y
  obtain ⟨⟨s, i, j⟩, h1, f', g', h2, h3, h4, h5⟩ := forRange_inv
    (body := fun k (a : Arrs ν × Nat × Nat) => do
      let (s, i, j) := a
      let a ← rd s.tnum i
      let b ← rd s.tnum j
      if a ≤ b ∧ i ≤ m then
        let num ← wr s.num k (← rd s.tnum i)
        let srt ← wr s.srt k (← rd s.tsrt i)
        .ok ({ s with num := num, srt := srt }, i + 1, j)
      else
        let num ← wr s.num k (← rd s.tnum j)
        let srt ← wr s.srt k (← rd s.tsrt j)
        if j = 0 then .error .oob else
        .ok ({ s with num := num, srt := srt }, i, j - 1))
    (fun k (a : Arrs ν × Nat × Nat) => ∃ f' g', a.1 = mkA N f' g' tf tg ∧
      (∀ i, i < l ∨ k ≤ i → f' i = f i ∧ g' i = g i) ∧
      (∀ t, l ≤ t → t < k → (mrg X Y)[t - l]? = some (f' t, g' t)) ∧
      (l ≤ a.2.1 ∧ a.2.1 ≤ m + 1 ∧ m ≤ a.2.2 ∧ a.2.2 ≤ r ∧
        a.2.1 - l + (r - a.2.2) = k - l ∧
        (mrg X Y).drop (k - l) = mrg (X.drop (a.2.1 - l)) (Y.drop (r - a.2.2))))
    l (r + 1) (by omega) (mkA N f g tf tg, l, r)
    ⟨f, g, rfl, fun _ _ => ⟨rfl, rfl⟩, by omega, by simp; omega⟩
    (by
      rintro k ⟨s, i, j⟩ hk1 hk2 ⟨f', g', hs', ho, hd, hi1, hi2, hj1, hj2, hij, hdrop⟩
      simp only at hs' hi1 hi2 hj1 hj2 hij hdrop
      subst hs'
      simp only [mkA]
      rw [rd_tab (by omega), ok_bind, rd_tab (by omega), ok_bind]
      by_cases hc : tf i ≤ tf j ∧ i ≤ m
      · rw [if_pos hc, ok_bind, wr_tab (by omega), ok_bind, rd_tab (by omega), ok_bind,
          wr_tab (by omega), ok_bind]
        have hx := drop_cons (htX i hi1 hc.2)
        have hhead : (mrg X Y).drop (k - l) =
            (tf i, tg i) :: mrg (X.drop (i - l + 1)) (Y.drop (r - j)) := by
          rw [hdrop, hx]
          by_cases hjm : j = m
          · have : Y.drop (r - j) = [] := List.drop_eq_nil_of_le (by omega)
            rw [this, mrg_nil_right, mrg_nil_right]
          · have hy := drop_cons (htY j (by omega) hj2)
            rw [hy, mrg, if_pos hc.1]
        refine ⟨_, rfl, upd f' k (tf i), upd g' k (tg i), rfl, ?_, ?_, by simp; omega, by simp; omega,
          hj1, hj2, by simp; omega, ?_⟩
        · intro t ht
          rw [upd_ne _ _ (by omega), upd_ne _ _ (by omega)]
          exact ho t (by omega)
        · intro t ht1 ht2
          by_cases htk : t = k
          · subst htk
            rw [upd_same, upd_same]
            have := congrArg (fun l => l[0]?) hhead
            simpa using this
          · rw [upd_ne _ _ htk, upd_ne _ _ htk]
            exact hd t ht1 (by omega)
        · have := congrArg (List.drop 1) hhead
          rw [List.drop_drop] at this
          rw [show k + 1 - l = k - l + 1 by omega, this]
          simp only [List.drop_succ_cons, List.drop_zero]
          rw [show i + 1 - l = i - l + 1 by omega]
      · rw [if_neg hc, ok_bind, wr_tab (by omega), ok_bind, rd_tab (by omega), ok_bind,
          wr_tab (by omega), ok_bind]
        -- the right run is not exhausted
        have hjm : m < j := by
          apply Nat.lt_of_le_of_ne hj1
          intro hjm
          subst hjm
          have him : i ≤ m := by omega
          apply hc
          refine ⟨?_, him⟩
          have e1 := htX i hi1 him
          have e2 := htX m (by omega) (Nat.le_refl _)
          by_cases hie : i = m
          · subst hie; exact Nat.le_refl _
          · obtain ⟨b1, e1⟩ := List.getElem?_eq_some_iff.1 e1
            obtain ⟨b2, e2⟩ := List.getElem?_eq_some_iff.1 e2
            have := List.pairwise_iff_getElem.1 hs (i - l) (m - l) b1 b2 (by omega)
            rw [e1, e2] at this
            exact this
        rw [if_neg (by omega)]
        have hy := drop_cons (htY j hjm hj2)
        have hhead : (mrg X Y).drop (k - l) =
            (tf j, tg j) :: mrg (X.drop (i - l)) (Y.drop (r - j + 1)) := by
          rw [hdrop, hy]
          by_cases him : i ≤ m
          · have hx := drop_cons (htX i hi1 him)
            rw [hx, mrg, if_neg (fun h => hc ⟨h, him⟩)]
          · have : X.drop (i - l) = [] := List.drop_eq_nil_of_le (by omega)
            rw [this, mrg_nil_left, mrg_nil_left]
        refine ⟨_, rfl, upd f' k (tf j), upd g' k (tg j), rfl, ?_, ?_, hi1, hi2, by simp; omega,
          by simp; omega, by simp; omega, ?_⟩
        · intro t ht
          rw [upd_ne _ _ (by omega), upd_ne _ _ (by omega)]
          exact ho t (by omega)
        · intro t ht1 ht2
          by_cases htk : t = k
          · subst htk
            rw [upd_same, upd_same]
            have := congrArg (fun l => l[0]?) hhead
            simpa using this
          · rw [upd_ne _ _ htk, upd_ne _ _ htk]
            exact hd t ht1 (by omega)
        · have := congrArg (List.drop 1) hhead
          rw [List.drop_drop] at this
          rw [show k + 1 - l = k - l + 1 by omega, this]
          simp only [List.drop_succ_cons, List.drop_zero]
          rw [show r - (j - 1) = r - j + 1 by omega])
  refine ⟨f', g', ?_, fun i hi => h3 i (by omega), ?_⟩
  · erw [h1]
    rw [ok_bind, h2]
  · apply List.ext_getElem?
    intro t
    by_cases ht : t < r + 1 - l
    · rw [sg_getElem? _ _ _ _ ht]
      have := h4 (l + t) (by omega) (by omega)
      rw [show l + t - l = t by omega] at this
      exact this.symm
    · rw [List.getElem?_eq_none (by simp; omega), List.getElem?_eq_none (by omega)]

/-- What sorting a segment does. -/
structure Sorts (f : Nat → Nat) (g : Nat → ν) (l r : Nat) (f' : Nat → Nat) (g' : Nat → ν) : Prop where
  out : ∀ i, i < l ∨ r < i → f' i = f i ∧ g' i = g i
  sorted : KSorted (sg f' g' l (r + 1 - l))
  stable : ∀ k, (sg f' g' l (r + 1 - l)).filter (fun a => a.1 = k) =
    (sg f g l (r + 1 - l)).filter (fun a => a.1 = k)
  perm : (sg f' g' l (r + 1 - l)).Perm (sg f g l (r + 1 - l))

theorem mergesort_eq {N : Nat} : ∀ (n l r : Nat), r - l = n → r < N → ∀ (f : Nat → Nat) (g : Nat → ν)
    (tf : Nat → Nat) (tg : Nat → ν),
    ∃ f' g' tf' tg', mergesort (mkA N f g tf tg) l r = .ok (mkA N f' g' tf' tg') ∧
      Sorts f g l r f' g' := by
  intro n
  induction n using Nat.strongRecOn with
  | _ n ih =>
    intro l r hn hr f g tf tg
    rw [mergesort]
    by_cases hlr : l ≥ r
    · rw [if_pos hlr]
      refine ⟨f, g, tf, tg, rfl, fun _ _ => ⟨rfl, rfl⟩, ?_, fun _ => rfl, List.Perm.refl _⟩
      have : r + 1 - l ≤ 1 := by omega
      unfold KSorted sg
      rcases Nat.lt_or_ge 0 (r + 1 - l) with h | h
      · have : r + 1 - l = 1 := by omega
        rw [this]; simp
      · have : r + 1 - l = 0 := by omega
        rw [this]; simp
    · rw [if_neg hlr]
      simp only []
      have hm : l ≤ (l + r) / 2 ∧ (l + r) / 2 < r := by omega
      generalize (l + r) / 2 = m at hm
      obtain ⟨hm1, hm2⟩ := hm
      obtain ⟨f1, g1, tf1, tg1, e1, s1⟩ := ih (m - l) (by omega) l m rfl (by omega) f g tf tg
      obtain ⟨f2, g2, tf2, tg2, e2, s2⟩ := ih (r - (m + 1)) (by omega) (m + 1) r rfl (by omega)
        f1 g1 tf1 tg1
      rw [e1]
      simp only [Except.bind]
      rw [e2]
      simp only []
      rw [copyLeft_eq _ _ _ _ hm1 (by omega)]
      simp only []
      rw [copyRight_eq _ _ _ _ hm2 hr]
      simp only []
      have hX : sg f2 g2 l (m + 1 - l) = sg f1 g1 l (m + 1 - l) :=
        sg_congr (fun i _ hi => s2.out i (by omega))
      obtain ⟨f3, g3, e3, o3, h3⟩ := mergeLoop_eq (N := N) (l := l) (m := m) (r := r) f2 g2
        (fun i => if m < i ∧ i ≤ r then f2 (r - (i - (m + 1))) else
          if l ≤ i ∧ i ≤ m then f2 i else tf2 i)
        (fun i => if m < i ∧ i ≤ r then g2 (r - (i - (m + 1))) else
          if l ≤ i ∧ i ≤ m then g2 i else tg2 i)
        (sg f2 g2 l (m + 1 - l)) (sg f2 g2 (m + 1) (r - m)) hm1 hm2 hr (by simp) (by simp)
        (by
          intro i hi1 hi2
          rw [sg_getElem? _ _ _ _ (by omega), if_neg (by omega), if_pos ⟨hi1, hi2⟩,
            if_neg (by omega), if_pos ⟨hi1, hi2⟩, show l + (i - l) = i by omega])
        (by
          intro j hj1 hj2
          rw [sg_getElem? _ _ _ _ (by omega), if_pos ⟨hj1, hj2⟩, if_pos ⟨hj1, hj2⟩,
            show m + 1 + (r - j) = r - (j - (m + 1)) by omega])
        (by rw [hX]; exact s1.sorted)
      have hYs : KSorted (sg f2 g2 (m + 1) (r - m)) := by
        have := s2.sorted
        rwa [show r + 1 - (m + 1) = r - m by omega] at this
      have hXs : KSorted (sg f2 g2 l (m + 1 - l)) := by rw [hX]; exact s1.sorted
      have h5 : sg f1 g1 (m + 1) (r - m) = sg f g (m + 1) (r - m) :=
        sg_congr (fun i hi _ => s1.out i (by omega))
      have happ : sg f g l (m + 1 - l) ++ sg f g (m + 1) (r - m) = sg f g l (r + 1 - l) := by
        have := sg_append f g l (m + 1 - l) (r - m)
        rwa [show l + (m + 1 - l) = m + 1 by omega,
          show m + 1 - l + (r - m) = r + 1 - l by omega] at this
      refine ⟨f3, g3, _, _, e3, ?_, ?_, ?_, ?_⟩
      · intro i hi
        obtain ⟨a1, a2⟩ := o3 i hi
        obtain ⟨b1, b2⟩ := s2.out i (by omega)
        obtain ⟨c1, c2⟩ := s1.out i (by omega)
        exact ⟨a1.trans (b1.trans c1), a2.trans (b2.trans c2)⟩
      · rw [h3]
        exact mrg_sorted _ _ hXs hYs
      · intro k
        rw [h3, mrg_filter k _ _ hXs hYs, hX, s1.stable k]
        have h4 := s2.stable k
        rw [show r + 1 - (m + 1) = r - m by omega] at h4
        rw [h4]
        rw [h5, ← List.filter_append, happ]
      · rw [h3, hX]
        refine (mrg_perm _ _).trans ?_
        rw [← happ]
        refine List.Perm.append s1.perm ?_
        have h4 := s2.perm
        rw [show r + 1 - (m + 1) = r - m by omega, h5] at h4
        exact h4

end Verif.KeySort
