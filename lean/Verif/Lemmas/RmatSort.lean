import Verif.Model.Rmat
import Verif.SpecRmat
import Verif.Lemmas.Place
import Mathlib.Data.List.Flatten
import Mathlib.Tactic.Linarith

/-! # Lemmas for the sorting functions of the generator of R-MAT graphs -/

namespace Verif.Model.Rmat

open Scan (rdu)
open Verif.Spec (StableSort)
open Conv (bucket cnt place1 place1_fold_seg countKeys_eq replicate_eq_tab)

/-! ## Sorting by a digit -/

/-- The elements in order of a digit less than `r` -/
def byDigit {α : Type} (g : α → Nat) (r : Nat) (l : List α) : List α := (List.range r).flatMap fun d => l.filter fun x => decide (g x = d)

theorem flatMap_single {α : Type} (X : List α) (d : Nat) : ∀ r, d < r → ((List.range r).flatMap fun e => if e = d then X else []) = X := by
  intro r
  induction r with
  | zero => intro h; omega
  | succ r ih =>
    intro h
    rw [List.range_succ, List.flatMap_append]
    by_cases hd : d = r
    · subst hd
      have : ((List.range d).flatMap fun e => if e = d then X else []) = [] := by
        rw [List.flatMap_eq_nil_iff]
        intro e he
        rw [List.mem_range] at he
        rw [if_neg (by omega)]
      rw [this]
      simp
    · rw [ih (by omega)]
      simp [Ne.symm hd]

theorem byDigit_filter {α : Type} {g key : α → Nat} {r : Nat} (hg : ∀ x, g x < r) (hk : ∀ x y, key x = key y → g x = g y) (l : List α) (k : Nat) :
    (byDigit g r l).filter (fun x => decide (key x = k)) = l.filter fun x => decide (key x = k) := by
  unfold byDigit
  rw [List.filter_flatMap]
  by_cases he : ∃ x, key x = k
  · obtain ⟨x0, h0⟩ := he
    rw [← flatMap_single (l.filter fun x => decide (key x = k)) (g x0) r (hg x0)]
    congr 1
    funext d
    rw [List.filter_filter]
    split
    · rename_i hd
      apply List.filter_congr
      intro x _
      by_cases hx : key x = k
      · have := hk x x0 (by rw [hx, h0])
        simp [hx, this, hd]
      · simp [hx]
    · rename_i hd
      rw [List.filter_eq_nil_iff]
      intro x _ hc
      simp only [Bool.and_eq_true, decide_eq_true_eq] at hc
      exact hd (by rw [← hc.2]; exact hk x x0 (by rw [hc.1, h0]))
  · have h1 : ∀ l : List α, l.filter (fun x => decide (key x = k)) = [] := by
      intro l
      rw [List.filter_eq_nil_iff]
      intro x _ hc
      exact he ⟨x, by simpa using hc⟩
    simp only [h1]
    rw [List.flatMap_eq_nil_iff]
    simp

theorem byDigit_mem {α : Type} {g : α → Nat} {r : Nat} (hg : ∀ x, g x < r) {l : List α} {x : α} : x ∈ byDigit g r l ↔ x ∈ l := by
  unfold byDigit
  simp only [List.mem_flatMap, List.mem_range, List.mem_filter, decide_eq_true_eq]
  constructor
  · rintro ⟨d, _, h, _⟩; exact h
  · intro h; exact ⟨g x, hg x, h, rfl⟩

/-- Sorted by the new digit, and by the former order where that is the same -/
theorem byDigit_sorted {α : Type} {g : α → Nat} {r : Nat} {l : List α} {R : α → α → Prop} (h : l.Pairwise R) :
    (byDigit g r l).Pairwise fun x y => g x < g y ∨ g x = g y ∧ R x y := by
  unfold byDigit
  rw [List.pairwise_flatMap]
  constructor
  · intro d _
    have h1 : (l.filter fun x => decide (g x = d)).Pairwise R := h.filter _
    rw [List.pairwise_iff_forall_sublist] at h1 ⊢
    intro x y hs
    have hx : x ∈ l.filter fun x => decide (g x = d) := hs.subset (by simp)
    have hy : y ∈ l.filter fun x => decide (g x = d) := hs.subset (by simp)
    simp only [List.mem_filter, decide_eq_true_eq] at hx hy
    exact .inr ⟨by rw [hx.2, hy.2], h1 hs⟩
  · refine List.pairwise_lt_range.imp ?_
    intro d e hde x hx y hy
    simp only [List.mem_filter, decide_eq_true_eq] at hx hy
    exact .inl (by rw [hx.2, hy.2]; exact hde)

theorem perm_of_filter {α : Type} [DecidableEq α] {key : α → Nat} {l l' : List α}
    (h : ∀ k, l'.filter (fun x => decide (key x = k)) = l.filter fun x => decide (key x = k)) : l'.Perm l := by
  rw [List.perm_iff_count]
  intro x
  have h1 : ∀ l : List α, l.count x = (l.filter fun y => decide (key y = key x)).count x := by
    intro l
    rw [List.count_filter (by simp)]
  rw [h1 l', h1 l, h]

/-! ## `countsort_aux` -/

theorem bits_eq (x k j : Nat) : bits x k j = x / 2 ^ k % 2 ^ j := by
  unfold bits
  rw [Nat.shiftRight_eq_div_pow, Nat.and_two_pow_sub_one_eq_mod]

theorem rdu_map {α β : Type} {l : List α} (f : α → β) {i : Nat} (h : i < l.length) : rdu (l.map fun x => some (f x)) i = .ok (f l[i]) := by
  unfold rdu
  rw [rd_of_lt (by simpa using h), ok_bind]
  simp [use]

theorem offsets_eq (n : Nat) (f : Nat → Nat) : offsets (tab n f) n = .ok (tab n (psum f), psum f n) := by
  unfold offsets
  obtain ⟨s, e1, e2⟩ := forRange_inv (body := fun k (s : List Nat × Nat) => do
      let p ← rd (tab n f) k
      let h ← rd s.1 k
      let mhp ← wr s.1 k ((p - h) + s.2)
      .ok (mhp, s.2 + p))
    (fun k a => a = (tab n (fun i => if i < k then psum f i else f i), psum f k)) 0 n (by omega)
    (tab n f, 0) (by congr 1)
    (by
      rintro k s _ hk rfl
      refine ⟨_, by simp only []; rw [rd_tab hk, ok_bind, rd_tab hk, ok_bind, wr_tab hk, ok_bind], ?_⟩
      rw [if_neg (by omega), Nat.sub_self, Nat.zero_add]
      congr 1
      apply tab_ext
      intro i _
      unfold upd
      by_cases hik : i = k
      · subst hik; rw [if_pos rfl, if_pos (by omega)]
      · rw [if_neg hik]
        simp only []
        by_cases hlt : i < k
        · rw [if_pos hlt, if_pos (by omega)]
        · rw [if_neg hlt, if_neg (by omega)])
  refine e1.trans ?_
  rw [e2]
  congr 2
  apply tab_ext
  intro i hi
  rw [if_pos hi]

/-- The pairs of keys and numbers with their digits -/
def digitItems (off j : Nat) (l : List (Nat × Nat)) : List (Nat × (Option Nat × Option Nat)) :=
  l.map fun x => (bits x.1 off j, (some x.1, some x.2))

theorem put_eq {off j : Nat} {l : List (Nat × Nat)} {k : Nat} (hk : k < l.length) (w : List Nat) (arr : List (Option Nat × Option Nat)) :
    put off j (l.map fun x => some x.1) (l.map fun x => some x.2) k (w, arr.map (·.1), arr.map (·.2)) =
      (place1 (w, arr) ((digitItems off j l)[k]'(by simpa [digitItems] using hk))).map fun s => (s.1, s.2.map (·.1), s.2.map (·.2)) := by
  have e1 : rdu (l.map fun x => some x.1) k = .ok l[k].1 := rdu_map Prod.fst hk
  have e2 : rdu (l.map fun x => some x.2) k = .ok l[k].2 := rdu_map Prod.snd hk
  unfold put place1
  simp only [e1, e2, ok_bind, digitItems, List.getElem_map]
  cases h1 : rd w (bits l[k].1 off j) with
  | error e => rfl
  | ok pos =>
    simp only [ok_bind]
    by_cases hw : bits l[k].1 off j < w.length
    · rw [wr_of_lt hw]
      by_cases hl : pos < arr.length
      · rw [wr_of_lt (by simpa using hl), ok_bind, wr_of_lt (by simpa using hl), ok_bind, ok_bind, ok_bind, wr_of_lt hl, ok_bind]
        simp only [Except.map, List.map_set]
      · simp [wr, hl, Except.map]
    · rw [rd_oob (by omega)] at h1
      simp at h1

theorem put_fold {off j : Nat} (l : List (Nat × Nat)) : ∀ (w : List Nat) (arr : List (Option Nat × Option Nat)) (n : Nat), n ≤ l.length →
    forRange 0 n (w, arr.map (·.1), arr.map (·.2)) (put off j (l.map fun x => some x.1) (l.map fun x => some x.2)) =
      (((digitItems off j l).take n).foldlM place1 (w, arr)).map fun s => (s.1, s.2.map (·.1), s.2.map (·.2)) := by
  intro w arr n
  induction n with
  | zero => intro _; rfl
  | succ n ih =>
    intro h
    have hd : n < (digitItems off j l).length := by simp [digitItems]; omega
    rw [List.take_succ_eq_append_getElem hd, List.foldlM_append]
    unfold forRange at ih ⊢
    rw [Nat.sub_zero, List.range'_concat, List.foldlM_append]
    rw [Nat.sub_zero] at ih
    rw [ih (by omega)]
    cases hx : ((digitItems off j l).take n).foldlM place1 (w, arr) with
    | error e => rfl
    | ok s =>
      simp only [Except.map, ok_bind, Nat.zero_add, Nat.one_mul]
      have h1 : ∀ (x : List Nat × List (Option Nat) × List (Option Nat)) (f : (List Nat × List (Option Nat) × List (Option Nat)) → Nat → Res (List Nat × List (Option Nat) × List (Option Nat))),
          List.foldlM f x [n] = f x n := by
        intro x f
        rw [List.foldlM_cons]
        cases f x n <;> rfl
      have h2 : ∀ (x : List Nat × List (Option Nat × Option Nat)) y, List.foldlM place1 x [y] = place1 x y := by
        intro x y
        rw [List.foldlM_cons]
        cases place1 x y <;> rfl
      rw [h1, h2]
      exact put_eq (by omega) s.1 s.2

theorem bucket_digit (off j : Nat) (l : List (Nat × Nat)) (d : Nat) :
    bucket (digitItems off j l) d = (l.filter fun x => decide (bits x.1 off j = d)).map fun x => (some x.1, some x.2) := by
  unfold bucket digitItems
  rw [List.filterMap_map]
  induction l with
  | nil => rfl
  | cons x l ih =>
    rw [List.filterMap_cons]
    by_cases h : bits x.1 off j = d
    · rw [List.filter_cons_of_pos (by simp [h]), List.map_cons, ← ih]
      simp [h]
    · simp only [Function.comp, h, if_false]
      rw [List.filter_cons_of_neg (by simp [h])]
      exact ih

/-- The call sorts the pairs by the digit. -/
theorem countsortAux_eq (l : List (Nat × Nat)) (off j : Nat) :
    countsortAux l.length (l.map fun x => some x.1) (l.map fun x => some x.2) (2 ^ j) off j =
      .ok ((byDigit (fun x : Nat × Nat => bits x.1 off j) (2 ^ j) l).map fun x => some x.1,
        (byDigit (fun x : Nat × Nat => bits x.1 off j) (2 ^ j) l).map fun x => some x.2) := by
  unfold countsortAux
  have hlt : ∀ x ∈ digitItems off j l, x.1 < 2 ^ j := by
    intro x hx
    obtain ⟨y, _, rfl⟩ := List.mem_map.1 hx
    show bits _ _ _ < _
    rw [bits_eq]
    exact Nat.mod_lt _ (Nat.two_pow_pos j)
  have hlen : (digitItems off j l).length = l.length := by simp [digitItems]
  have hc := countKeys_eq (n := 2 ^ j) (digitItems off j l) hlt (fun k => do
      let key ← rdu (l.map fun x => some x.1) k
      .ok (bits key off j)) (by
    intro k hk
    rw [hlen] at hk
    have e : rdu (l.map fun x => some x.1) k = .ok l[k].1 := rdu_map Prod.fst hk
    rw [e, ok_bind]
    simp [digitItems])
  unfold Conv.countKeys at hc
  rw [hlen] at hc
  have hc' : (forRange 0 l.length (List.replicate (2 ^ j) 0) fun k h => do
      let key ← rdu (l.map fun x => some x.1) k
      let c ← rd h (bits key off j)
      wr h (bits key off j) (c + 1)) = .ok (tab (2 ^ j) (cnt (digitItems off j l))) := by
    rw [← hc]
    congr 1
    funext k h
    simp only []
    cases rdu (l.map fun x => some x.1) k <;> rfl
  rw [hc', ok_bind, offsets_eq, ok_bind]
  have hp := put_fold (off := off) (j := j) l (tab (2 ^ j) (psum (cnt (digitItems off j l)))) (List.replicate l.length (none, none)) l.length (Nat.le_refl _)
  rw [List.map_replicate, List.map_replicate, List.take_of_length_le (by omega)] at hp
  obtain ⟨w, hw⟩ := place1_fold_seg (n := 2 ^ j) (digitItems off j l) hlt (none, none)
  rw [hlen] at hw
  rw [hp, hw]
  simp only [Except.map, ok_bind]
  have hs : seg (bucket (digitItems off j l)) 0 (2 ^ j) =
      (byDigit (fun x : Nat × Nat => bits x.1 off j) (2 ^ j) l).map fun x => (some x.1, some x.2) := by
    unfold seg byDigit
    rw [Nat.sub_zero, List.map_flatMap, List.range_eq_range']
    congr 1
    funext d
    exact bucket_digit off j l d
  rw [hs, List.map_map, List.map_map]
  rfl

/-! ## `countingSort` -/

/-- The three passes -/
def passes (l : List (Nat × Nat)) : List (Nat × Nat) :=
  byDigit (fun x => bits x.1 22 10) (2 ^ 10) (byDigit (fun x => bits x.1 11 11) (2 ^ 11) (byDigit (fun x => bits x.1 0 11) (2 ^ 11) l))

theorem bits_lt (x k j : Nat) : bits x k j < 2 ^ j := by
  rw [bits_eq]
  exact Nat.mod_lt _ (Nat.two_pow_pos j)

theorem byDigit_length {α : Type} [DecidableEq α] {g : α → Nat} {r : Nat} (hg : ∀ x, g x < r) (l : List α) : (byDigit g r l).length = l.length :=
  (perm_of_filter (key := g) (byDigit_filter hg (fun _ _ h => h) l)).length_eq

theorem low_bits (x : Nat) : x % 2 ^ 32 = bits x 0 11 + 2 ^ 11 * (bits x 11 11 + 2 ^ 11 * bits x 22 10) := by
  rw [bits_eq, bits_eq, bits_eq]
  omega

theorem passes_sort (l : List (Nat × Nat)) : StableSort (fun x => x.1 % 2 ^ 32) l (passes l) := by
  have hkey : ∀ x y : Nat × Nat, x.1 % 2 ^ 32 = y.1 % 2 ^ 32 →
      bits x.1 0 11 = bits y.1 0 11 ∧ bits x.1 11 11 = bits y.1 11 11 ∧ bits x.1 22 10 = bits y.1 22 10 := by
    intro x y h
    simp only [bits_eq]
    omega
  have hst : ∀ k, (passes l).filter (fun x => decide (x.1 % 2 ^ 32 = k)) = l.filter fun x => decide (x.1 % 2 ^ 32 = k) := by
    intro k
    unfold passes
    rw [byDigit_filter (key := fun x : Nat × Nat => x.1 % 2 ^ 32) (fun _ => bits_lt _ _ _) (fun x y h => (hkey x y h).2.2),
      byDigit_filter (key := fun x : Nat × Nat => x.1 % 2 ^ 32) (fun _ => bits_lt _ _ _) (fun x y h => (hkey x y h).2.1),
      byDigit_filter (key := fun x : Nat × Nat => x.1 % 2 ^ 32) (fun _ => bits_lt _ _ _) (fun x y h => (hkey x y h).1)]
  refine ⟨perm_of_filter hst, ?_, hst⟩
  have h1 := byDigit_sorted (g := fun x : Nat × Nat => bits x.1 22 10) (r := 2 ^ 10)
    (byDigit_sorted (g := fun x : Nat × Nat => bits x.1 11 11) (r := 2 ^ 11)
      (byDigit_sorted (g := fun x : Nat × Nat => bits x.1 0 11) (r := 2 ^ 11) (l := l) (R := fun _ _ => True) (by
        exact List.pairwise_of_forall (fun _ _ => trivial))))
  refine h1.imp ?_
  intro x y h
  have a1 := bits_lt x.1 0 11
  have a2 := bits_lt x.1 11 11
  have b1 := bits_lt y.1 0 11
  have b2 := bits_lt y.1 11 11
  rw [low_bits x.1, low_bits y.1]
  rcases h with h | ⟨h, h | ⟨h', h | ⟨h'', _⟩⟩⟩ <;> omega

theorem passes_length (l : List (Nat × Nat)) : (passes l).length = l.length := (passes_sort l).perm.length_eq

theorem gather_eq {β : Type} {a : List β} {P : List (Nat × Nat)} (hP : ∀ x ∈ P, x.2 < a.length) :
    ∃ b, gather P.length a (P.map fun x => some x.2) = .ok b ∧ b.length = P.length ∧ ∀ i : Nat, b[i]? = P[i]?.bind fun x => a[x.2]? := by
  unfold gather
  suffices h : ∀ n, n ≤ P.length → ∃ b, (List.range n).mapM (fun i => do
      let x ← rdu (P.map fun x => some x.2) i
      rd a x : Nat → Res β) = .ok b ∧ b.length = n ∧ ∀ i < n, b[i]? = P[i]?.bind fun x => a[x.2]? by
    obtain ⟨b, e, hl, hi⟩ := h P.length (Nat.le_refl _)
    refine ⟨b, e, hl, fun i => ?_⟩
    by_cases h : i < P.length
    · exact hi i h
    · rw [List.getElem?_eq_none (by omega), List.getElem?_eq_none (by omega)]
      rfl
  intro n
  induction n with
  | zero => intro _; exact ⟨[], rfl, rfl, fun i h => by omega⟩
  | succ n ih =>
    intro hn
    obtain ⟨b, e, hl, hi⟩ := ih (by omega)
    have hx := hP _ (List.getElem_mem (show n < P.length by omega))
    refine ⟨b ++ [a[(P[n]).2]], ?_, by simp [hl], fun i h => ?_⟩
    · have e1 : rdu (P.map fun x => some x.2) n = .ok (P[n]).2 := rdu_map Prod.snd (by omega)
      rw [List.range_succ, List.mapM_append, e, ok_bind]
      simp only [List.mapM_cons, List.mapM_nil, e1, ok_bind, rd_of_lt hx]
      rfl
    · by_cases h' : i < n
      · rw [List.getElem?_append_left (by omega)]
        exact hi i h'
      · obtain rfl : i = n := by omega
        rw [List.getElem?_append_right (by omega), hl, Nat.sub_self, List.getElem?_eq_getElem (show i < P.length by omega)]
        simp [hx]

theorem eq_filterMap {α β : Type} {f : α → Option β} {P : List α} : ∀ {T : List β}, (∀ x ∈ P, (f x).isSome) →
    (∀ i : Nat, T[i]? = P[i]?.bind f) → T = P.filterMap f := by
  induction P with
  | nil =>
    intro T _ h
    have := h 0
    cases T with
    | nil => rfl
    | cons => simp at this
  | cons x P ih =>
    intro T hs h
    obtain ⟨y, hy⟩ := Option.isSome_iff_exists.1 (hs x (by simp))
    have h0 := h 0
    cases T with
    | nil => simp [hy] at h0
    | cons z T =>
      rw [List.filterMap_cons, hy]
      simp [hy] at h0
      rw [h0]
      congr 1
      exact ih (fun x hx => hs x (by simp [hx])) fun i => by simpa using h (i + 1)

theorem filter_filterMap' {α β : Type} {f : α → Option β} {p : β → Bool} {q : α → Bool} {P : List α}
    (h : ∀ x ∈ P, ∀ y, f x = some y → p y = q x) : (P.filterMap f).filter p = (P.filter q).filterMap f := by
  induction P with
  | nil => rfl
  | cons x P ih =>
    have ih := ih fun x hx => h x (by simp [hx])
    rw [List.filterMap_cons]
    cases hf : f x with
    | none =>
      simp only []
      rw [ih]
      by_cases hq : q x
      · rw [List.filter_cons_of_pos hq, List.filterMap_cons, hf]
      · rw [List.filter_cons_of_neg hq]
    | some y =>
      simp only []
      have := h x (by simp) y hf
      by_cases hq : q x
      · rw [List.filter_cons_of_pos hq, List.filter_cons_of_pos (by rw [this, hq]), List.filterMap_cons, hf, ih]
      · rw [List.filter_cons_of_neg hq, List.filter_cons_of_neg (by rw [this]; exact hq), ih]

theorem pairwise_filterMap' {α β : Type} {f : α → Option β} {R : β → β → Prop} {S : α → α → Prop} {P : List α}
    (h : ∀ x ∈ P, ∀ x' ∈ P, S x x' → ∀ y y', f x = some y → f x' = some y' → R y y') (hP : P.Pairwise S) : (P.filterMap f).Pairwise R := by
  induction P with
  | nil => simp
  | cons x P ih =>
    have hP := List.pairwise_cons.1 hP
    have ih := ih (fun x hx x' hx' => h x (by simp [hx]) x' (by simp [hx'])) hP.2
    rw [List.filterMap_cons]
    cases hf : f x with
    | none => exact ih
    | some y =>
      refine List.pairwise_cons.2 ⟨?_, ih⟩
      intro y' hy'
      obtain ⟨x', hx', e⟩ := List.mem_filterMap.1 hy'
      exact h x (by simp) x' (by simp [hx']) (hP.1 x' hx') y y' hf e

/-- Sorted by the low 32 bits of the keys -/
theorem countingSort_eq {W : Type} (keys aux1 : List Nat) (aux2 : List W) (m : Nat) (hk : keys.length = m) (h1 : aux1.length = m)
    (h2 : aux2.length = m) :
    ∃ ks a1 a2, countingSort keys aux1 aux2 m = .ok (ks, a1, a2) ∧ ks.length = m ∧ a1.length = m ∧ a2.length = m ∧
      StableSort (fun e : Nat × Nat × W => e.1 % 2 ^ 32) (keys.zip (aux1.zip aux2)) (ks.zip (a1.zip a2)) := by
  obtain ⟨l, hl⟩ : ∃ l : List (Nat × Nat), l = keys.zip (List.range m) := ⟨_, rfl⟩
  have hlm : l.length = m := by rw [hl]; simp [hk]
  have hli : ∀ i : Nat, l[i]? = keys[i]?.bind fun k => some (k, i) := by
    intro i
    rw [hl]
    by_cases hi : i < m
    · rw [List.getElem?_eq_getElem (by simp; omega), List.getElem?_eq_getElem (by omega)]
      simp
    · rw [List.getElem?_eq_none (by simp; omega), List.getElem?_eq_none (by omega)]
      rfl
  have hlk : (l.map fun x => some x.1) = keys.map some := by
    apply List.ext_getElem?
    intro i
    rw [List.getElem?_map, List.getElem?_map, hli]
    cases keys[i]? <;> rfl
  have hlr : (l.map fun x => some x.2) = (List.range m).map some := by
    rw [hl]
    apply List.ext_getElem
    · simp [hk]
    · intro i h1 h2
      simp
  have hps := passes_sort l
  have hpl : (passes l).length = m := by rw [passes_length, hlm]
  obtain ⟨P, hP⟩ : ∃ P, P = passes l := ⟨_, rfl⟩
  -- the passes
  have e1 := countsortAux_eq l 0 11
  rw [hlk, hlr, hlm] at e1
  have e2 := countsortAux_eq (byDigit (fun x : Nat × Nat => bits x.1 0 11) (2 ^ 11) l) 11 11
  have e3 := countsortAux_eq (byDigit (fun x : Nat × Nat => bits x.1 11 11) (2 ^ 11) (byDigit (fun x : Nat × Nat => bits x.1 0 11) (2 ^ 11) l)) 22 10
  rw [byDigit_length (fun _ => bits_lt _ _ _), hlm] at e2
  rw [byDigit_length (fun _ => bits_lt _ _ _), byDigit_length (fun _ => bits_lt _ _ _), hlm] at e3
  change countsortAux _ _ _ _ _ _ = .ok ((passes l).map fun x => some x.1, (passes l).map fun x => some x.2) at e3
  rw [← hP] at e3 hps hpl
  have hidx : ∀ x ∈ l, x.2 < m ∧ keys[x.2]? = some x.1 := by
    intro x hx
    obtain ⟨i, hi, e⟩ := List.getElem_of_mem hx
    have h3 := hli i
    rw [List.getElem?_eq_getElem hi, e] at h3
    rw [List.getElem?_eq_getElem (by omega)] at h3
    simp at h3
    rw [h3]
    exact ⟨by omega, by simp⟩
  have hidx' : ∀ x ∈ P, x.2 < m ∧ keys[x.2]? = some x.1 := fun x hx => hidx x (hps.perm.mem_iff.1 hx)
  have hks : (List.range m).mapM (fun i => rdu (P.map fun x => some x.1) i) = .ok (P.map (·.1)) := by
    rw [mapM_ok (g := fun i => (P.getD i (0, 0)).1)]
    · congr 1
      apply List.ext_getElem
      · simp [hpl]
      · intro i h1 h2
        have : i < P.length := by simpa using h2
        simp [this]
    · intro i hi
      rw [List.mem_range] at hi
      have hi' : i < P.length := by omega
      rw [List.getD_eq_getElem?_getD, List.getElem?_eq_getElem hi']
      exact rdu_map Prod.fst hi'
  obtain ⟨b1, g1, l1, i1⟩ := gather_eq (a := aux1) (P := P) fun x hx => by rw [h1]; exact (hidx' x hx).1
  obtain ⟨b2, g2, l2, i2⟩ := gather_eq (a := aux2) (P := P) fun x hx => by rw [h2]; exact (hidx' x hx).1
  rw [hpl] at g1 g2 l1 l2
  refine ⟨P.map (·.1), b1, b2, ?_, by rw [List.length_map, hpl], l1, l2, ?_⟩
  · unfold countingSort
    rw [e1, ok_bind, e2, ok_bind, e3, ok_bind]
    simp only []
    rw [hks, ok_bind, g1, ok_bind, g2, ok_bind]
  · obtain ⟨T, hT⟩ : ∃ T, T = keys.zip (aux1.zip aux2) := ⟨_, rfl⟩
    have hTl : T.length = m := by rw [hT]; simp [hk, h1, h2]
    have hTi : ∀ i : Nat, T[i]? = keys[i]?.bind fun k => aux1[i]?.bind fun a => aux2[i]?.bind fun w => some (k, a, w) := by
      intro i
      rw [hT]
      by_cases hi : i < m
      · rw [List.getElem?_eq_getElem (by simp; omega), List.getElem?_eq_getElem (by omega), List.getElem?_eq_getElem (by omega),
          List.getElem?_eq_getElem (by omega)]
        simp
      · rw [List.getElem?_eq_none (by simp; omega), List.getElem?_eq_none (by omega)]
        rfl
    have hsome : ∀ x ∈ P, (T[x.2]?).isSome := fun x hx => by
      have := (hidx' x hx).1
      rw [List.getElem?_eq_getElem (by omega)]
      rfl
    have hsome' : ∀ x ∈ l, (T[x.2]?).isSome := fun x hx => by
      have := (hidx x hx).1
      rw [List.getElem?_eq_getElem (by omega)]
      rfl
    have hT' : (P.map (·.1)).zip (b1.zip b2) = P.filterMap fun x => T[x.2]? := by
      apply eq_filterMap hsome
      intro i
      by_cases hi : i < m
      · have hi' : i < P.length := by omega
        have hx := hidx' _ (List.getElem_mem hi')
        have j1 := i1 i
        have j2 := i2 i
        rw [List.getElem?_eq_getElem hi'] at j1 j2 ⊢
        simp only [Option.bind_some] at j1 j2 ⊢
        rw [hTi, hx.2, ← j1, ← j2, List.getElem?_eq_getElem (by simp; omega), List.getElem?_eq_getElem (by omega),
          List.getElem?_eq_getElem (by omega)]
        simp
      · rw [List.getElem?_eq_none (by simp; omega), List.getElem?_eq_none (by omega)]
        rfl
    have hTl' : T = l.filterMap fun x => T[x.2]? := by
      apply eq_filterMap hsome'
      intro i
      rw [hli]
      by_cases hi : i < m
      · rw [List.getElem?_eq_getElem (show i < keys.length by omega)]
        rfl
      · rw [List.getElem?_eq_none (by omega), List.getElem?_eq_none (show keys.length ≤ i by omega)]
        rfl
    have hkey : ∀ x : Nat × Nat, keys[x.2]? = some x.1 → ∀ y : Nat × Nat × W, T[x.2]? = some y → y.1 = x.1 := by
      intro x hx y hy
      rw [hTi, hx] at hy
      simp only [Option.bind_some] at hy
      cases h3 : aux1[x.2]? with
      | none => rw [h3] at hy; simp at hy
      | some a =>
        cases h4 : aux2[x.2]? with
        | none => rw [h3, h4] at hy; simp at hy
        | some w =>
          rw [h3, h4] at hy
          simp at hy
          rw [← hy]
    rw [hT', ← hT]
    refine ⟨?_, ?_, ?_⟩
    · have := hps.perm.filterMap fun x => T[x.2]?
      rwa [← hTl'] at this
    · refine pairwise_filterMap' ?_ hps.sorted
      intro x hx x' hx' h y y' hy hy'
      rw [hkey x (hidx' x hx).2 y hy, hkey x' (hidx' x' hx').2 y' hy']
      exact h
    · intro k
      rw [filter_filterMap' (q := fun x => decide (x.1 % 2 ^ 32 = k)), hps.stable k]
      · conv => rhs; rw [hTl']
        rw [filter_filterMap' (q := fun x => decide (x.1 % 2 ^ 32 = k))]
        intro x hx y hy
        rw [hkey x (hidx x hx).2 y hy]
      · intro x hx y hy
        rw [hkey x (hidx' x hx).2 y hy]

end Verif.Model.Rmat
