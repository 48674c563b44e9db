import Verif.Model.Convert
import Verif.Lemmas.OfRows
import Verif.Lemmas.Expected

/-! # Counting placement -/

namespace Verif.Conv
open Model

variable {α V : Type}

theorem replicate_eq_tab (n : Nat) (x : α) : List.replicate n x = tab n (fun _ => x) := by
  apply List.ext_getElem?
  intro i
  by_cases h : i < n
  · rw [tab_getElem? h, List.getElem?_replicate, if_pos h]
  · rw [List.getElem?_eq_none (by simp; omega), List.getElem?_eq_none (by simp; omega)]

/-- Payloads of the items with key `r`, in order. -/
def bucket (items : List (Nat × α)) (r : Nat) : List α :=
  items.filterMap fun x => if x.1 = r then some x.2 else none

theorem bucket_append (l l' : List (Nat × α)) (r : Nat) :
    bucket (l ++ l') r = bucket l r ++ bucket l' r := by simp [bucket]

theorem bucket_single (k : Nat) (x : α) (r : Nat) :
    bucket [(k, x)] r = if k = r then [x] else [] := by
  unfold bucket
  by_cases h : k = r <;> simp [h]

theorem mem_bucket {items : List (Nat × α)} {r : Nat} {x : α} :
    x ∈ bucket items r ↔ (r, x) ∈ items := by
  unfold bucket
  rw [List.mem_filterMap]
  constructor
  · rintro ⟨⟨k, y⟩, h1, h2⟩
    split at h2
    · rename_i hk
      simp only at hk
      cases h2
      subst hk
      exact h1
    · cases h2
  · intro h
    exact ⟨(r, x), h, by simp⟩

/-- Number of items with key `r`. -/
def cnt (items : List (Nat × α)) (r : Nat) : Nat := (bucket items r).length

theorem cnt_snoc (l : List (Nat × α)) (k : Nat) (x : α) (r : Nat) :
    cnt (l ++ [(k, x)]) r = cnt l r + if k = r then 1 else 0 := by
  unfold cnt
  rw [bucket_append, bucket_single, List.length_append]
  split <;> rfl

theorem psum_snoc (l : List (Nat × α)) (k : Nat) (x : α) : ∀ n,
    psum (cnt (l ++ [(k, x)])) n = psum (cnt l) n + if k < n then 1 else 0 := by
  intro n
  induction n with
  | zero => simp [psum]
  | succ n ih =>
    simp only [psum]
    rw [ih, cnt_snoc]
    by_cases h1 : k < n
    · rw [if_pos h1, if_neg (by omega), if_pos (by omega)]; omega
    · rw [if_neg h1]
      by_cases h2 : k = n
      · rw [if_pos h2, if_pos (by omega)]; omega
      · rw [if_neg h2, if_neg (by omega)]; omega

/-- All items are counted. -/
theorem psum_cnt {n : Nat} (l : List (Nat × α)) (h : ∀ x ∈ l, x.1 < n) :
    psum (cnt l) n = l.length := by
  induction l using list_snoc_induction with
  | h0 =>
    have : ∀ m, psum (cnt ([] : List (Nat × α))) m = 0 := by
      intro m
      induction m with
      | zero => rfl
      | succ m ih => simp only [psum, ih]; rfl
    exact this n
  | h1 l x ih =>
    obtain ⟨k, x⟩ := x
    rw [psum_snoc, ih (fun y hy => h y (by simp [hy])), if_pos (h (k, x) (by simp))]
    simp

theorem cnt_le_of_append (l l' : List (Nat × α)) (r : Nat) : cnt l r ≤ cnt (l ++ l') r := by
  unfold cnt
  rw [bucket_append, List.length_append]
  omega

/-- One placement: `arr[work[k]++] = x`. -/
def place1 (s : List Nat × List α) (it : Nat × α) : Res (List Nat × List α) := do
  let last ← rd s.1 it.1
  let work ← wr s.1 it.1 (last + 1)
  let arr ← wr s.2 last it.2
  .ok (work, arr)

/-- Placement of all items: every bucket is filled in the order of the items. -/
theorem place1_fold {n : Nat} (items : List (Nat × α)) (hk : ∀ x ∈ items, x.1 < n) (d : α) :
    ∃ w h, items.foldlM place1 (tab n (psum (cnt items)), List.replicate items.length d) =
        .ok (tab n w, tab items.length h) ∧
      ∀ r < n, ∀ t x, (bucket items r)[t]? = some x → h (psum (cnt items) r + t) = x := by
  rw [replicate_eq_tab]
  have hN := psum_cnt items hk
  obtain ⟨s, e1, w, h, e2, e3, e4⟩ := foldlM_inv (f := place1)
    (fun pre s => ∃ w h, s = (tab n w, tab items.length h) ∧
      (∀ r < n, w r = psum (cnt items) r + cnt pre r) ∧
      ∀ r < n, ∀ t x, (bucket pre r)[t]? = some x → h (psum (cnt items) r + t) = x)
    items (tab n (psum (cnt items)), tab items.length (fun _ => d))
    ⟨_, _, rfl, fun r _ => by simp [cnt, bucket], fun r _ t x hx => by simp [bucket] at hx⟩
    (by
      rintro pre ⟨k, x⟩ post s hl ⟨w, h, rfl, hw, hb⟩
      have hkn : k < n := hk (k, x) (by rw [hl]; simp)
      have hcnt : ∀ r, cnt pre r + (if k = r then 1 else 0) ≤ cnt items r := by
        intro r
        rw [← cnt_snoc pre k x r, hl]
        have := cnt_le_of_append (pre ++ [(k, x)]) post r
        simpa using this
      have hmono : ∀ r r', r < r' → r' ≤ n →
          psum (cnt items) r + cnt items r ≤ psum (cnt items) r' := by
        intro r r' h1 _
        exact psum_mono (f := cnt items) (show r + 1 ≤ r' from h1)
      have hwk := hw k hkn
      have hck := hcnt k
      rw [if_pos rfl] at hck
      have hlast := hmono k n hkn (Nat.le_refl _)
      refine ⟨(tab n (upd w k (w k + 1)), tab items.length (upd h (w k) x)), ?_, _, _, rfl, ?_, ?_⟩
      · unfold place1
        simp only []
        rw [rd_tab hkn, ok_bind, wr_tab hkn, ok_bind, wr_tab (by omega), ok_bind]
      · intro r hr
        rw [cnt_snoc]
        by_cases hrk : k = r
        · subst hrk
          rw [upd_same, if_pos rfl, hwk]; omega
        · rw [upd_ne _ _ (Ne.symm hrk), if_neg hrk, hw r hr]; omega
      · intro r hr t y hy
        rw [bucket_append, bucket_single] at hy
        by_cases hrk : k = r
        · subst hrk
          rw [if_pos rfl] at hy
          by_cases ht : t < cnt pre k
          · rw [List.getElem?_append_left ht] at hy
            rw [upd_ne _ _ (by omega)]
            exact hb k hr t y hy
          · unfold cnt at ht
            rw [List.getElem?_append_right (by omega)] at hy
            have ht2 : t = cnt pre k := by
              have := (List.getElem?_eq_some_iff.1 hy).1
              simp at this
              unfold cnt
              omega
            subst ht2
            have : cnt pre k - (bucket pre k).length = 0 := by unfold cnt; omega
            rw [this] at hy
            simp at hy
            rw [← hwk, upd_same]
            exact hy
        · rw [if_neg hrk, List.append_nil] at hy
          have ht : t < cnt pre r := (List.getElem?_eq_some_iff.1 hy).1
          have hcr := hcnt r
          rw [if_neg hrk] at hcr
          rw [upd_ne _ _ (by
            rcases Nat.lt_or_ge r k with h1 | h1
            · have := hmono r k h1 (by omega); omega
            · have := hmono k r (by omega) (by omega); omega)]
          exact hb r hr t y hy)
  exact ⟨w, h, by rw [e1, e2], e4⟩

/-- The placed array lists the buckets one after the other. -/
theorem place1_fold_seg {n : Nat} (items : List (Nat × α)) (hk : ∀ x ∈ items, x.1 < n)
    (d : α) :
    ∃ w, items.foldlM place1 (tab n (psum (cnt items)), List.replicate items.length d) =
        .ok (w, seg (bucket items) 0 n) := by
  obtain ⟨w, h, e1, e2⟩ := place1_fold items hk d
  refine ⟨tab n w, ?_⟩
  rw [e1]
  congr 2
  have hN := psum_cnt items hk
  have hc : cnt items = lens (bucket items) := rfl
  have hlen : (seg (bucket items) 0 n).length = items.length := by
    rw [seg_length _ (Nat.zero_le _), ← hc, hN]; simp [psum]
  apply List.ext_getElem?
  intro p
  by_cases hp : p < items.length
  · rw [tab_getElem? hp]
    obtain ⟨r, hr, h1, h2⟩ := cover_of (Q := psum (cnt items)) rfl n p (by omega)
    simp only [psum] at h2
    have hlt : p - psum (cnt items) r < (bucket items r).length := by
      show _ < cnt items r
      omega
    have h3 := seg_getElem? (bucket items) (b := r) (e := r + 1) (rows := n)
      (k := p - psum (cnt items) r) (by omega) hr (by rw [exp_eq_seg]; exact hlt)
    rw [exp_eq_seg, ← hc, show psum (cnt items) r + (p - psum (cnt items) r) = p by omega] at h3
    rw [h3, List.getElem?_eq_getElem hlt]
    congr 1
    have := e2 r hr _ _ (List.getElem?_eq_getElem hlt)
    rw [show psum (cnt items) r + (p - psum (cnt items) r) = p by omega] at this
    exact this
  · rw [List.getElem?_eq_none (by simp; omega), List.getElem?_eq_none (by omega)]

/-- Placement into two parallel arrays. -/
def place2 (s : List Nat × List Nat × List V) (it : Nat × (Nat × V)) :
    Res (List Nat × List Nat × List V) := do
  let last ← rd s.1 it.1
  let work ← wr s.1 it.1 (last + 1)
  let a ← wr s.2.1 last it.2.1
  let b ← wr s.2.2 last it.2.2
  .ok (work, a, b)

theorem place2_eq (w : List Nat) (arr : List (Nat × V)) (it : Nat × (Nat × V)) :
    place2 (w, arr.map (·.1), arr.map (·.2)) it =
      (place1 (w, arr) it).map (fun s => (s.1, s.2.map (·.1), s.2.map (·.2))) := by
  unfold place2 place1
  simp only []
  cases h1 : rd w it.1 with
  | error e => rfl
  | ok last =>
    simp only [ok_bind]
    cases h2 : wr w it.1 (last + 1) with
    | error e => rfl
    | ok w' =>
      simp only [ok_bind]
      by_cases hl : last < arr.length
      · rw [wr_of_lt (by simpa using hl), ok_bind, wr_of_lt (by simpa using hl), ok_bind, wr_of_lt hl,
          ok_bind]
        simp only [Except.map, List.map_set]
      · simp [wr, hl, Except.map]

theorem place2_fold (items : List (Nat × (Nat × V))) : ∀ (w : List Nat) (arr : List (Nat × V)),
    items.foldlM place2 (w, arr.map (·.1), arr.map (·.2)) =
      (items.foldlM place1 (w, arr)).map (fun s => (s.1, s.2.map (·.1), s.2.map (·.2))) := by
  induction items with
  | nil => intro w arr; rfl
  | cons it items ih =>
    intro w arr
    rw [List.foldlM_cons, List.foldlM_cons, place2_eq]
    cases h : place1 (w, arr) it with
    | error e => rfl
    | ok s =>
      simp only [Except.map, ok_bind]
      rw [ih]
      rfl

/-! ## Counting and prefix sums -/

theorem countKeys_eq {n : Nat} (items : List (Nat × α)) (hk : ∀ x ∈ items, x.1 < n)
    (key : Nat → Res Nat) (hkey : ∀ k, (h : k < items.length) → key k = .ok items[k].1) :
    countKeys key items.length (List.replicate n 0) = .ok (tab n (cnt items)) := by
  unfold countKeys
  rw [forRange_eq_slice (L := items) (g := fun work it => do
    let c ← rd work it.1
    wr work it.1 (c + 1)) (Nat.le_refl _) (by
      intro k hk' _ _ s
      rw [hkey k hk', ok_bind])]
  have hs : slice items 0 items.length = items := by simp [slice]
  rw [hs, replicate_eq_tab]
  refine foldlM_desc (fun pre => tab n (cnt pre)) items ?_
  rintro pre ⟨k, x⟩ post hl
  have hkn : k < n := hk (k, x) (by rw [hl]; simp)
  simp only []
  rw [rd_tab hkn, ok_bind, wr_tab hkn]
  congr 1
  apply tab_ext
  intro r _
  rw [cnt_snoc]
  by_cases h : k = r
  · subst h; simp
  · rw [upd_ne _ _ (Ne.symm h), if_neg h, Nat.add_zero]

theorem cumulativeSum_eq (n : Nat) (f : Nat → Nat) :
    cumulativeSum (tab n f) n = .ok (tab n (psum f), psum f n) := by
  unfold cumulativeSum
  obtain ⟨s, e1, e2⟩ := forRange_inv (body := fun i (a : List Nat × Nat) => do
      let prev ← rd a.1 i
      let arr ← wr a.1 i a.2
      .ok (arr, a.2 + prev))
    (fun k a => a = (tab n (fun i => if i < k then psum f i else f i), psum f k)) 0 n (by omega)
    (tab n f, 0) (by
      congr 1)
    (by
      rintro k s _ hk rfl
      refine ⟨_, by simp only []; rw [rd_tab hk, ok_bind, wr_tab hk, ok_bind], ?_⟩
      rw [if_neg (by omega)]
      congr 1
      apply tab_ext
      intro i _
      unfold upd
      by_cases hik : i = k
      · subst hik; rw [if_pos rfl, if_pos (by omega)]
      · rw [if_neg hik]
        simp only []
        by_cases hlt : i < k
        · rw [if_pos hlt, if_pos (by omega)]
        · rw [if_neg hlt, if_neg (by omega)])
  refine (show forRange 0 n (tab n f, 0) _ = _ from e1).trans ?_
  rw [e2]
  congr 2
  apply tab_ext
  intro i hi
  rw [if_pos hi]

theorem copyN_eq {n m : Nat} (f g : Nat → α) (h : n ≤ m) :
    copyN (tab n f) n (tab m g) = .ok (tab m (fun i => if i < n then f i else g i)) := by
  unfold copyN
  obtain ⟨s, e1, e2⟩ := forRange_inv (body := fun i (dst : List α) => do wr dst i (← rd (tab n f) i))
    (fun k a => a = tab m (fun i => if i < k then f i else g i)) 0 n (by omega) (tab m g)
    (by apply tab_ext; intro i _; simp)
    (by
      rintro k s _ hk rfl
      refine ⟨_, by rw [rd_tab hk, ok_bind, wr_tab (by omega)], ?_⟩
      apply tab_ext
      intro i _
      unfold upd
      by_cases hik : i = k
      · subst hik; rw [if_pos rfl, if_pos (by omega)]
      · rw [if_neg hik]
        simp only []
        by_cases hlt : i < k
        · rw [if_pos hlt, if_pos (by omega)]
        · rw [if_neg hlt, if_neg (by omega)])
  rw [e1, e2]

/-- The pointer array: total at the end, prefix sums before it. -/
theorem ptrArray (n : Nat) (f : Nat → Nat) :
    (do
      let p ← wr (List.replicate (n + 1) 0) n (psum f n)
      copyN (tab n (psum f)) n p) = .ok (tab (n + 1) (psum f)) := by
  rw [replicate_eq_tab, wr_tab (by omega), ok_bind, copyN_eq _ _ (by omega)]
  congr 1
  apply tab_ext
  intro i hi
  by_cases h : i < n
  · rw [if_pos h]
  · rw [if_neg h]
    have : i = n := by omega
    subst this
    rw [upd_same]

end Verif.Conv
