import Verif.SpecRadix
import Verif.Lemmas.RmatSort
import Mathlib.Order.Monotone.Basic
import Mathlib.Data.Nat.Bitwise
import Mathlib.Data.List.Pairwise
import Verif.Lemmas.MatObj

/-! # Lemmas for the radix sort -/

namespace Verif.Model.RadixSort

open Scan (rdu)
open Conv (bucket cnt bucket_append bucket_single cnt_snoc cnt_le_of_append psum_cnt replicate_eq_tab)
open Rmat (byDigit byDigit_sorted flatMap_single)

variable {α : Type}

/-! ## Placement by a digit -/

/-- The array starts with the elements of `l`. -/
def Holds (l : List α) (a : List (Option α)) : Prop := ∀ i (h : i < l.length), a[i]? = some (some l[i])

/-- The arrays have the same length and the same contents from `n` on. -/
def Same (n : Nat) (a b : List (Option α)) : Prop := b.length = a.length ∧ ∀ i, n ≤ i → b[i]? = a[i]?

theorem Same.refl (n : Nat) (a : List (Option α)) : Same n a a := ⟨rfl, fun _ _ => rfl⟩

theorem Same.trans {n : Nat} {a b c : List (Option α)} (h : Same n a b) (h' : Same n b c) : Same n a c :=
  ⟨h'.1.trans h.1, fun i hi => (h'.2 i hi).trans (h.2 i hi)⟩

theorem Holds.length_le {l : List α} {a : List (Option α)} (h : Holds l a) : l.length ≤ a.length := by
  by_contra hc
  have h1 := h a.length (by omega)
  rw [List.getElem?_eq_none (Nat.le_refl _)] at h1
  simp at h1

/-- Elements with their digits -/
def items (g : α → Nat) (l : List α) : List (Nat × α) := l.map fun x => (g x, x)

theorem items_length (g : α → Nat) (l : List α) : (items g l).length = l.length := by simp [items]

theorem bucket_items (g : α → Nat) (l : List α) (d : Nat) : bucket (items g l) d = l.filter fun x => decide (g x = d) := by
  unfold bucket items
  rw [List.filterMap_map]
  induction l with
  | nil => rfl
  | cons x l ih =>
    rw [List.filterMap_cons]
    by_cases h : g x = d
    · rw [List.filter_cons_of_pos (by simp [h]), ← ih]
      simp [h]
    · simp only [Function.comp, h, if_false]
      rw [List.filter_cons_of_neg (by simp [h])]
      exact ih

theorem cnt_perm {g : α → Nat} {l l' : List α} (h : l'.Perm l) : cnt (items g l') = cnt (items g l) := by
  funext d
  unfold cnt
  rw [bucket_items, bucket_items]
  exact (h.filter _).length_eq

/-- The elements of `pre` are in their places. -/
def Placed (R n : Nat) (its pre : List (Nat × α)) (dst0 dst : List (Option α)) : Prop :=
  Same n dst0 dst ∧ ∀ r < R, ∀ t x, (bucket pre r)[t]? = some x → dst[psum (cnt its) r + t]? = some (some x)

theorem placed_nil {R n : Nat} (its : List (Nat × α)) (dst : List (Option α)) : Placed R n its [] dst dst :=
  ⟨.refl _ _, fun r _ t x h => by simp [bucket] at h⟩

theorem place_pos {R : Nat} {its pre post : List (Nat × α)} {k : Nat} {x : α} (hl : its = pre ++ (k, x) :: post) (hk : ∀ y ∈ its, y.1 < R) :
    psum (cnt its) k + cnt pre k < its.length := by
  have hkn : k < R := hk (k, x) (by rw [hl]; simp)
  have h1 : cnt pre k + 1 ≤ cnt its k := by
    have h2 := cnt_snoc pre k x k
    rw [if_pos rfl] at h2
    rw [← h2, hl]
    have := cnt_le_of_append (pre ++ [(k, x)]) post k
    simpa using this
  have h3 : psum (cnt its) k + cnt its k ≤ psum (cnt its) R := psum_mono (f := cnt its) (show k + 1 ≤ R from hkn)
  rw [psum_cnt its hk] at h3
  omega

theorem place_step {R n : Nat} {its pre post : List (Nat × α)} {k : Nat} {x : α} (hl : its = pre ++ (k, x) :: post) (hk : ∀ y ∈ its, y.1 < R)
    (hn : its.length = n) {dst0 dst : List (Option α)} (hd : psum (cnt its) k + cnt pre k < dst0.length) (h : Placed R n its pre dst0 dst) :
    Placed R n its (pre ++ [(k, x)]) dst0 (dst.set (psum (cnt its) k + cnt pre k) (some x)) := by
  have hpos := place_pos hl hk
  obtain ⟨⟨h1, h2⟩, h3⟩ := h
  have hkn : k < R := hk (k, x) (by rw [hl]; simp)
  have hcnt : ∀ r, cnt pre r + (if k = r then 1 else 0) ≤ cnt its r := by
    intro r
    rw [← cnt_snoc pre k x r, hl]
    have := cnt_le_of_append (pre ++ [(k, x)]) post r
    simpa using this
  have hmono : ∀ r r', r < r' → psum (cnt its) r + cnt its r ≤ psum (cnt its) r' := by
    intro r r' h1
    exact psum_mono (f := cnt its) (show r + 1 ≤ r' from h1)
  refine ⟨⟨by simpa using h1, fun i hi => ?_⟩, ?_⟩
  · rw [List.getElem?_set_ne (by omega)]
    exact h2 i hi
  · intro r hr t y hy
    rw [bucket_append, bucket_single] at hy
    by_cases hrk : k = r
    · subst hrk
      rw [if_pos rfl] at hy
      by_cases ht : t < (bucket pre k).length
      · rw [List.getElem?_append_left ht] at hy
        have : t < cnt pre k := ht
        rw [List.getElem?_set_ne (by omega)]
        exact h3 k hr t y hy
      · rw [List.getElem?_append_right (by omega)] at hy
        have ht2 : t = cnt pre k := by
          have := (List.getElem?_eq_some_iff.1 hy).1
          simp at this
          unfold cnt
          omega
        subst ht2
        have : cnt pre k - (bucket pre k).length = 0 := by unfold cnt; omega
        rw [this] at hy
        simp at hy
        rw [List.getElem?_set_self (by omega), hy]
    · rw [if_neg hrk, List.append_nil] at hy
      have ht : t < cnt pre r := (List.getElem?_eq_some_iff.1 hy).1
      have hcr := hcnt r
      rw [if_neg hrk] at hcr
      have hck := hcnt k
      rw [if_pos rfl] at hck
      rw [List.getElem?_set_ne (by
        rcases Nat.lt_or_ge r k with h1 | h1
        · have := hmono r k h1; omega
        · have := hmono k r (by omega); omega)]
      exact h3 r hr t y hy

theorem placed_all {R n : Nat} {g : α → Nat} {l : List α} (hg : ∀ x ∈ l, g x < R) {dst0 dst : List (Option α)}
    (h : Placed R n (items g l) (items g l) dst0 dst) : Holds (byDigit g R l) dst := by
  have hk : ∀ y ∈ items g l, y.1 < R := by
    intro y hy
    obtain ⟨x, hx, rfl⟩ := List.mem_map.1 hy
    exact hg x hx
  have hseg : byDigit g R l = seg (bucket (items g l)) 0 R := by
    unfold seg byDigit
    rw [Nat.sub_zero, List.range_eq_range']
    congr 1
    funext d
    exact (bucket_items g l d).symm
  have hc : cnt (items g l) = lens (bucket (items g l)) := rfl
  have hN := psum_cnt (items g l) hk
  have hlen : (seg (bucket (items g l)) 0 R).length = (items g l).length := by
    rw [seg_length _ (Nat.zero_le _), ← hc, hN]; simp [psum]
  intro p hp
  obtain ⟨r, hr, h1, h2⟩ := cover_of (Q := psum (cnt (items g l))) rfl R p (by rw [hN, ← hlen, ← hseg]; exact hp)
  simp only [psum] at h2
  have hlt : p - psum (cnt (items g l)) r < (bucket (items g l) r).length := by
    show _ < cnt (items g l) r
    omega
  have h3 := seg_getElem? (bucket (items g l)) (b := r) (e := r + 1) (rows := R)
    (k := p - psum (cnt (items g l)) r) (by omega) hr (by rw [exp_eq_seg]; exact hlt)
  rw [exp_eq_seg, ← hc, show psum (cnt (items g l)) r + (p - psum (cnt (items g l)) r) = p by omega] at h3
  have h4 := h.2 r hr _ _ (List.getElem?_eq_getElem hlt)
  rw [show psum (cnt (items g l)) r + (p - psum (cnt (items g l)) r) = p by omega] at h4
  rw [h4]
  have h5 : (byDigit g R l)[p]? = some (bucket (items g l) r)[p - psum (cnt (items g l)) r] := by
    rw [hseg, h3, List.getElem?_eq_getElem hlt]
  rw [List.getElem?_eq_getElem hp] at h5
  exact (congrArg some h5).symm

/-! ## One pass -/

theorem rdu_of {a : List (Option α)} {i : Nat} {x : α} (h : a[i]? = some (some x)) : rdu a i = .ok x := by
  unfold rdu
  rw [rd_of_getElem? h, ok_bind]
  rfl

theorem move_ok {src dst : List (Option α)} {i pos : Nat} {x : α} (h : src[i]? = some (some x)) (hp : pos < dst.length) :
    move src dst i pos = .ok (src.set i none, dst.set pos (some x)) := by
  unfold move
  rw [rdu_of h, ok_bind, wr_of_lt hp, ok_bind, wr_of_lt (List.getElem?_eq_some_iff.1 h).1, ok_bind]

theorem items_take (g : α → Nat) (l : List α) {k : Nat} (hk : k < l.length) :
    (items g l).take (k + 1) = (items g l).take k ++ [(g l[k], l[k])] := by
  rw [List.take_succ_eq_append_getElem (by rw [items_length]; exact hk)]
  simp [items]

theorem items_split (g : α → Nat) (l : List α) {k : Nat} (hk : k < l.length) :
    items g l = (items g l).take k ++ (g l[k], l[k]) :: (items g l).drop (k + 1) := by
  have h1 : k < (items g l).length := by rw [items_length]; exact hk
  have h2 := List.take_append_drop k (items g l)
  rw [List.drop_eq_getElem_cons h1] at h2
  simp only [items, List.getElem_map] at h2 ⊢
  exact h2.symm

theorem items_lt {R : Nat} {g : α → Nat} {l : List α} (hg : ∀ x ∈ l, g x < R) : ∀ y ∈ items g l, y.1 < R := by
  intro y hy
  obtain ⟨x, hx, rfl⟩ := List.mem_map.1 hy
  exact hg x hx

theorem hist_eq {W : Nat} {g : α → Nat} {l : List α} {src : List (Option α)} (h : Holds l src) (hg : ∀ x ∈ l, g x < 256) :
    hist W g l.length src = .ok (tab 256 fun d => cnt (items g l) d % W) := by
  unfold hist
  obtain ⟨s, e1, e2⟩ := forRange_inv (body := fun i cs => do
      let x ← rdu src i
      let c ← rd cs (g x)
      wr cs (g x) ((c + 1) % W))
    (fun k cs => cs = tab 256 fun d => cnt ((items g l).take k) d % W) 0 l.length (Nat.zero_le _) (List.replicate 256 0)
    (by rw [replicate_eq_tab]; simp [cnt, bucket])
    (by
      rintro k cs _ hk rfl
      have hd : g l[k] < 256 := hg _ (List.getElem_mem hk)
      refine ⟨_, by rw [rdu_of (h k hk), ok_bind, rd_tab hd, ok_bind, wr_tab hd], ?_⟩
      apply tab_ext
      intro d _
      rw [items_take g l hk, cnt_snoc]
      by_cases he : g l[k] = d
      · subst he
        rw [upd_same, if_pos rfl, Nat.mod_add_mod]
      · rw [upd_ne _ _ (Ne.symm he), if_neg he, Nat.add_zero])
  rw [e1, e2, List.take_of_length_le (by rw [items_length])]

theorem starts_eq (W : Nat) (f : Nat → Nat) : starts W (tab 256 fun d => f d % W) = .ok (tab 256 fun d => psum f d % W) := by
  unfold starts
  obtain ⟨s, e1, e2⟩ := forRange_inv (body := fun i (s : List Nat × Nat) => do
      let c ← rd s.1 i
      let cs ← wr s.1 i s.2
      .ok (cs, (s.2 + c) % W))
    (fun k a => a.1 = tab 256 (fun i => if i < k then psum f i % W else f i % W) ∧ a.2 % W = psum f k % W ∧ (a.2 = psum f k % W ∨ k = 0 ∧ a.2 = 0)) 0 256 (by omega)
    (tab 256 fun d => f d % W, 0) ⟨by simp, by simp [psum], by simp⟩
    (by
      rintro k ⟨cs, t⟩ _ hk ⟨h1, h2, h3⟩
      simp only at h1 h2 h3
      subst h1
      refine ⟨_, by simp only []; rw [rd_tab hk, ok_bind, wr_tab hk, ok_bind], ?_, ?_, ?_⟩
      · apply tab_ext
        intro i _
        by_cases hik : i = k
        · subst hik
          rw [upd_same, if_pos (by omega)]
          rcases h3 with h3 | ⟨h3, h4⟩
          · exact h3
          · subst h3; rw [h4]; simp [psum]
        · rw [upd_ne _ _ hik]
          by_cases hlt : i < k
          · rw [if_pos hlt, if_pos (by omega)]
          · rw [if_neg hlt, if_neg (by omega)]
      · simp only [psum]
        rw [if_neg (by omega), Nat.mod_mod, Nat.add_mod_mod, Nat.add_mod, h2, ← Nat.add_mod]
      · left
        simp only [psum]
        rw [if_neg (by omega), Nat.add_mod_mod, Nat.add_mod, h2, ← Nat.add_mod])
  have e3 : (tab 256 fun i => if i < 256 then psum f i % W else f i % W) = tab 256 fun d => psum f d % W :=
    tab_ext fun i hi => if_pos hi
  rw [e1, ok_bind, e2.1, e3]

theorem scatter_eq {W : Nat} {g : α → Nat} {l : List α} {src dst : List (Option α)} (h : Holds l src) (hg : ∀ x ∈ l, g x < 256)
    (hW : W = 0 ∨ l.length ≤ W) (hd : l.length ≤ dst.length) :
    ∃ src' dst', scatter W g l.length (tab 256 fun d => psum (cnt (items g l)) d % W) src dst = .ok (src', dst') ∧
      Holds (byDigit g 256 l) dst' ∧ Same l.length src src' ∧ Same l.length dst dst' := by
  unfold scatter
  obtain ⟨s, e1, e2, e3, e4⟩ := forRange_inv (body := put W g)
    (fun k s => s.1 = tab 256 (fun d => (psum (cnt (items g l)) d + cnt ((items g l).take k) d) % W) ∧
      Same k src s.2.1 ∧ Placed 256 l.length (items g l) ((items g l).take k) dst s.2.2) 0 l.length (Nat.zero_le _)
    (tab 256 fun d => psum (cnt (items g l)) d % W, src, dst)
    ⟨by simp [cnt, bucket], .refl _ _, by simpa using placed_nil _ _⟩
    (by
      rintro k ⟨cs, sr, ds⟩ _ hk ⟨h1, h2, h3⟩
      simp only at h1 h2 h3
      subst h1
      have hd' : g l[k] < 256 := hg _ (List.getElem_mem hk)
      have hx : sr[k]? = some (some l[k]) := by rw [h2.2 k (Nat.le_refl _)]; exact h k hk
      have hpos := place_pos (items_split g l hk) (items_lt hg)
      rw [items_length] at hpos
      have hmod : (psum (cnt (items g l)) (g l[k]) + cnt ((items g l).take k) (g l[k])) % W = psum (cnt (items g l)) (g l[k]) + cnt ((items g l).take k) (g l[k]) := by
        rcases hW with rfl | hW
        · rw [Nat.mod_zero]
        · exact Nat.mod_eq_of_lt (by omega)
      have hsz := h3.1.1
      refine ⟨_, by
        unfold put
        simp only []
        rw [rdu_of hx, ok_bind, rd_tab hd', ok_bind, wr_tab hd', ok_bind, hmod, move_ok hx (by omega), ok_bind], ?_, ?_, ?_⟩
      · apply tab_ext
        intro d _
        rw [items_take g l hk, cnt_snoc]
        by_cases he : g l[k] = d
        · subst he
          rw [upd_same, if_pos rfl]
          congr 1
        · rw [upd_ne _ _ (Ne.symm he), if_neg he, Nat.add_zero]
      · refine ⟨by simpa using h2.1, fun i hi => ?_⟩
        simp only []
        rw [List.getElem?_set_ne (by omega)]
        exact h2.2 i (by omega)
      · rw [items_take g l hk]
        exact place_step (items_split g l hk) (items_lt hg) (items_length g l) (by omega) h3)
  rw [e1, ok_bind]
  rw [List.take_of_length_le (by rw [items_length])] at e4
  exact ⟨_, _, rfl, placed_all hg e4, e3, e4.1⟩

theorem forRange_or {σ : Type} {body : Nat → σ → Res σ} (P : Nat → σ → Prop) (er : Err) : ∀ (n lo : Nat) (s : σ), P lo s →
    (∀ i s, lo ≤ i → i < lo + n → P i s → (∃ s', body i s = .ok s' ∧ P (i + 1) s') ∨ body i s = .error er) →
    (∃ s', forRange lo (lo + n) s body = .ok s' ∧ P (lo + n) s') ∨ forRange lo (lo + n) s body = .error er := by
  intro n
  induction n with
  | zero => intro lo s h0 _; exact .inl ⟨s, forRange_of_le (by omega) _ _, h0⟩
  | succ n ih =>
    intro lo s h0 hs
    rw [forRange_step (by omega)]
    rcases hs lo s (Nat.le_refl _) (by omega) h0 with ⟨s', e, h'⟩ | e
    · rw [e, ok_bind]
      have := ih (lo + 1) s' h' fun i s h1 h2 => hs i s (by omega) (by omega)
      rwa [show lo + 1 + n = lo + (n + 1) by omega] at this
    · rw [e]; exact .inr rfl

/-- A target that is too short -/
theorem scatter_short {W : Nat} {g : α → Nat} {l : List α} {src dst : List (Option α)} (h : Holds l src) (hg : ∀ x ∈ l, g x < 256)
    (hW : W = 0 ∨ l.length ≤ W) (hd : dst.length < l.length) :
    scatter W g l.length (tab 256 fun d => psum (cnt (items g l)) d % W) src dst = .error .oob := by
  unfold scatter
  have key := forRange_or (body := put W g)
    (fun k s => s.1 = tab 256 (fun d => (psum (cnt (items g l)) d + cnt ((items g l).take k) d) % W) ∧
      Same k src s.2.1 ∧ Placed 256 l.length (items g l) ((items g l).take k) dst s.2.2) .oob l.length 0
    (tab 256 fun d => psum (cnt (items g l)) d % W, src, dst)
    ⟨by simp [cnt, bucket], .refl _ _, by simpa using placed_nil _ _⟩
    (by
      rintro k ⟨cs, sr, ds⟩ _ hk ⟨h1, h2, h3⟩
      rw [Nat.zero_add] at hk
      simp only at h1 h2 h3
      subst h1
      have hd' : g l[k] < 256 := hg _ (List.getElem_mem hk)
      have hx : sr[k]? = some (some l[k]) := by rw [h2.2 k (Nat.le_refl _)]; exact h k hk
      have hpos := place_pos (items_split g l hk) (items_lt hg)
      rw [items_length] at hpos
      have hmod : (psum (cnt (items g l)) (g l[k]) + cnt ((items g l).take k) (g l[k])) % W = psum (cnt (items g l)) (g l[k]) + cnt ((items g l).take k) (g l[k]) := by
        rcases hW with rfl | hW
        · rw [Nat.mod_zero]
        · exact Nat.mod_eq_of_lt (by omega)
      have hsz := h3.1.1
      by_cases hin : psum (cnt (items g l)) (g l[k]) + cnt ((items g l).take k) (g l[k]) < ds.length
      · refine .inl ⟨_, by
          unfold put
          simp only []
          rw [rdu_of hx, ok_bind, rd_tab hd', ok_bind, wr_tab hd', ok_bind, hmod, move_ok hx hin, ok_bind], ?_, ?_, ?_⟩
        · apply tab_ext
          intro d _
          rw [items_take g l hk, cnt_snoc]
          by_cases he : g l[k] = d
          · subst he
            rw [upd_same, if_pos rfl]
            congr 1
          · rw [upd_ne _ _ (Ne.symm he), if_neg he, Nat.add_zero]
        · refine ⟨by simpa using h2.1, fun i hi => ?_⟩
          simp only []
          rw [List.getElem?_set_ne (by omega)]
          exact h2.2 i (by omega)
        · rw [items_take g l hk]
          exact place_step (items_split g l hk) (items_lt hg) (items_length g l) (by omega) h3
      · right
        unfold put move
        simp only []
        rw [rdu_of hx, ok_bind, rd_tab hd', ok_bind, wr_tab hd', ok_bind, hmod, ok_bind, wr, if_neg hin]
        rfl)
  rw [Nat.zero_add] at key
  rcases key with ⟨s, _, _, _, e4⟩ | e
  · rw [List.take_of_length_le (by rw [items_length])] at e4
    have h1 := (placed_all hg e4).length_le
    have h2 : (byDigit g 256 l).length = l.length := by
      have h3 := psum_cnt (items g l) (items_lt hg)
      have hc : cnt (items g l) = lens (bucket (items g l)) := rfl
      have hseg : byDigit g 256 l = seg (bucket (items g l)) 0 256 := by
        unfold seg byDigit
        rw [Nat.sub_zero, List.range_eq_range']
        congr 1
        funext d
        exact (bucket_items g l d).symm
      rw [hseg, seg_length _ (Nat.zero_le _), ← hc, h3, items_length]
      simp [psum]
    have := e4.1.1
    omega
  · rw [e]; rfl

/-! ## What a pass does to the order -/

/-- `r` is `l` sorted by `key`: elements with the same key keep the order they had. -/
structure Good {K : Type} [LT K] (key : α → K) (l r : List α) : Prop where
  perm : r.Perm l
  sorted : ∀ R : α → α → Prop, l.Pairwise R → r.Pairwise fun x y => key x < key y ∨ key x = key y ∧ R x y
  stable : ∀ c : α → List Int, (∀ x ∈ l, ∀ y ∈ l, c x = c y → key x = key y) → ∀ k, r.filter (fun x => decide (c x = k)) = l.filter fun x => decide (c x = k)

theorem byDigit_filter' {g : α → Nat} {R : Nat} {l : List α} (hg : ∀ x ∈ l, g x < R) {c : α → List Int}
    (hk : ∀ x ∈ l, ∀ y ∈ l, c x = c y → g x = g y) (k : List Int) :
    (byDigit g R l).filter (fun x => decide (c x = k)) = l.filter fun x => decide (c x = k) := by
  unfold byDigit
  rw [List.filter_flatMap]
  by_cases he : ∃ x ∈ l, c x = k
  · obtain ⟨x0, h1, h0⟩ := he
    rw [← flatMap_single (l.filter fun x => decide (c x = k)) (g x0) R (hg x0 h1)]
    congr 1
    funext d
    rw [List.filter_filter]
    split
    · rename_i hd
      apply List.filter_congr
      intro x hx'
      by_cases hx : c x = k
      · have := hk x hx' x0 h1 (by rw [hx, h0])
        simp [hx, this, hd]
      · simp [hx]
    · rename_i hd
      rw [List.filter_eq_nil_iff]
      intro x hx hc
      simp only [Bool.and_eq_true, decide_eq_true_eq] at hc
      exact hd (by rw [← hc.2]; exact hk x hx x0 h1 (by rw [hc.1, h0]))
  · have h1 : l.filter (fun x => decide (c x = k)) = [] := by
      rw [List.filter_eq_nil_iff]
      intro x hx hc
      exact he ⟨x, hx, by simpa using hc⟩
    rw [h1, List.flatMap_eq_nil_iff]
    intro d _
    rw [List.filter_eq_nil_iff]
    intro x hx hc
    exact he ⟨x, (List.mem_filter.1 hx).1, by simpa using hc⟩

theorem byDigit_perm {g : α → Nat} {R : Nat} : ∀ {l : List α}, (∀ x ∈ l, g x < R) → (byDigit g R l).Perm l := by
  classical
  intro l hg
  rw [List.perm_iff_count]
  intro x
  have h1 : ∀ l : List α, l.count x = (l.filter fun y => decide (g y = g x)).count x := by
    intro l
    rw [List.count_filter (by simp)]
  rw [h1, h1 l]
  have := byDigit_filter' hg (c := fun y => [(g y : Int)]) (fun x _ y _ h => by simpa using h) [(g x : Int)]
  simp only [List.cons.injEq, and_true, Int.natCast_inj] at this
  rw [this]

theorem byDigit_good {g : α → Nat} {R : Nat} {l : List α} (hg : ∀ x ∈ l, g x < R) : Good g l (byDigit g R l) :=
  ⟨byDigit_perm hg, fun _ h => byDigit_sorted h, fun _ hc k => byDigit_filter' hg hc k⟩

theorem Good.comp {K K1 K2 : Type} [LT K] [LT K1] [LT K2] {k1 : α → K1} {k2 : α → K2} {key : α → K} {l r s : List α} (h1 : Good k1 l r)
    (h2 : Good k2 r s) (hlt : ∀ x ∈ l, ∀ y ∈ l, (k2 x < k2 y ∨ k2 x = k2 y ∧ k1 x < k1 y) → key x < key y)
    (heq : ∀ x ∈ l, ∀ y ∈ l, key x = key y ↔ (k2 x = k2 y ∧ k1 x = k1 y)) : Good key l s := by
  refine ⟨h2.perm.trans h1.perm, fun R hR => ?_, fun c hc k => ?_⟩
  · refine (h2.sorted _ (h1.sorted R hR)).imp_of_mem ?_
    intro x y hx hy h
    have hx := (h2.perm.trans h1.perm).mem_iff.1 hx
    have hy := (h2.perm.trans h1.perm).mem_iff.1 hy
    rcases h with h | ⟨h, h' | ⟨h', h''⟩⟩
    · exact .inl (hlt x hx y hy (.inl h))
    · exact .inl (hlt x hx y hy (.inr ⟨h, h'⟩))
    · exact .inr ⟨(heq x hx y hy).2 ⟨h, h'⟩, h''⟩
  · rw [h2.stable c (fun x hx y hy h => ((heq x (h1.perm.mem_iff.1 hx) y (h1.perm.mem_iff.1 hy)).1 (hc x (h1.perm.mem_iff.1 hx) y (h1.perm.mem_iff.1 hy) h)).1),
      h1.stable c (fun x hx y hy h => ((heq x hx y hy).1 (hc x hx y hy h)).2)]

theorem Good.congr {K K' : Type} [LT K] [LT K'] {key : α → K} {key' : α → K'} {l r : List α} (h : Good key l r)
    (hlt : ∀ x ∈ l, ∀ y ∈ l, key x < key y → key' x < key' y) (heq : ∀ x ∈ l, ∀ y ∈ l, key' x = key' y ↔ key x = key y) : Good key' l r := by
  refine ⟨h.perm, fun R hR => (h.sorted R hR).imp_of_mem ?_, fun c hc k => h.stable c (fun x hx y hy e => (heq x hx y hy).1 (hc x hx y hy e)) k⟩
  intro x y hx hy hxy
  have hx := h.perm.mem_iff.1 hx
  have hy := h.perm.mem_iff.1 hy
  rcases hxy with hxy | ⟨hxy, h'⟩
  · exact .inl (hlt x hx y hy hxy)
  · exact .inr ⟨(heq x hx y hy).2 hxy, h'⟩

/-! ## Words -/

/-- A run of a sorter: the arrays after it, and where the elements are -/
def Sorts {K : Type} [LT K] (key : α → K) (l : List α) (a b : List (Option α)) (o : Res (Bool × List (Option α) × List (Option α))) : Prop :=
  ∃ w a' b' r, o = .ok (w, a', b') ∧ Holds r (if w then b' else a') ∧ Same l.length a a' ∧ Same l.length b b' ∧ Good key l r

theorem countW_ge (n : Nat) : countW n = 0 ∨ n ≤ countW n := by
  unfold countW
  split <;> [skip; split <;> [skip; split]] <;> omega

theorem byte_eq (key : α → Nat) (j : Nat) (x : α) : byte key j x = key x / 2 ^ (8 * j) % 256 := by
  unfold byte
  rw [Nat.shiftRight_eq_div_pow]
  exact Nat.and_two_pow_sub_one_eq_mod _ 8

theorem byte_lt (key : α → Nat) (j : Nat) (x : α) : byte key j x < 256 := by
  rw [byte_eq]
  exact Nat.mod_lt _ (by omega)

theorem countingSort_eq {key : α → Nat} {l : List α} {a b : List (Option α)} (h : Holds l a)
    (hb : l.length ≤ b.length) (hk : ∀ x ∈ l, key x < 256) :
    ∃ a' b', countingSort key l.length a b = .ok (a', b') ∧ Holds (byDigit key 256 l) b' ∧ Same l.length a a' ∧ Same l.length b b' := by
  unfold countingSort
  have e : items (fun x => key x % 256) l = items key l := by
    unfold items
    apply List.map_congr_left
    intro x hx
    simp only [Nat.mod_eq_of_lt (hk x hx)]
  have e' : byDigit (fun x => key x % 256) 256 l = byDigit key 256 l := by
    unfold byDigit
    congr 1
    funext d
    apply List.filter_congr
    intro x hx
    simp only [Nat.mod_eq_of_lt (hk x hx)]
  rw [hist_eq h hk, ok_bind, starts_eq, ok_bind, ← e, ← e']
  exact scatter_eq h (fun x _ => Nat.mod_lt _ (by omega)) (countW_ge _) hb

theorem low_step (v j : Nat) : v % 2 ^ (8 * (j + 1)) = v % 2 ^ (8 * j) + 2 ^ (8 * j) * (v / 2 ^ (8 * j) % 256) := by
  rw [show 8 * (j + 1) = 8 * j + 8 by omega, Nat.pow_add]
  exact Nat.mod_mul

/-- One more byte -/
theorem byte_good {key : α → Nat} {j : Nat} {l r : List α} (h : Good (fun x => key x % 2 ^ (8 * j)) l r) :
    Good (fun x => key x % 2 ^ (8 * (j + 1))) l (byDigit (byte key j) 256 r) := by
  refine h.comp (byDigit_good fun x _ => byte_lt key j x) ?_ ?_
  · intro x _ y _ hxy
    have hx : key x % 2 ^ (8 * j) < 2 ^ (8 * j) := Nat.mod_lt _ (Nat.two_pow_pos _)
    simp only [byte_eq] at hxy
    show key x % _ < key y % _
    rw [low_step, low_step]
    rcases hxy with hxy | ⟨hxy, hxy'⟩
    · have h1 := Nat.mul_le_mul_left (2 ^ (8 * j)) (show key x / 2 ^ (8 * j) % 256 + 1 ≤ _ from hxy)
      rw [Nat.mul_add] at h1
      omega
    · rw [hxy]; omega
  · intro x _ y _
    have hx : key x % 2 ^ (8 * j) < 2 ^ (8 * j) := Nat.mod_lt _ (Nat.two_pow_pos _)
    have hy : key y % 2 ^ (8 * j) < 2 ^ (8 * j) := Nat.mod_lt _ (Nat.two_pow_pos _)
    simp only [byte_eq]
    constructor
    · intro e
      rw [low_step, low_step] at e
      have e1 := congrArg (· / 2 ^ (8 * j)) e
      have e2 := congrArg (· % 2 ^ (8 * j)) e
      simp only [Nat.add_mul_div_left _ _ (Nat.two_pow_pos (8 * j)), Nat.div_eq_of_lt hx, Nat.div_eq_of_lt hy, Nat.zero_add,
        Nat.add_mul_mod_self_left, Nat.mod_mod] at e1 e2
      exact ⟨e1, e2⟩
    · rintro ⟨e1, e2⟩
      rw [low_step, low_step, e1, e2]

theorem mapM_map_ok {β γ δ : Type} (f : γ → Res δ) (h : β → γ) {g : β → δ} (e : ∀ x, f (h x) = .ok (g x)) (l : List β) :
    (l.map h).mapM f = .ok (l.map g) := by
  rw [List.mapM_map]
  exact mapM_ok fun x _ => e x

theorem sortInline_eq {key : α → Nat} {l : List α} {a b : List (Option α)} (h : Holds l a) (hb : l.length ≤ b.length)
    (h2 : Nat) :
    ∃ a' b' r, sortInline (2 * h2) key l.length a b = .ok (a', b') ∧ Holds r a' ∧ Same l.length a a' ∧ Same l.length b b' ∧
      Good (fun x => key x % 2 ^ (8 * (2 * h2))) l r := by
  unfold sortInline
  have hW := countW_ge l.length
  generalize countW l.length = W at hW ⊢
  rw [mapM_ok (g := fun j => tab 256 fun d => cnt (items (byte key j) l) d % W) (fun j _ => hist_eq h fun x _ => byte_lt key j x), ok_bind]
  rw [mapM_map_ok (g := fun j => tab 256 fun d => psum (cnt (items (byte key j) l)) d % W) (starts W) _ (fun j => starts_eq W _), ok_bind]
  obtain ⟨s, e1, r, e2, e3, e4, e5⟩ := forRange_inv
    (body := twoPasses W key l.length ((List.range (2 * h2)).map fun j => tab 256 fun d => psum (cnt (items (byte key j) l)) d % W))
    (fun p s => ∃ r, Holds r s.1 ∧ Same l.length a s.1 ∧ Same l.length b s.2 ∧ Good (fun x => key x % 2 ^ (8 * (2 * p))) l r) 0 (2 * h2 / 2)
    (Nat.zero_le _) (a, b)
    ⟨l, h, .refl _ _, .refl _ _, .refl _, fun R hR => hR.imp fun hxy => .inr ⟨by simp [Nat.mod_one], hxy⟩, fun _ _ _ => rfl⟩
    (by
      rintro p ⟨a1, b1⟩ _ hp ⟨r, h1, h3, h4, h5⟩
      simp only at h1 h3 h4
      have hrl := h5.perm.length_eq
      have g1 := byte_good (j := 2 * p) h5
      have g2 := byte_good (j := 2 * p + 1) g1
      have hr1 := g1.perm.length_eq
      obtain ⟨a2, b2, q1, q2, q3, q4⟩ := scatter_eq (W := W) (g := byte key (2 * p)) (dst := b1) h1 (fun x _ => byte_lt key _ x) (by omega)
        (by have := h4.1; omega)
      rw [cnt_perm h5.perm, hrl] at q1
      rw [hrl] at q3 q4
      obtain ⟨b3, a3, t1, t2, t3, t4⟩ := scatter_eq (W := W) (g := byte key (2 * p + 1)) (dst := a2) q2 (fun x _ => byte_lt key _ x) (by omega)
        (by have := q3.1; have := h3.1; have := h.length_le; omega)
      rw [cnt_perm g1.perm, hr1] at t1
      rw [hr1] at t3 t4
      refine ⟨(a3, b3), ?_, _, t2, (h3.trans q3).trans t4, (h4.trans q4).trans t3, ?_⟩
      · unfold twoPasses
        rw [rd_of_getElem? (x := tab 256 fun d => psum (cnt (items (byte key (2 * p)) l)) d % W) (by
          rw [List.getElem?_map, List.getElem?_range (by omega)]; rfl), ok_bind]
        simp only []
        rw [q1, ok_bind]
        rw [rd_of_getElem? (x := tab 256 fun d => psum (cnt (items (byte key (2 * p + 1)) l)) d % W) (by
          rw [List.getElem?_map, List.getElem?_range (by omega)]; rfl), ok_bind]
        simp only []
        rw [t1, ok_bind]
      · rw [show 2 * (p + 1) = 2 * p + 1 + 1 by omega]
        exact g2)
  rw [show 2 * h2 / 2 = h2 by omega] at e1 e5 ⊢
  exact ⟨_, _, r, e1, e2, e3, e4, e5⟩

/-- A buffer that is too short -/
theorem sized_short {k : Nat} (hk : Spec.WordSize k) {key : α → Nat} {l : List α} {a b : List (Option α)} (h : Holds l a)
    (hb : b.length < l.length) (hf : ∀ x ∈ l, key x < 2 ^ (8 * k)) : sized k key l.length a b = .error .oob := by
  unfold sized
  by_cases h1 : k = 1
  · subst h1
    rw [if_pos rfl]
    unfold countingSort
    have e : items (fun x => key x % 256) l = items key l := by
      unfold items
      apply List.map_congr_left
      intro x hx
      simp only [Nat.mod_eq_of_lt (show key x < 256 from hf x hx)]
    rw [hist_eq h (by exact hf), ok_bind, starts_eq, ok_bind, ← e, scatter_short h (fun x _ => Nat.mod_lt _ (by omega)) (countW_ge _) hb]
    rfl
  · obtain ⟨j, rfl⟩ : ∃ j, k = 2 * (j + 1) := by
      rcases hk with rfl | rfl | rfl | rfl
      · exact absurd rfl h1
      · exact ⟨0, rfl⟩
      · exact ⟨1, rfl⟩
      · exact ⟨3, rfl⟩
    rw [if_neg h1]
    unfold sortInline
    have hW := countW_ge l.length
    generalize countW l.length = W at hW ⊢
    rw [mapM_ok (g := fun j => tab 256 fun d => cnt (items (byte key j) l) d % W) (fun j _ => hist_eq h fun x _ => byte_lt key j x), ok_bind]
    rw [mapM_map_ok (g := fun j => tab 256 fun d => psum (cnt (items (byte key j) l)) d % W) (starts W) _ (fun j => starts_eq W _), ok_bind]
    rw [forRange_step (by omega)]
    unfold twoPasses
    rw [rd_of_getElem? (x := tab 256 fun d => psum (cnt (items (byte key (2 * 0)) l)) d % W) (by
          rw [List.getElem?_map, List.getElem?_range (by omega)]; rfl), ok_bind]
    simp only []
    rw [scatter_short h (fun x _ => byte_lt key _ x) hW hb]
    rfl

/-- A key that is no byte -/
theorem countingSort_oob {key : α → Nat} {l : List α} {a b : List (Option α)} (h : Holds l a) (hx : ∃ x ∈ l, 256 ≤ key x) :
    countingSort key l.length a b = .error .oob := by
  unfold countingSort
  have hh : ∀ W, hist W key l.length a = .error .oob := by
    intro W
    unfold hist
    have := forRange_or (body := fun i cs => do
      let x ← rdu a i
      let c ← rd cs (key x)
      wr cs (key x) ((c + 1) % W))
      (fun k cs => cs.length = 256 ∧ ∀ i (_ : i < k) (h : i < l.length), key l[i] < 256) .oob l.length 0 (List.replicate 256 0) ⟨List.length_replicate, fun i h => by omega⟩
      (by
        rintro k cs _ hk ⟨h1, h2⟩
        rw [Nat.zero_add] at hk
        by_cases hlt : key l[k] < 256
        · refine .inl ⟨_, by rw [rdu_of (h k hk), ok_bind, rd_of_lt (by omega), ok_bind, wr_of_lt (by omega)], by simpa using h1, ?_⟩
          intro i hi hil
          by_cases hik : i = k
          · subst hik; exact hlt
          · exact h2 i (by omega) hil
        · right
          rw [rdu_of (h k hk), ok_bind, rd_oob (by omega)]
          rfl)
    rw [Nat.zero_add] at this
    rcases this with ⟨s, _, _, h2⟩ | e
    · obtain ⟨x, hx, hk⟩ := hx
      obtain ⟨i, hi, rfl⟩ := List.getElem_of_mem hx
      have := h2 i hi hi
      omega
    · exact e
  rw [hh]
  rfl

theorem Sorts.congr {K K' : Type} [LT K] [LT K'] {key : α → K} {key' : α → K'} {l : List α} {a b : List (Option α)}
    {o : Res (Bool × List (Option α) × List (Option α))} (h : Sorts key l a b o)
    (hlt : ∀ x ∈ l, ∀ y ∈ l, key x < key y → key' x < key' y) (heq : ∀ x ∈ l, ∀ y ∈ l, key' x = key' y ↔ key x = key y) : Sorts key' l a b o := by
  obtain ⟨w, a', b', r, h1, h2, h3, h4, h5⟩ := h
  exact ⟨w, a', b', r, h1, h2, h3, h4, h5.congr hlt heq⟩

theorem sized_sorts {k : Nat} (hk : Spec.WordSize k) {key : α → Nat} {l : List α} {a b : List (Option α)} (h : Holds l a)
    (hb : l.length ≤ b.length) (hf : ∀ x ∈ l, key x < 2 ^ (8 * k)) : Sorts key l a b (sized k key l.length a b) := by
  unfold sized
  by_cases h1 : k = 1
  · subst h1
    obtain ⟨a', b', e1, e2, e3, e4⟩ := countingSort_eq h hb hf
    rw [if_pos rfl, e1, ok_bind]
    exact ⟨true, a', b', _, rfl, e2, e3, e4, byDigit_good hf⟩
  · obtain ⟨j, rfl⟩ : ∃ j, k = 2 * j := by
      rcases hk with rfl | rfl | rfl | rfl
      · exact absurd rfl h1
      · exact ⟨1, rfl⟩
      · exact ⟨2, rfl⟩
      · exact ⟨4, rfl⟩
    obtain ⟨a', b', r, e1, e2, e3, e4, e5⟩ := sortInline_eq (key := key) h hb j
    rw [if_neg h1, e1, ok_bind]
    refine ⟨false, a', b', r, rfl, e2, e3, e4, e5.congr ?_ ?_⟩
    · intro x hx y hy
      simp only [Nat.mod_eq_of_lt (hf x hx), Nat.mod_eq_of_lt (hf y hy), imp_self]
    · intro x hx y hy
      simp only [Nat.mod_eq_of_lt (hf x hx), Nat.mod_eq_of_lt (hf y hy)]

theorem bool_sorts {f : α → Bool} {l : List α} {a b : List (Option α)} (h : Holds l a) (hb : l.length ≤ b.length) :
    Sorts (fun x => if f x then 1 else 0) l a b (sortBool f l.length a b) := by
  obtain ⟨g, hg⟩ : ∃ g : α → Nat, g = fun x => if f x then 1 else 0 := ⟨_, rfl⟩
  have hlt : ∀ x ∈ l, g x < 2 := by
    intro x _
    rw [hg]
    simp only []
    split <;> omega
  rw [← hg]
  unfold sortBool
  obtain ⟨z, e1, e2⟩ := forRange_inv (body := fun i z => do
      let x ← rdu a i
      .ok (if !f x then z + 1 else z))
    (fun k z => z = cnt ((items g l).take k) 0) 0 l.length (Nat.zero_le _) 0 (by simp [cnt, bucket])
    (by
      rintro k z _ hk rfl
      refine ⟨_, by rw [rdu_of (h k hk), ok_bind], ?_⟩
      rw [items_take g l hk, cnt_snoc, hg]
      by_cases hf : f l[k] <;> simp [hf])
  rw [List.take_of_length_le (by rw [items_length])] at e2
  obtain ⟨s, t1, t2, t3, t4⟩ := forRange_inv (body := fun i (s : (Nat × Nat) × List (Option α) × List (Option α)) => do
      let x ← rdu s.2.1 i
      let m ← move s.2.1 s.2.2 i (if f x then s.1.2 else s.1.1)
      .ok ((if f x then (s.1.1, s.1.2 + 1) else (s.1.1 + 1, s.1.2)), m))
    (fun k s => s.1 = (cnt ((items g l).take k) 0, cnt (items g l) 0 + cnt ((items g l).take k) 1) ∧ Same k a s.2.1 ∧
      Placed 2 l.length (items g l) ((items g l).take k) b s.2.2) 0 l.length (Nat.zero_le _) ((0, z), a, b)
    ⟨by rw [e2]; simp [cnt, bucket], .refl _ _, by simpa using placed_nil _ _⟩
    (by
      rintro k ⟨c, sr, ds⟩ _ hk ⟨h1, h2, h3⟩
      simp only at h1 h2 h3
      subst h1
      have hx : sr[k]? = some (some l[k]) := by rw [h2.2 k (Nat.le_refl _)]; exact h k hk
      have hpos := place_pos (items_split g l hk) (items_lt hlt)
      rw [items_length] at hpos
      have hsz := h3.1.1
      have hst := place_step (items_split g l hk) (items_lt hlt) (items_length g l) (by omega) h3
      have hp : (if f l[k] then cnt (items g l) 0 + cnt ((items g l).take k) 1 else cnt ((items g l).take k) 0) =
          psum (cnt (items g l)) (g l[k]) + cnt ((items g l).take k) (g l[k]) := by
        have hgk : g l[k] = if f l[k] then 1 else 0 := by rw [hg]
        by_cases hf : f l[k]
        · rw [if_pos hf] at hgk ⊢
          rw [hgk]
          simp [psum]
        · rw [if_neg hf] at hgk ⊢
          rw [hgk]
          simp [psum]
      refine ⟨_, by
        simp only []
        rw [rdu_of hx, ok_bind, hp, move_ok hx (by omega), ok_bind], ?_, ?_, ?_⟩
      · simp only []
        rw [items_take g l hk, cnt_snoc, cnt_snoc, hg]
        by_cases hf : f l[k] <;> simp [hf, Nat.add_assoc]
      · refine ⟨by simpa using h2.1, fun i hi => ?_⟩
        simp only []
        rw [List.getElem?_set_ne (by omega)]
        exact h2.2 i (by omega)
      · rw [items_take g l hk]
        exact hst)
  rw [e1, ok_bind, t1, ok_bind]
  rw [List.take_of_length_le (by rw [items_length])] at t4
  exact ⟨true, _, _, _, rfl, placed_all hlt t4, t3, t4.1, byDigit_good hlt⟩

/-! ## Signed integers and floating-point numbers -/

theorem ofSigned_eq {k : Nat} (hk : 0 < k) {z : Int} (h1 : -2 ^ (8 * k - 1) ≤ z) (h2 : z < 2 ^ (8 * k - 1)) :
    (ofSigned k z : Int) = z + 2 ^ (8 * k - 1) := by
  unfold ofSigned
  obtain ⟨w, hw⟩ : ∃ w, 8 * k = w + 1 := ⟨8 * k - 1, by omega⟩
  rw [hw, Nat.add_sub_cancel] at h1 h2 ⊢
  have hp : (0 : Int) < 2 ^ w := by positivity
  have h0 : 0 ≤ z % 2 ^ (w + 1) := Int.emod_nonneg _ (by positivity)
  push_cast
  rw [Int.toNat_of_nonneg h0, Int.emod_add_emod]
  apply Int.emod_eq_of_lt
  · omega
  · rw [pow_succ]; omega

theorem ofSigned_lt {k : Nat} (z : Int) : ofSigned k z < 2 ^ (8 * k) := Nat.mod_lt _ (Nat.two_pow_pos _)

theorem xor_top {w b : Nat} (h : b < 2 ^ w) : b ^^^ 2 ^ w = b + 2 ^ w := by
  have h1 := Nat.two_pow_add_eq_or_of_lt h 1
  rw [Nat.mul_one] at h1
  rw [Nat.add_comm, h1]
  apply Nat.eq_of_testBit_eq
  intro i
  rw [Nat.testBit_xor, Nat.testBit_or, Nat.testBit_two_pow]
  by_cases hi : w = i
  · subst hi
    rw [Nat.testBit_lt_two_pow h]
    simp
  · simp [hi]

theorem xor_ones {w b : Nat} (h : b < 2 ^ w) : b ^^^ (2 ^ w - 1) = 2 ^ w - 1 - b := by
  rw [show 2 ^ w - 1 - b = 2 ^ w - (b + 1) by omega]
  apply Nat.eq_of_testBit_eq
  intro i
  rw [Nat.testBit_xor, Nat.testBit_two_pow_sub_one, Nat.testBit_two_pow_sub_succ h]
  by_cases hi : i < w
  · simp [hi]
  · rw [Nat.testBit_lt_two_pow (Nat.lt_of_lt_of_le h (Nat.pow_le_pow_right (by omega) (by omega)))]
    simp [hi]

theorem ofFloat_pos {k b : Nat} (h : b < 2 ^ (8 * k - 1)) : ofFloat k b = b + 2 ^ (8 * k - 1) := by
  unfold ofFloat
  simp only []
  rw [Nat.shiftRight_eq_div_pow, Nat.div_eq_of_lt h, if_pos rfl, Nat.zero_or, xor_top h]

theorem ofFloat_neg {k b : Nat} (hk : 0 < k) (h : 2 ^ (8 * k - 1) ≤ b) (h' : b < 2 ^ (8 * k)) : ofFloat k b = 2 ^ (8 * k) - 1 - b := by
  unfold ofFloat
  simp only []
  have h1 : b >>> (8 * k - 1) ≠ 0 := by
    rw [Nat.shiftRight_eq_div_pow]
    have := Nat.div_pos h (Nat.two_pow_pos _)
    omega
  rw [if_neg h1]
  have h2 : (2 ^ (8 * k) - 1) ||| 2 ^ (8 * k - 1) = 2 ^ (8 * k) - 1 := by
    apply Nat.eq_of_testBit_eq
    intro i
    rw [Nat.testBit_or, Nat.testBit_two_pow_sub_one, Nat.testBit_two_pow]
    by_cases hi : 8 * k - 1 = i
    · have : i < 8 * k := by omega
      simp [this]
    · simp [hi]
  rw [h2, xor_ones h']

theorem ieeeAbs_succ (p b : Nat) : Spec.ieeeAbs p b < Spec.ieeeAbs p (b + 1) := by
  obtain ⟨P, hP⟩ : ∃ P, P = 2 ^ p := ⟨_, rfl⟩
  have hpos : 0 < P := by rw [hP]; exact Nat.two_pow_pos _
  obtain ⟨e, he⟩ : ∃ e, e = b / P := ⟨_, rfl⟩
  obtain ⟨m, hm⟩ : ∃ m, m = b % P := ⟨_, rfl⟩
  have hb : b = P * e + m := by rw [he, hm]; exact (Nat.div_add_mod _ _).symm
  have hlt : m < P := by rw [hm]; exact Nat.mod_lt _ hpos
  unfold Spec.ieeeAbs
  rw [← hP, ← he, ← hm]
  by_cases h : m + 1 < P
  · have h1 : (b + 1) / P = e := by
      rw [hb, Nat.add_assoc, Nat.mul_add_div hpos, Nat.div_eq_of_lt h, Nat.add_zero]
    have h2 : (b + 1) % P = m + 1 := by
      rw [hb, Nat.add_assoc, Nat.mul_add_mod, Nat.mod_eq_of_lt h]
    rw [h1, h2]
    by_cases he0 : e = 0
    · rw [if_pos he0, if_pos he0]; omega
    · rw [if_neg he0, if_neg he0]
      exact Nat.mul_lt_mul_of_pos_right (by omega) (Nat.two_pow_pos _)
  · have hmP : m + 1 = P := by omega
    have h1 : (b + 1) / P = e + 1 := by
      rw [hb, Nat.add_assoc, hmP, Nat.mul_add_div hpos, Nat.div_self hpos]
    have h2 : (b + 1) % P = 0 := by
      rw [hb, Nat.add_assoc, hmP, Nat.mul_add_mod, Nat.mod_self]
    rw [h1, h2, if_neg (by omega : ¬ e + 1 = 0), Nat.add_sub_cancel, Nat.add_zero]
    by_cases he0 : e = 0
    · subst he0
      rw [if_pos rfl, Nat.pow_zero]; omega
    · rw [if_neg he0]
      obtain ⟨d, rfl⟩ : ∃ d, e = d + 1 := ⟨e - 1, by omega⟩
      rw [Nat.add_sub_cancel, Nat.pow_succ, ← Nat.mul_assoc, Nat.mul_right_comm]
      exact Nat.mul_lt_mul_of_pos_right (by omega) (Nat.two_pow_pos _)

theorem ieeeAbs_mono (p : Nat) : StrictMono (Spec.ieeeAbs p) := strictMono_nat_of_lt_succ (ieeeAbs_succ p)

theorem ieeeAbs_zero (p : Nat) : Spec.ieeeAbs p 0 = 0 := by simp [Spec.ieeeAbs]

theorem ofFloat_lt {k b : Nat} (hk : 0 < k) (h : b < 2 ^ (8 * k)) : ofFloat k b < 2 ^ (8 * k) := by
  obtain ⟨w, hw⟩ : ∃ w, 8 * k = w + 1 := ⟨8 * k - 1, by omega⟩
  by_cases hs : b < 2 ^ (8 * k - 1)
  · rw [ofFloat_pos hs]
    rw [hw, Nat.add_sub_cancel] at *
    rw [Nat.pow_succ]; omega
  · rw [ofFloat_neg hk (by omega) h]; omega

/-- The order of the converted bits is that of the numbers. -/
theorem ieee_order {k p b c : Nat} (hk : 0 < k) (hb : b < 2 ^ (8 * k)) (hc : c < 2 ^ (8 * k)) (h : ofFloat k b < ofFloat k c) :
    Spec.ieee p (8 * k) b ≤ Spec.ieee p (8 * k) c := by
  unfold Spec.ieee
  have hm := ieeeAbs_mono p
  by_cases h1 : b < 2 ^ (8 * k - 1)
  · rw [ofFloat_pos h1] at h
    by_cases h2 : c < 2 ^ (8 * k - 1)
    · rw [ofFloat_pos h2] at h
      rw [if_pos h1, if_pos h2]
      exact_mod_cast (hm.le_iff_le.2 (show b ≤ c by omega))
    · rw [ofFloat_neg hk (by omega) hc] at h
      have : 2 ^ (8 * k) = 2 * 2 ^ (8 * k - 1) := by
        rw [← Nat.pow_succ', Nat.succ_eq_add_one, Nat.sub_add_cancel (by omega)]
      omega
  · rw [if_neg h1]
    rw [ofFloat_neg hk (by omega) hb] at h
    by_cases h2 : c < 2 ^ (8 * k - 1)
    · rw [if_pos h2]
      omega
    · rw [if_neg h2]
      rw [ofFloat_neg hk (by omega) hc] at h
      have := hm.le_iff_le.2 (show c - 2 ^ (8 * k - 1) ≤ b - 2 ^ (8 * k - 1) by omega)
      omega

/-- Different bits are different numbers, except for zero. -/
theorem ieee_inj {k p b c : Nat} (hb0 : b ≠ 2 ^ (8 * k - 1)) (hc0 : c ≠ 2 ^ (8 * k - 1))
    (h : Spec.ieee p (8 * k) b = Spec.ieee p (8 * k) c) : b = c := by
  unfold Spec.ieee at h
  have hm := ieeeAbs_mono p
  have hz : ∀ x, 0 < x → 0 < Spec.ieeeAbs p x := by
    intro x hx
    have := hm hx
    rw [ieeeAbs_zero] at this
    exact this
  by_cases h1 : b < 2 ^ (8 * k - 1) <;> by_cases h2 : c < 2 ^ (8 * k - 1)
  · rw [if_pos h1, if_pos h2] at h
    exact hm.injective (by exact_mod_cast h)
  · rw [if_pos h1, if_neg h2] at h
    have := hz (c - 2 ^ (8 * k - 1)) (by omega)
    omega
  · rw [if_neg h1, if_pos h2] at h
    have := hz (b - 2 ^ (8 * k - 1)) (by omega)
    omega
  · rw [if_neg h1, if_neg h2] at h
    have := hm.injective (a₁ := b - 2 ^ (8 * k - 1)) (a₂ := c - 2 ^ (8 * k - 1)) (by omega)
    omega

/-! ## Keys with several components -/

theorem ofFloat_inj {k b c : Nat} (hk : 0 < k) (hb : b < 2 ^ (8 * k)) (hc : c < 2 ^ (8 * k)) (h : ofFloat k b = ofFloat k c) : b = c := by
  have h2 : 2 ^ (8 * k) = 2 * 2 ^ (8 * k - 1) := by
    rw [← Nat.pow_succ', Nat.succ_eq_add_one, Nat.sub_add_cancel (by omega)]
  by_cases h1 : b < 2 ^ (8 * k - 1) <;> by_cases h3 : c < 2 ^ (8 * k - 1)
  · rw [ofFloat_pos h1, ofFloat_pos h3] at h; omega
  · rw [ofFloat_pos h1, ofFloat_neg hk (by omega) hc] at h; omega
  · rw [ofFloat_neg hk (by omega) hb, ofFloat_pos h3] at h; omega
  · rw [ofFloat_neg hk (by omega) hb, ofFloat_neg hk (by omega) hc] at h; omega

/-- The key of an element as it is compared -/
def codeOf : Key α → α → List Int
  | .bool f, x => [if f x then 1 else 0]
  | .unsigned _ f, x => [(f x : Int)]
  | .signed k f, x => [(ofSigned k (f x) : Int)]
  | .char f, x => [(ofChar (f x) : Int)]
  | .float f, x => [(ofFloat 4 (f x) : Int)]
  | .double f, x => [(ofFloat 8 (f x) : Int)]
  | .pair e e', x => codeOf e x ++ codeOf e' x
  | .nil, _ => []
  | .cons e e', x => codeOf e x ++ codeOf e' x

theorem codeOf_length (e : Key α) (x y : α) : (codeOf e x).length = (codeOf e y).length := by
  induction e with
  | pair e e' h h' => simp [codeOf, h, h']
  | cons e e' h h' => simp [codeOf, h, h']
  | _ => simp [codeOf]

theorem keyOf_length (e : Key α) (x y : α) : (Spec.keyOf e x).length = (Spec.keyOf e y).length := by
  induction e with
  | pair e e' h h' => simp [Spec.keyOf, h, h']
  | cons e e' h h' => simp [Spec.keyOf, h, h']
  | _ => simp [Spec.keyOf]

theorem append_lt {a a' b b' : List Int} (h : a.length = a'.length) : a ++ b < a' ++ b' ↔ a < a' ∨ a = a' ∧ b < b' := by
  induction a generalizing a' with
  | nil =>
    cases a' with
    | nil => simp
    | cons => simp at h
  | cons x a ih =>
    cases a' with
    | nil => simp at h
    | cons y a' =>
      simp only [List.cons_append, List.cons_lt_cons_iff, List.cons.injEq]
      rw [ih (by simpa using h)]
      constructor
      · rintro (h | ⟨h, h' | ⟨h', h''⟩⟩)
        · exact .inl (.inl h)
        · exact .inl (.inr ⟨h, h'⟩)
        · exact .inr ⟨⟨h, h'⟩, h''⟩
      · rintro ((h | ⟨h, h'⟩) | ⟨⟨h, h'⟩, h''⟩)
        · exact .inl h
        · exact .inr ⟨h, .inl h'⟩
        · exact .inr ⟨h, .inr ⟨h', h''⟩⟩

theorem two_sorts {e e' : Key α} {l : List α} {a b : List (Option α)} (ha : l.length ≤ a.length) (hb : l.length ≤ b.length)
    (h' : Sorts (codeOf e') l a b (sort e' l.length a b))
    (h : ∀ (r : List α) (a b : List (Option α)), r.Perm l → Holds r a → r.length ≤ b.length → Sorts (codeOf e) r a b (sort e r.length a b)) :
    Sorts (fun x => codeOf e x ++ codeOf e' x) l a b (do
      let s ← sort e' l.length a b
      onward (sort e l.length) s) := by
  obtain ⟨w, a1, b1, r, h1, h2, h3, h4, h5⟩ := h'
  rw [h1, ok_bind]
  have hrl := h5.perm.length_eq
  have hcomp : ∀ {s}, Good (codeOf e) r s → Good (fun x => codeOf e x ++ codeOf e' x) l s := by
    intro s hs
    refine h5.comp hs ?_ ?_
    · intro x _ y _ hxy
      exact (append_lt (codeOf_length e x y)).2 hxy
    · intro x _ y _
      exact ⟨fun h => List.append_inj h (codeOf_length e x y), fun h => by rw [h.1, h.2]⟩
  unfold onward
  cases w
  · obtain ⟨w2, a2, b2, s, q1, q2, q3, q4, q5⟩ := h r a1 b1 h5.perm h2 (by rw [h4.1]; omega)
    rw [hrl] at q1 q3 q4
    simp only [Bool.false_eq_true, if_false, q1]
    exact ⟨w2, a2, b2, s, rfl, q2, h3.trans q3, h4.trans q4, hcomp q5⟩
  · obtain ⟨w2, b2, a2, s, q1, q2, q3, q4, q5⟩ := h r b1 a1 h5.perm h2 (by rw [h3.1]; omega)
    rw [hrl] at q1 q3 q4
    simp only [if_true, q1, ok_bind]
    refine ⟨!w2, a2, b2, s, rfl, ?_, h3.trans q4, h4.trans q3, hcomp q5⟩
    cases w2 <;> exact q2

theorem single_lt (x y : Int) : ([x] : List Int) < [y] ↔ x < y := by
  rw [List.cons_lt_cons_iff]
  simp

theorem ofChar_eq {z : Int} (h1 : 0 ≤ z) (h2 : z < 128) : (ofChar z : Int) = z := by
  unfold ofChar
  omega

theorem ofChar_lt (z : Int) : ofChar z < 2 ^ (8 * 1) := by
  unfold ofChar
  omega

theorem sort_codes (e : Key α) (ht : Spec.TypeOk e) : ∀ (l : List α) (a b : List (Option α)), Holds l a →
    l.length ≤ b.length → (∀ x ∈ l, Spec.InType e x) → Sorts (codeOf e) l a b (sort e l.length a b) := by
  induction e with
  | bool f =>
    intro l a b h hb _
    refine (bool_sorts (f := f) h hb).congr ?_ ?_ <;> intro x _ y _ <;> simp only [codeOf, single_lt, List.cons.injEq, and_true] <;>
      cases f x <;> cases f y <;> simp
  | unsigned k f =>
    intro l a b h hb hi
    refine (sized_sorts (key := f) ht h hb hi).congr ?_ ?_ <;> intro x _ y _ <;>
      simp only [codeOf, single_lt, List.cons.injEq, and_true] <;> omega
  | signed k f =>
    intro l a b h hb hi
    refine (sized_sorts (key := fun x => ofSigned k (f x)) ht h hb fun x _ => ofSigned_lt _).congr ?_ ?_ <;> intro x hx y hy <;>
      simp only [codeOf, single_lt, List.cons.injEq, and_true] <;> omega
  | char f =>
    intro l a b h hb hi
    refine (sized_sorts (k := 1) (key := fun x => ofChar (f x)) (.inl rfl) h hb fun x _ => ofChar_lt _).congr ?_ ?_ <;> intro x hx y hy <;>
      simp only [codeOf, single_lt, List.cons.injEq, and_true] <;> omega
  | float f =>
    intro l a b h hb hi
    refine (sized_sorts (k := 4) (key := fun x => ofFloat 4 (f x)) (.inr (.inr (.inl rfl))) h hb
      fun x hx => ofFloat_lt (by omega) (hi x hx)).congr ?_ ?_ <;> intro x hx y hy <;>
      simp only [codeOf, single_lt, List.cons.injEq, and_true] <;> omega
  | double f =>
    intro l a b h hb hi
    refine (sized_sorts (k := 8) (key := fun x => ofFloat 8 (f x)) (.inr (.inr (.inr rfl))) h hb
      fun x hx => ofFloat_lt (by omega) (hi x hx)).congr ?_ ?_ <;> intro x hx y hy <;>
      simp only [codeOf, single_lt, List.cons.injEq, and_true] <;> omega
  | nil =>
    intro l a b h _ _
    exact ⟨false, a, b, l, rfl, h, .refl _ _, .refl _ _, .refl _, fun R hR => hR.imp fun hxy => .inr ⟨rfl, hxy⟩, fun _ _ _ => rfl⟩
  | pair e e' ih ih' =>
    intro l a b h hb hi
    refine two_sorts h.length_le hb (ih' ht.2 l a b h hb (fun x hx => (hi x hx).2)) ?_
    intro r a b hr ha hb'
    exact ih ht.1 r a b ha hb' (fun x hx => (hi x (hr.mem_iff.1 hx)).1)
  | cons e e' ih ih' =>
    intro l a b h hb hi
    refine two_sorts h.length_le hb (ih' ht.2 l a b h hb (fun x hx => (hi x hx).2)) ?_
    intro r a b hr ha hb'
    exact ih ht.1 r a b ha hb' (fun x hx => (hi x (hr.mem_iff.1 hx)).1)

theorem ieee_iff {k p b c : Nat} (hk : 0 < k) (hb : b < 2 ^ (8 * k)) (hc : c < 2 ^ (8 * k)) (hb0 : b ≠ 2 ^ (8 * k - 1)) (hc0 : c ≠ 2 ^ (8 * k - 1)) :
    (ofFloat k b < ofFloat k c ↔ Spec.ieee p (8 * k) b < Spec.ieee p (8 * k) c) ∧
      (ofFloat k b = ofFloat k c ↔ Spec.ieee p (8 * k) b = Spec.ieee p (8 * k) c) := by
  have h1 : ofFloat k b = ofFloat k c ↔ Spec.ieee p (8 * k) b = Spec.ieee p (8 * k) c :=
    ⟨fun e => by rw [ofFloat_inj hk hb hc e], fun e => by rw [ieee_inj hb0 hc0 e]⟩
  refine ⟨⟨fun h => ?_, fun h => ?_⟩, h1⟩
  · refine lt_of_le_of_ne (ieee_order hk hb hc h) fun e => ?_
    rw [← h1] at e
    omega
  · rcases Nat.lt_trichotomy (ofFloat k b) (ofFloat k c) with h' | h' | h'
    · exact h'
    · rw [h1] at h'; omega
    · have := ieee_order (p := p) hk hc hb h'
      omega

/-- The elements are compared as their keys are. -/
theorem code_iff (e : Key α) (ht : Spec.TypeOk e) {x y : α} (ix : Spec.InType e x) (iy : Spec.InType e y) (px : Spec.Plain e x)
    (py : Spec.Plain e y) :
    (codeOf e x < codeOf e y ↔ Spec.keyOf e x < Spec.keyOf e y) ∧ (codeOf e x = codeOf e y ↔ Spec.keyOf e x = Spec.keyOf e y) := by
  induction e with
  | bool f => exact ⟨Iff.rfl, Iff.rfl⟩
  | unsigned k f => exact ⟨Iff.rfl, Iff.rfl⟩
  | signed k f =>
    have hk : 0 < k := by rcases ht with rfl | rfl | rfl | rfl <;> omega
    have h1 := ofSigned_eq hk ix.1 ix.2
    have h2 := ofSigned_eq hk iy.1 iy.2
    simp only [codeOf, Spec.keyOf, single_lt, List.cons.injEq, and_true]
    omega
  | char f =>
    have h1 := ofChar_eq px ix.2
    have h2 := ofChar_eq py iy.2
    simp only [codeOf, Spec.keyOf, single_lt, List.cons.injEq, and_true]
    omega
  | float f =>
    have h := ieee_iff (k := 4) (p := 23) (by omega) ix iy px.2 py.2
    simp only [codeOf, Spec.keyOf, single_lt, List.cons.injEq, and_true, Int.ofNat_lt, Int.natCast_inj]
    exact h
  | double f =>
    have h := ieee_iff (k := 8) (p := 52) (by omega) ix iy px.2 py.2
    simp only [codeOf, Spec.keyOf, single_lt, List.cons.injEq, and_true, Int.ofNat_lt, Int.natCast_inj]
    exact h
  | nil => exact ⟨Iff.rfl, Iff.rfl⟩
  | pair e e' ih ih' =>
    have h1 := ih ht.1 ix.1 iy.1 px.1 py.1
    have h2 := ih' ht.2 ix.2 iy.2 px.2 py.2
    simp only [codeOf, Spec.keyOf]
    rw [append_lt (codeOf_length e x y), append_lt (keyOf_length e x y), h1.1, h1.2, h2.1, List.append_eq_append_iff_of_size_eq_left (codeOf_length e x y),
      List.append_eq_append_iff_of_size_eq_left (keyOf_length e x y), h1.2, h2.2]
    exact ⟨Iff.rfl, Iff.rfl⟩
  | cons e e' ih ih' =>
    have h1 := ih ht.1 ix.1 iy.1 px.1 py.1
    have h2 := ih' ht.2 ix.2 iy.2 px.2 py.2
    simp only [codeOf, Spec.keyOf]
    rw [append_lt (codeOf_length e x y), append_lt (keyOf_length e x y), h1.1, h1.2, h2.1, List.append_eq_append_iff_of_size_eq_left (codeOf_length e x y),
      List.append_eq_append_iff_of_size_eq_left (keyOf_length e x y), h1.2, h2.2]
    exact ⟨Iff.rfl, Iff.rfl⟩

theorem sort_sorts (e : Key α) (ht : Spec.TypeOk e) (l : List α) (a b : List (Option α)) (h : Holds l a) (hb : l.length ≤ b.length)
    (hi : ∀ x ∈ l, Spec.InType e x) (hp : ∀ x ∈ l, Spec.Plain e x) : Sorts (Spec.keyOf e) l a b (sort e l.length a b) :=
  (sort_codes e ht l a b h hb hi).congr (fun x hx y hy => (code_iff e ht (hi x hx) (hi y hy) (hp x hx) (hp y hy)).1.1)
    fun x hx y hy => (code_iff e ht (hi x hx) (hi y hy) (hp x hx) (hp y hy)).2.symm

/-! ## The place of the result -/

theorem sized_place {k : Nat} {key : α → Nat} {n : Nat} {a b : List (Option α)} {w : Bool} {s : List (Option α) × List (Option α)}
    (h : sized k key n a b = .ok (w, s)) : w = decide ((if k = 1 then 1 else 0) % 2 = 1) := by
  unfold sized at h
  by_cases hk : k = 1
  · rw [if_pos hk] at h
    obtain ⟨x, _, e⟩ := MatObj.bind_eq_ok h
    rw [if_pos hk]
    cases e
    rfl
  · rw [if_neg hk] at h
    obtain ⟨x, _, e⟩ := MatObj.bind_eq_ok h
    rw [if_neg hk]
    cases e
    rfl

theorem two_place {e e' : Key α}
    (ih : ∀ {n : Nat} {a b : List (Option α)} {w : Bool} {s : List (Option α) × List (Option α)}, sort e n a b = .ok (w, s) → w = decide (Spec.oneByte e % 2 = 1))
    (ih' : ∀ {n : Nat} {a b : List (Option α)} {w : Bool} {s : List (Option α) × List (Option α)}, sort e' n a b = .ok (w, s) → w = decide (Spec.oneByte e' % 2 = 1))
    {n : Nat} {a b : List (Option α)} {w : Bool} {s : List (Option α) × List (Option α)}
    (h : (do
      let s ← sort e' n a b
      onward (sort e n) s) = .ok (w, s)) : w = decide ((Spec.oneByte e + Spec.oneByte e') % 2 = 1) := by
  obtain ⟨⟨w1, s1⟩, h1, h2⟩ := MatObj.bind_eq_ok h
  have e1 := ih' h1
  unfold onward at h2
  cases w1
  · have e2 := ih h2
    rw [e2]
    simp only [Bool.false_eq, decide_eq_false_iff_not] at e1
    congr 1
    simp only [eq_iff_iff]
    omega
  · simp only [if_true] at h2
    obtain ⟨⟨w2, s2⟩, h3, h4⟩ := MatObj.bind_eq_ok h2
    have e2 := ih h3
    cases h4
    rw [e2]
    simp only [Bool.true_eq, decide_eq_true_eq] at e1
    rw [← decide_not]
    congr 1
    simp only [eq_iff_iff]
    omega

theorem sort_place (e : Key α) : ∀ {n : Nat} {a b : List (Option α)} {w : Bool} {s : List (Option α) × List (Option α)},
    sort e n a b = .ok (w, s) → w = decide (Spec.oneByte e % 2 = 1) := by
  induction e with
  | bool f =>
    intro n a b w s h
    simp only [sort] at h
    unfold sortBool at h
    obtain ⟨z, _, h⟩ := MatObj.bind_eq_ok h
    obtain ⟨z, _, h⟩ := MatObj.bind_eq_ok h
    cases h
    rfl
  | unsigned k f => intro n a b w s h; exact sized_place h
  | signed k f => intro n a b w s h; exact sized_place h
  | char f => intro n a b w s h; exact sized_place h
  | float f => intro n a b w s h; exact sized_place h
  | double f => intro n a b w s h; exact sized_place h
  | nil => intro n a b w s h; cases h; rfl
  | pair e e' ih ih' => intro n a b w s h; exact two_place (fun h => ih h) (fun h => ih' h) h
  | cons e e' ih ih' => intro n a b w s h; exact two_place (fun h => ih h) (fun h => ih' h) h

theorem holds_map (l : List α) : Holds l (l.map some) := by
  intro i hi
  rw [List.getElem?_map, List.getElem?_eq_getElem hi]
  rfl

theorem eq_of_holds {l : List α} {n : Nat} (hl : l.length = n) {a a' : List (Option α)} (h : Holds l a') (hs : Same n a a') :
    a' = l.map some ++ a.drop n := by
  apply List.ext_getElem?
  intro i
  by_cases hi : i < n
  · rw [h i (by omega), List.getElem?_append_left (by simpa using (by omega)), List.getElem?_map, List.getElem?_eq_getElem (by omega)]
    rfl
  · rw [hs.2 i (by omega), List.getElem?_append_right (by simp; omega), List.getElem?_drop]
    congr 1
    simp
    omega

theorem radix_run (e : Key α) (ht : Spec.TypeOk e) (l : List α) (b : List (Option α)) (hb : l.length ≤ b.length)
    (hi : ∀ x ∈ l, Spec.InType e x) :
    ∃ r a' b', Good (codeOf e) l r ∧ radixSort e (l.map some) b = .ok (decide (Spec.oneByte e % 2 = 1), a', b') ∧
      (if Spec.oneByte e % 2 = 1 then b' = r.map some ++ b.drop l.length else a' = r.map some) ∧ a'.length = l.length ∧ b'.length = b.length ∧
      b'.drop l.length = b.drop l.length := by
  obtain ⟨w, a', b', r, h1, h2, h3, h4, h5⟩ := sort_codes e ht l (l.map some) b (holds_map l) hb hi
  have hw := sort_place e h1
  refine ⟨r, a', b', h5, ?_, ?_, by simpa using h3.1, h4.1, ?_⟩
  · unfold radixSort
    rw [List.length_map, h1, hw]
  · split
    · rename_i ho
      rw [decide_eq_true ho] at hw
      rw [hw] at h2
      exact eq_of_holds h5.perm.length_eq h2 h4
    · rename_i ho
      rw [decide_eq_false ho] at hw
      rw [hw] at h2
      have := eq_of_holds h5.perm.length_eq h2 h3
      rw [List.drop_eq_nil_of_le (by simp), List.append_nil] at this
      exact this
  · apply List.ext_getElem?
    intro i
    rw [List.getElem?_drop, List.getElem?_drop]
    exact h4.2 _ (by omega)

/-! ## Orders that exclude each other -/

theorem conflict {r : List α} {P Q : α → α → Prop} (hP : r.Pairwise P) (hQ : r.Pairwise Q) {x y : α} (hx : x ∈ r) (hy : y ∈ r) (hne : x ≠ y) :
    P x y ∧ Q x y ∨ P y x ∧ Q y x := by
  have h : r.Pairwise fun a b => P a b ∧ Q a b ∨ P b a ∧ Q b a := (hP.and hQ).imp Or.inl
  haveI : Std.Symm fun a b => P a b ∧ Q a b ∨ P b a ∧ Q b a := ⟨fun a b h => h.symm⟩
  exact h.forall hx hy hne

theorem not_ordered {e : Key α} {l r : List α} (h : Good (codeOf e) l r) {x y : α} (hx : x ∈ l) (hy : y ∈ l)
    (h1 : codeOf e x < codeOf e y) (h2 : Spec.keyOf e y < Spec.keyOf e x) : ¬ Spec.OrderedByKey (Spec.keyOf e) l r := by
  intro ho
  have hP := h.sorted (fun _ _ => True) (List.pairwise_of_forall fun _ _ => trivial)
  have hne : x ≠ y := fun e => by subst e; exact List.lt_irrefl _ h1
  rcases conflict hP ho.sorted (h.perm.mem_iff.2 hx) (h.perm.mem_iff.2 hy) hne with ⟨_, h3⟩ | ⟨h3, _⟩
  · exact h3 h2
  · rcases h3 with h3 | ⟨h3, _⟩
    · exact List.lt_irrefl _ (List.lt_trans h1 h3)
    · rw [h3] at h1; exact List.lt_irrefl _ h1

theorem Good.sortedBy {key : α → List Int} {l r : List α} (h : Good key l r) : Spec.SortedByKey key l r := by
  refine ⟨h.perm, ?_, h.stable key fun x _ y _ e => e⟩
  refine (h.sorted (fun _ _ => True) (List.pairwise_of_forall fun _ _ => trivial)).imp ?_
  intro x y hxy hc
  rcases hxy with hxy | ⟨hxy, _⟩
  · exact List.lt_irrefl _ (List.lt_trans hxy hc)
  · rw [hxy] at hc; exact List.lt_irrefl _ hc

/-- There is only one order. -/
theorem sorted_unique {key : α → List Int} : ∀ {r s : List α}, r.Pairwise (fun x y => ¬ key y < key x) → s.Pairwise (fun x y => ¬ key y < key x) →
    r.Perm s → (∀ k, r.filter (fun x => decide (key x = k)) = s.filter fun x => decide (key x = k)) → r = s := by
  intro r
  induction r with
  | nil => intro s _ _ hp _; exact hp.nil_eq
  | cons x r ih =>
    intro s hr hs hp hf
    cases s with
    | nil => exact absurd hp (by simp)
    | cons y s =>
      have hr' := List.pairwise_cons.1 hr
      have hs' := List.pairwise_cons.1 hs
      have hk : key x = key y := by
        have h1 : ¬ key y < key x := by
          have : y ∈ x :: r := hp.mem_iff.2 (by simp)
          rcases List.mem_cons.1 this with e | h
          · rw [e]; exact List.lt_irrefl _
          · exact hr'.1 y h
        have h2 : ¬ key x < key y := by
          have : x ∈ y :: s := hp.mem_iff.1 (by simp)
          rcases List.mem_cons.1 this with e | h
          · rw [e]; exact List.lt_irrefl _
          · exact hs'.1 x h
        exact List.le_antisymm h1 h2
      have hxy : x = y := by
        have := hf (key x)
        rw [List.filter_cons_of_pos (by simp), List.filter_cons_of_pos (by simp [hk])] at this
        exact (List.cons.inj this).1
      subst hxy
      congr 1
      refine ih hr'.2 hs'.2 hp.cons_inv fun k => ?_
      have := hf k
      by_cases h : key x = k
      · rw [List.filter_cons_of_pos (by simp [h]), List.filter_cons_of_pos (by simp [h])] at this
        exact (List.cons.inj this).2
      · rwa [List.filter_cons_of_neg (by simp [h]), List.filter_cons_of_neg (by simp [h])] at this

end Verif.Model.RadixSort
