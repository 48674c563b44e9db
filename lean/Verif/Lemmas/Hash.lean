import Verif.Lemmas.HashTbl
import Verif.Lemmas.Msa

/-! # The hash accumulator as a finite map, and the hash row algorithms -/

namespace Verif.Model.Hash

open Msa (pr pr_snoc found found_nil found_snoc found_prods pr_visits not_mem_of_nodup_split hits hits_length
  maskedRow_length dirtyOf mem_dirtyOf dirtyOf_nodup)

variable {P V : Type}

/-! ## Table size -/

theorem le_grow {target : Nat} : ∀ (fuel size : Nat), 0 < size → target ≤ size + fuel →
    target ≤ grow target fuel size := by
  intro fuel
  induction fuel with
  | zero => intro size _ h; simpa [grow] using h
  | succ n ih =>
    intro size h0 h
    unfold grow
    split
    · exact ih _ (by omega) (by omega)
    · omega

theorem grow_pow2 {target : Nat} : ∀ (fuel size : Nat), Pow2 size → Pow2 (grow target fuel size) := by
  intro fuel
  induction fuel with
  | zero => intro size h; exact h
  | succ n ih =>
    intro size h
    unfold grow
    split
    · apply ih
      obtain ⟨k, rfl⟩ := h
      exact ⟨k + 1, by rw [Nat.pow_succ]⟩
    · exact h

theorem size_le_grow {target : Nat} : ∀ (fuel size : Nat), size ≤ grow target fuel size := by
  intro fuel
  induction fuel with
  | zero => intro size; exact Nat.le_refl _
  | succ n ih =>
    intro size
    unfold grow
    split
    · exact Nat.le_trans (by omega) (ih (size * 2))
    · exact Nat.le_refl _

/-- The result is the start or less than twice the target. -/
theorem grow_lt {target : Nat} : ∀ (fuel size : Nat),
    grow target fuel size = size ∨ grow target fuel size < 2 * target := by
  intro fuel
  induction fuel with
  | zero => intro size; exact .inl rfl
  | succ n ih =>
    intro size
    unfold grow
    split
    · right
      rcases ih (size * 2) with h | h
      · rw [h]; omega
      · exact h
    · exact .inl rfl

theorem pow2_16 : Pow2 16 := ⟨4, rfl⟩

theorem adjustSize_pow2 (n : Nat) : Pow2 (adjustSize n) :=
  grow_pow2 _ _ (grow_pow2 _ _ pow2_16)

theorem adjustSize_ge16 (n : Nat) : 16 ≤ adjustSize n :=
  Nat.le_trans (size_le_grow _ _) (size_le_grow _ _)

theorem adjustSize_load (n : Nat) : 4 * (n + 1) ≤ adjustSize n := by
  have : 0 < grow (n + 1) (n + 1) 16 := Nat.lt_of_lt_of_le (by omega) (size_le_grow (target := n + 1) (n + 1) 16)
  have := le_grow (target := (n + 1) * 4) ((n + 1) * 4) (grow (n + 1) (n + 1) 16) this (by omega)
  unfold adjustSize
  simp only
  omega

theorem adjustSize_lt (n : Nat) : adjustSize n = 16 ∨ adjustSize n < 8 * (n + 1) := by
  unfold adjustSize
  simp only
  rcases grow_lt (target := (n + 1) * 4) ((n + 1) * 4) (grow (n + 1) (n + 1) 16) with h | h
  · rw [h]
    rcases grow_lt (target := n + 1) (n + 1) 16 with h | h
    · exact .inl h
    · right; omega
  · right; omega

theorem pow2_le {a b : Nat} (ha : Pow2 a) (hb : Pow2 b) (h : a < 2 * b) : a ≤ b := by
  obtain ⟨i, rfl⟩ := ha
  obtain ⟨j, rfl⟩ := hb
  have h2 : 2 * 2 ^ j = 2 ^ (j + 1) := by rw [Nat.pow_succ]; omega
  rw [h2] at h
  have := (Nat.pow_lt_pow_iff_right (by omega : 1 < 2)).1 h
  exact Nat.pow_le_pow_right (by omega) (by omega)

theorem adjustSize_mono {m n : Nat} (h : m ≤ n) : adjustSize m ≤ adjustSize n := by
  rcases adjustSize_lt m with h1 | h1
  · rw [h1]; exact adjustSize_ge16 n
  · apply pow2_le (adjustSize_pow2 m) (adjustSize_pow2 n)
    have := adjustSize_load n
    omega

/-! ## Finite maps -/

/-- The table stores exactly the keys in `D`, with payloads allowed by `Pay`; slots beyond the size are
empty. -/
structure Rep (cap N : Nat) (f : Nat → Entry P) (D : Nat → Prop) (Pay : Nat → P → Prop) : Prop where
  pow : Pow2 N
  le : N ≤ cap
  good : Good N (keysOf f)
  dom : ∀ key, D key ↔ ∃ i < N, (f i).key = some key
  pay : ∀ i < N, ∀ key, (f i).key = some key → Pay key (f i).val
  rest : ∀ i, N ≤ i → i < cap → (f i).key = none

section
variable {cap N : Nat} {f : Nat → Entry P} {D : Nat → Prop} {Pay : Nat → P → Prop} {ks : List Nat}

theorem Rep.mono (h : Rep cap N f D Pay) {D' : Nat → Prop} {Pay' : Nat → P → Prop} (hD : ∀ x, D' x ↔ D x)
    (hP : ∀ x p, D x → Pay x p → Pay' x p) : Rep cap N f D' Pay' where
  pow := h.pow
  le := h.le
  good := h.good
  dom := fun key => (hD key).trans (h.dom key)
  pay := fun i hi key hk => hP _ _ ((h.dom key).2 ⟨i, hi, hk⟩) (h.pay i hi key hk)
  rest := h.rest

theorem Rep.empty (hN : Pow2 N) (hc : N ≤ cap) (hf : ∀ i < cap, (f i).key = none) :
    Rep cap N f (fun _ => False) Pay where
  pow := hN
  le := hc
  good := Good.empty (fun i hi => hf i (Nat.lt_of_lt_of_le hi hc))
  dom := by
    intro key
    constructor
    · exact False.elim
    · rintro ⟨i, hi, h⟩
      rw [hf i (Nat.lt_of_lt_of_le hi hc)] at h; simp at h
  pay := by
    intro i hi key hk
    rw [hf i (Nat.lt_of_lt_of_le hi hc)] at hk; simp at hk
  rest := fun i _ hi => hf i hi

/-- An empty table stores nothing. -/
theorem Rep.all_none (h : Rep cap N f D Pay) (hD : ∀ x, ¬ D x) : ∀ i < cap, (f i).key = none := by
  intro i hi
  by_cases hN : i < N
  · cases hk : (f i).key with
    | none => rfl
    | some x => exact absurd ((h.dom x).2 ⟨i, hN, hk⟩) (hD x)
  · exact h.rest i (by omega) hi

/-- A table with fewer keys than slots has an empty slot. -/
theorem Rep.room (h : Rep cap N f D Pay) {l : List Nat} (hl : ∀ x, D x → x ∈ l) (hlen : l.length < N) :
    ∃ q < N, (f q).key = none := by
  apply Classical.byContradiction
  intro hno
  have hall : ∀ q < N, ∃ x, (f q).key = some x := by
    intro q hq
    cases hk : (f q).key with
    | none => exact absurd ⟨q, hq, hk⟩ hno
    | some x => exact ⟨x, rfl⟩
  have hn : ((List.range N).map fun q => ((f q).key).getD 0).Nodup := by
    refine List.Pairwise.map _ (R := fun a b => a < N ∧ b < N ∧ a ≠ b) ?_ ?_
    · rintro a b ⟨ha, hb, hab⟩ he
      obtain ⟨x, hx⟩ := hall a ha
      obtain ⟨y, hy⟩ := hall b hb
      simp only [hx, hy, Option.getD_some] at he
      subst he
      exact hab (h.good.uniq a ha b hb x hx hy)
    · refine List.Pairwise.imp_of_mem ?_ (List.nodup_range (n := N))
      intro a b ha hb hab
      exact ⟨by simpa using ha, by simpa using hb, hab⟩
  have := nodup_length_le hn (l' := l) (by
    intro x hx
    rw [List.mem_map] at hx
    obtain ⟨q, hq, rfl⟩ := hx
    have hq : q < N := by simpa using hq
    obtain ⟨y, hy⟩ := hall q hq
    rw [hy]
    exact hl y ((h.dom y).2 ⟨q, hq, hy⟩))
  simp at this
  omega

theorem keysOf_upd (f : Nat → Entry P) (i : Nat) (e : Entry P) : keysOf (upd f i e) = upd (keysOf f) i e.key := by
  funext j
  by_cases h : j = i <;> simp [keysOf, upd, h]

/-- `findIdx` finds the key, or the slot where it can be put. -/
theorem Rep.find (h : Rep cap N f D Pay) (he : ∃ q < N, (f q).key = none) (key : Nat) :
    ∃ i < N, (mkT cap N f ks).findIdx key = .ok i ∧
      ((D key ∧ (f i).key = some key ∧ Pay key (f i).val) ∨
       (¬ D key ∧ (f i).key = none ∧ ∀ (Pay' : Nat → P → Prop) (v : P), Pay' key v →
          (∀ x p, x ≠ key → D x → Pay x p → Pay' x p) →
          Rep cap N (upd f i ⟨some key, v⟩) (fun x => x = key ∨ D x) Pay')) := by
  obtain ⟨i, hi, h1, h2⟩ := findIdx_ok (ks := ks) h.pow h.le h.good he key
  refine ⟨i, hi, h1, ?_⟩
  rcases h2 with h2 | ⟨h2, h3, h4⟩
  · exact .inl ⟨(h.dom key).2 ⟨i, hi, h2⟩, h2, h.pay i hi key h2⟩
  · right
    refine ⟨?_, h2, ?_⟩
    · intro hD
      obtain ⟨j, hj, hk⟩ := (h.dom key).1 hD
      exact h3 j hj hk
    · intro Pay' v hv hP
      refine ⟨h.pow, h.le, ?_, ?_, ?_, ?_⟩
      · rw [keysOf_upd]
        exact h.good.insert hi h3 h4
      · intro x
        rw [h.dom x]
        constructor
        · rintro (rfl | ⟨j, hj, hx⟩)
          · exact ⟨i, hi, by simp⟩
          · refine ⟨j, hj, ?_⟩
            rw [upd_ne]
            · exact hx
            · intro hji; subst hji; rw [h2] at hx; simp at hx
        · rintro ⟨j, hj, hx⟩
          by_cases hji : j = i
          · subst hji; rw [upd_same] at hx
            simp at hx; exact .inl hx.symm
          · rw [upd_ne _ _ hji] at hx
            exact .inr ⟨j, hj, hx⟩
      · intro j hj x hx
        by_cases hji : j = i
        · subst hji; rw [upd_same] at hx ⊢
          simp at hx; subst hx; exact hv
        · rw [upd_ne _ _ hji] at hx ⊢
          have hne : x ≠ key := by intro hxk; subst hxk; exact h3 j hj hx
          exact hP x _ hne ((h.dom x).2 ⟨j, hj, hx⟩) (h.pay j hj x hx)
      · intro j hj1 hj2
        rw [upd_ne]
        · exact h.rest j hj1 hj2
        · omega

/-- Changing the payload of a stored key. -/
theorem Rep.update (h : Rep cap N f D Pay) {i key : Nat} (hi : i < N) (hk : (f i).key = some key)
    {Pay' : Nat → P → Prop} {v : P} (hv : Pay' key v) (hP : ∀ x p, x ≠ key → D x → Pay x p → Pay' x p) :
    Rep cap N (upd f i ⟨some key, v⟩) D Pay' := by
  have hkey : keysOf (upd f i ⟨some key, v⟩) = keysOf f := by
    rw [keysOf_upd]
    funext j
    by_cases hj : j = i
    · subst hj; simp [keysOf, hk]
    · rw [upd_ne _ _ hj]
  have hkey' : ∀ j, (upd f i ⟨some key, v⟩ j).key = (f j).key := fun j => congrFun hkey j
  refine ⟨h.pow, h.le, hkey ▸ h.good, ?_, ?_, ?_⟩
  · intro x; simp only [hkey']; exact h.dom x
  · intro j hj x hx
    rw [hkey'] at hx
    by_cases hji : j = i
    · subst hji; rw [upd_same]
      rw [hk] at hx; cases hx; exact hv
    · rw [upd_ne _ _ hji]
      have hne : x ≠ key := by
        intro hxk; subst hxk; exact hji (h.good.uniq j hj i hi x hx hk)
      exact hP x _ hne ((h.dom x).2 ⟨j, hj, hx⟩) (h.pay j hj x hx)
  · intro j h1 h2; rw [hkey']; exact h.rest j h1 h2

/-- `erase` removes exactly the given key. -/
theorem Rep.erase (h : Rep cap N f D Pay) (he : ∃ q < N, (f q).key = none) (key : Nat) :
    ∃ f' b, (mkT cap N f ks).erase key = .ok (mkT cap N f' ks, b) ∧ (b = true ↔ D key) ∧
      Rep cap N f' (fun x => x ≠ key ∧ D x) Pay := by
  obtain ⟨i, hi, h1, h2⟩ := h.find (ks := ks) he key
  unfold Tbl.erase
  have hic : i < cap := Nat.lt_of_lt_of_le hi h.le
  simp only [h1, ok_bind, mkT_table, rd_tab hic]
  rcases h2 with ⟨hD, hk, _⟩ | ⟨hD, hk, _⟩
  · obtain ⟨z, hz, hze⟩ := he
    have hzi : z ≠ i := by intro h'; subst h'; rw [hk] at hze; simp at hze
    have hinv : ShInv N f i i z := by
      refine ⟨hi, hi, hz, by rw [hk]; simp, hze, ?_, ?_, ?_, ?_⟩
      · intro a ha _ x hx; exact h.good.reach a ha x hx
      · intro a ha _ b hb _ x; exact h.good.uniq a ha b hb x
      · intro t _ ht1 ht2; rw [dist_self] at ht2; omega
      · rw [dist_self]; have := dist_spec N i z; omega
    obtain ⟨f', e', r1, r2, r3, r4, r5⟩ := shift_ok (ks := ks) h.pow h.le N f i i hinv (by
      have := dist_spec N i z; omega)
    have hbe : ((f i).key == none) = false := by rw [hk]; rfl
    simp only [hbe, Bool.false_eq_true, if_false, mkT_size]
    simp only [r1, ok_bind, putEmpty_eq (Nat.lt_of_lt_of_le r2 h.le)]
    refine ⟨_, true, rfl, by simp [hD], ?_⟩
    have hkeys : keysOf (upd f' e' ⟨none, (f' e').val⟩) = upd (keysOf f') e' none := keysOf_upd _ _ _
    have hfi : ∀ x, x ≠ key → (D x ↔ ∃ a < N, a ≠ e' ∧ (f' a).key = some x) := by
      intro x hx
      rw [h.dom x]
      constructor
      · rintro ⟨a, ha, hax⟩
        have hai : a ≠ i := by intro h'; subst h'; rw [hk] at hax; simp at hax; exact hx hax.symm
        obtain ⟨b, hb, hb1, hb2⟩ := (r4 (f a)).2 ⟨a, ha, hai, rfl⟩
        exact ⟨b, hb, hb1, by rw [hb2]; exact hax⟩
      · rintro ⟨b, hb, hb1, hb2⟩
        obtain ⟨a, ha, ha1, ha2⟩ := (r4 (f' b)).1 ⟨b, hb, hb1, rfl⟩
        exact ⟨a, ha, by rw [ha2]; exact hb2⟩
    refine ⟨h.pow, h.le, hkeys ▸ r3, ?_, ?_, ?_⟩
    · intro x
      constructor
      · rintro ⟨hx, hDx⟩
        obtain ⟨a, ha, ha1, ha2⟩ := (hfi x hx).1 hDx
        exact ⟨a, ha, by rw [upd_ne _ _ ha1]; exact ha2⟩
      · rintro ⟨a, ha, hax⟩
        have ha1 : a ≠ e' := by intro h'; subst h'; simp at hax
        rw [upd_ne _ _ ha1] at hax
        have hx : x ≠ key := by
          intro hxk; subst hxk
          obtain ⟨b, hb, hb1, hb2⟩ := (r4 (f' a)).1 ⟨a, ha, ha1, rfl⟩
          exact hb1 (h.good.uniq b hb i hi x (by simp only [keysOf]; rw [hb2]; exact hax) hk)
        exact ⟨hx, (hfi x hx).2 ⟨a, ha, ha1, hax⟩⟩
    · intro a ha x hax
      have ha1 : a ≠ e' := by intro h'; subst h'; simp at hax
      rw [upd_ne _ _ ha1] at hax ⊢
      obtain ⟨b, hb, hb1, hb2⟩ := (r4 (f' a)).1 ⟨a, ha, ha1, rfl⟩
      rw [← hb2] at hax ⊢
      exact h.pay b hb x hax
    · intro a h1 h2
      rw [upd_ne]
      · rw [r5 a h1]; exact h.rest a h1 h2
      · omega
  · have hbe : ((f i).key == none) = true := by rw [hk]; rfl
    simp only [hbe, if_true]
    refine ⟨f, false, rfl, by simp [hD], h.mono ?_ (fun _ _ _ hp => hp)⟩
    intro x
    constructor
    · exact fun hx => hx.2
    · intro hx
      exact ⟨fun hxk => hD (hxk ▸ hx), hx⟩

/-- `find` -/
theorem Rep.find' (h : Rep cap N f D Pay) (he : ∃ q < N, (f q).key = none) (key : Nat) :
    ∃ r, (mkT cap N f ks).find key = .ok r ∧
      ((∃ i, r = some i ∧ i < N ∧ D key ∧ (f i).key = some key ∧ Pay key (f i).val) ∨ (r = none ∧ ¬ D key)) := by
  obtain ⟨i, hi, h1, h2⟩ := h.find (ks := ks) he key
  unfold Tbl.find
  simp only [h1, ok_bind, mkT_table, rd_tab (Nat.lt_of_lt_of_le hi h.le)]
  rcases h2 with ⟨hD, hk, hp⟩ | ⟨hD, hk, _⟩
  · exact ⟨some i, by rw [hk]; rfl, .inl ⟨i, rfl, hi, hD, hk, hp⟩⟩
  · exact ⟨none, by rw [hk]; rfl, .inr ⟨rfl, hD⟩⟩

/-- `resetStates` empties the table. -/
theorem resetStates_ok (hc : N ≤ cap) (hr : ∀ i, N ≤ i → i < cap → (f i).key = none) :
    ∃ f', (mkT cap N f ks).resetStates = .ok (mkT cap N f' ks) ∧ ∀ i < cap, (f' i).key = none := by
  unfold Tbl.resetStates
  obtain ⟨s, h1, f', rfl, h2⟩ := forRange_inv (body := fun i (t : Tbl P) => t.putEmpty i)
    (fun i s => ∃ f', s = mkT cap N f' ks ∧ ∀ j < cap, (j < i ∨ N ≤ j) → (f' j).key = none)
    0 N (Nat.zero_le _) (mkT cap N f ks) ⟨f, rfl, fun j hj h => hr j (by omega) hj⟩ (by
      rintro i s - hi ⟨f', rfl, hf⟩
      refine ⟨_, putEmpty_eq (Nat.lt_of_lt_of_le hi hc), _, rfl, ?_⟩
      intro j hj hji
      by_cases h : j = i
      · subst h; simp
      · rw [upd_ne _ _ h]; exact hf j hj (by omega))
  exact ⟨f', h1, fun i hi => h2 i hi (by omega)⟩

end

/-! ## Emptying slots while leaving holes -/

/-- `f'` is `f` after the slots of the keys in `pre` were emptied. -/
def Punched (N : Nat) (f f' : Nat → Entry P) (pre : List Nat) : Prop :=
  ∀ i, ((i < N ∧ ∃ x ∈ pre, (f i).key = some x) → (f' i).key = none) ∧
    ((¬ (i < N ∧ ∃ x ∈ pre, (f i).key = some x)) → f' i = f i)

section
variable {cap N : Nat} {f g : Nat → Entry P} {D : Nat → Prop} {Pay : Nat → P → Prop} {ks pre : List Nat} {a : Nat}

theorem Punched.nil : Punched N f f [] := fun i => ⟨by simp, fun _ => rfl⟩

/-- A key that was not removed yet is still found, although its probe path may have holes. -/
theorem Punched.step (hg : Punched N f g pre) (hf : Rep cap N f D Pay) (hap : a ∉ pre) (hD : D a) :
    ∃ i < N, (mkT cap N g ks).findIdxForce a = .ok i ∧ g i = f i ∧ (f i).key = some a ∧
      ∀ e : Entry P, e.key = none → Punched N f (upd g i e) (pre ++ [a]) := by
  obtain ⟨q, hq, hqa⟩ := (hf.dom a).1 hD
  have hgq : (g q).key = some a := by
    rw [(hg q).2, hqa]
    rintro ⟨_, x, hx, hxq⟩
    rw [hqa] at hxq; cases hxq; exact hap hx
  obtain ⟨i, hi, r1, r2⟩ := findIdxForce_ok (ks := ks) hf.pow hf.le hq hgq
  have hgi : g i = f i := by
    by_cases hx : i < N ∧ ∃ x ∈ pre, (f i).key = some x
    · rw [(hg i).1 hx] at r2; simp at r2
    · exact (hg i).2 hx
  have hfi : (f i).key = some a := hgi ▸ r2
  refine ⟨i, hi, r1, hgi, hfi, ?_⟩
  intro e he j
  by_cases hj : j = i
  · subst hj
    rw [upd_same]
    exact ⟨fun _ => he, fun hno => absurd ⟨hi, a, by simp, hfi⟩ hno⟩
  · rw [upd_ne _ _ hj]
    constructor
    · rintro ⟨hjN, x, hx, hxj⟩
      rw [List.mem_append, List.mem_singleton] at hx
      rcases hx with hx | rfl
      · exact (hg j).1 ⟨hjN, x, hx, hxj⟩
      · exact absurd (hf.good.uniq j hjN i hi x hxj hfi) hj
    · intro hno
      apply (hg j).2
      rintro ⟨hjN, x, hx, hxj⟩
      exact hno ⟨hjN, x, by simp [hx], hxj⟩

/-- All keys removed. -/
theorem Punched.all (hg : Punched N f g pre) (hf : Rep cap N f D Pay) (hD : ∀ x, D x → x ∈ pre) :
    ∀ i < cap, (g i).key = none := by
  intro i hi
  by_cases hx : i < N ∧ ∃ x ∈ pre, (f i).key = some x
  · exact (hg i).1 hx
  · rw [(hg i).2 hx]
    by_cases hN : i < N
    · cases hk : (f i).key with
      | none => rfl
      | some x => exact absurd ⟨hN, x, hD x ((hf.dom x).2 ⟨i, hN, hk⟩), hk⟩ hx
    · exact hf.rest i (by omega) hi

end

/-! ## Keys only -/

section
variable {cap N : Nat} {f : Nat → Entry Unit} {D : Nat → Prop} {ks : List Nat}

/-- Set of keys. -/
abbrev RepK (cap N : Nat) (f : Nat → Entry Unit) (D : Nat → Prop) : Prop := Rep cap N f D (fun _ _ => True)

theorem insertK_ok (h : RepK cap N f D) (he : ∃ q < N, (f q).key = none) (track : Bool) (key : Nat) :
    ∃ f', ∃ b : Bool, (mkT cap N f ks).insertK track key =
        .ok (mkT cap N f' (if track && b then ks ++ [key] else ks), b) ∧
      (b = true ↔ ¬ D key) ∧ RepK cap N f' (fun x => x = key ∨ D x) := by
  obtain ⟨i, hi, h1, h2⟩ := Rep.find (ks := ks) h he key
  have hic : i < cap := Nat.lt_of_lt_of_le hi h.le
  unfold Tbl.insertK
  simp only [h1, ok_bind, mkT_table, rd_tab hic]
  rcases h2 with ⟨hD, hk, _⟩ | ⟨hD, hk, hins⟩
  · rw [if_pos (by rw [hk]; simp)]
    refine ⟨f, false, by simp, by simp [hD], h.mono ?_ (fun _ _ _ hp => hp)⟩
    intro x
    constructor
    · rintro (rfl | hx)
      · exact hD
      · exact hx
    · exact .inr
  · rw [if_neg (by rw [hk]; simp)]
    simp only [put_eq hic, ok_bind]
    refine ⟨_, true, ?_, by simp [hD], hins (fun _ _ => True) () trivial (fun _ _ _ _ _ => trivial)⟩
    cases track <;> rfl

theorem insertsK_ok (hN : Pow2 N) (hc : N ≤ cap) (hf : ∀ i < cap, (f i).key = none) {ms : List Nat}
    (hlen : ms.length < N) :
    ∃ f', ms.foldlM (fun t c => (do
        let r ← Tbl.insertK false t c
        .ok r.1 : Res (Tbl Unit))) (mkT cap N f ks) = .ok (mkT cap N f' ks) ∧ RepK cap N f' (· ∈ ms) := by
  obtain ⟨s, h1, f', rfl, h2⟩ := foldlM_inv (f := fun t c => (do
        let r ← Tbl.insertK false t c
        .ok r.1 : Res (Tbl Unit)))
    (fun pre s => ∃ f', s = mkT cap N f' ks ∧ RepK cap N f' (· ∈ pre)) ms (mkT cap N f ks)
    ⟨f, rfl, (Rep.empty (Pay := fun _ _ => True) hN hc hf).mono (by simp) (fun _ _ h _ => h.elim)⟩ (by
      rintro pre a post s hl ⟨g, rfl, hg⟩
      have hroom := hg.room (l := pre) (fun x hx => hx) (by rw [hl] at hlen; simp at hlen; omega)
      obtain ⟨g', b, r1, _, r3⟩ := insertK_ok (ks := ks) hg hroom false a
      refine ⟨mkT cap N g' ks, by rw [r1]; rfl, g', rfl, r3.mono ?_ (fun _ _ _ _ => trivial)⟩
      intro x; simp [or_comm])
  exact ⟨f', h1, h2⟩

theorem erasesK_ok (hf : RepK cap N f D) {ms : List Nat} (hD : ∀ x, D x ↔ x ∈ ms) (hlen : ms.length < N)
    (vs : List (Nat × V × V)) :
    ∃ f', vs.foldlM (fun (s : Tbl Unit × Nat) x => (do
        let r ← s.1.erase x.1
        .ok (r.1, if r.2 then s.2 + 1 else s.2) : Res _)) (mkT cap N f ks, 0)
      = .ok (mkT cap N f' ks, (hits ms (vs.map (·.1))).length) ∧
      RepK cap N f' (fun x => x ∈ ms ∧ x ∉ vs.map (·.1)) := by
  obtain ⟨s, h1, f', rfl, h2⟩ := foldlM_inv (f := fun (s : Tbl Unit × Nat) x => (do
        let r ← s.1.erase x.1
        .ok (r.1, if r.2 then s.2 + 1 else s.2) : Res _))
    (fun (pre : List (Nat × V × V)) s => ∃ f', s = (mkT cap N f' ks, (hits ms (pre.map (·.1))).length) ∧
      RepK cap N f' (fun x => x ∈ ms ∧ x ∉ pre.map (·.1))) vs (mkT cap N f ks, 0)
    ⟨f, rfl, hf.mono (by simp [hD]) (fun _ _ _ _ => trivial)⟩ (by
      rintro pre a post s hl ⟨g, rfl, hg⟩
      have hroom := hg.room (l := ms) (fun x hx => hx.1) hlen
      obtain ⟨g', b, r1, r2, r3⟩ := Rep.erase (ks := ks) hg hroom a.1
      refine ⟨(mkT cap N g' ks, if b then (hits ms (pre.map (·.1))).length + 1
        else (hits ms (pre.map (·.1))).length), by rw [r1]; rfl, g', ?_, r3.mono ?_ (fun _ _ _ _ => trivial)⟩
      · congr 1
        simp only [hits, List.map_append, List.map_cons, List.map_nil, List.filter_append]
        by_cases hm : a.1 ∈ ms
        · simp only [hm, decide_true, List.filter_cons_of_pos, List.filter_nil, firsts_append_singleton,
            mem_firsts, List.mem_filter, and_true]
          by_cases hp : a.1 ∈ pre.map (·.1)
          · have : b = false := by
              cases b
              · rfl
              · exact absurd hp ((r2.1 rfl).2)
            simp only [this, hp, if_true]; simp
          · have : b = true := r2.2 ⟨hm, hp⟩
            simp only [this, hp, if_false]; simp
        · have : b = false := by
            cases b
            · rfl
            · exact absurd ((r2.1 rfl).1) hm
          simp [this, hm]
      · intro x
        simp only [List.map_append, List.map_cons, List.map_nil, List.mem_append, List.mem_singleton, not_or]
        constructor
        · rintro ⟨h1, h2, h3⟩; exact ⟨h3, h1, h2⟩
        · rintro ⟨h1, h2, h3⟩; exact ⟨h2, h3, h1⟩)
  exact ⟨f', h1, h2⟩

/-- Clean accumulator: no key is stored. -/
def Clean (cap : Nat) (t : Tbl P) : Prop :=
  ∃ N f, t = mkT cap N f [] ∧ ∀ i < cap, (f i).key = none

theorem maskLen_eq {M : CSR V} (hM : M.WF) {row : Nat} (hr : row < M.rows) :
    maskLen M row = .ok (M.rowCols row).length := by
  unfold maskLen
  rw [CSR.rd_ptr hM (Nat.le_of_lt hr), CSR.rd_ptr hM hr, CSR.rowCols_length hM hr]
  rfl

theorem resize_ok {P : Type} {cap N n : Nat} {f : Nat → Entry P} {ks : List Nat} (h : adjustSize n ≤ cap) :
    (mkT cap N f ks).resize n = .ok (mkT cap (adjustSize n) f ks) := by
  unfold Tbl.resize mkT
  simp only
  rw [check_of (by simpa using h)]
  rfl

theorem lt_adjustSize {l n : Nat} (h : l ≤ n) : l < adjustSize n := by
  have := adjustSize_load n; omega

theorem symbolicRow_ok {A B M : CSR V} {row : Nat} (h : Msa.Ok A B M row) (mul add : V → V → V) {cap : Nat}
    (hcap : adjustSize (M.rowCols row).length ≤ cap) {t : Tbl Unit} (ht : Clean cap t) :
    ∃ t', symbolicRow A B M row t = .ok (t', (maskedRow mul add A B M row).length) ∧ Clean cap t' := by
  obtain ⟨N, f, rfl, hf⟩ := ht
  unfold symbolicRow
  simp only [maskLen_eq h.wfM h.ltM, ok_bind, resize_ok hcap, maskLoop_eq h.wfM h.ltM]
  obtain ⟨f1, r1, r2⟩ := insertsK_ok (ks := []) (adjustSize_pow2 (M.rowCols row).length) hcap hf
    (lt_adjustSize (Nat.le_refl _))
  erw [r1]
  simp only [ok_bind]
  rw [nest_eq h.wfA h.wfB h.sh.ab h.lt _ _ (fun (s : Tbl Unit × Nat) x => (do
        let r ← s.1.erase x.1
        .ok (r.1, if r.2 then s.2 + 1 else s.2) : Res _)) (by
      intro j k s hj hk hk'
      simp only [rd_of_lt hk, ok_bind])]
  obtain ⟨f2, r3, r4⟩ := erasesK_ok (ks := []) r2 (fun _ => Iff.rfl) (lt_adjustSize (Nat.le_refl _)) (visits A B row)
  rw [r3]
  simp only [ok_bind]
  obtain ⟨f3, r5, r6⟩ := resetStates_ok (ks := []) hcap r4.rest
  rw [r5]
  simp only [ok_bind]
  rw [maskedRow_length, hits_length h.nodup]
  exact ⟨_, rfl, _, _, rfl, r6⟩

end

/-! ## The complemented symbolic row -/

section
variable {cap N : Nat} {f : Nat → Entry Unit} {D : Nat → Prop}

theorem collectK_ok (hf : RepK cap N f (fun _ => False)) {l : List Nat} (hlen : l.length < N)
    (vs : List (Nat × V × V)) (hl : ∀ x ∈ vs, x.1 ∈ l) :
    ∃ f', vs.foldlM (fun (s : Tbl Unit × Int) x => (do
        let r ← s.1.insertK true x.1
        .ok (r.1, if r.2 then s.2 + 1 else s.2) : Res _)) (mkT cap N f [], 0)
      = .ok (mkT cap N f' (firsts (vs.map (·.1))), ((firsts (vs.map (·.1))).length : Int)) ∧
      RepK cap N f' (· ∈ vs.map (·.1)) := by
  obtain ⟨s, h1, f', rfl, h2⟩ := foldlM_inv (f := fun (s : Tbl Unit × Int) x => (do
        let r ← s.1.insertK true x.1
        .ok (r.1, if r.2 then s.2 + 1 else s.2) : Res _))
    (fun (pre : List (Nat × V × V)) s => ∃ f', s = (mkT cap N f' (firsts (pre.map (·.1))),
        ((firsts (pre.map (·.1))).length : Int)) ∧
      RepK cap N f' (· ∈ pre.map (·.1))) vs (mkT cap N f [], 0)
    ⟨f, rfl, hf.mono (by simp) (fun _ _ _ _ => trivial)⟩ (by
      rintro pre a post s hl' ⟨g, rfl, hg⟩
      have hroom := hg.room (l := l) (by
        intro x hx
        rw [List.mem_map] at hx
        obtain ⟨y, hy, rfl⟩ := hx
        exact hl y (by rw [hl']; simp [hy])) hlen
      obtain ⟨g', b, r1, r2, r3⟩ := insertK_ok (ks := firsts (pre.map (·.1))) hg hroom true a.1
      refine ⟨_, by rw [r1]; rfl, g', ?_, r3.mono ?_ (fun _ _ _ _ => trivial)⟩
      · simp only [List.map_append, List.map_cons, List.map_nil, firsts_append_singleton, mem_firsts]
        cases b
        · have hm : a.1 ∈ pre.map (·.1) := by
            apply Classical.byContradiction; intro hn
            simpa using r2.2 hn
          simp only [hm, if_true]; simp
        · have hm : a.1 ∉ pre.map (·.1) := r2.1 rfl
          simp only [hm, if_false]; simp
      · intro x
        simp only [List.map_append, List.map_cons, List.map_nil, List.mem_append, List.mem_singleton]
        exact or_comm)
  exact ⟨f', h1, h2⟩

theorem countK_ok {ks : List Nat} (hf : RepK cap N f D) [DecidablePred D] {l : List Nat} (hD : ∀ x, D x → x ∈ l)
    (hlen : l.length < N) (ms : List Nat) (n : Int) :
    ms.foldlM (fun (n : Int) c => (do
        let idx ← (mkT cap N f ks).find c
        .ok (if idx.isSome then n - 1 else n) : Res Int)) n = .ok (n - (ms.filter (fun c => D c)).length) := by
  have := foldlM_desc (f := fun (n : Int) c => (do
        let idx ← (mkT cap N f ks).find c
        .ok (if idx.isSome then n - 1 else n) : Res Int)) (fun pre => n - (pre.filter (fun c => D c)).length) ms (by
    intro pre a post hl
    obtain ⟨r, h1, h2⟩ := Rep.find' (ks := ks) hf (hf.room hD hlen) a
    simp only [h1, ok_bind]
    congr 1
    rcases h2 with ⟨i, rfl, _, hDa, _⟩ | ⟨rfl, hDa⟩
    · simp [hDa]; omega
    · simp [hDa])
  simpa using this

/-- Emptying the slots of stored keys one by one. -/
theorem resetList_ok (hf : RepK cap N f D) {ks : List Nat} (hn : ks.Nodup) (hks : ∀ x, D x ↔ x ∈ ks) :
    ∃ f', (mkT cap N f ks).resetStatesList = .ok (mkT cap N f' []) ∧ ∀ i < cap, (f' i).key = none := by
  unfold Tbl.resetStatesList
  obtain ⟨s, h1, f', rfl, h2⟩ := foldlM_inv (f := fun (t : Tbl Unit) key => (do
        let idx ← t.findIdxForce key
        t.putEmpty idx : Res (Tbl Unit)))
    (fun pre s => ∃ f', s = mkT cap N f' ks ∧ Punched N f f' pre) ks (mkT cap N f ks)
    ⟨f, rfl, Punched.nil⟩ (by
      rintro pre a post s hl ⟨g, rfl, hg⟩
      obtain ⟨i, hi, r1, r2, r3, r4⟩ := hg.step (ks := ks) hf (not_mem_of_nodup_split hn hl)
        ((hks a).2 (by rw [hl]; simp))
      exact ⟨_, by rw [r1]; simp only [ok_bind]; exact putEmpty_eq (Nat.lt_of_lt_of_le hi hf.le), _, rfl,
        r4 _ rfl⟩)
  have h1' : List.foldlM (fun (t : Tbl Unit) key => (do
        let idx ← t.findIdxForce key
        t.putEmpty idx : Res (Tbl Unit))) (mkT cap N f ks) (mkT cap N f ks).keys = .ok (mkT cap N f' ks) := h1
  rw [h1']
  exact ⟨f', rfl, h2.all hf (fun x hx => (hks x).1 hx)⟩

/-- The complemented count, for masks that may repeat columns: every listed mask column that
is touched is subtracted, as often as it is listed. -/
theorem symbolicRowC_okD {A B M : CSR V} {row : Nat} (hA : A.WF) (hB : B.WF) (hM : M.WF) (sh : Spec.Shapes A B M)
    (hr : row < A.rows) {cap flops : Nat}
    (hcap : adjustSize ((M.rowCols row).length + flops) ≤ cap) (hfl : (visits A B row).length ≤ flops)
    {t : Tbl Unit} (ht : Clean cap t) :
    ∃ t', symbolicRowC A B M row flops t = .ok (t', ((firsts ((visits A B row).map (·.1))).length : Int) -
        ((M.rowCols row).filter (fun c => c ∈ (visits A B row).map (·.1))).length) ∧
      Clean cap t' := by
  obtain ⟨N, f, rfl, hf⟩ := ht
  unfold symbolicRowC
  simp only [maskLen_eq hM (sh.ma ▸ hr : row < M.rows), ok_bind, resize_ok hcap, maskLoop_eq hM (sh.ma ▸ hr : row < M.rows)]
  rw [nest_eq hA hB sh.ab hr _ _ (fun (s : Tbl Unit × Int) x => (do
        let r ← s.1.insertK true x.1
        .ok (r.1, if r.2 then s.2 + 1 else s.2) : Res _)) (by
      intro j k s hj hk hk'
      simp only [rd_of_lt hk, ok_bind])]
  have hlen : ((visits A B row).map (·.1)).length < adjustSize ((M.rowCols row).length + flops) :=
    lt_adjustSize (by rw [List.length_map]; omega)
  obtain ⟨f1, r1, r2⟩ := collectK_ok (Rep.empty (adjustSize_pow2 _) hcap hf) hlen (visits A B row)
    (fun x hx => List.mem_map_of_mem hx)
  rw [r1]
  simp only [ok_bind]
  erw [countK_ok r2 (fun _ hx => hx) hlen]
  simp only [ok_bind]
  obtain ⟨f2, r3, r4⟩ := resetList_ok r2 (firsts_nodup _) (fun x => mem_firsts.symm)
  rw [r3]
  simp only [ok_bind]
  refine ⟨mkT cap (adjustSize ((M.rowCols row).length + flops)) f2 [], ?_, _, _, rfl, r4⟩
  congr 2

theorem symbolicRowC_ok {A B M : CSR V} {row : Nat} (h : Msa.Ok A B M row) (sorted : Bool)
    (mul add : V → V → V) {cap flops : Nat}
    (hcap : adjustSize ((M.rowCols row).length + flops) ≤ cap) (hfl : (visits A B row).length ≤ flops)
    {t : Tbl Unit} (ht : Clean cap t) :
    ∃ t', symbolicRowC A B M row flops t = .ok (t', ((complRow sorted mul add A B M row).length : Int)) ∧
      Clean cap t' := by
  obtain ⟨t', r1, r2⟩ := symbolicRowC_okD h.wfA h.wfB h.wfM h.sh h.lt hcap hfl ht
  refine ⟨t', ?_, r2⟩
  rw [r1, Msa.complRow_length, Msa.firsts_split (M.rowCols row) _ h.nodup]
  congr 2
  unfold complCols; omega

end

end Verif.Model.Hash
