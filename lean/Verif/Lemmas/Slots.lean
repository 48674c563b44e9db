import Verif.Lemmas.Hash
import Verif.Lemmas.HashNum

/-!
# Linear probing in tables that may become full

`K i` is the key and the payload in slot `i`, for the slots below the size; other slots and the payloads of empty slots are
arbitrary.
-/

namespace Verif.Model.Slots
open Hash

variable {P : Type}

/-- Keys of the slots. -/
def keys (K : Nat → Option (Nat × P)) : Nat → Option Nat := fun i => (K i).map (·.1)

/-- The table holds `K`. -/
def Holds (N : Nat) (K : Nat → Option (Nat × P)) (f : Nat → Entry P) : Prop :=
  ∀ i < N, (f i).key = keys K i ∧ ∀ c v, K i = some (c, v) → (f i).val = v

theorem probe_congr {Q : Type} {N cap cap' : Nat} {f : Nat → Entry P} {f' : Nat → Entry Q} {ks ks' : List Nat} (hN : Pow2 N)
    (hc : N ≤ cap) (hc' : N ≤ cap') {stop : Option Nat → Bool} (h : ∀ i < N, (f i).key = (f' i).key) :
    ∀ (fuel p : Nat), p < N →
    (mkT cap N f ks).probe (fun e => stop e.key) fuel p = (mkT cap' N f' ks').probe (fun e => stop e.key) fuel p := by
  intro fuel
  induction fuel with
  | zero => intro p _; rfl
  | succ n ih =>
    intro p hp
    simp only [Tbl.probe, mkT_table, rd_tab (Nat.lt_of_lt_of_le hp hc), rd_tab (Nat.lt_of_lt_of_le hp hc'), ok_bind, h p hp,
      step_eq hN hp]
    rw [ih _ (next_lt hp)]

theorem findIdx_congr {Q : Type} {N cap cap' : Nat} {f : Nat → Entry P} {f' : Nat → Entry Q} {ks ks' : List Nat} (hN : Pow2 N)
    (hc : N ≤ cap) (hc' : N ≤ cap') (h : ∀ i < N, (f i).key = (f' i).key) (c : Nat) :
    (mkT cap N f ks).findIdx c = (mkT cap' N f' ks').findIdx c := by
  unfold Tbl.findIdx
  rw [hash_eq hN, hash_eq hN]
  exact probe_congr hN hc hc' (stop := fun k => k == none || k == some c) h _ _ (home_lt hN.pos)

/-- The slot a probe ends at. The table may be full if it has the key. -/
theorem slot_exists {N : Nat} {k : Nat → Option Nat} (hN : Pow2 N) (hg : Good N k) (c : Nat)
    (he : ∃ q < N, k q = none ∨ k q = some c) :
    ∃ i < N, (∀ (P : Type) (cap : Nat) (f : Nat → Entry P) (ks : List Nat), N ≤ cap → (∀ i < N, (f i).key = k i) →
        (mkT cap N f ks).findIdx c = .ok i) ∧
      (k i = some c ∨ k i = none ∧ (∀ j < N, k j ≠ some c) ∧
        ∀ j < N, dist N (home N c) j < dist N (home N c) i → k j ≠ none) := by
  obtain ⟨q, hq, hqe⟩ := he
  obtain ⟨i, hi, h1, h2, h3⟩ := probe_ok (P := Unit) (cap := N) (ks := []) hN (Nat.le_refl _)
    (stop := fun e => e.key == none || e.key == some c) (f := fun i => ⟨k i, ()⟩) (home_lt (key := c) hN.pos) hq
    (by simpa using hqe)
  refine ⟨i, hi, ?_, ?_⟩
  · intro P cap f ks hc hf
    rw [findIdx_congr (f' := fun i => ⟨k i, ()⟩) (ks' := []) hN hc (Nat.le_refl N) hf]
    unfold Tbl.findIdx
    rw [hash_eq hN]
    exact h1
  · simp only [Bool.or_eq_true, beq_iff_eq] at h2
    rcases h2 with h2 | h2
    · right
      refine ⟨h2, ?_, ?_⟩
      · intro j hj hjk
        have hji : j ≠ i := by intro h; subst h; rw [h2] at hjk; simp at hjk
        have hd := dist_ne (home_lt (key := c) hN.pos) hj hi hji
        rcases Nat.lt_or_gt_of_ne hd with hlt | hgt
        · have := h3 j hj hlt
          simp [hjk] at this
        · exact hg.reach j hj c hjk i hi hgt h2
      · intro j hj hd hjn
        have := h3 j hj hd
        simp [hjn] at this
    · exact .inl h2

/-- Fewer keys than slots: there is an empty slot. -/
theorem room {N : Nat} {k : Nat → Option Nat} (hg : Good N k) {l : List Nat} (hl : ∀ i < N, ∀ x, k i = some x → x ∈ l)
    (hlen : l.length < N) : ∃ q < N, k q = none := by
  apply Classical.byContradiction
  intro hno
  have hall : ∀ q < N, ∃ x, k q = some x := by
    intro q hq
    cases hk : k q with
    | none => exact absurd ⟨q, hq, hk⟩ hno
    | some x => exact ⟨x, rfl⟩
  have hn : ((List.range N).map fun q => (k q).getD 0).Nodup := by
    refine List.Pairwise.map _ (R := fun a b => a < N ∧ b < N ∧ a ≠ b) ?_ ?_
    · rintro a b ⟨ha, hb, hab⟩ he
      obtain ⟨x, hx⟩ := hall a ha
      obtain ⟨y, hy⟩ := hall b hb
      simp only [hx, hy, Option.getD_some] at he
      subst he
      exact hab (hg.uniq a ha b hb x hx hy)
    · refine List.Pairwise.imp_of_mem ?_ (List.nodup_range (n := N))
      intro a b ha hb hab
      exact ⟨by simpa using ha, by simpa using hb, hab⟩
  have := nodup_length_le hn (l' := l) (by
    intro x hx
    rw [List.mem_map] at hx
    obtain ⟨q, hq, rfl⟩ := hx
    have hq : q < N := by simpa using hq
    obtain ⟨y, hy⟩ := hall q hq
    rw [hy]
    exact hl q hq y hy)
  simp at this
  omega

/-- The contents of the slots in slot order. -/
def content (N : Nat) (K : Nat → Option (Nat × P)) : List (Nat × P) := (List.range N).filterMap K

theorem mem_content {N : Nat} {K : Nat → Option (Nat × P)} {c : Nat} {v : P} :
    (c, v) ∈ content N K ↔ ∃ i < N, K i = some (c, v) := by
  unfold content
  rw [List.mem_filterMap]
  simp

theorem content_nodup {N : Nat} {K : Nat → Option (Nat × P)} (hg : Good N (keys K)) : ((content N K).map (·.1)).Nodup := by
  unfold content
  rw [List.map_filterMap]
  refine List.Pairwise.filterMap (R := fun a b => a < N ∧ b < N ∧ a ≠ b) _ ?_ ?_
  · rintro a a' ⟨h1, h2, h3⟩ x hx y hy
    intro hxy
    subst hxy
    exact h3 (hg.uniq a h1 a' h2 x hx hy)
  · refine List.Pairwise.imp_of_mem ?_ (List.nodup_range (n := N))
    intro a b ha hb hab
    exact ⟨by simpa using ha, by simpa using hb, hab⟩

theorem keys_upd (K : Nat → Option (Nat × P)) (i c : Nat) (v : P) :
    keys (upd K i (some (c, v))) = upd (keys K) i (some c) := by
  funext j
  by_cases h : j = i <;> simp [keys, upd, h]

theorem Holds.upd {N : Nat} {K : Nat → Option (Nat × P)} {f : Nat → Entry P} (h : Holds N K f) (i c : Nat) (v : P) :
    Holds N (upd K i (some (c, v))) (Verif.upd f i ⟨some c, v⟩) := by
  intro j hj
  rw [keys_upd]
  by_cases hji : j = i
  · subst hji
    rw [upd_same, upd_same, upd_same]
    exact ⟨rfl, by rintro c' v' e; cases e; rfl⟩
  · rw [upd_ne _ _ hji, upd_ne _ _ hji, upd_ne _ _ hji]
    exact h j hj

/-- Inserting a new key or changing the payload of an old one: the effect on the map. -/
theorem good_upd {N : Nat} {K : Nat → Option (Nat × P)} (hg : Good N (keys K)) {i c : Nat} {v : P} (hi : i < N)
    (h : keys K i = some c ∨ keys K i = none ∧ (∀ j < N, keys K j ≠ some c) ∧
        ∀ j < N, dist N (home N c) j < dist N (home N c) i → keys K j ≠ none) :
    Good N (keys (upd K i (some (c, v)))) := by
  rw [keys_upd]
  rcases h with h | ⟨_, h2, h3⟩
  · refine hg.congr ?_
    intro j _
    by_cases hji : j = i
    · subst hji; rw [upd_same, h]
    · rw [upd_ne _ _ hji]
  · exact hg.insert hi h2 h3

theorem map_upd {N : Nat} {K : Nat → Option (Nat × P)} (hg : Good N (keys K)) {i c : Nat} {v : P} (hi : i < N)
    (h : keys K i = some c ∨ keys K i = none ∧ (∀ j < N, keys K j ≠ some c)) {c' : Nat} {v' : P} :
    (∃ j < N, upd K i (some (c, v)) j = some (c', v')) ↔
      (c' = c ∧ v' = v) ∨ (c' ≠ c ∧ ∃ j < N, K j = some (c', v')) := by
  constructor
  · rintro ⟨j, hj, e⟩
    by_cases hji : j = i
    · subst hji; rw [upd_same] at e; cases e; exact Or.inl ⟨rfl, rfl⟩
    · rw [upd_ne _ _ hji] at e
      have hk : keys K j = some c' := by unfold keys; rw [e]; rfl
      refine Or.inr ⟨?_, j, hj, e⟩
      intro hcc; subst hcc
      rcases h with h | ⟨_, h⟩
      · exact hji (hg.uniq j hj i hi c' hk h)
      · exact h j hj hk
  · rintro (⟨rfl, rfl⟩ | ⟨hne, j, hj, e⟩)
    · exact ⟨i, hi, upd_same _ _ _⟩
    · refine ⟨j, hj, ?_⟩
      rw [upd_ne]
      · exact e
      · intro hji; subst hji
        have hk : keys K j = some c' := by unfold keys; rw [e]; rfl
        rcases h with h | ⟨h, _⟩
        · rw [hk] at h; cases h; exact hne rfl
        · rw [hk] at h; cases h

/-- Setting the keys of the first slots to "empty". -/
theorem reset_ok {cap N s : Nat} {f : Nat → Entry P} {ks : List Nat} (hc : N ≤ cap) :
    ∃ f', forRange 0 N (mkT cap s f ks) (fun i t => t.putEmpty i) = .ok (mkT cap s f' ks) ∧ ∀ i < N, (f' i).key = none := by
  obtain ⟨t, e1, f', e2, e3⟩ := forRange_inv (body := fun i (t : Tbl P) => t.putEmpty i)
    (fun k t => ∃ f', t = mkT cap s f' ks ∧ ∀ i < k, (f' i).key = none) 0 N (Nat.zero_le _) (mkT cap s f ks)
    ⟨f, rfl, by omega⟩ (by
      rintro k t _ hk ⟨f', rfl, hf⟩
      refine ⟨_, putEmpty_eq (by omega), _, rfl, ?_⟩
      intro i hi
      by_cases hik : i = k
      · subst hik; rw [upd_same]
      · rw [upd_ne _ _ hik]; exact hf i (by omega))
  exact ⟨f', by rw [e1, e2], e3⟩

end Verif.Model.Slots
