import Verif.HashOps
import Verif.Lemmas.Hash

/-! # Operation sequences on the hash accumulator -/

namespace Verif.Model.Hash

open Verif.Spec

variable {V : Type}

theorem setRun_eq {cap N : Nat} : ∀ (ops : List SetOp) (S : List Nat) (f : Nat → Entry Unit),
    RepK cap N f (· ∈ S) → setSmall N S ops →
    setImplRun (mkT cap N f []) ops = .ok (setSpecRun S ops) := by
  intro ops
  induction ops with
  | nil => intro S f _ _; rfl
  | cons op ops ih =>
    intro S f hf hs
    obtain ⟨hlen, hs⟩ := hs
    have hroom := hf.room (l := S) (fun x hx => hx) hlen
    unfold setImplRun setSpecRun
    cases op with
    | insert k =>
      obtain ⟨f', b, r1, r2, r3⟩ := insertK_ok (ks := []) hf hroom false k
      simp only [setImpl, r1, ok_bind, Bool.false_and, Bool.false_eq_true, if_false]
      simp only [setSpec] at hs ⊢
      by_cases hk : k ∈ S
      · have hb : b = false := by
          cases b
          · rfl
          · exact absurd hk (r2.1 rfl)
        rw [if_pos hk] at hs ⊢
        rw [ih S f' (r3.mono (fun x => ⟨.inr, fun h => h.elim (fun e => e ▸ hk) id⟩) (fun _ _ _ h => h)) hs, hb]
        rfl
      · have hb : b = true := r2.2 hk
        rw [if_neg hk] at hs ⊢
        rw [ih (k :: S) f' (r3.mono (fun x => by simp) (fun _ _ _ h => h)) hs, hb]
        rfl
    | find k =>
      obtain ⟨r, r1, r2⟩ := hf.find' (ks := []) hroom k
      simp only [setImpl, r1, ok_bind]
      simp only [setSpec] at hs ⊢
      rw [ih S f hf hs]
      rcases r2 with ⟨i, rfl, _, hD, _⟩ | ⟨rfl, hD⟩
      · simp [hD]
      · simp [hD]
    | erase k =>
      obtain ⟨f', b, r1, r2, r3⟩ := hf.erase (ks := []) hroom k
      simp only [setImpl, r1, ok_bind]
      simp only [setSpec] at hs ⊢
      rw [ih (S.filter (· ≠ k)) f' (r3.mono (fun x => by simp [and_comm]) (fun _ _ _ h => h)) hs]
      have hb : b = decide (k ∈ S) := by
        by_cases hk : k ∈ S
        · simp [hk, r2.2 hk]
        · cases b
          · simp [hk]
          · exact absurd (r2.1 rfl) hk
      rw [hb]; rfl

theorem emptyTbl_eq {P : Type} (p : P) (cap N : Nat) : emptyTbl p cap N = mkT cap N (fun _ => ⟨none, p⟩) [] := by
  unfold emptyTbl mkT tab
  simp [List.map_const']

/-- The table stores the map `S`. -/
abbrev RepM (cap N : Nat) (f : Nat → Entry (Val V)) (S : List (Nat × V × Bool)) : Prop :=
  Rep cap N f (fun x => (S.lookup x).isSome)
    (fun x p => ∀ v b, S.lookup x = some (v, b) → p = ⟨some v, some b⟩)

theorem lookup_filter_ne {S : List (Nat × V × Bool)} {k x : Nat} :
    (S.filter (fun y => y.1 ≠ k)).lookup x = if x = k then none else S.lookup x := by
  induction S with
  | nil => simp
  | cons a S ih =>
    obtain ⟨y, v⟩ := a
    by_cases hy : y = k
    · subst hy
      simp only [List.filter_cons, ne_eq, not_true, decide_false, Bool.false_eq_true, if_false]
      simp only [ne_eq] at ih
      rw [ih]
      by_cases hx : x = y
      · simp [hx]
      · have : (x == y) = false := by simpa using hx
        simp [hx, List.lookup, this]
    · simp only [List.filter_cons, ne_eq, hy, not_false_eq_true, decide_true, if_true]
      simp only [ne_eq] at ih
      by_cases hx : x = y
      · subst hx; simp [List.lookup, hy]
      · have : (x == y) = false := by simpa using hx
        simp only [List.lookup, this]
        simpa using ih

theorem lookup_mem {S : List (Nat × V × Bool)} {x : Nat} (h : (S.lookup x).isSome) : x ∈ S.map Prod.fst := by
  induction S with
  | nil => simp at h
  | cons a S ih =>
    obtain ⟨y, v⟩ := a
    by_cases hx : x = y
    · simp [hx]
    · have hxy : (x == y) = false := by simpa using hx
      simp only [List.lookup, hxy] at h
      simp only [List.map_cons, List.mem_cons]
      exact .inr (ih h)

theorem lookup_cons_self {S : List (Nat × V × Bool)} {k : Nat} {w : V × Bool} : ((k, w) :: S).lookup k = some w := by
  simp [List.lookup]

theorem lookup_cons_ne {S : List (Nat × V × Bool)} {k x : Nat} {w : V × Bool} (h : x ≠ k) :
    ((k, w) :: S).lookup x = S.lookup x := by
  have : (x == k) = false := by simpa using h
  simp [List.lookup, this]

theorem mapRun_eq {cap N : Nat} : ∀ (ops : List (MapOp V)) (S : List (Nat × V × Bool)) (f : Nat → Entry (Val V)),
    RepM cap N f S → mapSmall N S ops →
    mapImplRun (mkT cap N f []) ops = .ok (mapSpecRun S ops) := by
  intro ops
  induction ops with
  | nil => intro S f _ _; rfl
  | cons op ops ih =>
    intro S f hf hs
    obtain ⟨hlen, hs⟩ := hs
    have hroom := hf.room (l := S.map Prod.fst) (fun x hx => lookup_mem hx) (by simpa using hlen)
    unfold mapImplRun mapSpecRun
    cases op with
    | insert k v b =>
      obtain ⟨i, hi, h1, h2⟩ := hf.find (ks := []) hroom k
      have hic : i < cap := Nat.lt_of_lt_of_le hi hf.le
      simp only [mapImpl, Tbl.insertV, h1, ok_bind, mkT_table, rd_tab hic]
      simp only [mapSpec] at hs ⊢
      rcases h2 with ⟨hD, hk, _⟩ | ⟨hD, hk, hins⟩
      · rw [if_pos hD] at hs ⊢
        rw [if_pos (by rw [hk]; simp)]
        simp only [ok_bind]
        rw [ih S f hf hs]; rfl
      · rw [if_neg hD] at hs ⊢
        rw [if_neg (by rw [hk]; simp)]
        simp only [put_eq hic, ok_bind, Bool.false_eq_true, if_false]
        rw [ih ((k, v, b) :: S) _ ?_ hs]
        · rfl
        · refine (hins (fun x p => ∀ v' b', ((k, v, b) :: S).lookup x = some (v', b') → p = ⟨some v', some b'⟩)
            ⟨some v, some b⟩ ?_ ?_).mono ?_ (fun _ _ _ h => h)
          · intro v' b' h; rw [lookup_cons_self] at h; cases h; rfl
          · intro x p hx _ hp v' b' h
            rw [lookup_cons_ne hx] at h; exact hp v' b' h
          · intro x
            by_cases hx : x = k
            · subst hx; simp
            · simp [lookup_cons_ne hx, hx]
    | find k =>
      obtain ⟨r, r1, r2⟩ := hf.find' (ks := []) hroom k
      simp only [mapImpl, r1, ok_bind]
      simp only [mapSpec] at hs ⊢
      rcases r2 with ⟨i, rfl, hi, hD, hk, hp⟩ | ⟨rfl, hD⟩
      · obtain ⟨⟨v, b⟩, hvb⟩ := Option.isSome_iff_exists.1 hD
        have hv := hp v b hvb
        simp only [mkT_table, rd_tab (Nat.lt_of_lt_of_le hi hf.le), ok_bind, hv, use_some]
        rw [ih S f hf hs, hvb]; rfl
      · simp only [ok_bind]
        rw [ih S f hf hs]
        have : S.lookup k = none := Option.not_isSome_iff_eq_none.1 hD
        rw [this]; rfl
    | assign k v b =>
      obtain ⟨r, r1, r2⟩ := hf.find' (ks := []) hroom k
      simp only [mapImpl, r1, ok_bind]
      simp only [mapSpec] at hs ⊢
      rcases r2 with ⟨i, rfl, hi, hD, hk, hp⟩ | ⟨rfl, hD⟩
      · have hic : i < cap := Nat.lt_of_lt_of_le hi hf.le
        rw [if_pos hD] at hs ⊢
        simp only [mkT_table, rd_tab hic, ok_bind, put_eq hic]
        rw [ih ((k, v, b) :: S.filter (fun x => x.1 ≠ k)) _ ?_ hs]
        · rfl
        · rw [hk]
          refine (hf.update hi hk (Pay' := fun x p => ∀ v' b',
            ((k, v, b) :: S.filter (fun x => x.1 ≠ k)).lookup x = some (v', b') → p = ⟨some v', some b'⟩)
            ?_ ?_).mono ?_ (fun _ _ _ h => h)
          · intro v' b' h; rw [lookup_cons_self] at h; cases h; rfl
          · intro x p hx _ hp v' b' h
            rw [lookup_cons_ne hx, lookup_filter_ne, if_neg hx] at h; exact hp v' b' h
          · intro x
            by_cases hx : x = k
            · subst hx; simp [hD]
            · rw [lookup_cons_ne hx, lookup_filter_ne, if_neg hx]
      · rw [if_neg hD] at hs ⊢
        simp only [ok_bind]
        rw [ih S f hf hs]; rfl
    | erase k =>
      obtain ⟨f', b, r1, r2, r3⟩ := hf.erase (ks := []) hroom k
      simp only [mapImpl, r1, ok_bind]
      simp only [mapSpec] at hs ⊢
      rw [ih (S.filter (fun x => x.1 ≠ k)) f' ?_ hs]
      · have hb : b = (S.lookup k).isSome := by
          cases hD : (S.lookup k).isSome
          · cases b
            · rfl
            · rw [← hD]; exact (r2.1 rfl).symm
          · exact r2.2 hD
        rw [hb]; rfl
      · refine r3.mono ?_ ?_
        · intro x
          rw [lookup_filter_ne]
          by_cases hx : x = k <;> simp [hx]
        · intro x p hx hp v' b' h
          rw [lookup_filter_ne, if_neg hx.1] at h
          exact hp v' b' h

end Verif.Model.Hash
