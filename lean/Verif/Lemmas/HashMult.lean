import Verif.Model.HashMult
import Verif.Lemmas.Bin
import Verif.Lemmas.Slots
import Verif.SpecLegacy

/-! # The unmasked hash multiply -/

namespace Verif.Model.HashMult
open Hash Slots

variable {V : Type}

theorem reset_spec {cap s N : Nat} {f : Nat → Entry V} {ks : List Nat} (hc : N ≤ cap) :
    ∃ f', reset (mkT cap s f ks) N = .ok (mkT cap N f' ks) ∧ ∀ i < N, (f' i).key = none :=
  reset_ok (s := N) hc

theorem firsts_mono {l l' : List Nat} (h : ∀ x ∈ l, x ∈ l') : (firsts l).length ≤ (firsts l').length :=
  nodup_length_le (firsts_nodup _) (by intro x hx; rw [mem_firsts] at hx ⊢; exact h x hx)

/-- Counting the different keys. -/
theorem sym_ok {cap N : Nat} {f : Nat → Entry V} {ks : List Nat} (hN : Pow2 N) (hc : N ≤ cap) (hf : ∀ i < N, (f i).key = none)
    (L : List Nat) (hlen : (firsts L).length ≤ N) :
    ∃ f', L.foldlM (fun (s : Tbl V × Nat) c => insertSym s.1 s.2 c) (mkT cap N f ks, 0) =
      .ok (mkT cap N f' ks, (firsts L).length) := by
  obtain ⟨s, e1, f', rfl, _⟩ := foldlM_inv (f := fun (s : Tbl V × Nat) c => insertSym s.1 s.2 c)
    (fun pre s => ∃ f', s = (mkT cap N f' ks, (firsts pre).length) ∧ Good N (keysOf f') ∧
      ∀ x, (∃ i < N, keysOf f' i = some x) ↔ x ∈ pre) L (mkT cap N f ks, 0)
    ⟨f, rfl, Good.empty hf, by
      intro x
      constructor
      · rintro ⟨i, hi, h⟩; unfold keysOf at h; rw [hf i hi] at h; cases h
      · intro h; cases h⟩
    (by
      rintro pre c post s hl ⟨f', rfl, hg, hk⟩
      have hroom : ∃ q < N, keysOf f' q = none ∨ keysOf f' q = some c := by
        by_cases hcp : c ∈ pre
        · obtain ⟨q, hq, h⟩ := (hk c).2 hcp
          exact ⟨q, hq, Or.inr h⟩
        · obtain ⟨q, hq, h⟩ := room hg (l := firsts pre) (by
            intro i hi x hx; rw [mem_firsts]; exact (hk x).1 ⟨i, hi, hx⟩) (by
            have h1 := firsts_mono (l := pre ++ [c]) (l' := L) (by
              intro x hx; rw [hl]; simp at hx ⊢
              rcases hx with hx | hx
              · exact Or.inl hx
              · exact Or.inr (Or.inl hx))
            rw [firsts_append_singleton, if_neg (by rw [mem_firsts]; exact hcp)] at h1
            simp at h1; omega)
          exact ⟨q, hq, Or.inl h⟩
      obtain ⟨i, hi, h1, h2⟩ := slot_exists hN hg c hroom
      unfold insertSym
      simp only [h1 V cap f' ks hc (fun _ _ => rfl), ok_bind, mkT_table, rd_tab (Nat.lt_of_lt_of_le hi hc)]
      rw [firsts_append_singleton]
      rcases h2 with h2 | ⟨h2, h3, h4⟩
      · have h2' : (f' i).key = some c := h2
        have hcp : c ∈ pre := (hk c).1 ⟨i, hi, h2⟩
        rw [if_pos h2', if_pos (by rw [mem_firsts]; exact hcp)]
        refine ⟨_, rfl, f', rfl, hg, ?_⟩
        intro x
        rw [hk x]
        simp only [List.mem_append, List.mem_singleton]
        constructor
        · exact Or.inl
        · rintro (h | rfl)
          · exact h
          · exact hcp
      · have h2' : (f' i).key = none := h2
        have hcp : c ∉ pre := fun h => by
          obtain ⟨j, hj, e⟩ := (hk c).2 h
          exact h3 j hj e
        rw [if_neg (by rw [h2']; simp), if_neg (by rw [mem_firsts]; exact hcp), put_eq (Nat.lt_of_lt_of_le hi hc)]
        simp only [ok_bind]
        refine ⟨_, rfl, _, by rw [List.length_append]; rfl, ?_, ?_⟩
        · rw [keysOf_upd]; exact hg.insert hi h3 h4
        · intro x
          rw [keysOf_upd]
          simp only [List.mem_append, List.mem_singleton]
          constructor
          · rintro ⟨j, hj, e⟩
            by_cases hji : j = i
            · subst hji; rw [upd_same] at e; cases e; exact Or.inr rfl
            · rw [upd_ne _ _ hji] at e; exact Or.inl ((hk x).1 ⟨j, hj, e⟩)
          · rintro (h | rfl)
            · obtain ⟨j, hj, e⟩ := (hk x).2 h
              have hji : j ≠ i := by intro h'; subst h'; rw [h2] at e; cases e
              exact ⟨j, hj, by rw [upd_ne _ _ hji]; exact e⟩
            · exact ⟨i, hi, upd_same _ _ _⟩)
  exact ⟨f', e1⟩

/-- Adding the products: the final table does not depend on what was in it before. -/
theorem num_ok (add : V → V → V) {N : Nat} (hN : Pow2 N) (L : List (Nat × V)) (hlen : (firsts (L.map (·.1))).length ≤ N) :
    ∃ K : Nat → Option (Nat × V), Good N (keys K) ∧
      (∀ c v, (∃ i < N, K i = some (c, v)) ↔ Spec.sum1 (fun a b => add b a) (pick L c) = some v) ∧
      ∀ cap f ks, N ≤ cap → (∀ i < N, (f i).key = none) → ∃ f',
        L.foldlM (fun t x => insertNum add t x.1 x.2) (mkT cap N f ks) = .ok (mkT cap N f' ks) ∧ Holds N K f' := by
  induction L using list_snoc_induction with
  | h0 =>
    refine ⟨fun _ => none, Good.empty (fun _ _ => rfl), ?_, ?_⟩
    · intro c v; simp [Spec.sum1]
    · intro cap f ks hc hf
      exact ⟨f, rfl, fun i hi => ⟨by rw [hf i hi]; rfl, by intro c v h; cases h⟩⟩
  | h1 L x ih =>
    obtain ⟨c, w⟩ := x
    have hlen' : (firsts (L.map (·.1))).length ≤ N := by
      have := firsts_mono (l := L.map (·.1)) (l' := (L ++ [(c, w)]).map (·.1)) (by
        intro x hx; rw [List.map_append]; exact List.mem_append_left _ hx)
      omega
    obtain ⟨K, hg, hK, hrun⟩ := ih hlen'
    have hkey : ∀ x, (∃ i < N, keys K i = some x) ↔ x ∈ L.map (·.1) := by
      intro x
      constructor
      · rintro ⟨i, hi, h⟩
        unfold keys at h
        rw [Option.map_eq_some_iff] at h
        obtain ⟨⟨c', v⟩, h, rfl⟩ := h
        have h1 := (hK c' v).1 ⟨i, hi, h⟩
        have hne : pick L c' ≠ [] := by intro h'; rw [h'] at h1; cases h1
        rw [Ne, pick_eq_nil] at hne
        apply Classical.byContradiction
        intro hno
        apply hne
        intro p hp hpc
        exact hno (List.mem_map.2 ⟨p, hp, hpc⟩)
      · intro hx
        cases hs : Spec.sum1 (fun a b => add b a) (pick L x) with
        | none =>
          rw [sum1_eq_none, pick_eq_nil] at hs
          obtain ⟨p, hp, rfl⟩ := List.mem_map.1 hx
          exact absurd rfl (hs p hp)
        | some v =>
          obtain ⟨i, hi, e⟩ := (hK x v).2 hs
          exact ⟨i, hi, by unfold keys; rw [e]; rfl⟩
    have hroom : ∃ q < N, keys K q = none ∨ keys K q = some c := by
      by_cases hcp : c ∈ L.map (·.1)
      · obtain ⟨q, hq, h⟩ := (hkey c).2 hcp
        exact ⟨q, hq, Or.inr h⟩
      · obtain ⟨q, hq, h⟩ := room hg (l := firsts (L.map (·.1))) (by
          intro i hi x hx; rw [mem_firsts]; exact (hkey x).1 ⟨i, hi, hx⟩) (by
          rw [List.map_append, List.map_cons, List.map_nil, firsts_append_singleton,
            if_neg (by rw [mem_firsts]; exact hcp)] at hlen
          simp at hlen ⊢; omega)
        exact ⟨q, hq, Or.inl h⟩
    obtain ⟨i, hi, h1, h2⟩ := slot_exists hN hg c hroom
    have hnew : ∃ v, Spec.sum1 (fun a b => add b a) (pick (L ++ [(c, w)]) c) = some v ∧
        ((∃ u, K i = some (c, u) ∧ v = add w u) ∨ (K i = none ∧ v = w)) := by
      rw [pick_snoc_self, sum1_append_singleton]
      rcases h2 with h2 | ⟨h2, h3, _⟩
      · unfold keys at h2
        rw [Option.map_eq_some_iff] at h2
        obtain ⟨⟨c', u⟩, h2, rfl⟩ := h2
        rw [(hK c' u).1 ⟨i, hi, h2⟩]
        exact ⟨_, rfl, Or.inl ⟨u, h2, rfl⟩⟩
      · have hn : Spec.sum1 (fun a b => add b a) (pick L c) = none := by
          cases hs : Spec.sum1 (fun a b => add b a) (pick L c) with
          | none => rfl
          | some v =>
            obtain ⟨j, hj, e⟩ := (hK c v).2 hs
            exact absurd (by unfold keys; rw [e]; rfl) (h3 j hj)
        rw [hn]
        refine ⟨w, rfl, Or.inr ⟨?_, rfl⟩⟩
        unfold keys at h2
        simpa using h2
    obtain ⟨v, hv1, hv2⟩ := hnew
    have h2' : keys K i = some c ∨ keys K i = none ∧ ∀ j < N, keys K j ≠ some c := by
      rcases h2 with h | ⟨h, h', _⟩
      · exact Or.inl h
      · exact Or.inr ⟨h, h'⟩
    refine ⟨upd K i (some (c, v)), good_upd hg hi h2, ?_, ?_⟩
    · intro c' v'
      rw [map_upd hg hi h2']
      constructor
      · rintro (⟨rfl, rfl⟩ | ⟨hne, h⟩)
        · exact hv1
        · rw [pick_snoc_ne hne]; exact (hK c' v').1 h
      · intro h
        by_cases hcc : c' = c
        · subst hcc; rw [hv1] at h; cases h; exact Or.inl ⟨rfl, rfl⟩
        · rw [pick_snoc_ne hcc] at h
          exact Or.inr ⟨hcc, (hK c' v').2 h⟩
    · intro cap f ks hc hf
      obtain ⟨f', e1, hh⟩ := hrun cap f ks hc hf
      refine ⟨upd f' i ⟨some c, v⟩, ?_, hh.upd i c v⟩
      rw [List.foldlM_append, e1]
      simp only [ok_bind, List.foldlM_cons, List.foldlM_nil]
      unfold insertNum
      simp only [h1 V cap f' ks hc (fun j hj => (hh j hj).1), ok_bind, mkT_table, rd_tab (Nat.lt_of_lt_of_le hi hc)]
      rcases hv2 with ⟨u, hu1, hu2⟩ | ⟨hu1, hu2⟩
      · have hk : (f' i).key = some c := by rw [(hh i hi).1]; unfold keys; rw [hu1]; rfl
        rw [if_pos hk, put_eq (Nat.lt_of_lt_of_le hi hc), hk, (hh i hi).2 c u hu1, hu2]
        rfl
      · have hk : (f' i).key = none := by rw [(hh i hi).1]; unfold keys; rw [hu1]; rfl
        rw [if_neg (by rw [hk]; simp), put_eq (Nat.lt_of_lt_of_le hi hc), hu2]
        rfl

/-! ## Reading the table -/

theorem content_succ {P : Type} (N : Nat) (K : Nat → Option (Nat × P)) :
    content (N + 1) K = content N K ++ (K N).toList := by
  unfold content
  rw [List.range_succ, List.filterMap_append]
  cases h : K N <;> simp [h]

theorem content_le {P : Type} {K : Nat → Option (Nat × P)} {N M : Nat} (h : N ≤ M) :
    (content N K).length ≤ (content M K).length := by
  induction M with
  | zero => have : N = 0 := by omega
            subst this; exact Nat.le_refl _
  | succ M ih =>
    rcases Nat.lt_or_ge N (M + 1) with h' | h'
    · have := ih (by omega)
      rw [content_succ, List.length_append]; omega
    · have : N = M + 1 := by omega
      subst this; exact Nat.le_refl _

/-- Insert a list into two parallel arrays. -/
theorem set_mid (X xs : List (Nat × V)) (x : Nat × V) (off : Nat) (h : off + xs.length < X.length) :
    (X.take off ++ xs ++ X.drop (off + xs.length)).set (off + xs.length) x =
      X.take off ++ (xs ++ [x]) ++ X.drop (off + (xs ++ [x]).length) := by
  have hl2 : (X.take off ++ xs).length = off + xs.length := by simp; omega
  rw [List.set_append_right _ _ (by omega), hl2, Nat.sub_self, List.drop_eq_getElem_cons (by omega), List.set_cons_zero]
  simp [Nat.add_assoc]

theorem gather_ok {cap N s : Nat} {f : Nat → Entry V} {ks : List Nat} {K : Nat → Option (Nat × V)} (hc : N ≤ cap)
    (hh : Holds N K f) (off : Nat) (X : List (Nat × V)) (hX : off + (content N K).length ≤ X.length) :
    ∃ m, gather (mkT cap s f ks) N off (X.map (·.1), X.map (·.2)) =
      .ok (((X.take off ++ content N K ++ X.drop (off + (content N K).length)).map (·.1),
        (X.take off ++ content N K ++ X.drop (off + (content N K).length)).map (·.2)), m) := by
  unfold gather
  obtain ⟨s, e1, e2⟩ := forRange_inv (body := fun j (si : (List Nat × List V) × Nat) => do
      let e ← rd (mkT cap s f ks).table j
      match e.key with
      | some key => do
        let c ← wr si.1.1 (off + si.2) key
        let v ← wr si.1.2 (off + si.2) e.val
        .ok ((c, v), si.2 + 1)
      | none => .ok (si.1, si.2))
    (fun k si => si = (((X.take off ++ content k K ++ X.drop (off + (content k K).length)).map (·.1),
        (X.take off ++ content k K ++ X.drop (off + (content k K).length)).map (·.2)), (content k K).length))
    0 N (Nat.zero_le _) ((X.map (·.1), X.map (·.2)), 0) (by simp [content]) (by
      rintro j si _ hj rfl
      simp only [mkT_table, rd_tab (Nat.lt_of_lt_of_le hj hc), ok_bind]
      cases hK : K j with
      | none =>
        have : (f j).key = none := by rw [(hh j hj).1]; unfold keys; rw [hK]; rfl
        refine ⟨_, by rw [this], ?_⟩
        rw [content_succ, hK]; simp
      | some x =>
        obtain ⟨c, v⟩ := x
        have hk : (f j).key = some c := by rw [(hh j hj).1]; unfold keys; rw [hK]; rfl
        have hv : (f j).val = v := (hh j hj).2 c v hK
        have hs : content (j + 1) K = content j K ++ [(c, v)] := by rw [content_succ, hK]; rfl
        have hlt : off + (content j K).length < X.length := by
          have := content_le (K := K) (N := j + 1) (M := N) (by omega)
          rw [hs, List.length_append] at this
          simp at this; omega
        have hlen : (X.take off ++ content j K ++ X.drop (off + (content j K).length)).length = X.length := by
          simp; omega
        have hset := set_mid X (content j K) (c, v) off hlt
        refine ⟨_, by
          rw [hk]
          simp only
          rw [wr_of_lt (by rw [List.length_map, hlen]; exact hlt), ok_bind,
            wr_of_lt (by rw [List.length_map, hlen]; exact hlt), ok_bind], ?_⟩
        rw [hs, ← hset, hv, List.map_set, List.map_set]
        simp)
  exact ⟨_, e1.trans (by rw [e2])⟩

theorem collect_ok {cap N s : Nat} {f : Nat → Entry V} {ks : List Nat} {K : Nat → Option (Nat × V)} (hc : N ≤ cap)
    (hh : Holds N K f) (dflt : V) :
    collect (mkT cap s f ks) N (content N K).length dflt = .ok (content N K, (content N K).length) := by
  unfold collect
  obtain ⟨s, e1, e2⟩ := forRange_inv (body := fun j (si : List (Nat × V) × Nat) => do
      let e ← rd (mkT cap s f ks).table j
      match e.key with
      | some c => do
        let pv ← wr si.1 si.2 (c, e.val)
        .ok (pv, si.2 + 1)
      | none => .ok (si.1, si.2))
    (fun k si => si = (content k K ++ List.replicate ((content N K).length - (content k K).length) (0, dflt),
      (content k K).length))
    0 N (Nat.zero_le _) (List.replicate (content N K).length (0, dflt), 0) (by simp [content]) (by
      rintro j si _ hj rfl
      simp only [mkT_table, rd_tab (Nat.lt_of_lt_of_le hj hc), ok_bind]
      cases hK : K j with
      | none =>
        have : (f j).key = none := by rw [(hh j hj).1]; unfold keys; rw [hK]; rfl
        refine ⟨_, by rw [this], ?_⟩
        rw [content_succ, hK]; simp
      | some x =>
        obtain ⟨c, v⟩ := x
        have hk : (f j).key = some c := by rw [(hh j hj).1]; unfold keys; rw [hK]; rfl
        have hv : (f j).val = v := (hh j hj).2 c v hK
        have hs : content (j + 1) K = content j K ++ [(c, v)] := by rw [content_succ, hK]; rfl
        have hlt : (content j K).length < (content N K).length := by
          have := content_le (K := K) (N := j + 1) (M := N) (by omega)
          rw [hs, List.length_append] at this
          simp at this; omega
        refine ⟨_, by
          rw [hk]
          simp only
          rw [wr_of_lt (by simp; omega), ok_bind], ?_⟩
        rw [hs, hv, List.set_append_right _ _ (Nat.le_refl _), Nat.sub_self]
        obtain ⟨m, hm⟩ : ∃ m, (content N K).length - (content j K).length = m + 1 := ⟨_, (Nat.succ_pred (by omega)).symm⟩
        rw [hm, List.replicate_succ, List.set_cons_zero]
        have : (content N K).length - (content j K ++ [(c, v)]).length = m := by simp; omega
        rw [this]
        simp)
  refine e1.trans ?_
  rw [e2]
  simp

/-! ## Rows -/

/-- Different columns of the products of a row. -/
def width (A B : CSR V) (i : Nat) : Nat := (firsts ((visits A B i).map (·.1))).length

theorem prods_cols (mul : V → V → V) (A B : CSR V) (i : Nat) : (prods mul A B i).map (·.1) = (visits A B i).map (·.1) := by
  unfold prods; rw [List.map_map]; rfl

theorem width_le {A B : CSR V} (hB : B.WF) (i : Nat) : width A B i ≤ Nat.min (Bin.nprod A B i) B.cols := by
  have h1 : width A B i ≤ ((visits A B i).map (·.1)).length :=
    nodup_length_le (firsts_nodup _) (fun x hx => by rwa [mem_firsts] at hx)
  have h2 : width A B i ≤ (List.range B.cols).length :=
    nodup_length_le (firsts_nodup _) (fun x hx => by
      rw [mem_firsts, List.mem_map] at hx
      obtain ⟨y, hy, rfl⟩ := hx
      simpa using visits_lt hB hy)
  rw [show Nat.min (Bin.nprod A B i) B.cols = min (Bin.nprod A B i) B.cols from rfl]
  unfold Bin.nprod
  simp at h1 h2
  omega

theorem width_le_bin {A B : CSR V} (hB : B.WF) {i b : Nat} (hb : Bin.IsBin (Bin.nprod A B i) B.cols 8 b) (h0 : 0 < b) :
    width A B i ≤ 8 <<< (b - 1) := by
  have h1 := width_le (A := A) hB i
  have h2 := hb.fits h0
  rw [Nat.shiftLeft_eq]
  omega

theorem pow2_bin (b : Nat) : Pow2 (8 <<< b) := by
  refine ⟨3 + b, ?_⟩
  rw [Nat.shiftLeft_eq, Nat.pow_add]

/-- The entries of row `i` of the product in the order in which they are written. -/
structure IsRow (mul add : V → V → V) (sorted : Bool) (A B : CSR V) (i : Nat) (r : List (Nat × V)) : Prop where
  entries : ∀ c v, (c, v) ∈ r ↔ Spec.dot mul (fun a b => add b a) A B i c = some v
  nodup : (r.map (·.1)).Nodup
  len : r.length = width A B i
  sorted : sorted = true → r.Pairwise (fun a b => a.1 < b.1)

theorem rows_len {mul add : V → V → V} {A B : CSR V} {i : Nat} {r : List (Nat × V)}
    (h : ∀ c v, (c, v) ∈ r ↔ Spec.dot mul add A B i c = some v) (hn : (r.map (·.1)).Nodup) : r.length = width A B i := by
  have h1 : (r.map (·.1)).length ≤ (firsts ((visits A B i).map (·.1))).length := nodup_length_le hn (by
    intro c hc
    obtain ⟨⟨c', v⟩, hx, rfl⟩ := List.mem_map.1 hc
    rw [mem_firsts]
    have h2 := (h c' v).1 hx
    rw [dot_eq] at h2
    have hne : pick (prods mul A B i) c' ≠ [] := by intro h'; rw [h'] at h2; cases h2
    rw [Ne, pick_eq_nil] at hne
    apply Classical.byContradiction
    intro hno
    apply hne
    intro p hp hpc
    exact hno (by rw [← prods_cols mul]; exact List.mem_map.2 ⟨p, hp, hpc⟩))
  have h2 : (firsts ((visits A B i).map (·.1))).length ≤ (r.map (·.1)).length := nodup_length_le (firsts_nodup _) (by
    intro c hc
    rw [mem_firsts, ← prods_cols mul] at hc
    cases hs : Spec.dot mul add A B i c with
    | none =>
      rw [dot_eq, sum1_eq_none, pick_eq_nil] at hs
      obtain ⟨p, hp, rfl⟩ := List.mem_map.1 hc
      exact absurd rfl (hs p hp)
    | some v => exact List.mem_map.2 ⟨(c, v), (h c v).2 hs, rfl⟩)
  unfold width
  simp only [List.length_map] at h1 h2 ⊢
  omega

theorem symRow_ok {A B : CSR V} (hA : A.WF) (hB : B.WF) (hAB : A.cols = B.rows) {i : Nat} (hi : i < A.rows) {b : Nat → Nat}
    (hb : Bin.IsBin (Bin.nprod A B i) B.cols 8 (b i)) {cap s : Nat} {f : Nat → Entry V} {ks : List Nat}
    (hc : 0 < b i → 8 <<< (b i - 1) ≤ cap) (g : Nat → Nat) :
    ∃ s' f', symRow A B (tab A.rows b) i (tab A.rows g) (mkT cap s f ks) =
      .ok (tab A.rows (upd g i (width A B i)), mkT cap s' f' ks) := by
  unfold symRow
  rw [rd_tab hi, ok_bind]
  by_cases h0 : b i > 0
  · rw [if_pos h0]
    obtain ⟨f1, e1, h1⟩ := reset_spec (s := s) (f := f) (ks := ks) (hc h0)
    have hw : (firsts ((visits A B i).map (fun x : Nat × V × V => x.1))).length ≤ 8 <<< (b i - 1) := width_le_bin hB hb h0
    obtain ⟨f2, e2⟩ := sym_ok (pow2_bin _) (hc h0) h1 (ks := ks) _ hw
    rw [e1, ok_bind, nest_eq hA hB hAB hi _ _ (fun (s : Tbl V × Nat) x => insertSym s.1 s.2 x.1) (by
      intro j k s hj hk hk'; simp only [rd_of_lt hk, ok_bind])]
    rw [foldlM_map] at e2
    rw [e2]
    simp only [ok_bind, wr_tab hi]
    exact ⟨_, f2, rfl⟩
  · rw [if_neg h0, wr_tab hi]
    have hw : width A B i = 0 := by
      have := width_le (A := A) hB i
      have := hb.zero.1 (by omega)
      omega
    rw [hw]
    exact ⟨s, f, rfl⟩

theorem numRow_ok {sorted : Bool} {sortf : List (Nat × V) → List (Nat × V)} (hs : Spec.SortsBy (·.1) sortf)
    (mul add : V → V → V) (dflt : V) {A B : CSR V} (hA : A.WF) (hB : B.WF) (hAB : A.cols = B.rows) {i : Nat}
    (hi : i < A.rows) {b : Nat → Nat} (hb : Bin.IsBin (Bin.nprod A B i) B.cols 8 (b i)) :
    ∃ r, IsRow mul add sorted A B i r ∧ ∀ {cap s : Nat} {f : Nat → Entry V} {ks : List Nat},
      (0 < b i → 8 <<< (b i - 1) ≤ cap) → ∀ (rowptr : List Nat) (off : Nat), rd rowptr i = .ok off →
      rd rowptr (i + 1) = .ok (off + width A B i) → ∀ X : List (Nat × V), off + width A B i ≤ X.length →
      ∃ s' f', numRow sorted sortf mul add dflt A B rowptr (tab A.rows b) i (X.map (·.1), X.map (·.2)) (mkT cap s f ks) =
        .ok (((X.take off ++ r ++ X.drop (off + width A B i)).map (·.1),
          (X.take off ++ r ++ X.drop (off + width A B i)).map (·.2)), mkT cap s' f' ks) := by
  by_cases h0 : b i > 0
  · obtain ⟨K, hg, hK, hrun⟩ := num_ok add (pow2_bin (b i - 1)) (prods mul A B i) (by
      rw [prods_cols]; exact width_le_bin hB hb h0)
    have hent : ∀ c v, (c, v) ∈ content (8 <<< (b i - 1)) K ↔ Spec.dot mul (fun a b => add b a) A B i c = some v := by
      intro c v
      rw [mem_content, hK, dot_eq]
    have hnd := content_nodup hg
    have hlen := rows_len hent hnd
    cases sorted with
    | false =>
      refine ⟨content (8 <<< (b i - 1)) K, ⟨hent, hnd, hlen, by intro h; cases h⟩, ?_⟩
      intro cap s f ks hc rowptr off ho _ X hX
      obtain ⟨f1, e1, h1⟩ := reset_spec (s := s) (f := f) (ks := ks) (hc h0)
      obtain ⟨f2, e2, hh⟩ := hrun cap f1 ks (hc h0) h1
      obtain ⟨m, e3⟩ := gather_ok (s := 8 <<< (b i - 1)) (ks := ks) (hc h0) hh off X (by rw [hlen]; exact hX)
      unfold numRow
      rw [rd_tab hi, ok_bind, if_pos h0, ho, ok_bind, e1, ok_bind, nest_eq hA hB hAB hi _ _
        (fun (t : Tbl V) x => insertNum add t x.1 (mul x.2.1 x.2.2)) (by
        intro j k s hj hk hk'; simp only [rd_of_lt hj, rd_of_lt hk, rd_of_lt hk', ok_bind])]
      unfold prods at e2
      rw [foldlM_map] at e2
      rw [e2, ok_bind, if_neg (by simp), e3, hlen]
      exact ⟨_, f2, rfl⟩
    | true =>
      have hperm := hs.perm (content (8 <<< (b i - 1)) K)
      have hnd' : ((sortf (content (8 <<< (b i - 1)) K)).map (·.1)).Nodup := (hperm.map _).nodup_iff.2 hnd
      have hlen' : (sortf (content (8 <<< (b i - 1)) K)).length = width A B i := by rw [hperm.length_eq, hlen]
      refine ⟨sortf (content (8 <<< (b i - 1)) K), ⟨?_, hnd', hlen', ?_⟩, ?_⟩
      · intro c v; rw [hperm.mem_iff, hent]
      · intro _
        have h1 := hs.sorted (content (8 <<< (b i - 1)) K)
        have h2 : (sortf (content (8 <<< (b i - 1)) K)).Pairwise (fun a b => a.1 ≠ b.1) := List.pairwise_map.1 hnd'
        refine (h1.and h2).imp ?_
        rintro a b ⟨h3, h4⟩
        exact Nat.lt_of_le_of_ne h3 h4
      · intro cap s f ks hc rowptr off ho ho' X hX
        obtain ⟨f1, e1, h1⟩ := reset_spec (s := s) (f := f) (ks := ks) (hc h0)
        obtain ⟨f2, e2, hh⟩ := hrun cap f1 ks (hc h0) h1
        have e3 := collect_ok (s := 8 <<< (b i - 1)) (ks := ks) (hc h0) hh dflt
        have e4 := copyAt_eq (sortf (content (8 <<< (b i - 1)) K)) X off (by rw [hlen']; exact hX)
        unfold numRow
        rw [rd_tab hi, ok_bind, if_pos h0, ho, ok_bind, e1, ok_bind, nest_eq hA hB hAB hi _ _
          (fun (t : Tbl V) x => insertNum add t x.1 (mul x.2.1 x.2.2)) (by
          intro j k s hj hk hk'; simp only [rd_of_lt hj, rd_of_lt hk, rd_of_lt hk', ok_bind])]
        unfold prods at e2
        rw [foldlM_map] at e2
        rw [e2, ok_bind, if_pos rfl, ho', ok_bind, Nat.add_sub_cancel_left]
        rw [hlen] at e3
        rw [hlen'] at e4
        rw [e3]
        simp only [ok_bind]
        unfold writeOut
        rw [e4]
        exact ⟨_, f2, rfl⟩
  · have hn : Nat.min (Bin.nprod A B i) B.cols = 0 := hb.zero.1 (by omega)
    have hw : width A B i = 0 := by
      have := width_le (A := A) hB i
      omega
    refine ⟨[], ⟨?_, by simp, by rw [hw]; rfl, by simp⟩, ?_⟩
    · intro c v
      constructor
      · intro h; cases h
      · intro h
        exfalso
        have hc := (List.length_eq_zero_iff.1 hw)
        rw [dot_eq] at h
        have hne : pick (prods mul A B i) c ≠ [] := by intro h'; rw [h'] at h; cases h
        rw [Ne, pick_eq_nil] at hne
        apply hne
        intro p hp _
        have : p.1 ∈ firsts ((visits A B i).map (·.1)) := by
          rw [mem_firsts, ← prods_cols mul]; exact List.mem_map.2 ⟨p, hp, rfl⟩
        rw [hc] at this; cases this
    · intro cap s f ks hc rowptr off ho ho' X hX
      unfold numRow
      rw [rd_tab hi, ok_bind, if_neg h0, hw]
      refine ⟨s, f, ?_⟩
      simp

/-! ## The call -/

/-- Loops that are not split into blocks run over all their iterations. -/
def Adm (rows n : Nat) (sch : Sched) : Prop := Bin.Adm rows n sch.bin

theorem bin_unique {nz cols min b b' : Nat} (h : Bin.IsBin nz cols min b) (h' : Bin.IsBin nz cols min b') : b = b' := by
  by_cases h0 : Nat.min nz cols = 0
  · rw [h.zero.2 h0, h'.zero.2 h0]
  · have hb : b ≠ 0 := fun e => h0 (h.zero.1 e)
    have hb' : b' ≠ 0 := fun e => h0 (h'.zero.1 e)
    rcases Nat.lt_trichotomy b b' with hlt | he | hlt
    · have h1 := h.fits (by omega)
      have h2 := h'.least (b - 1) (by omega)
      omega
    · exact he
    · have h1 := h'.fits (by omega)
      have h2 := h.least (b' - 1) (by omega)
      omega

theorem hashSpGEMM_ok {sorted : Bool} {sortf : List (Nat × V) → List (Nat × V)} (hs : Spec.SortsBy (·.1) sortf)
    (mul add : V → V → V) (dflt : V) {A B : CSR V} (hA : A.WF) (hB : B.WF) (hAB : A.cols = B.rows) (hpos : 0 < A.rows)
    (hsmall : A.rows + 1 < 2 ^ 17) {n : Nat} (hn : 0 < n) (nd : Nat) :
    ∃ C, Spec.IsPlainProduct mul (fun a b => add b a) sorted A B C ∧ ∀ sch, Adm A.rows n sch →
      (hashSpGEMM sorted sortf mul add A B dflt n nd sch = .ok none ∧
        ∃ t < n, sch.sym.count t ≤ A.rows + 1 ∨ sch.num.count t ≤ A.rows + 1) ∨
      hashSpGEMM sorted sortf mul add A B dflt n nd sch = .ok (some C) := by
  -- the bins are the same in all schedules
  have hbin : ∀ i, ∃ b, Bin.IsBin (Bin.nprod A B i) B.cols 8 b := fun i =>
    let ⟨b, _, h⟩ := Bin.binIdOf_ok (Bin.nprod A B i) B.cols (min := 8) (by omega)
    ⟨b, h⟩
  obtain ⟨b, hb⟩ := Classical.axiomOfChoice hbin
  have hex : ∀ i, ∃ r, i < A.rows → IsRow mul add sorted A B i r ∧
      ∀ {cap s : Nat} {f : Nat → Entry V} {ks : List Nat},
      (0 < b i → 8 <<< (b i - 1) ≤ cap) → ∀ (rowptr : List Nat) (off : Nat), rd rowptr i = .ok off →
      rd rowptr (i + 1) = .ok (off + width A B i) → ∀ X : List (Nat × V), off + width A B i ≤ X.length →
      ∃ s' f', numRow sorted sortf mul add dflt A B rowptr (tab A.rows b) i (X.map (·.1), X.map (·.2)) (mkT cap s f ks) =
        .ok (((X.take off ++ r ++ X.drop (off + width A B i)).map (·.1),
          (X.take off ++ r ++ X.drop (off + width A B i)).map (·.2)), mkT cap s' f' ks) := by
    intro i
    by_cases hi : i < A.rows
    · obtain ⟨r, h⟩ := numRow_ok hs mul add dflt hA hB hAB hi (hb i) (sorted := sorted)
      exact ⟨r, fun _ => h⟩
    · exact ⟨[], fun h => absurd h hi⟩
  obtain ⟨exp, hexp⟩ := Classical.axiomOfChoice hex
  have hlen : ∀ i < A.rows, lens exp i = width A B i := fun i hi => (hexp i hi).1.len
  refine ⟨ofRows A.rows B.cols true exp, ⟨?_, rfl, rfl, ?_, ?_, ?_⟩, ?_⟩
  · refine ofRows_wf _ _ _ _ rfl ?_
    rintro i hi ⟨c, v⟩ hx
    have h1 := ((hexp i hi).1.entries c v).1 hx
    rw [dot_eq] at h1
    have hne : pick (prods mul A B i) c ≠ [] := by intro h'; rw [h'] at h1; cases h1
    rw [Ne, pick_eq_nil] at hne
    apply Classical.byContradiction
    intro hno
    apply hne
    intro p hp hpc
    exact hno (by rw [← hpc]; exact prods_lt (x := p) hB hp)
  · intro i hi j v
    rw [ofRows_row _ _ _ _ hi]
    exact (hexp i hi).1.entries j v
  · intro i hi
    rw [ofRows_rowCols A.rows _ _ _ hi]
    exact (hexp i hi).1.nodup
  · intro h i hi
    rw [ofRows_rowCols A.rows _ _ _ hi]
    exact List.pairwise_map.2 ((hexp i hi).1.sorted h)
  · intro sch hadm
    obtain ⟨p, e1, hp⟩ := Bin.setMaxBin_ok hA hB hAB hpos hsmall (cols := B.cols) (min := 8) (by omega) hn nd hadm
    obtain ⟨pn, po, pb⟩ := p
    obtain ⟨h1, h2, b', h3, h4⟩ := hp
    simp only at h1 h2 h3
    subst h1 h2
    have h3' : pb = tab A.rows b := by
      rw [h3]; exact tab_ext (fun i hi => bin_unique (h4 i hi) (hb i))
    subst h3'
    have ho := Bin.bounds (Bin.nprod A B) (psum (Bin.nprod A B) A.rows) A.rows hn
    generalize Bin.bound (Bin.nprod A B) (psum (Bin.nprod A B) A.rows) A.rows n = o at ho e1
    have hoff : ∀ t ≤ n, (tab (n + 1) o)[t]? = some (o t) := fun t ht => tab_getElem? (by omega)
    have hloc : ∀ t, ∃ s, t < n → Bin.localSize (tab A.rows (Bin.nprod A B)) B.cols 8 (o t) (o (t + 1)) = .ok s ∧
        ∀ i, o t ≤ i → i < o (t + 1) → 0 < b i → 8 <<< (b i - 1) ≤ s := by
      intro t
      by_cases ht : t < n
      · obtain ⟨s, k1, k2⟩ := Bin.localSize_ok (f := Bin.nprod A B) (cols := B.cols) (a := 3) (ho.mono t ht)
          (ho.le (t := t + 1) (by omega))
        refine ⟨s, fun _ => ⟨k1, ?_⟩⟩
        intro i hi1 hi2 h0
        have := k2 i hi1 hi2 (b i) (hb i) h0
        rw [Nat.shiftLeft_eq]
        exact this
      · exact ⟨0, fun h => absurd h ht⟩
    obtain ⟨sz, hsz⟩ := Classical.axiomOfChoice hloc
    let I : Nat → Tbl V → Prop := fun t a => ∃ cap s f ks, a = mkT cap s f ks ∧
      ∀ i, o t ≤ i → i < o (t + 1) → 0 < b i → 8 <<< (b i - 1) ≤ cap
    have htab : ∀ t < n, rd ((List.range n).map fun t => newTable (sz t) dflt) t = .ok (newTable (sz t) dflt) :=
      fun t ht => rd_tab ht
    have hI0 : ∀ t < n, I t (newTable (sz t) dflt) := fun t ht =>
      ⟨sz t, 0, fun _ => ⟨some 0, dflt⟩, [], by unfold newTable mkT; rw [Conv.replicate_eq_tab], (hsz t ht).2⟩
    have hrow : ∀ t, t < n → ∀ i, i < o (t + 1) → i < A.rows := by
      intro t ht i hi
      have := ho.le (t := t + 1) (by omega)
      omega
    unfold hashSpGEMM
    rw [e1]
    simp only [ok_bind]
    rw [mapM_ok (g := fun t => newTable (sz t) dflt) (by
      intro t ht
      have ht : t < n := by simpa using ht
      rw [rd_tab (by omega), ok_bind, rd_tab (by omega), ok_bind, (hsz t ht).1]
      rfl), ok_bind]
    rcases count_ok ho hoff (cnt := lens exp) I (init := fun t _ _ => rd ((List.range n).map fun t => newTable (sz t) dflt) t)
      (row := symRow A B (tab A.rows b)) (fun t ht => ⟨_, htab t ht, hI0 t ht⟩) (by
        rintro t ht i a hi1 hi2 ⟨cap, s, f, ks, rfl, hc⟩ g
        have hi := hrow t ht i hi2
        obtain ⟨s', f', e⟩ := symRow_ok hA hB hAB hi (hb i) (s := s) (f := f) (ks := ks) (hc i hi1 hi2) g
        exact ⟨_, by rw [e, hlen i hi], cap, s', f', ks, rfl, hc⟩)
      (Bin.nprod A B) sch.sym with ⟨e2, t, ht, hc⟩ | ⟨as, e2, has⟩
    · left
      rw [e2]
      exact ⟨rfl, t, ht, Or.inl hc⟩
    · rw [e2]
      simp only [ok_bind]
      rw [scan_small hsmall]
      simp only [ok_bind]
      rw [rd_tab (by omega), ok_bind]
      rcases fill_ok ho hoff (exp := exp) I (init := fun t _ _ => rd as t)
        (row := numRow sorted sortf mul add dflt A B (tab (A.rows + 1) (psum (lens exp))) (tab A.rows b)) (by
          intro t ht
          obtain ⟨a, ha, hIa⟩ := has t ht
          exact ⟨a, rd_of_getElem? ha, hIa⟩) (by
          rintro t ht i a hi1 hi2 ⟨cap, s, f, ks, rfl, hc⟩ X hX
          have hi := hrow t ht i hi2
          have hX' : psum (lens exp) i + width A B i ≤ X.length := by rw [← hlen i hi]; exact hX
          obtain ⟨s', f', e⟩ := (hexp i hi).2 (s := s) (f := f) (ks := ks) (hc i hi1 hi2) (tab (A.rows + 1) (psum (lens exp)))
            (psum (lens exp) i) (rd_tab (by omega)) (by rw [rd_tab (by omega), ← hlen i hi]; rfl) X hX'
          refine ⟨_, ?_, cap, s', f', ks, rfl, hc⟩
          rw [e, ← hlen i hi]
          rfl) dflt sch.num with ⟨e3, t, ht, hc⟩ | ⟨as', e3⟩
      · left
        rw [e3]
        exact ⟨rfl, t, ht, Or.inr hc⟩
      · right
        rw [e3]
        rfl

end Verif.Model.HashMult
