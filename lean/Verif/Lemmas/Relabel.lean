import Verif.Lemmas.Triangles

/-! # Relabelling by degree -/

namespace Verif.Model.Graph

open Verif.Spec

variable {V : Type} {n : Nat}

theorem count_fold (ts : List (Nat × Nat × V)) (hts : ∀ t ∈ ts, t.1 < n) (f : Nat → Nat) :
    ts.foldlM (init := tab n fun i => (f i, i)) (fun c t => do
      let x ← rd c t.1
      wr c t.1 (x.1 + 1, x.2)) = .ok (tab n fun i => (f i + Conv.cnt ts i, i)) := by
  induction ts generalizing f with
  | nil => rfl
  | cons t ts ih =>
    have ht : t.1 < n := hts t (by simp)
    rw [List.foldlM_cons, rd_tab ht, ok_bind, wr_tab ht, ok_bind]
    have e : tab n (upd (fun i => (f i, i)) t.1 (f t.1 + 1, t.1)) = tab n fun i => (upd f t.1 (f t.1 + 1) i, i) := by
      apply tab_ext
      intro i _
      by_cases hi : i = t.1
      · subst hi; simp [upd]
      · simp [upd, hi]
    rw [e, ih (fun t ht => hts t (by simp [ht]))]
    congr 1
    apply tab_ext
    intro i _
    have : Conv.cnt (t :: ts) i = (if t.1 = i then 1 else 0) + Conv.cnt ts i := by
      unfold Conv.cnt Conv.bucket
      rw [List.filterMap_cons]
      by_cases h : t.1 = i
      · simp [h]; omega
      · simp [h]
    rw [this]
    by_cases hi : i = t.1
    · subst hi; simp [upd]; omega
    · have : ¬ t.1 = i := fun h => hi h.symm
      simp [upd, hi, this]

theorem mapping_loop {cnts : List (Nat × Nat)} (hp : (cnts.map Prod.snd).Perm (List.range n)) :
    forRange 0 n (List.replicate n none) (fun i m => do
      let x ← rd cnts i
      wr m x.2 (some i)) = .ok (tab n fun v => some ((cnts.map Prod.snd).idxOf v)) := by
  have hlen : cnts.length = n := by simpa using hp.length_eq
  have hnd : (cnts.map Prod.snd).Nodup := hp.nodup_iff.2 List.nodup_range
  rw [Conv.replicate_eq_tab]
  obtain ⟨s', e, h⟩ := forRange_inv (body := fun i (m : List (Option Nat)) => do
      let x ← rd cnts i
      wr m x.2 (some i))
    (P := fun k m => m = tab n fun v => if (cnts.map Prod.snd).idxOf v < k then some ((cnts.map Prod.snd).idxOf v) else none)
    0 n (Nat.zero_le n) (tab n fun _ => none) (by simp) (by
      intro k s _ hk hP
      subst hP
      have hk' : k < cnts.length := by omega
      obtain ⟨x, hx⟩ : ∃ x, cnts[k] = x := ⟨_, rfl⟩
      have hx2 : x.2 < n := by
        have : x.2 ∈ cnts.map Prod.snd := by rw [← hx]; exact List.mem_map_of_mem (List.getElem_mem hk')
        exact List.mem_range.1 (hp.mem_iff.1 this)
      have hidx : (cnts.map Prod.snd).idxOf x.2 = k := by
        have : (cnts.map Prod.snd)[k]'(by simpa using hk') = x.2 := by simp [hx]
        rw [← this, hnd.idxOf_getElem]
      refine ⟨_, by rw [rd_of_lt hk', ok_bind, hx, wr_tab hx2], ?_⟩
      apply tab_ext
      intro v hv
      by_cases hvx : v = x.2
      · subst hvx; simp [upd, hidx]
      · have : (cnts.map Prod.snd).idxOf v ≠ k := by
          intro h
          have hm : v ∈ cnts.map Prod.snd := hp.mem_iff.2 (List.mem_range.2 hv)
          have h1 := List.getElem_idxOf (List.idxOf_lt_length_iff.2 hm)
          have h2 := List.getElem_idxOf (List.idxOf_lt_length_iff.2 (show x.2 ∈ cnts.map Prod.snd by
            rw [← hx]; exact List.mem_map_of_mem (List.getElem_mem hk')))
          apply hvx
          rw [← h1, ← h2]
          congr 1
          rw [h, hidx]
        rw [upd_ne _ _ hvx]
        by_cases h1 : (cnts.map Prod.snd).idxOf v < k
        · rw [if_pos h1, if_pos (by omega)]
        · rw [if_neg h1, if_neg (by omega)])
  rw [e, h]
  congr 1
  apply tab_ext
  intro v hv
  have hm : v ∈ cnts.map Prod.snd := hp.mem_iff.2 (List.mem_range.2 hv)
  have := List.idxOf_lt_length_iff.2 hm
  rw [if_pos (by simpa [hlen] using this)]

theorem mapM_relabel (f : Nat → Nat) (ts : List (Nat × Nat × V)) (hts : ∀ t ∈ ts, t.1 < n ∧ t.2.1 < n) :
    ts.mapM (fun t => do
      let r ← Scan.rdu (tab n fun v => some (f v)) t.1
      let c ← Scan.rdu (tab n fun v => some (f v)) t.2.1
      .ok (r, c, t.2.2)) = .ok (ts.map fun t => (f t.1, f t.2.1, t.2.2)) := by
  refine mapM_ok (fun t ht => ?_)
  have := hts t ht
  simp only [Scan.rdu, rd_tab this.1, rd_tab this.2, ok_bind, use]

theorem mem_triples {A : CSR V} {t : Nat × Nat × V} :
    t ∈ triples A ↔ t.1 < A.rows ∧ (t.2.1, t.2.2) ∈ A.row t.1 := by
  unfold triples
  simp only [List.mem_flatMap, List.mem_range, List.mem_map]
  constructor
  · rintro ⟨i, hi, x, hx, rfl⟩
    exact ⟨hi, hx⟩
  · rintro ⟨h1, h2⟩
    exact ⟨t.1, h1, _, h2, rfl⟩

theorem bucket_triples (A : CSR V) {i : Nat} (hi : i < A.rows) : Conv.bucket (triples A) i = A.row i := by
  have : ∀ m, Conv.bucket ((List.range m).flatMap fun i => (A.row i).map fun x => (i, x.1, x.2)) i =
      if i < m then A.row i else [] := by
    intro m
    induction m with
    | zero => simp [Conv.bucket]
    | succ m ih =>
      rw [List.range_succ, List.flatMap_append, Conv.bucket_append, ih, List.flatMap_singleton]
      have h1 : Conv.bucket ((A.row m).map fun x => (m, x.1, x.2)) i = if m = i then A.row m else [] := by
        unfold Conv.bucket
        rw [List.filterMap_map]
        by_cases h : m = i
        · rw [if_pos h, ← List.filterMap_some (l := A.row m), List.filterMap_filterMap]
          refine List.filterMap_congr fun x _ => ?_
          simp [h]
        · rw [if_neg h, List.filterMap_eq_nil_iff]
          intro x _
          simp [h]
      rw [h1]
      by_cases h2 : i < m
      · rw [if_pos h2, if_neg (by omega), if_pos (by omega), List.append_nil]
      · by_cases h3 : m = i
        · subst h3; simp
        · rw [if_neg h2, if_neg h3, if_neg (by omega), List.append_nil]
  exact (this A.rows).trans (if_pos hi)

theorem bucket_relabel {f : Nat → Nat} (hf : ∀ u < n, ∀ v < n, f u = f v → u = v) (ts : List (Nat × Nat × V))
    (hts : ∀ t ∈ ts, t.1 < n) {u : Nat} (hu : u < n) :
    Conv.bucket (ts.map fun t => (f t.1, f t.2.1, t.2.2)) (f u) =
      (Conv.bucket ts u).map fun x => (f x.1, x.2) := by
  unfold Conv.bucket
  rw [List.filterMap_map, List.map_filterMap]
  refine List.filterMap_congr fun t ht => ?_
  by_cases h : t.1 = u
  · simp [h]
  · have : ¬ f t.1 = f u := fun he => h (hf _ (hts t ht) _ hu he)
    simp [h, this]

theorem degree_eq {G : SimpleGraph (Fin n)} {A : CSR V} (h : Represents G A) (u : Fin n) :
    degree G u = (A.row u).length := by
  have := length_filter_eq (n := n) (l := A.rowCols u) (nodup_of_sorted h.sorted u (h.rows ▸ u.2))
    (fun x hx => h.cols ▸ CSR.rowCols_lt h.wf hx) fun _ => true
  rw [← List.length_map (f := Prod.fst), CSR.row_map_fst h.wf]
  unfold degree
  simp only [List.filter_true, and_true] at this
  rw [this]
  congr 1
  ext v
  exact (h.adj u v).symm

theorem degree_relabelled {G G' : SimpleGraph (Fin n)} {σ : Equiv.Perm (Fin n)} (h : Relabelled G G' σ) (u : Fin n) :
    degree G' (σ u) = degree G u := by
  unfold degree
  refine (Set.ncard_congr (fun v _ => σ v) ?_ ?_ ?_).symm
  · intro v hv
    exact (h u v).2 hv
  · intro v w _ _ he
    exact σ.injective he
  · intro v hv
    exact ⟨σ.symm v, (h _ _).1 (by simpa using hv), by simp⟩

theorem sortByDegree_ok {G : SimpleGraph (Fin n)} {A : CSR V} (h : Represents G A)
    {sortf : List (Nat × Nat) → List (Nat × Nat)} (hs : SortsGreater sortf) :
    ∃ (A' : CSR V) (G' : SimpleGraph (Fin n)) (σ : Equiv.Perm (Fin n)), sortByDegree sortf A = .ok A' ∧
      Relabelled G G' σ ∧ Represents G' A' ∧ (∀ i j, i ≤ j → degree G' j ≤ degree G' i) ∧
      (∀ (u v : Fin n) (x : V), (v.val, x) ∈ A.row u ↔ ((σ v).val, x) ∈ A'.row (σ u)) ∧ A'.nnz = A.nnz ∧
      ∀ u v, σ u < σ v ↔ degree G v < degree G u ∨ degree G v = degree G u ∧ v < u := by
  have hr : A.rows = n := h.rows
  have hc : A.cols = n := h.cols
  have hts : ∀ t ∈ triples A, t.1 < n ∧ t.2.1 < n := fun t ht => by
    rw [mem_triples] at ht
    exact ⟨hr ▸ ht.1, hc ▸ CSR.row_lt h.wf ht.2⟩
  obtain ⟨cnts, hcn⟩ : ∃ c, sortf (tab n fun i => ((A.row i).length, i)) = c := ⟨_, rfl⟩
  have hperm : cnts.Perm (tab n fun i => ((A.row i).length, i)) := hcn ▸ hs.perm _
  have hsort := hcn ▸ hs.sorted (tab n fun i => ((A.row i).length, i))
  have hids : (cnts.map Prod.snd).Perm (List.range n) := by
    refine (hperm.map _).trans ?_
    have : (tab n fun i => ((A.row i).length, i)).map Prod.snd = List.range n := by
      unfold tab
      rw [List.map_map]
      exact List.map_id _
    rw [this]
  obtain ⟨f, hfd⟩ : ∃ f, (fun v => (cnts.map Prod.snd).idxOf v) = f := ⟨_, rfl⟩
  have hlen : (cnts.map Prod.snd).length = n := by simpa using hids.length_eq
  have hflt : ∀ v < n, f v < n := fun v hv => by
    subst hfd
    have := List.idxOf_lt_length_iff.2 (hids.mem_iff.2 (List.mem_range.2 hv))
    rwa [hlen] at this
  have hget : ∀ v < n, (cnts.map Prod.snd)[f v]? = some v := fun v hv => by
    subst hfd
    have hm := List.idxOf_lt_length_iff.2 (hids.mem_iff.2 (List.mem_range.2 hv))
    rw [List.getElem?_eq_getElem hm, List.getElem_idxOf hm]
  have hinj : ∀ u < n, ∀ v < n, f u = f v → u = v := fun u hu v hv he => by
    have h1 := hget u hu
    rw [he, hget v hv] at h1
    exact (Option.some.inj h1).symm
  let σ0 : Fin n → Fin n := fun v => ⟨f v, hflt v v.2⟩
  have hσ0 : Function.Injective σ0 := fun u v he => Fin.ext (hinj u u.2 v v.2 (congrArg Fin.val he))
  let σ : Equiv.Perm (Fin n) := Equiv.ofBijective σ0 (Finite.injective_iff_bijective.1 hσ0)
  have hσ : ∀ v, (σ v).val = f v := fun v => rfl
  have hrel : Relabelled G (G.comap σ.symm) σ := fun u v => by simp
  -- the result
  let ts' := (triples A).map fun t => (f t.1, f t.2.1, t.2.2)
  have hrun : sortByDegree sortf A = .ok (build A.rows A.cols ts') := by
    unfold sortByDegree
    simp only []
    have e0 : ((List.range A.rows).map fun i => (0, i)) = tab n fun i => (0, i) := by rw [hr]; rfl
    rw [e0, count_fold (triples A) (fun t ht => (hts t ht).1) (fun _ => 0), ok_bind]
    have e1 : (tab n fun i => (0 + Conv.cnt (triples A) i, i)) = tab n fun i => ((A.row i).length, i) := by
      apply tab_ext
      intro i hi
      rw [Nat.zero_add, Conv.cnt, bucket_triples A (hr ▸ hi)]
    rw [e1, hcn, hr, mapping_loop hids, ok_bind]
    have e2 := mapM_relabel f (triples A) hts
    subst hfd
    rw [e2, ok_bind]
  have hrow : ∀ u < n, (build A.rows A.cols ts').row (f u) =
      ((A.row u).map fun x => (f x.1, x.2)).mergeSort fun a b => decide (a.1 ≤ b.1) := fun u hu => by
    unfold build
    rw [ofRows_row _ _ _ _ (hr ▸ hflt u hu), bucket_relabel hinj _ (fun t ht => (hts t ht).1) hu,
      bucket_triples A (hr ▸ hu)]
  have hmem : ∀ u < n, ∀ x, x ∈ (build A.rows A.cols ts').row (f u) ↔ ∃ y ∈ A.row u, (f y.1, y.2) = x := fun u hu x => by
    rw [hrow u hu, List.mem_mergeSort, List.mem_map]
  have hwf : (build A.rows A.cols ts').WF := by
    refine ofRows_wf _ _ _ _ rfl fun i _ x hx => ?_
    rw [List.mem_mergeSort, Conv.mem_bucket, List.mem_map] at hx
    obtain ⟨t, ht, he⟩ := hx
    rw [hc, ← congrArg (fun y => y.2.1) he]
    exact hflt _ (hts t ht).2
  have hsurj : ∀ i : Fin n, ∃ u : Fin n, σ u = i := σ.surjective
  have hR : Represents (G.comap σ.symm) (build A.rows A.cols ts') := by
    refine ⟨hwf, hr, hc, ?_, ?_⟩
    · intro i hi
      obtain ⟨u, hu⟩ := hsurj ⟨i, hr ▸ hi⟩
      have hu' : f u = i := congrArg Fin.val hu
      rw [← CSR.row_map_fst hwf, ← hu', hrow u u.2]
      have hle : ((((A.row u).map fun x => (f x.1, x.2)).mergeSort fun a b => decide (a.1 ≤ b.1)).map
          Prod.fst).Pairwise (· ≤ ·) := by
        rw [List.pairwise_map]
        refine (List.pairwise_mergeSort ?_ ?_ _).imp fun h => of_decide_eq_true h
        · intro a b c h1 h2
          simp only [decide_eq_true_eq] at *
          omega
        · intro a b
          simp only [Bool.or_eq_true, decide_eq_true_eq]
          omega
      have hnd : ((((A.row u).map fun x => (f x.1, x.2)).mergeSort fun a b => decide (a.1 ≤ b.1)).map Prod.fst).Nodup := by
        rw [((List.mergeSort_perm _ _).map _).nodup_iff, List.map_map]
        have : Prod.fst ∘ (fun x : Nat × V => (f x.1, x.2)) = f ∘ Prod.fst := rfl
        rw [this, ← List.map_map, CSR.row_map_fst h.wf]
        refine List.Nodup.map_on ?_ (nodup_of_sorted h.sorted u (hr ▸ u.2))
        intro x hx y hy he
        exact hinj x (hc ▸ CSR.rowCols_lt h.wf hx) y (hc ▸ CSR.rowCols_lt h.wf hy) he
      exact (hle.and hnd).imp fun h => lt_of_le_of_ne h.1 h.2
    · intro i j
      obtain ⟨u, rfl⟩ := hsurj i
      obtain ⟨v, rfl⟩ := hsurj j
      rw [SimpleGraph.comap_adj, Equiv.symm_apply_apply, Equiv.symm_apply_apply, ← h.adj, ← CSR.row_map_fst hwf,
        ← CSR.row_map_fst h.wf, List.mem_map, List.mem_map, hσ, hσ]
      constructor
      · rintro ⟨x, hx, he⟩
        obtain ⟨y, hy, rfl⟩ := (hmem u u.2 x).1 hx
        exact ⟨y, hy, hinj _ (hc ▸ CSR.row_lt h.wf hy) _ v.2 he⟩
      · rintro ⟨y, hy, he⟩
        exact ⟨_, (hmem u u.2 _).2 ⟨y, hy, rfl⟩, congrArg f he⟩
  refine ⟨_, _, σ, hrun, hrel, hR, ?_, ?_, ?_, ?_⟩
  · intro i j hij
    rcases eq_or_lt_of_le hij with rfl | hij
    · exact Nat.le_refl _
    have key : ∀ i : Fin n, ∃ x, cnts[i.val]? = some x ∧ degree (G.comap σ.symm) i = x.1 := by
      intro i
      obtain ⟨u, rfl⟩ := hsurj i
      have h1 := hget u u.2
      rw [List.getElem?_map, Option.map_eq_some_iff] at h1
      obtain ⟨x, h1, h2⟩ := h1
      refine ⟨x, h1, ?_⟩
      rw [degree_relabelled hrel, degree_eq h]
      have hx := hperm.mem_iff.1 (List.mem_of_getElem? h1)
      simp only [tab, List.mem_map] at hx
      obtain ⟨w, -, rfl⟩ := hx
      rw [← h2]
    obtain ⟨x, hx, ex⟩ := key i
    obtain ⟨y, hy, ey⟩ := key j
    rw [ex, ey]
    rw [List.pairwise_iff_getElem] at hsort
    obtain ⟨hi1, rfl⟩ := List.getElem?_eq_some_iff.1 hx
    obtain ⟨hj1, rfl⟩ := List.getElem?_eq_some_iff.1 hy
    have := hsort i j hi1 hj1 hij
    omega
  · intro u v x
    rw [hσ, hσ, hmem u u.2]
    constructor
    · intro hx
      exact ⟨_, hx, rfl⟩
    · rintro ⟨y, hy, he⟩
      have h1 : y.1 = v := hinj _ (hc ▸ CSR.row_lt h.wf hy) _ v.2 (congrArg Prod.fst he)
      have h2 : y.2 = x := congrArg Prod.snd he
      rw [← h1, ← h2]
      exact hy
  · have e1 : A.nnz = psum (Conv.cnt (triples A)) n := by
      rw [nnz_eq_psum h.wf, hr]
      refine psum_congr fun i hi => ?_
      rw [Conv.cnt, bucket_triples A (hr ▸ hi), ← CSR.row_map_fst h.wf, List.length_map]
    have e2 : (build A.rows A.cols ts').nnz = psum (Conv.cnt ts') n := by
      show psum _ A.rows = _
      rw [hr]
      refine psum_congr fun i hi => ?_
      rw [lens, List.length_mergeSort]
      rfl
    rw [e1, e2, Conv.psum_cnt _ fun x hx => (hts x hx).1, Conv.psum_cnt, List.length_map]
    intro x hx
    obtain ⟨t, ht, rfl⟩ := List.mem_map.1 hx
    exact hflt _ (hts t ht).1
  · have key : ∀ u : Fin n, cnts[(σ u).val]? = some (degree G u, u.val) := by
      intro u
      have h1 := hget u u.2
      rw [List.getElem?_map, Option.map_eq_some_iff] at h1
      obtain ⟨x, h1, h2⟩ := h1
      rw [hσ, h1]
      have hx := hperm.mem_iff.1 (List.mem_of_getElem? h1)
      simp only [tab, List.mem_map] at hx
      obtain ⟨w, -, rfl⟩ := hx
      obtain rfl : w = u.val := h2
      rw [degree_eq h]
    have one : ∀ u v : Fin n, σ u < σ v → degree G v < degree G u ∨ degree G v = degree G u ∧ v < u := by
      intro u v huv
      obtain ⟨hi1, hu⟩ := List.getElem?_eq_some_iff.1 (key u)
      obtain ⟨hj1, hv⟩ := List.getElem?_eq_some_iff.1 (key v)
      rw [List.pairwise_iff_getElem] at hsort
      have h1 := hsort _ _ hi1 hj1 huv
      rw [hu, hv] at h1
      have hne : v ≠ u := fun h => by subst h; exact lt_irrefl _ huv
      have hne' : v.val ≠ u.val := fun h => hne (Fin.ext h)
      rw [Fin.lt_def]
      dsimp only at h1
      omega
    intro u v
    refine ⟨one u v, fun huv => ?_⟩
    rcases lt_trichotomy (σ u) (σ v) with h1 | h1 | h1
    · exact h1
    · have := σ.injective h1
      subst this
      rw [Fin.lt_def] at huv
      omega
    · have := one v u h1
      rw [Fin.lt_def] at huv this
      omega

end Verif.Model.Graph
