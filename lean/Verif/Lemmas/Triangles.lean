import Verif.Lemmas.Graph

/-! # Triangles of a graph, counted with the lower triangle of its adjacency matrix -/

namespace Verif.Model.Graph

open Verif.Spec

variable {n : Nat}

theorem sum_range_eq (f : Nat → Nat) : ∀ n, ((List.range n).map f).sum = ∑ i : Fin n, f i
  | 0 => by simp
  | n + 1 => by
    rw [List.range_succ, List.map_append, List.sum_append, sum_range_eq f n, Fin.sum_univ_castSucc]
    simp

theorem sum_list_eq {l : List Nat} (hl : l.Nodup) (hlt : ∀ x ∈ l, x < n) (g : Nat → Nat) :
    (l.map g).sum = ∑ j : Fin n, if j.val ∈ l then g j else 0 := by
  induction l with
  | nil => simp
  | cons x l ih =>
    rw [List.nodup_cons] at hl
    have hx : x < n := hlt x (by simp)
    rw [List.map_cons, List.sum_cons, ih hl.2 fun y hy => hlt y (by simp [hy])]
    have : ∀ j : Fin n, (if j.val ∈ x :: l then g j else 0) =
        (if j = ⟨x, hx⟩ then g x else 0) + if j.val ∈ l then g j else 0 := by
      intro j
      by_cases hj : j = ⟨x, hx⟩
      · subst hj
        simp [hl.1]
      · have : j.val ≠ x := fun h => hj (Fin.ext h)
        simp [hj, this]
    rw [Finset.sum_congr rfl fun j _ => this j, Finset.sum_add_distrib]
    simp

/-- Ordered triples `k < j < i` of pairwise adjacent vertices correspond to triangles. -/
theorem triangles_eq (G : SimpleGraph (Fin n)) : triangles G =
    {t : Fin n × Fin n × Fin n | t.2.1 < t.2.2 ∧ t.2.2 < t.1 ∧ G.Adj t.1 t.2.1 ∧ G.Adj t.1 t.2.2 ∧ G.Adj t.2.2 t.2.1}.ncard := by
  unfold triangles
  refine (Set.ncard_congr (fun t _ => ({t.1, t.2.1, t.2.2} : Finset (Fin n))) ?_ ?_ ?_).symm
  · rintro ⟨i, j, k⟩ ⟨h1, h2, h3, h4, h5⟩
    show G.IsNClique 3 _
    rw [SimpleGraph.is3Clique_triple_iff]
    exact ⟨h3, h4, h5.symm⟩
  · rintro ⟨i, j, k⟩ ⟨i', j', k'⟩ ⟨h1, h2, -⟩ ⟨h1', h2', -⟩ he
    simp only at h1 h2 h1' h2' he
    have hi := fun x => Finset.ext_iff.1 he x
    simp only [Finset.mem_insert, Finset.mem_singleton] at hi
    have a1 := (hi i).1 (by simp)
    have a2 := (hi j).1 (by simp)
    have a3 := (hi k).1 (by simp)
    have b1 := (hi i').2 (by simp)
    have b2 := (hi j').2 (by simp)
    have b3 := (hi k').2 (by simp)
    simp only [Prod.mk.injEq, Fin.ext_iff, Fin.lt_def] at *
    omega
  · intro s hs
    obtain ⟨a, b, c, hab, hac, hbc, rfl⟩ := SimpleGraph.is3Clique_iff.1 hs
    have n1 := hab.ne
    have n2 := hac.ne
    have n3 := hbc.ne
    have key : ∀ i j k : Fin n, j < k → k < i → G.Adj i j → G.Adj i k → G.Adj k j → ({i, j, k} : Finset (Fin n)) = {a, b, c} →
        ∃ t, ∃ _ : t ∈ {t : Fin n × Fin n × Fin n | t.2.1 < t.2.2 ∧ t.2.2 < t.1 ∧ G.Adj t.1 t.2.1 ∧ G.Adj t.1 t.2.2 ∧
          G.Adj t.2.2 t.2.1}, ({t.1, t.2.1, t.2.2} : Finset (Fin n)) = {a, b, c} :=
      fun i j k h1 h2 h3 h4 h5 h6 => ⟨(i, j, k), ⟨h1, h2, h3, h4, h5⟩, h6⟩
    rcases lt_or_gt_of_ne n1 with h1 | h1 <;> rcases lt_or_gt_of_ne n2 with h2 | h2 <;>
      rcases lt_or_gt_of_ne n3 with h3 | h3
    · exact key c a b h1 h3 hac.symm hbc.symm hab.symm (by ext x; simp; try tauto)
    · exact key b a c h2 h3 hab.symm hbc hac.symm (by ext x; simp; try tauto)
    · exact absurd (h1.trans h3) (not_lt.2 h2.le)
    · exact key b c a h2 h1 hbc hab.symm hac (by ext x; simp; try tauto)
    · exact key c b a h1 h2 hbc.symm hac.symm hab (by ext x; simp; try tauto)
    · exact absurd (h2.trans h3) (not_lt.2 h1.le)
    · exact key a b c h3 h2 hab hac hbc.symm (by ext x; simp; try tauto)
    · exact key a c b h3 h1 hac hab hbc (by ext x; simp; try tauto)

theorem ncard_triples {p : Fin n → Fin n → Fin n → Prop} :
    {t : Fin n × Fin n × Fin n | p t.1 t.2.1 t.2.2}.ncard = ∑ i, ∑ j, {k | p i j k}.ncard := by
  classical
  have h1 : {t : Fin n × Fin n × Fin n | p t.1 t.2.1 t.2.2} =
      ↑(Finset.univ.filter fun t : Fin n × Fin n × Fin n => p t.1 t.2.1 t.2.2) := by ext; simp
  rw [h1, Set.ncard_coe_finset, Finset.card_filter, Fintype.sum_prod_type]
  refine Finset.sum_congr rfl fun i _ => ?_
  rw [Fintype.sum_prod_type]
  refine Finset.sum_congr rfl fun j _ => ?_
  have h2 : {k | p i j k} = ↑(Finset.univ.filter fun k => p i j k) := by ext; simp
  rw [h2, Set.ncard_coe_finset, Finset.card_filter]

variable {R : Type} [Semiring R]

omit [Semiring R] in
theorem lower_total {G : SimpleGraph (Fin n)} {L : CSR R} (h : IsLower G L) :
    ((List.range n).map fun i => ((L.rowCols i).map fun j => mid n L i j).sum).sum = triangles G := by
  rw [sum_range_eq, triangles_eq, ncard_triples (p := fun i j k => j < k ∧ k < i ∧ G.Adj i j ∧ G.Adj i k ∧ G.Adj k j)]
  refine Finset.sum_congr rfl fun i _ => ?_
  rw [sum_list_eq (n := n) (nodup_of_sorted h.sorted i (h.rows ▸ i.2))
    fun x hx => h.cols ▸ CSR.rowCols_lt h.wf hx]
  refine Finset.sum_congr rfl fun j _ => ?_
  by_cases hj : j.val ∈ L.rowCols i
  · rw [if_pos hj]
    unfold mid
    congr 1
    ext k
    have := (h.adj i j).1 hj
    simp only [Set.mem_ofPred_eq, h.adj]
    tauto
  · rw [if_neg hj]
    symm
    have : {k | j < k ∧ k < i ∧ G.Adj i j ∧ G.Adj i k ∧ G.Adj k j} = ∅ := by
      ext k
      simp only [Set.mem_ofPred_eq, Set.mem_empty_iff_false, iff_false]
      rintro ⟨h1, h2, h3, -⟩
      exact hj ((h.adj i j).2 ⟨h1.trans h2, h3⟩)
    rw [this, Set.ncard_empty]

theorem lowTri_isLower {V : Type} {G : SimpleGraph (Fin n)} {A : CSR V} (h : Represents G A) : IsLower G (lowTri A) where
  wf := select_wf h.wf
  rows := h.rows
  cols := h.cols
  sorted := select_sorted h.wf h.sorted
  adj := by
    intro i j
    unfold lowTri
    rw [select_rowCols (h.rows ▸ i.2), ← h.adj, ← CSR.row_map_fst h.wf, List.mem_map, List.mem_map]
    simp only [List.mem_filter, decide_eq_true_eq]
    constructor
    · rintro ⟨e, ⟨h1, h2⟩, h3⟩
      exact ⟨Fin.lt_def.2 (h3 ▸ h2), e, h1, h3⟩
    · rintro ⟨h1, e, h2, h3⟩
      exact ⟨e, ⟨h2, h3 ▸ Fin.lt_def.1 h1⟩, h3⟩

theorem triangles_relabelled {G G' : SimpleGraph (Fin n)} {σ : Equiv.Perm (Fin n)} (h : Relabelled G G' σ) :
    triangles G' = triangles G := by
  unfold triangles
  refine (Set.ncard_congr (fun s _ => s.map σ.toEmbedding) ?_ ?_ ?_).symm
  · intro s hs
    show G'.IsNClique 3 _
    obtain ⟨a, b, c, hab, hac, hbc, rfl⟩ := SimpleGraph.is3Clique_iff.1 hs
    exact SimpleGraph.is3Clique_iff.2 ⟨σ a, σ b, σ c, (h _ _).2 hab, (h _ _).2 hac, (h _ _).2 hbc, by simp⟩
  · intro s t _ _ he
    exact Finset.map_injective _ he
  · intro s hs
    obtain ⟨a, b, c, hab, hac, hbc, rfl⟩ := SimpleGraph.is3Clique_iff.1 hs
    have key : ∀ x y, G'.Adj x y → G.Adj (σ.symm x) (σ.symm y) := fun x y hxy => (h _ _).1 (by simpa using hxy)
    exact ⟨{σ.symm a, σ.symm b, σ.symm c}, SimpleGraph.is3Clique_iff.2
      ⟨_, _, _, key _ _ hab, key _ _ hac, key _ _ hbc, rfl⟩, by simp⟩

end Verif.Model.Graph
