import Verif.Model.GraphCtor
import Verif.Lemmas.Triples
import Verif.Lemmas.HeapAlg
import Mathlib.Tactic.ByContra

/-! # Constructors from a graph -/

namespace Verif.Conv
open Model Model.Inner
open Spec (SortsEdges sum1 weights)

variable {V α : Type}

/-! ## Placement by counting -/

def gitems (key id : Nat × Nat × V → Nat) (ts : List (Nat × Nat × V)) : List (Nat × (Nat × V)) :=
  ts.map fun t => (key t, (id t, t.2.2))

theorem placeTriples_eq (dflt : V) (n : Nat) (key id : Nat × Nat × V → Nat) (ts : List (Nat × Nat × V))
    (hk : ∀ t ∈ ts, key t < n) :
    placeTriples dflt n key id ts = .ok (tab (n + 1) (psum (cnt (gitems key id ts))),
      (seg (bucket (gitems key id ts)) 0 n).map (·.1), (seg (bucket (gitems key id ts)) 0 n).map (·.2)) := by
  unfold placeTriples
  simp only []
  have hlt : ∀ x ∈ gitems key id ts, x.1 < n := by
    intro x hx
    unfold gitems at hx
    rw [List.mem_map] at hx
    obtain ⟨t, ht, rfl⟩ := hx
    exact hk t ht
  have hlen : (gitems key id ts).length = ts.length := by simp [gitems]
  have hcnt := countKeys_eq (n := n) (gitems key id ts) hlt (fun k => do let t ← rd ts k; .ok (key t)) (by
    intro k hk
    rw [rd_of_lt (by omega), ok_bind]
    simp [gitems])
  rw [hlen] at hcnt
  rw [hcnt, ok_bind]
  have htot := psum_cnt (gitems key id ts) hlt
  rw [hlen] at htot
  by_cases hn : ts.length > 0
  · rw [if_pos hn, cumulativeSum_eq, ok_bind]
    simp only []
    have hp := ptrArray n (cnt (gitems key id ts))
    cases hw : wr (List.replicate (n + 1) 0) n (psum (cnt (gitems key id ts)) n) with
    | error e => rw [hw] at hp; simp at hp
    | ok p =>
      rw [hw, ok_bind] at hp
      rw [ok_bind, hp, ok_bind]
      have hpl : ∀ s : List Nat × List Nat × List V, forRange 0 ts.length s (fun k (work, ids, values) => do
          let t ← rd ts k
          let last ← rd work (key t)
          let work ← wr work (key t) (last + 1)
          let ids ← wr ids last (id t)
          let values ← wr values last t.2.2
          .ok (work, ids, values)) = (gitems key id ts).foldlM place2 s := by
        intro s
        unfold gitems
        rw [foldlM_map, forRange_eq_slice (L := ts) (g := fun s t => place2 s (key t, (id t, t.2.2)))
          (Nat.le_refl _)]
        · simp [slice]
        · intro k hk _ _ s
          obtain ⟨a, b, c⟩ := s
          simp only [rd_of_lt hk, ok_bind]
          rfl
      refine (congrArg (· >>= _) (hpl _)).trans ?_
      obtain ⟨w, e1⟩ := place1_fold_seg (n := n) (gitems key id ts) hlt (0, dflt)
      have h2 := place2_fold (gitems key id ts) (tab n (psum (cnt (gitems key id ts))))
        (List.replicate (gitems key id ts).length (0, dflt))
      rw [e1] at h2
      simp only [List.map_replicate, Except.map, hlen] at h2
      rw [h2, ok_bind]
  · rw [if_neg hn]
    have hi : ts = [] := List.eq_nil_of_length_eq_zero (by omega)
    subst hi
    have hz : ∀ n, psum (cnt (gitems key id ([] : List (Nat × Nat × V)))) n = 0 := by
      intro n
      induction n with
      | zero => rfl
      | succ n ih => simp only [psum, ih]; rfl
    have hs : seg (bucket (gitems key id ([] : List (Nat × Nat × V)))) 0 n = [] := by
      apply List.eq_nil_of_length_eq_zero
      rw [seg_length _ (Nat.zero_le _)]
      exact (congrArg (· - _) (hz n)).trans (by simp)
    rw [hs, replicate_eq_tab]
    congr 2
    apply tab_ext
    intro i _
    rw [hz]

/-! ## Merging equal neighbours -/

/-- one step of the merge -/
def joinStep (add : V → V → V) (out : List (Nat × Nat × V)) (x : (Nat × Nat) × V) : List (Nat × Nat × V) :=
  match out.getLast? with
  | some t => if (t.1, t.2.1) = x.1 then out.dropLast ++ [(t.1, t.2.1, add t.2.2 x.2)] else out ++ [(x.1.1, x.1.2, x.2)]
  | none => out ++ [(x.1.1, x.1.2, x.2)]

theorem joinStep_last (add : V → V → V) (out : List (Nat × Nat × V)) (x : (Nat × Nat) × V) :
    ∃ v, (joinStep add out x).getLast? = some (x.1.1, x.1.2, v) := by
  unfold joinStep
  split
  · rename_i t _
    split
    · rename_i h
      refine ⟨add t.2.2 x.2, ?_⟩
      rw [List.getLast?_append]
      simp [← h]
    · exact ⟨x.2, by simp⟩
  · exact ⟨x.2, by simp⟩

theorem joinNext_eq (add : V → V → V) {curr : List ((Nat × Nat) × V)} {i : Nat} (h : i + 1 < curr.length)
    {out : List (Nat × Nat × V)} {v : V}
    (hl : out.getLast? = some ((curr[i]'(by omega)).1.1, (curr[i]'(by omega)).1.2, v)) :
    joinNext add curr i out = .ok (joinStep add out curr[i + 1]) := by
  unfold joinNext joinStep
  rw [rd_of_lt (by omega), ok_bind, rd_of_lt h, ok_bind, hl]
  simp only []
  by_cases e : curr[i].1 = curr[i + 1].1
  · rw [if_pos e, if_pos (by rw [← e])]
    unfold addBack
    rw [hl]
  · rw [if_neg e, if_neg (by intro e'; exact e (e' ▸ rfl))]

theorem joinGroup_eq (add : V → V → V) {sortf : List ((Nat × Nat) × V) → List ((Nat × Nat) × V)}
    (curr : List ((Nat × Nat) × V)) (out : List (Nat × Nat × V)) (hne : sortf curr ≠ [])
    (hl : ∀ t, out.getLast? = some t → ∀ x ∈ sortf curr, t.1 ≠ x.1.1) :
    joinGroup add sortf curr out = .ok ((sortf curr).foldl (joinStep add) out) := by
  unfold joinGroup
  simp only []
  generalize sortf curr = L at *
  have hpos : 0 < L.length := List.length_pos_iff.2 hne
  rw [rd_of_lt hpos, ok_bind]
  obtain ⟨s, e1, e2, _⟩ := forRange_inv (body := joinNext add L)
    (fun k s => s = (L.take (k + 1)).foldl (joinStep add) out ∧
      ∀ h : k < L.length, ∃ v, s.getLast? = some ((L[k]'h).1.1, (L[k]'h).1.2, v)) 0 (L.length - 1) (by omega)
    (out ++ [(L[0].1.1, L[0].1.2, L[0].2)]) (by
      have e : L.take (0 + 1) = [L[0]] := by
        rw [List.take_succ_eq_append_getElem hpos]; simp
      rw [e]
      refine ⟨?_, fun _ => ⟨L[0].2, by simp⟩⟩
      simp only [List.foldl_cons, List.foldl_nil]
      unfold joinStep
      split
      · rename_i t ht
        rw [if_neg]
        intro h
        exact hl t ht L[0] (List.getElem_mem _) (by rw [← h])
      · rfl)
    (by
      rintro k s _ hk ⟨rfl, h2⟩
      have hk' : k + 1 < L.length := by omega
      obtain ⟨v, hv⟩ := h2 (by omega)
      refine ⟨_, joinNext_eq add hk' hv, ?_, fun _ => ?_⟩
      · rw [List.take_succ_eq_append_getElem hk', List.foldl_append]
        rfl
      · exact joinStep_last _ _ _)
  rw [e1, e2, show L.length - 1 + 1 = L.length by omega, List.take_length]

/-! ## The whole list -/

def lexLe (a b : Nat × Nat) : Prop := a.1 < b.1 ∨ a.1 = b.1 ∧ a.2 ≤ b.2

def lexLt (a b : Nat × Nat) : Prop := a.1 < b.1 ∨ a.1 = b.1 ∧ a.2 < b.2

def pairOf (t : Nat × Nat × V) : (Nat × Nat) × V := ((t.1, t.2.1), t.2.2)

theorem join_last (add : V → V → V) (L : List ((Nat × Nat) × V)) :
    ∀ t, (L.foldl (joinStep add) []).getLast? = some t → ∃ x ∈ L, x.1 = (t.1, t.2.1) := by
  induction L using Model.list_snoc_induction with
  | h0 => simp
  | h1 L x _ =>
    intro t ht
    rw [List.foldl_append] at ht
    simp only [List.foldl_cons, List.foldl_nil] at ht
    obtain ⟨v, hv⟩ := joinStep_last add (L.foldl (joinStep add) []) x
    rw [hv] at ht
    obtain rfl := Option.some.inj ht
    exact ⟨x, by simp, rfl⟩

theorem simpleEdges_eq (add : V → V → V) {sortf : List ((Nat × Nat) × V) → List ((Nat × Nat) × V)}
    (hs : SortsEdges sortf) (edges : List (Nat × Nat × V)) (hne : edges ≠ [])
    (hsort : edges.Pairwise (fun a b => a.1 ≤ b.1)) :
    ∃ L : List ((Nat × Nat) × V), L.Perm (edges.map pairOf) ∧ L.Pairwise (fun a b => lexLe a.1 b.1) ∧
      simpleEdges add sortf edges = .ok (L.foldl (joinStep add) []) := by
  have hpos : 0 < edges.length := List.length_pos_iff.2 hne
  have group : ∀ (D curr : List ((Nat × Nat) × V)) (b : Nat), curr ≠ [] → (∀ x ∈ curr, x.1.1 = b) →
      D.Pairwise (fun a b => lexLe a.1 b.1) → (∀ x ∈ D, x.1.1 < b) →
      joinGroup add sortf curr (D.foldl (joinStep add) []) = .ok ((D ++ sortf curr).foldl (joinStep add) []) ∧
      (D ++ sortf curr).Pairwise (fun a b => lexLe a.1 b.1) := by
    intro D curr b h1 h2 h3 h4
    have hm : ∀ x ∈ sortf curr, x.1.1 = b := fun x hx => h2 x ((hs.perm curr).mem_iff.1 hx)
    refine ⟨?_, ?_⟩
    · rw [joinGroup_eq, List.foldl_append]
      · intro e
        have := (hs.perm curr).length_eq
        rw [e] at this
        exact h1 (List.eq_nil_of_length_eq_zero this.symm)
      · intro t ht x hx
        obtain ⟨y, hy, e⟩ := join_last add D t ht
        have := h4 y hy
        rw [e] at this
        rw [hm x hx]
        simp only at this
        omega
    · rw [List.pairwise_append]
      refine ⟨h3, hs.sorted curr, fun x hx y hy => ?_⟩
      left
      rw [hm y hy]
      exact h4 x hx
  unfold simpleEdges edgePair
  rw [rd_of_lt hpos, ok_bind, ok_bind]
  obtain ⟨s, e1, D, E, h1, h2, h3, h4, h5, h6, h7⟩ := forRange_inv
    (body := fun k (s : List (Nat × Nat × V) × List ((Nat × Nat) × V)) => do
      let a ← rd edges k
      let b ← rd edges (k + 1)
      let s ← closeGroup add sortf (decide (a.1 = b.1)) s
      let e ← (do let t ← rd edges (k + 1); .ok ((t.1, t.2.1), t.2.2))
      .ok (s.1, s.2 ++ [e]))
    (fun k s => ∃ D E : List ((Nat × Nat) × V), s = (D.foldl (joinStep add) [], E) ∧
      (D ++ E).Perm ((edges.take (k + 1)).map pairOf) ∧ E ≠ [] ∧ D.Pairwise (fun a b => lexLe a.1 b.1) ∧
      (∀ h : k < edges.length, ∀ x ∈ E, x.1.1 = (edges[k]'h).1) ∧
      (∀ h : k < edges.length, ∀ x ∈ D, x.1.1 < (edges[k]'h).1) ∧ True) 0 (edges.length - 1) (by omega)
    ([], [pairOf edges[0]]) (by
      refine ⟨[], [pairOf edges[0]], rfl, ?_, by simp, by simp, by simp [pairOf], by simp, trivial⟩
      rw [List.take_succ_eq_append_getElem hpos]
      simp)
    (by
      rintro k s _ hk ⟨D, E, rfl, h2, h3, h4, h5, h6, _⟩
      have hk1 : k + 1 < edges.length := by omega
      have hk0 : k < edges.length := by omega
      have hle : (edges[k]).1 ≤ (edges[k + 1]).1 :=
        (List.pairwise_iff_getElem.1 hsort) k (k + 1) hk0 hk1 (by omega)
      rw [rd_of_lt hk0, ok_bind, rd_of_lt hk1, ok_bind]
      have hperm : ((edges.take (k + 1 + 1)).map pairOf) =
          (edges.take (k + 1)).map pairOf ++ [pairOf edges[k + 1]] := by
        rw [List.take_succ_eq_append_getElem hk1, List.map_append]
        rfl
      by_cases e : edges[k].1 = edges[k + 1].1
      · refine ⟨(D.foldl (joinStep add) [], E ++ [pairOf edges[k + 1]]), ?_, D, E ++ [pairOf edges[k + 1]], rfl, ?_,
          by simp, h4, fun _ => ?_, fun _ => ?_, trivial⟩
        · unfold closeGroup
          simp only [e, decide_true, if_true, ok_bind]
          rfl
        · rw [← List.append_assoc, hperm]
          exact h2.append_right _
        · intro x hx
          rw [List.mem_append] at hx
          rcases hx with hx | hx
          · rw [h5 hk0 x hx, e]
          · rw [List.mem_singleton] at hx
            subst hx
            rfl
        · intro x hx
          rw [← e]
          exact h6 hk0 x hx
      · obtain ⟨g1, g2⟩ := group D E _ h3 (h5 hk0) h4 (h6 hk0)
        refine ⟨((D ++ sortf E).foldl (joinStep add) [], [pairOf edges[k + 1]]), ?_, D ++ sortf E,
          [pairOf edges[k + 1]], rfl, ?_, by simp, g2, fun _ => by simp [pairOf], fun _ => ?_, trivial⟩
        · unfold closeGroup
          simp only [e, decide_false, Bool.false_eq_true, if_false, g1, ok_bind]
          rfl
        · rw [hperm]
          refine List.Perm.append_right _ (List.Perm.trans ?_ h2)
          exact (hs.perm E).append_left D
        · intro x hx
          rw [List.mem_append] at hx
          rcases hx with hx | hx
          · have := h6 hk0 x hx
            omega
          · have := h5 hk0 x ((hs.perm E).mem_iff.1 hx)
            omega)
  refine ⟨D ++ sortf E, ?_, ?_, ?_⟩
  · rw [show edges.length - 1 + 1 = edges.length by omega, List.take_length] at h2
    exact ((hs.perm E).append_left D).trans h2
  · exact (group D E _ h3 (h5 (by omega)) h4 (h6 (by omega))).2
  · refine (congrArg (· >>= _) (show forRange 0 (edges.length - 1) _ _ = _ from e1)).trans ?_
    rw [ok_bind, h1]
    exact (group D E _ h3 (h5 (by omega)) h4 (h6 (by omega))).1

/-- The weights of one edge in a list of pairs. -/
def wts (L : List ((Nat × Nat) × V)) (i j : Nat) : List V :=
  (L.filter fun x => decide (x.1 = (i, j))).map (·.2)

theorem wts_snoc (L : List ((Nat × Nat) × V)) (x : (Nat × Nat) × V) (i j : Nat) :
    wts (L ++ [x]) i j = if x.1 = (i, j) then wts L i j ++ [x.2] else wts L i j := by
  unfold wts
  rw [List.filter_append, List.map_append]
  by_cases h : x.1 = (i, j) <;> simp [h]

theorem join_spec (add : V → V → V) (L : List ((Nat × Nat) × V)) (hL : L.Pairwise (fun a b => lexLe a.1 b.1)) :
    (L.foldl (joinStep add) []).Pairwise (fun a b => lexLt (a.1, a.2.1) (b.1, b.2.1)) ∧
      ∀ i j v, (i, j, v) ∈ L.foldl (joinStep add) [] ↔ sum1 add (wts L i j) = some v := by
  induction L using Model.list_snoc_induction with
  | h0 => simp [wts, sum1]
  | h1 L x ih =>
    rw [List.pairwise_append] at hL
    obtain ⟨hL1, _, hL2⟩ := hL
    obtain ⟨ih1, ih2⟩ := ih hL1
    have hx : ∀ y ∈ L, lexLe y.1 x.1 := fun y hy => hL2 y hy x (by simp)
    have hout : ∀ t ∈ L.foldl (joinStep add) [], ∃ y ∈ L, y.1 = (t.1, t.2.1) := by
      rintro ⟨i, j, v⟩ ht
      have h1 := (ih2 i j v).1 ht
      have h2 : wts L i j ≠ [] := by
        intro e
        rw [e] at h1
        simp [sum1] at h1
      obtain ⟨w, hw⟩ := List.exists_mem_of_ne_nil _ h2
      unfold wts at hw
      rw [List.mem_map] at hw
      obtain ⟨y, hy, _⟩ := hw
      rw [List.mem_filter, decide_eq_true_eq] at hy
      exact ⟨y, hy.1, hy.2⟩
    rw [List.foldl_append]
    simp only [List.foldl_cons, List.foldl_nil]
    generalize hO : L.foldl (joinStep add) [] = out at *
    obtain ⟨⟨a, b⟩, w⟩ := x
    by_cases hlast : ∃ t, out.getLast? = some t ∧ (t.1, t.2.1) = (a, b)
    · obtain ⟨⟨a', b', u⟩, ht, e⟩ := hlast
      obtain ⟨rfl, rfl⟩ := Prod.mk.inj e
      simp only [] at *
      have hsplit : out = out.dropLast ++ [(a', b', u)] := by
        have hne : out ≠ [] := by rintro rfl; simp at ht
        rw [List.getLast?_eq_some_getLast hne] at ht
        have := List.dropLast_concat_getLast hne
        rw [Option.some.inj ht] at this
        exact this.symm
      have hst : joinStep add out ((a', b'), w) = out.dropLast ++ [(a', b', add u w)] := by
        unfold joinStep
        rw [ht]
        simp
      rw [hst]
      generalize hP : out.dropLast = P at *
      subst hsplit
      rw [List.pairwise_append] at ih1
      obtain ⟨p1, _, p2⟩ := ih1
      have hlt : ∀ t ∈ P, lexLt (t.1, t.2.1) (a', b') := fun t ht => p2 t ht (a', b', u) (by simp)
      refine ⟨?_, ?_⟩
      · rw [List.pairwise_append]
        refine ⟨p1, by simp, fun t ht y hy => ?_⟩
        rw [List.mem_singleton] at hy
        subst hy
        exact hlt t ht
      · intro i j v
        rw [wts_snoc]
        have hnot : ∀ v, (a', b', v) ∉ P := by
          intro v hv
          rcases hlt _ hv with h | h
          · exact absurd h (Nat.lt_irrefl _)
          · exact absurd h.2 (Nat.lt_irrefl _)
        by_cases hij : (a', b') = (i, j)
        · obtain ⟨rfl, rfl⟩ := Prod.mk.inj hij
          rw [if_pos rfl, sum1_append_singleton]
          have h1 : sum1 add (wts L a' b') = some u := (ih2 a' b' u).1 (by simp)
          rw [h1]
          simp [hnot, eq_comm]
        · rw [if_neg hij, ← ih2 i j v, List.mem_append, List.mem_append]
          refine or_congr Iff.rfl ?_
          rw [List.mem_singleton, List.mem_singleton]
          constructor <;> intro h <;> exact absurd (by rw [Prod.mk.inj h |>.1, Prod.mk.inj (Prod.mk.inj h).2 |>.1]) hij
    · have hst : joinStep add out ((a, b), w) = out ++ [(a, b, w)] := by
        unfold joinStep
        split
        · rename_i t ht
          rw [if_neg]
          intro e
          exact hlast ⟨t, ht, e⟩
        · rfl
      have hlt : ∀ t ∈ out, lexLt (t.1, t.2.1) (a, b) := by
        intro t ht
        have hout' : out ≠ [] := List.ne_nil_of_mem ht
        have hgl := List.getLast?_eq_some_getLast hout'
        have hsplit : out = out.dropLast ++ [out.getLast hout'] := (List.dropLast_concat_getLast hout').symm
        obtain ⟨y, hy, ey⟩ := hout _ (List.getLast_mem hout')
        have h1 := hx y hy
        have h2 : ((out.getLast hout').1, (out.getLast hout').2.1) ≠ (a, b) := fun e => hlast ⟨_, hgl, e⟩
        rw [ey] at h1
        have h3 : lexLt ((out.getLast hout').1, (out.getLast hout').2.1) (a, b) := by
          rcases h1 with h | ⟨h, h'⟩
          · exact Or.inl h
          · refine Or.inr ⟨h, Nat.lt_of_le_of_ne h' fun e => h2 ?_⟩
            exact Prod.ext h e
        rw [hsplit] at ht
        rw [List.mem_append] at ht
        rcases ht with ht | ht
        · rw [hsplit, List.pairwise_append] at ih1
          have h4 := ih1.2.2 t ht _ (List.mem_singleton.2 rfl)
          unfold lexLt at *
          simp only at *
          omega
        · rw [List.mem_singleton] at ht
          rw [ht]
          exact h3
      rw [hst]
      refine ⟨?_, ?_⟩
      · rw [List.pairwise_append]
        refine ⟨ih1, by simp, fun t ht y hy => ?_⟩
        rw [List.mem_singleton] at hy
        subst hy
        exact hlt t ht
      · intro i j v
        rw [wts_snoc]
        have hnot : ∀ v, (a, b, v) ∉ out := by
          intro v hv
          rcases hlt _ hv with h | h
          · exact absurd h (Nat.lt_irrefl _)
          · exact absurd h.2 (Nat.lt_irrefl _)
        by_cases hij : (a, b) = (i, j)
        · obtain ⟨rfl, rfl⟩ := Prod.mk.inj hij
          rw [if_pos rfl]
          have h1 : wts L a b = [] := by
            by_contra h
            rcases hs : sum1 add (wts L a b) with _ | u
            · exact h (sum1_eq_none.1 hs)
            · exact hnot u ((ih2 a b u).2 hs)
          rw [h1]
          simp [hnot, sum1, eq_comm]
        · rw [if_neg hij, ← ih2 i j v, List.mem_append]
          refine ⟨fun h => ?_, Or.inl⟩
          rcases h with h | h
          · exact h
          · rw [List.mem_singleton] at h
            exact absurd (by rw [Prod.mk.inj h |>.1, Prod.mk.inj (Prod.mk.inj h).2 |>.1]) hij

theorem weights_perm {L : List ((Nat × Nat) × V)} {edges : List (Nat × Nat × V)}
    (p : L.Perm (edges.map pairOf)) (i j : Nat) : (wts L i j).Perm (weights edges i j) := by
  have e : weights edges i j = wts (edges.map pairOf) i j := by
    unfold weights wts
    rw [List.filter_map, List.map_map]
    congr 1
    apply List.filter_congr
    intro t _
    simp [pairOf]
  rw [e]
  exact (p.filter _).map _

/-- What the constructors place. -/
theorem simpleEdges_spec {add : V → V → V} (ha : Spec.AssocComm add)
    {sortf : List ((Nat × Nat) × V) → List ((Nat × Nat) × V)}
    (hs : SortsEdges sortf) (edges : List (Nat × Nat × V)) (hne : edges ≠ [])
    (hsort : edges.Pairwise (fun a b => a.1 ≤ b.1)) :
    ∃ ts, simpleEdges add sortf edges = .ok ts ∧ ts.Pairwise (fun a b => lexLt (a.1, a.2.1) (b.1, b.2.1)) ∧
      ∀ i j v, (i, j, v) ∈ ts ↔ sum1 add (weights edges i j) = some v := by
  obtain ⟨L, h1, h2, h3⟩ := simpleEdges_eq add hs edges hne hsort
  obtain ⟨h4, h5⟩ := join_spec add L h2
  refine ⟨_, h3, h4, fun i j v => ?_⟩
  rw [h5, Heap.sum1_perm ha (weights_perm h1 i j)]

theorem mem_of_weights {add : V → V → V} {edges : List (Nat × Nat × V)} {i j : Nat} {v : V}
    (h : sum1 add (weights edges i j) = some v) : ∃ w, (i, j, w) ∈ edges := by
  have h2 : weights edges i j ≠ [] := by
    intro e
    rw [e] at h
    simp [sum1] at h
  obtain ⟨w, hw⟩ := List.exists_mem_of_ne_nil _ h2
  unfold weights at hw
  rw [List.mem_map] at hw
  obtain ⟨⟨a, b, c⟩, hy, _⟩ := hw
  rw [List.mem_filter, decide_eq_true_eq] at hy
  obtain ⟨hy, rfl, rfl⟩ := hy
  exact ⟨c, hy⟩

theorem bucket_lt (l : List (Nat × (Nat × V))) (h : l.Pairwise (fun a b => a.1 = b.1 → a.2.1 < b.2.1)) (r : Nat) :
    ((bucket l r).map Prod.fst).Pairwise (· < ·) := by
  have e : (bucket l r).map Prod.fst = (l.filter fun x => decide (x.1 = r)).map fun x => x.2.1 := by
    rw [← bucket_filter, List.map_map]
    rfl
  rw [e, List.pairwise_map, List.pairwise_filter]
  refine h.imp ?_
  intro a b hab ha hb
  simp only [decide_eq_true_eq] at ha hb
  exact hab (by rw [ha, hb])

theorem mem_gbucket {key id : Nat × Nat × V → Nat} {ts : List (Nat × Nat × V)} {r j : Nat} {v : V} :
    (j, v) ∈ bucket (gitems key id ts) r ↔ ∃ t ∈ ts, key t = r ∧ id t = j ∧ t.2.2 = v := by
  rw [mem_bucket]
  unfold gitems
  rw [List.mem_map]
  constructor
  · rintro ⟨t, ht, e⟩
    obtain ⟨h1, h2⟩ := Prod.mk.inj e
    obtain ⟨h2, h3⟩ := Prod.mk.inj h2
    exact ⟨t, ht, h1, h2, h3⟩
  · rintro ⟨t, ht, h1, h2, h3⟩
    exact ⟨t, ht, by rw [h1, h2, h3]⟩

theorem csrOfGraph_ok {add : V → V → V} (ha : Spec.AssocComm add)
    {sortf : List ((Nat × Nat) × V) → List ((Nat × Nat) × V)} (hs : SortsEdges sortf) (dflt : V) (n : Nat)
    (edges : List (Nat × Nat × V)) (hne : edges ≠ []) (hsort : edges.Pairwise (fun a b => a.1 ≤ b.1))
    (hb : ∀ e ∈ edges, e.1 < n ∧ e.2.1 < n) :
    ∃ C, csrOfGraph add sortf dflt n edges = .ok C ∧ Spec.IsGraphMat add n edges C := by
  obtain ⟨ts, h1, h2, h3⟩ := simpleEdges_spec ha hs edges hne hsort
  have hts : ∀ t ∈ ts, t.1 < n ∧ t.2.1 < n := by
    rintro ⟨i, j, v⟩ ht
    obtain ⟨w, hw⟩ := mem_of_weights ((h3 i j v).1 ht)
    exact hb (i, j, w) hw
  have hlt : ∀ x ∈ gitems (·.1) (·.2.1) ts, x.1 < n := by
    intro x hx
    unfold gitems at hx
    rw [List.mem_map] at hx
    obtain ⟨t, ht, rfl⟩ := hx
    exact (hts t ht).1
  refine ⟨ofRows n n true (bucket (gitems (·.1) (·.2.1) ts)), ?_, ?_, rfl, rfl, ?_, ?_⟩
  · unfold csrOfGraph
    rw [h1, ok_bind, placeTriples_eq dflt n _ _ ts (fun t ht => (hts t ht).1), ok_bind]
    have htot := psum_cnt (gitems (·.1) (·.2.1) ts) hlt
    unfold ofRows
    rw [show lens (bucket (gitems (·.1) (·.2.1) ts)) = cnt (gitems (·.1) (·.2.1) ts) from rfl, htot]
    simp [gitems]
  · apply ofRows_wf _ _ _ _ rfl
    rintro i _ ⟨j, v⟩ hx
    obtain ⟨t, ht, _, rfl, _⟩ := mem_gbucket.1 hx
    exact (hts t ht).2
  · intro i hi
    rw [ofRows_rowCols n _ _ _ hi]
    apply bucket_lt
    unfold gitems
    rw [List.pairwise_map]
    refine h2.imp ?_
    intro a b hab e
    unfold lexLt at hab
    simp only at hab e ⊢
    omega
  · intro i hi j v
    rw [ofRows_row n _ _ _ hi, mem_gbucket, ← h3]
    constructor
    · rintro ⟨t, ht, rfl, rfl, rfl⟩
      exact ht
    · intro h
      exact ⟨_, h, rfl, rfl, rfl⟩

theorem cscOfGraph_ok {add : V → V → V} (ha : Spec.AssocComm add)
    {sortf : List ((Nat × Nat) × V) → List ((Nat × Nat) × V)} (hs : SortsEdges sortf) (dflt : V) (n : Nat)
    (edges : List (Nat × Nat × V)) (hne : edges ≠ []) (hsort : edges.Pairwise (fun a b => a.1 ≤ b.1))
    (hb : ∀ e ∈ edges, e.1 < n ∧ e.2.1 < n) :
    ∃ C, cscOfGraph add sortf dflt n edges = .ok C ∧ Spec.IsGraphMatC add n edges C := by
  obtain ⟨ts, h1, h2, h3⟩ := simpleEdges_spec ha hs edges hne hsort
  have hts : ∀ t ∈ ts, t.1 < n ∧ t.2.1 < n := by
    rintro ⟨i, j, v⟩ ht
    obtain ⟨w, hw⟩ := mem_of_weights ((h3 i j v).1 ht)
    exact hb (i, j, w) hw
  have hlt : ∀ x ∈ gitems (·.2.1) (·.1) ts, x.1 < n := by
    intro x hx
    unfold gitems at hx
    rw [List.mem_map] at hx
    obtain ⟨t, ht, rfl⟩ := hx
    exact (hts t ht).2
  refine ⟨ofCols n n (bucket (gitems (·.2.1) (·.1) ts)), ?_, ?_, rfl, rfl, ?_, ?_⟩
  · unfold cscOfGraph
    rw [h1, ok_bind, placeTriples_eq dflt n _ _ ts (fun t ht => (hts t ht).2), ok_bind]
    have htot := psum_cnt (gitems (·.2.1) (·.1) ts) hlt
    unfold ofCols
    rw [show lens (bucket (gitems (·.2.1) (·.1) ts)) = cnt (gitems (·.2.1) (·.1) ts) from rfl, htot]
    simp [gitems]
  · apply ofCols_wf
    rintro i _ ⟨j, v⟩ hx
    obtain ⟨t, ht, _, rfl, _⟩ := mem_gbucket.1 hx
    exact (hts t ht).1
  · intro j hj
    rw [ofCols_colRows n _ _ hj]
    apply bucket_lt
    unfold gitems
    rw [List.pairwise_map]
    refine h2.imp ?_
    intro a b hab e
    unfold lexLt at hab
    simp only at hab e ⊢
    omega
  · intro j hj i v
    rw [ofCols_col n _ _ hj, mem_gbucket, ← h3]
    constructor
    · rintro ⟨t, ht, rfl, rfl, rfl⟩
      exact ht
    · intro h
      exact ⟨_, h, rfl, rfl, rfl⟩

end Verif.Conv
