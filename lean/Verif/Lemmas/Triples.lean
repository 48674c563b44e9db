import Verif.Lemmas.Convert
import Verif.SpecConv

/-! # CSC from triples -/

namespace Verif.Conv
open Model Model.Inner
open Spec (SortsBy)

variable {V α : Type}

theorem seg_congr {F G : Nat → List α} {b e : Nat} (h : ∀ i, b ≤ i → i < e → F i = G i) :
    seg F b e = seg G b e := by
  unfold seg
  rw [List.flatMap_def, List.flatMap_def]
  congr 1
  apply List.map_congr_left
  intro i hi
  rw [List.mem_range'_1] at hi
  exact h i hi.1 (by omega)

theorem seg_split {F : Nat → List α} {n c : Nat} (hc : c < n) :
    seg F 0 n = seg F 0 c ++ (F c ++ seg F (c + 1) n) := by
  rw [← seg_append F (Nat.zero_le c) (by omega : c ≤ n), ← seg_append F (by omega : c ≤ c + 1) hc,
    exp_eq_seg]

/-- Replacing the part of one bucket. -/
theorem seg_replace {F : Nat → List α} {n c : Nat} (hc : c < n) (x : List α) :
    (seg F 0 n).take (psum (lens F) c) ++ x ++ (seg F 0 n).drop (psum (lens F) (c + 1)) =
      seg (upd F c x) 0 n := by
  have hl : (seg F 0 c).length = psum (lens F) c := by
    rw [seg_length F (Nat.zero_le c)]; simp [psum]
  have hl2 : psum (lens F) (c + 1) = (seg F 0 c ++ F c).length := by
    rw [List.length_append, hl]; rfl
  rw [seg_split hc (F := upd F c x), upd_same]
  have h1 : (seg F 0 n).take (psum (lens F) c) = seg F 0 c := by
    rw [seg_split hc, ← hl, List.take_left]
  have h2 : (seg F 0 n).drop (psum (lens F) (c + 1)) = seg F (c + 1) n := by
    rw [seg_split hc, ← List.append_assoc, hl2, List.drop_left]
  rw [h1, h2, List.append_assoc,
    seg_congr (F := upd F c x) (G := F) (fun i _ hi => upd_ne _ _ (by omega)),
    seg_congr (F := upd F c x) (G := F) (b := c + 1) (fun i hi _ => upd_ne _ _ (by omega))]

/-- A copy of a range into two parallel arrays. -/
theorem copyRange_eq (src A : List (Nat × V)) (b e : Nat) (hbe : b ≤ e) (he : e ≤ src.length)
    (hl : A.length = src.length) :
    forRange b e (A.map (·.1), A.map (·.2)) (fun ind (rowids, values) => do
        let p ← rd src ind
        let rowids ← wr rowids ind p.1
        let values ← wr values ind p.2
        .ok (rowids, values)) =
      .ok ((A.take b ++ slice src b e ++ A.drop e).map (·.1),
        (A.take b ++ slice src b e ++ A.drop e).map (·.2)) := by
  obtain ⟨s, e1, e2⟩ := forRange_inv (body := fun ind (a : List Nat × List V) => do
      let p ← rd src ind
      let rowids ← wr a.1 ind p.1
      let values ← wr a.2 ind p.2
      .ok (rowids, values))
    (fun k a => a = ((A.take b ++ slice src b k ++ A.drop k).map (·.1),
        (A.take b ++ slice src b k ++ A.drop k).map (·.2))) b e hbe
    (A.map (·.1), A.map (·.2))
    (by rw [slice_empty (Nat.le_refl _)]; simp)
    (by
      rintro k s hk1 hk2 rfl
      have hk : k < src.length := by omega
      have hkA : k < A.length := by omega
      have hsl : (A.take b ++ slice src b k).length = k := by
        rw [List.length_append, slice_length (by omega), List.length_take]; omega
      have hlen : (A.take b ++ slice src b k ++ A.drop k).length = A.length := by
        rw [List.length_append, hsl, List.length_drop]; omega
      refine ⟨_, by
        simp only []
        rw [rd_of_lt hk, ok_bind, wr_of_lt (by rw [List.length_map]; omega), ok_bind,
          wr_of_lt (by rw [List.length_map]; omega), ok_bind], ?_⟩
      have hset : (A.take b ++ slice src b k ++ A.drop k).set k src[k] =
          A.take b ++ slice src b (k + 1) ++ A.drop (k + 1) := by
        rw [List.set_append_right _ _ (by omega), hsl, Nat.sub_self, List.drop_eq_getElem_cons hkA,
          List.set_cons_zero]
        have : slice src b (k + 1) = slice src b k ++ [src[k]] := by
          unfold slice
          rw [show k + 1 - b = k - b + 1 by omega, List.take_add_one, List.getElem?_drop,
            show b + (k - b) = k by omega, List.getElem?_eq_getElem hk]
          rfl
        rw [this]
        simp
      rw [← List.map_set, ← List.map_set, hset])
  refine (show forRange b e (A.map (·.1), A.map (·.2)) _ = _ from e1).trans ?_
  rw [e2]

/-- The CSC matrix with the given columns. -/
def ofCols (rows cols : Nat) (exp : Nat → List (Nat × V)) : CSC V :=
  { rows := rows, cols := cols, nnz := psum (lens exp) cols,
    colptr := tab (cols + 1) (psum (lens exp)),
    rowids := (seg exp 0 cols).map Prod.fst,
    values := (seg exp 0 cols).map Prod.snd }

theorem ofCols_ptr (rows cols : Nat) (exp : Nat → List (Nat × V)) {j : Nat} (hj : j ≤ cols) :
    (ofCols rows cols exp).ptr j = psum (lens exp) j :=
  ofRows_ptr cols rows true exp hj

theorem ofCols_col (rows cols : Nat) (exp : Nat → List (Nat × V)) {j : Nat} (hj : j < cols) :
    (ofCols rows cols exp).col j = exp j :=
  ofRows_row cols rows true exp hj

theorem ofCols_colRows (rows cols : Nat) (exp : Nat → List (Nat × V)) {j : Nat} (hj : j < cols) :
    (ofCols rows cols exp).colRows j = (exp j).map Prod.fst :=
  ofRows_rowCols cols rows true exp hj

theorem ofCols_wf (rows cols : Nat) (exp : Nat → List (Nat × V))
    (h : ∀ j < cols, ∀ x ∈ exp j, x.1 < rows) : (ofCols rows cols exp).WF := by
  have w := ofRows_wf cols rows true exp rfl h
  exact ⟨rfl, w.ptrLen, w.ptrFirst, w.ptrMono, w.ptrLast, w.colLen, w.valLen, w.inBounds⟩

/-- Triples (row, column, value) keyed by column. -/
def titems (triples : List (Nat × Nat × V)) : List (Nat × (Nat × V)) :=
  triples.map fun t => (t.2.1, (t.1, t.2.2))

/-- Column `c` of the constructed matrix. -/
def tcol (sortf : List (Nat × V) → List (Nat × V)) (triples : List (Nat × Nat × V)) (c : Nat) :
    List (Nat × V) := sortf (bucket (titems triples) c)

theorem colLoop {n : Nat} {sortf : List (Nat × V) → List (Nat × V)} (hs : SortsBy Prod.fst sortf)
    (B : Nat → List (Nat × V)) (d : Nat × V) (order : List Nat) (ho : order.Perm (List.range n)) :
    ∃ t, order.foldlM (fun (tosort, rowids, values) i => do
      let b ← rd (tab (n + 1) (psum (lens B))) i
      let e ← rd (tab (n + 1) (psum (lens B))) (i + 1)
      let tosort ← sortRange sortf tosort b e
      let (rowids, values) ← forRange b e (rowids, values) (fun ind (rowids, values) => do
        let p ← rd tosort ind
        let rowids ← wr rowids ind p.1
        let values ← wr values ind p.2
        .ok (rowids, values))
      .ok (tosort, rowids, values))
      (seg B 0 n, (List.replicate (psum (lens B) n) d).map (·.1),
        (List.replicate (psum (lens B) n) d).map (·.2)) =
      .ok (t, (seg (fun c => sortf (B c)) 0 n).map (·.1),
        (seg (fun c => sortf (B c)) 0 n).map (·.2)) := by
  have hnd : order.Nodup := ho.nodup_iff.2 List.nodup_range
  have hmem : ∀ c ∈ order, c < n := fun c hc => by simpa using ho.mem_iff.1 hc
  obtain ⟨F, hF⟩ : ∃ F : List Nat → Nat → List (Nat × V),
      F = fun pre c => if c ∈ pre then sortf (B c) else B c := ⟨_, rfl⟩
  obtain ⟨G, hG⟩ : ∃ G : List Nat → Nat → List (Nat × V),
      G = fun pre c => if c ∈ pre then sortf (B c) else List.replicate (B c).length d := ⟨_, rfl⟩
  have hlF : ∀ pre, lens (F pre) = lens B := by
    intro pre
    funext c
    unfold lens
    rw [hF]
    simp only []
    split
    · exact (hs.perm _).length_eq
    · rfl
  have hlG : ∀ pre, lens (G pre) = lens B := by
    intro pre
    funext c
    unfold lens
    rw [hG]
    simp only []
    split
    · exact (hs.perm _).length_eq
    · exact List.length_replicate
  have hF0 : F [] = B := by funext c; rw [hF]; simp
  have hG0 : seg (G []) 0 n = List.replicate (psum (lens B) n) d := by
    have hl : (seg (G []) 0 n).length = psum (lens B) n := by
      rw [seg_length _ (Nat.zero_le _), hlG]; simp [psum]
    rw [List.eq_replicate_iff]
    refine ⟨hl, ?_⟩
    intro x hx
    unfold seg at hx
    rw [List.mem_flatMap] at hx
    obtain ⟨c, _, hc⟩ := hx
    rw [hG] at hc
    simp at hc
    exact hc.2
  have key := foldlM_desc (f := fun (s : List (Nat × V) × List Nat × List V) i => do
      let b ← rd (tab (n + 1) (psum (lens B))) i
      let e ← rd (tab (n + 1) (psum (lens B))) (i + 1)
      let tosort ← sortRange sortf s.1 b e
      let r ← forRange b e s.2 (fun ind (rowids, values) => do
        let p ← rd tosort ind
        let rowids ← wr rowids ind p.1
        let values ← wr values ind p.2
        .ok (rowids, values))
      .ok (tosort, r.1, r.2))
    (fun pre => (seg (F pre) 0 n, (seg (G pre) 0 n).map (·.1), (seg (G pre) 0 n).map (·.2))) order
    (by
      intro pre c post hl
      have hc : c < n := hmem c (by rw [hl]; simp)
      have hcp : c ∉ pre := by
        rw [hl] at hnd
        have := (List.nodup_append.1 hnd).2.2
        intro hin
        exact this c hin c (by simp) rfl
      have hlenF : (seg (F pre) 0 n).length = psum (lens B) n := by
        rw [seg_length _ (Nat.zero_le _), hlF]; simp [psum]
      have hlenG : (seg (G pre) 0 n).length = psum (lens B) n := by
        rw [seg_length _ (Nat.zero_le _), hlG]; simp [psum]
      have hm1 : psum (lens B) c ≤ psum (lens B) (c + 1) := psum_mono (by omega)
      have hm2 : psum (lens B) (c + 1) ≤ psum (lens B) n := psum_mono hc
      have hFc : F pre c = B c := by rw [hF]; simp [hcp]
      have hFs : upd (F pre) c (sortf (B c)) = F (pre ++ [c]) := by
        funext x
        rw [hF]
        by_cases hx : x = c
        · subst hx; simp
        · rw [upd_ne _ _ hx]; simp [hx]
      have hGs : upd (G pre) c (sortf (B c)) = G (pre ++ [c]) := by
        funext x
        rw [hG]
        by_cases hx : x = c
        · subst hx; simp
        · rw [upd_ne _ _ hx]; simp [hx]
      have hslice : slice (seg (F pre) 0 n) (psum (lens B) c) (psum (lens B) (c + 1)) = B c := by
        rw [← hlF pre, seg_take_drop _ hc, hFc]
      have hsort : sortRange sortf (seg (F pre) 0 n) (psum (lens B) c) (psum (lens B) (c + 1)) =
          .ok (seg (F (pre ++ [c])) 0 n) := by
        unfold sortRange
        rw [if_pos ⟨hm1, by omega⟩, hslice, ← hFs, ← seg_replace hc, hlF]
      have hslice2 : slice (seg (F (pre ++ [c])) 0 n) (psum (lens B) c) (psum (lens B) (c + 1)) =
          sortf (B c) := by
        rw [← hlF (pre ++ [c]), seg_take_drop _ hc, hF]; simp
      have hlenF2 : (seg (F (pre ++ [c])) 0 n).length = psum (lens B) n := by
        rw [seg_length _ (Nat.zero_le _), hlF]; simp [psum]
      simp only []
      rw [rd_tab (by omega), ok_bind, rd_tab (by omega), ok_bind, hsort, ok_bind,
        copyRange_eq _ _ _ _ hm1 (by omega) (by omega), ok_bind, hslice2, ← hGs,
        ← seg_replace hc, hlG])
  rw [hF0, hG0] at key
  refine ⟨seg (F order) 0 n, Eq.trans key ?_⟩
  have hfin : seg (G order) 0 n = seg (fun c => sortf (B c)) 0 n := by
    apply seg_congr
    intro c _ hc
    rw [hG]
    simp only []
    rw [if_pos (ho.mem_iff.2 (by simpa using hc))]
  rw [hfin]

theorem cscOfTriples_eq {sortf : List (Nat × V) → List (Nat × V)} (hs : SortsBy Prod.fst sortf)
    (dflt : V) (triples : List (Nat × Nat × V)) (m n : Nat) (order : List Nat)
    (ho : order.Perm (List.range n)) (hc : ∀ t ∈ triples, t.2.1 < n) :
    cscOfTriples sortf order dflt triples m n = .ok (ofCols m n (tcol sortf triples)) := by
  unfold cscOfTriples
  simp only []
  have hlen : (titems triples).length = triples.length := by simp [titems]
  have hlt : ∀ x ∈ titems triples, x.1 < n := by
    intro x hx
    unfold titems at hx
    rw [List.mem_map] at hx
    obtain ⟨t, ht, rfl⟩ := hx
    exact hc t ht
  have hcnt := countKeys_eq (n := n) (titems triples) hlt
    (fun k => do let t ← rd triples k; .ok t.2.1) (by
      intro k hk
      rw [rd_of_lt (by omega), ok_bind]
      simp [titems])
  rw [hlen] at hcnt
  rw [hcnt, ok_bind]
  have htot := psum_cnt (titems triples) hlt
  have hl2 : lens (tcol sortf triples) = cnt (titems triples) := by
    funext c
    exact (hs.perm _).length_eq
  by_cases hn : triples.length > 0
  · rw [if_pos hn, cumulativeSum_eq, ok_bind]
    simp only []
    have hp := ptrArray n (cnt (titems triples))
    cases hw : wr (List.replicate (n + 1) 0) n (psum (cnt (titems triples)) n) with
    | error e => rw [hw] at hp; simp at hp
    | ok p =>
      rw [hw, ok_bind] at hp
      rw [ok_bind, hp, ok_bind]
      have hpl : forRange 0 triples.length (tab n (psum (cnt (titems triples))),
          List.replicate triples.length (0, dflt)) (fun k (work, tosort) => do
            let t ← rd triples k
            let last ← rd work t.2.1
            let work ← wr work t.2.1 (last + 1)
            let tosort ← wr tosort last (t.1, t.2.2)
            .ok (work, tosort)) =
          (titems triples).foldlM place1 (tab n (psum (cnt (titems triples))),
            List.replicate triples.length (0, dflt)) := by
        rw [forRange_eq_slice (L := titems triples) (g := place1) (by omega) (by
          rintro k hk _ _ ⟨w, t⟩
          have hk' : k < triples.length := by omega
          unfold place1
          simp only [rd_of_lt hk', ok_bind]
          simp [titems])]
        congr 1
        unfold slice
        rw [← hlen]
        simp
      obtain ⟨w, e1⟩ := place1_fold_seg (n := n) (titems triples) hlt (0, dflt)
      rw [hlen] at e1
      refine (congrArg (· >>= _) (hpl.trans e1)).trans ?_
      rw [ok_bind]
      simp only []
      obtain ⟨t, e2⟩ := colLoop (n := n) hs (bucket (titems triples)) (0, dflt) order ho
      rw [show lens (bucket (titems triples)) = cnt (titems triples) from rfl, htot, hlen] at e2
      simp only [List.map_replicate] at e2
      refine (congrArg (· >>= _) e2).trans ?_
      rw [ok_bind]
      simp only []
      congr 1
      unfold ofCols
      rw [hl2, htot, hlen]
      rfl
  · rw [if_neg hn]
    have h0 : triples = [] := List.eq_nil_of_length_eq_zero (by omega)
    subst h0
    congr 1
    have hz : ∀ k, psum (cnt (titems ([] : List (Nat × Nat × V)))) k = 0 := by
      intro k
      induction k with
      | zero => rfl
      | succ k ih => simp only [psum, ih]; rfl
    have hsg : seg (tcol sortf ([] : List (Nat × Nat × V))) 0 n = [] := by
      apply List.eq_nil_of_length_eq_zero
      rw [seg_length _ (Nat.zero_le _), hl2, hz]
      rfl
    unfold ofCols
    rw [hl2, hsg, hz, replicate_eq_tab]
    congr 1
    apply tab_ext
    intro i _
    rw [hz]

/-! ## From edges -/

theorem sortLoop {n : Nat} {key : α → Nat} {sortf : List α → List α} (hs : SortsBy key sortf)
    (B : Nat → List α) (order : List Nat) (ho : order.Perm (List.range n)) :
    order.foldlM (fun a i => do
      let b ← rd (tab (n + 1) (psum (lens B))) i
      let e ← rd (tab (n + 1) (psum (lens B))) (i + 1)
      sortRange sortf a b e) (seg B 0 n) =
      .ok (seg (fun c => sortf (B c)) 0 n) := by
  have hnd : order.Nodup := ho.nodup_iff.2 List.nodup_range
  have hmem : ∀ c ∈ order, c < n := fun c hc => by simpa using ho.mem_iff.1 hc
  obtain ⟨F, hF⟩ : ∃ F : List Nat → Nat → List α,
      F = fun pre c => if c ∈ pre then sortf (B c) else B c := ⟨_, rfl⟩
  have hlF : ∀ pre, lens (F pre) = lens B := by
    intro pre
    funext c
    unfold lens
    rw [hF]
    simp only []
    split
    · exact (hs.perm _).length_eq
    · rfl
  have hF0 : F [] = B := by funext c; rw [hF]; simp
  have key := foldlM_desc (f := fun (a : List α) i => do
      let b ← rd (tab (n + 1) (psum (lens B))) i
      let e ← rd (tab (n + 1) (psum (lens B))) (i + 1)
      sortRange sortf a b e)
    (fun pre => seg (F pre) 0 n) order
    (by
      intro pre c post hl
      have hc : c < n := hmem c (by rw [hl]; simp)
      have hcp : c ∉ pre := by
        rw [hl] at hnd
        have := (List.nodup_append.1 hnd).2.2
        intro hin
        exact this c hin c (by simp) rfl
      have hlenF : (seg (F pre) 0 n).length = psum (lens B) n := by
        rw [seg_length _ (Nat.zero_le _), hlF]; simp [psum]
      have hm1 : psum (lens B) c ≤ psum (lens B) (c + 1) := psum_mono (by omega)
      have hm2 : psum (lens B) (c + 1) ≤ psum (lens B) n := psum_mono hc
      have hFc : F pre c = B c := by rw [hF]; simp [hcp]
      have hFs : upd (F pre) c (sortf (B c)) = F (pre ++ [c]) := by
        funext x
        rw [hF]
        by_cases hx : x = c
        · subst hx; simp
        · rw [upd_ne _ _ hx]; simp [hx]
      have hslice : slice (seg (F pre) 0 n) (psum (lens B) c) (psum (lens B) (c + 1)) = B c := by
        rw [← hlF pre, seg_take_drop _ hc, hFc]
      rw [rd_tab (by omega), ok_bind, rd_tab (by omega), ok_bind]
      unfold sortRange
      rw [if_pos ⟨hm1, by omega⟩, hslice, ← hFs, ← seg_replace hc, hlF])
  rw [hF0] at key
  refine key.trans ?_
  congr 1
  apply seg_congr
  intro c _ hc
  rw [hF]
  simp only []
  rw [if_pos (ho.mem_iff.2 (by simpa using hc))]

/-- Writing `one` everywhere, in any order. -/
theorem fillOnes (m : Nat) (d one : V) (order : List Nat) (ho : order.Perm (List.range m)) :
    order.foldlM (fun values k => wr values k one) (List.replicate m d) =
      .ok (List.replicate m one) := by
  have hmem : ∀ c ∈ order, c < m := fun c hc => by simpa using ho.mem_iff.1 hc
  have key := foldlM_desc (f := fun (values : List V) k => wr values k one)
    (fun pre => tab m (fun i => if i ∈ pre then one else d)) order (by
      intro pre c post hl
      have hc : c < m := hmem c (by rw [hl]; simp)
      rw [wr_tab hc]
      congr 1
      apply tab_ext
      intro i _
      unfold upd
      by_cases hic : i = c
      · subst hic; simp
      · simp [hic])
  have h0 : List.replicate m d = tab m (fun i => if i ∈ ([] : List Nat) then one else d) := by
    rw [replicate_eq_tab]; apply tab_ext; intro i _; simp
  rw [h0, key, replicate_eq_tab]
  congr 1
  apply tab_ext
  intro i hi
  rw [if_pos (ho.mem_iff.2 (by simpa using hi))]

/-- Edges (row, column) keyed by column. -/
def eitems (edges : List (Nat × Nat)) : List (Nat × Nat) := edges.map fun t => (t.2, t.1)

/-- Column `c` of the matrix constructed from edges. -/
def ecol (sortf : List Nat → List Nat) (one : V) (edges : List (Nat × Nat)) (c : Nat) :
    List (Nat × V) := (sortf (bucket (eitems edges) c)).map fun r => (r, one)

theorem cscOfEdges_eq {sortf : List Nat → List Nat} (hs : SortsBy id sortf)
    (dflt one : V) (edges : List (Nat × Nat)) (m n : Nat) (order order2 : List Nat)
    (ho : order.Perm (List.range n)) (ho2 : order2.Perm (List.range edges.length))
    (hc : ∀ t ∈ edges, t.2 < n) :
    cscOfEdges sortf order order2 dflt one edges m n = .ok (ofCols m n (ecol sortf one edges)) := by
  unfold cscOfEdges
  simp only []
  have hlen : (eitems edges).length = edges.length := by simp [eitems]
  have hlt : ∀ x ∈ eitems edges, x.1 < n := by
    intro x hx
    unfold eitems at hx
    rw [List.mem_map] at hx
    obtain ⟨t, ht, rfl⟩ := hx
    exact hc t ht
  have hcnt := countKeys_eq (n := n) (eitems edges) hlt
    (fun k => do let t ← rd edges k; .ok t.2) (by
      intro k hk
      rw [rd_of_lt (by omega), ok_bind]
      simp [eitems])
  rw [hlen] at hcnt
  rw [hcnt, ok_bind]
  have htot := psum_cnt (eitems edges) hlt
  have hl2 : lens (ecol sortf one edges) = cnt (eitems edges) := by
    funext c
    unfold lens ecol
    rw [List.length_map]
    exact (hs.perm _).length_eq
  have hseg : seg (ecol sortf one edges) 0 n =
      (seg (fun c => sortf (bucket (eitems edges) c)) 0 n).map fun r => (r, one) := by
    unfold seg
    rw [List.map_flatMap]
    rfl
  by_cases hn : edges.length > 0
  · rw [if_pos hn, cumulativeSum_eq, ok_bind]
    simp only []
    have hp := ptrArray n (cnt (eitems edges))
    cases hw : wr (List.replicate (n + 1) 0) n (psum (cnt (eitems edges)) n) with
    | error e => rw [hw] at hp; simp at hp
    | ok p =>
      rw [hw, ok_bind] at hp
      rw [ok_bind, hp, ok_bind]
      have hpl : forRange 0 edges.length (tab n (psum (cnt (eitems edges))),
          List.replicate edges.length 0) (fun k (work, rowids) => do
            let t ← rd edges k
            let last ← rd work t.2
            let work ← wr work t.2 (last + 1)
            let rowids ← wr rowids last t.1
            .ok (work, rowids)) =
          (eitems edges).foldlM place1 (tab n (psum (cnt (eitems edges))),
            List.replicate edges.length 0) := by
        rw [forRange_eq_slice (L := eitems edges) (g := place1) (by omega) (by
          rintro k hk _ _ ⟨w, t⟩
          have hk' : k < edges.length := by omega
          unfold place1
          simp only [rd_of_lt hk', ok_bind]
          simp [eitems])]
        congr 1
        unfold slice
        rw [← hlen]
        simp
      obtain ⟨w, e1⟩ := place1_fold_seg (n := n) (eitems edges) hlt 0
      rw [hlen] at e1
      refine (congrArg (· >>= _) (hpl.trans e1)).trans ?_
      rw [ok_bind]
      simp only []
      have e2 := sortLoop (n := n) hs (bucket (eitems edges)) order ho
      rw [show lens (bucket (eitems edges)) = cnt (eitems edges) from rfl] at e2
      rw [e2, ok_bind, fillOnes _ _ _ _ ho2, ok_bind]
      congr 1
      have hl3 : (seg (fun c => sortf (bucket (eitems edges) c)) 0 n).length = edges.length := by
        have h1 : (seg (ecol sortf one edges) 0 n).length = edges.length := by
          rw [seg_length _ (Nat.zero_le _), hl2, htot, hlen]; simp [psum]
        rw [hseg, List.length_map] at h1
        exact h1
      unfold ofCols
      rw [hl2, htot, hlen, hseg, List.map_map, List.map_map]
      congr 1
      · exact (List.map_id' _).symm
      · refine (List.eq_replicate_iff.2 ⟨by rw [List.length_map, hl3], ?_⟩).symm
        intro x hx
        rw [List.mem_map] at hx
        obtain ⟨_, _, rfl⟩ := hx
        rfl
  · rw [if_neg hn]
    have h0 : edges = [] := List.eq_nil_of_length_eq_zero (by omega)
    subst h0
    congr 1
    have hz : ∀ k, psum (cnt (eitems [])) k = 0 := by
      intro k
      induction k with
      | zero => rfl
      | succ k ih => simp only [psum, ih]; rfl
    have hsg : seg (ecol sortf one []) 0 n = [] := by
      apply List.eq_nil_of_length_eq_zero
      rw [seg_length _ (Nat.zero_le _), hl2, hz]
      rfl
    unfold ofCols
    rw [hl2, hsg, hz, replicate_eq_tab]
    congr 1
    apply tab_ext
    intro i _
    rw [hz]

/-! ## Triples -/

theorem bucket_filter (l : List (Nat × α)) (n : Nat) :
    (bucket l n).map (fun x => (n, x)) = l.filter (fun x => decide (x.1 = n)) := by
  unfold bucket
  induction l with
  | nil => rfl
  | cons x l ih =>
    obtain ⟨k, x⟩ := x
    by_cases hk : k = n
    · subst hk; simpa using ih
    · simpa [hk] using ih

/-- Distributing items over buckets keeps them. -/
theorem bucket_perm {n : Nat} (l : List (Nat × α)) (h : ∀ x ∈ l, x.1 < n) :
    ((List.range n).flatMap fun r => (bucket l r).map fun x => (r, x)).Perm l := by
  have key : ∀ n, ((List.range n).flatMap fun r => (bucket l r).map fun x => (r, x)).Perm
      (l.filter fun x => decide (x.1 < n)) := by
    intro n
    induction n with
    | zero => simp
    | succ n ih =>
      rw [List.range_succ, List.flatMap_append]
      simp only [List.flatMap_cons, List.flatMap_nil, List.append_nil]
      rw [bucket_filter]
      have h1 := List.filter_append_perm (fun x : Nat × α => decide (x.1 < n))
        (l.filter fun x => decide (x.1 < n + 1))
      rw [List.filter_filter, List.filter_filter] at h1
      refine List.Perm.trans ?_ h1
      have e1 : (l.filter fun x => decide (x.1 < n) && decide (x.1 < n + 1)) =
          l.filter fun x => decide (x.1 < n) := by
        apply List.filter_congr
        intro x _
        by_cases hx : x.1 < n
        · have : x.1 < n + 1 := by omega
          simp [hx, this]
        · simp [hx]
      have e2 : (l.filter fun x => !decide (x.1 < n) && decide (x.1 < n + 1)) =
          l.filter fun x => decide (x.1 = n) := by
        apply List.filter_congr
        intro x _
        by_cases hx : x.1 = n
        · simp [hx]
        · by_cases h2 : x.1 < n
          · simp [h2, hx]
          · have : ¬ x.1 < n + 1 := by omega
            simp [hx, this]
      rw [e1, e2]
      exact ih.append_right _
  have h2 : l.filter (fun x => decide (x.1 < n)) = l := by
    rw [List.filter_eq_self]
    intro x hx
    simpa using h x hx
  have := key n
  rwa [h2] at this

theorem flatMap_perm_congr {β : Type} (l : List β) (f g : β → List α)
    (h : ∀ x ∈ l, (f x).Perm (g x)) : (l.flatMap f).Perm (l.flatMap g) := by
  induction l with
  | nil => exact List.Perm.refl _
  | cons x l ih =>
    simp only [List.flatMap_cons]
    exact (h x (by simp)).append (ih fun y hy => h y (by simp [hy]))

theorem flatMap_congr_mem {β : Type} (l : List β) (f g : β → List α)
    (h : ∀ x ∈ l, f x = g x) : l.flatMap f = l.flatMap g := by
  rw [List.flatMap_def, List.flatMap_def, List.map_congr_left h]

/-- The triples of a matrix given by its rows. -/
theorem triples_ofRows (rows cols : Nat) (zb : Bool) (exp : Nat → List (Nat × V)) :
    Spec.triples (ofRows rows cols zb exp) =
      (List.range rows).flatMap fun i => (exp i).map fun x => (i, x.1, x.2) := by
  apply flatMap_congr_mem
  intro i hi
  have hi : i < rows := List.mem_range.1 hi
  rw [ofRows_row _ _ _ _ hi]

theorem triplesC_ofCols (rows cols : Nat) (exp : Nat → List (Nat × V)) :
    Spec.triplesC (ofCols rows cols exp) =
      (List.range cols).flatMap fun j => (exp j).map fun x => (x.1, j, x.2) := by
  apply flatMap_congr_mem
  intro i hi
  have hi : i < cols := List.mem_range.1 hi
  rw [ofCols_col _ _ _ hi]

/-- The items of a CSC matrix come column by column. -/
theorem items_cols (csc : CSC V) : ((items csc).map fun x => x.2.1).Pairwise (· ≤ ·) := by
  unfold items
  rw [List.map_flatMap, List.pairwise_flatMap]
  refine ⟨?_, ?_⟩
  · intro j _
    rw [List.map_map, List.pairwise_map]
    exact List.pairwise_of_forall (fun _ _ => Nat.le_refl _)
  · refine List.Pairwise.imp ?_ (List.pairwise_lt_range (n := csc.cols))
    intro a b hab x hx y hy
    rw [List.map_map, List.mem_map] at hx hy
    obtain ⟨_, _, rfl⟩ := hx
    obtain ⟨_, _, rfl⟩ := hy
    exact Nat.le_of_lt hab

theorem bucket_sublist (l : List (Nat × α)) (r : Nat) : (bucket l r).Sublist (l.map (·.2)) := by
  unfold bucket
  induction l with
  | nil => exact List.Sublist.refl _
  | cons x l ih =>
    rw [List.filterMap_cons, List.map_cons]
    split
    · exact ih.cons _
    · rename_i y hy
      split at hy
      · cases hy; exact ih.cons_cons _
      · cases hy

theorem cscRow_le (csc : CSC V) (i : Nat) : ((cscRow csc i).map Prod.fst).Pairwise (· ≤ ·) := by
  have h1 := items_cols csc
  have h2 : ((items csc).map fun x => x.2.1) = ((items csc).map (·.2)).map Prod.fst := by
    rw [List.map_map]; rfl
  rw [h2] at h1
  exact h1.sublist ((bucket_sublist (items csc) i).map _)

/-- Different items with the same key have payloads with different first components. -/
theorem bucket_nodup (l : List (Nat × (Nat × V)))
    (h : l.Pairwise (fun a b => (a.1, a.2.1) ≠ (b.1, b.2.1))) (r : Nat) :
    ((bucket l r).map Prod.fst).Nodup := by
  have e : (bucket l r).map Prod.fst = (l.filter fun x => decide (x.1 = r)).map fun x => x.2.1 := by
    rw [← bucket_filter, List.map_map]
    rfl
  rw [e, List.Nodup, List.pairwise_map, List.pairwise_filter]
  refine h.imp ?_
  intro a b hab ha hb he
  simp only [decide_eq_true_eq] at ha hb
  exact hab (by rw [ha, hb, he])

theorem cscRow_lt {csc : CSC V} (h : csc.WF) (hnd : ∀ j < csc.cols, (csc.colRows j).Nodup)
    (i : Nat) : ((cscRow csc i).map Prod.fst).Pairwise (· < ·) := by
  have h1 : ((cscRow csc i).map Prod.fst).Nodup := by
    apply bucket_nodup
    unfold items
    rw [List.pairwise_flatMap]
    refine ⟨?_, ?_⟩
    · intro j hj
      have := hnd j (List.mem_range.1 hj)
      rw [← col_map_fst h, List.Nodup, List.pairwise_map] at this
      rw [List.pairwise_map]
      refine this.imp ?_
      intro a b hab he
      exact hab (Prod.mk.inj he).1
    · refine List.Pairwise.imp ?_ (List.pairwise_lt_range (n := csc.cols))
      intro a b hab x hx y hy he
      rw [List.mem_map] at hx hy
      obtain ⟨_, _, rfl⟩ := hx
      obtain ⟨_, _, rfl⟩ := hy
      have := (Prod.mk.inj he).2
      simp only at this
      omega
  exact List.Pairwise.imp₂ (fun a b h1 h2 => Nat.lt_of_le_of_ne h1 h2) (cscRow_le csc i) h1

theorem tbucket_nodup {ts : List (Nat × Nat × V)}
    (h : ts.Pairwise (fun a b => (a.1, a.2.1) ≠ (b.1, b.2.1))) (j : Nat) :
    ((bucket (titems ts) j).map Prod.fst).Nodup := by
  apply bucket_nodup
  unfold titems
  rw [List.pairwise_map]
  refine h.imp ?_
  intro a b hab he
  have h1 := (Prod.mk.inj he).1
  have h2 := (Prod.mk.inj he).2
  exact hab (by rw [h1, h2])

theorem tcol_perm {sortf : List (Nat × V) → List (Nat × V)} (hs : SortsBy Prod.fst sortf)
    (ts : List (Nat × Nat × V)) {m n : Nat} (hb : ∀ t ∈ ts, t.2.1 < n) :
    (Spec.triplesC (ofCols m n (tcol sortf ts))).Perm ts := by
  rw [triplesC_ofCols]
  have hlt : ∀ x ∈ titems ts, x.1 < n := by
    intro x hx
    unfold titems at hx
    rw [List.mem_map] at hx
    obtain ⟨t, ht, rfl⟩ := hx
    exact hb t ht
  have h1 := (bucket_perm (titems ts) hlt).map
    (fun x : Nat × (Nat × V) => (x.2.1, x.1, x.2.2))
  have e1 : (titems ts).map (fun x : Nat × (Nat × V) => (x.2.1, x.1, x.2.2)) = ts := by
    unfold titems
    rw [List.map_map]
    exact List.map_id' _
  rw [e1, List.map_flatMap] at h1
  refine List.Perm.trans (flatMap_perm_congr _ _ _ ?_) h1
  intro j _
  unfold tcol
  rw [List.map_map]
  exact ((hs.perm _).map _)

end Verif.Conv
