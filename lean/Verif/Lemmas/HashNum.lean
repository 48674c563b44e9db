import Verif.Lemmas.Hash

/-! # The numeric hash rows -/

namespace Verif.Model.Hash

open Msa (pr pr_snoc found found_nil found_snoc found_prods pr_visits not_mem_of_nodup_split
  dirtyOf mem_dirtyOf dirtyOf_nodup dirtyOf_visits)

variable {V : Type}

/-- Payload after the products `ps`: the flag is unset, or the value is their sum. -/
def PayN (add : V → V → V) (ps : List (Nat × V)) (x : Nat) (p : Val V) : Prop :=
  match Spec.sum1 add (pick ps x) with
  | none => p.v2 = some false
  | some v => p = ⟨some v, some true⟩

theorem PayN_nil {add : V → V → V} {x : Nat} {p : Val V} : PayN add [] x p ↔ p.v2 = some false := by
  simp [PayN, Spec.sum1]

theorem pick_snoc_ne {ps : List (Nat × V)} {c x : Nat} {w : V} (h : x ≠ c) : pick (ps ++ [(c, w)]) x = pick ps x := by
  have : ¬ (c = x) := fun h' => h h'.symm
  simp [pick_append, pick_cons, this]

theorem pick_snoc_self {ps : List (Nat × V)} {c : Nat} {w : V} : pick (ps ++ [(c, w)]) c = pick ps c ++ [w] := by
  simp [pick_append, pick_cons]

theorem PayN_snoc_ne {add : V → V → V} {ps : List (Nat × V)} {c x : Nat} {w : V} {p : Val V} (h : x ≠ c)
    (hp : PayN add ps x p) : PayN add (ps ++ [(c, w)]) x p := by
  unfold PayN at hp ⊢; rw [pick_snoc_ne h]; exact hp

section
variable {cap N : Nat} {f : Nat → Entry (Val V)} {ks : List Nat}

theorem insertM_ok {D : Nat → Prop} {Pay : Nat → Val V → Prop} (h : Rep cap N f D Pay)
    (he : ∃ q < N, (f q).key = none) {key : Nat} (hD : ¬ D key)
    (hp : ∀ p : Val V, p.v2 = some false → Pay key p) :
    ∃ f', (mkT cap N f ks).insertM key = .ok (mkT cap N f' ks, true) ∧
      Rep cap N f' (fun x => x = key ∨ D x) Pay := by
  obtain ⟨i, hi, h1, h2⟩ := Rep.find (ks := ks) h he key
  have hic : i < cap := Nat.lt_of_lt_of_le hi h.le
  unfold Tbl.insertM
  simp only [h1, ok_bind, mkT_table, rd_tab hic]
  rcases h2 with ⟨hD', _⟩ | ⟨_, hk, hins⟩
  · exact absurd hD' hD
  · rw [if_neg (by rw [hk]; simp)]
    simp only [put_eq hic, ok_bind]
    exact ⟨_, rfl, hins Pay _ (hp _ rfl) (fun _ _ _ _ hp => hp)⟩

/-- Inserting mask columns, some of them repeatedly. -/
theorem insertsM_ok (add : V → V → V) (hN : Pow2 N)
    (hc : N ≤ cap) (hf : ∀ i < cap, (f i).key = none) {ms : List Nat} (hlen : ms.length < N) :
    ∃ f', ms.foldlM (fun t c => (do
        let r ← Tbl.insertM t c
        .ok r.1 : Res (Tbl (Val V)))) (mkT cap N f ks) = .ok (mkT cap N f' ks) ∧
      Rep cap N f' (· ∈ ms) (PayN add []) := by
  obtain ⟨s, h1, f', rfl, h2⟩ := foldlM_inv (f := fun t c => (do
        let r ← Tbl.insertM t c
        .ok r.1 : Res (Tbl (Val V))))
    (fun pre s => ∃ f', s = mkT cap N f' ks ∧ Rep cap N f' (· ∈ pre) (PayN add [])) ms (mkT cap N f ks)
    ⟨f, rfl, (Rep.empty (Pay := PayN add []) hN hc hf).mono (by simp) (fun _ _ h _ => h.elim)⟩ (by
      rintro pre a post s hl ⟨g, rfl, hg⟩
      have hroom := hg.room (l := pre) (fun x hx => hx) (by rw [hl] at hlen; simp at hlen; omega)
      by_cases ha : a ∈ pre
      · obtain ⟨i, hi, e1, e2⟩ := Rep.find (ks := ks) hg hroom a
        have hic : i < cap := Nat.lt_of_lt_of_le hi hg.le
        rcases e2 with ⟨_, hk, _⟩ | ⟨hn, _⟩
        · refine ⟨mkT cap N g ks, ?_, g, rfl, hg.mono ?_ (fun _ _ _ h => h)⟩
          · unfold Tbl.insertM
            simp only [e1, ok_bind, mkT_table, rd_tab hic]
            rw [if_pos (by rw [hk]; simp)]; rfl
          · intro x
            simp only [List.mem_append, List.mem_singleton]
            exact ⟨fun h => h.elim id (fun h => h ▸ ha), Or.inl⟩
        · exact absurd ha hn
      · obtain ⟨g', r1, r3⟩ := insertM_ok (ks := ks) hg hroom ha (fun p hp => PayN_nil.2 hp)
        refine ⟨mkT cap N g' ks, by rw [r1]; rfl, g', rfl, r3.mono ?_ (fun _ _ _ h => h)⟩
        intro x; simp [or_comm])
  exact ⟨f', h1, h2⟩

/-- Loop body of `numericRow` for one product. -/
def stepN (mul add : V → V → V) (t : Tbl (Val V)) (x : Nat × V × V) : Res (Tbl (Val V)) := do
  let idx ← t.find x.1
  match idx with
  | none => .ok t
  | some idx => do
    let e ← rd t.table idx
    let b ← use e.val.v2
    if b then do
      let v ← use e.val.v1
      t.put idx { e with val := { e.val with v1 := some (add v (mul x.2.1 x.2.2)) } }
    else
      t.put idx { e with val := { v1 := some (mul x.2.1 x.2.2), v2 := some true } }

theorem accumN_ok {mul add : V → V → V} {ms : List Nat} (hf : Rep cap N f (· ∈ ms) (PayN add []))
    (hlen : ms.length < N) (vs : List (Nat × V × V)) :
    ∃ f', vs.foldlM (stepN mul add) (mkT cap N f ks) = .ok (mkT cap N f' ks) ∧
      Rep cap N f' (· ∈ ms) (PayN add (pr mul vs)) := by
  obtain ⟨s, h1, f', rfl, h2⟩ := foldlM_inv (f := stepN mul add)
    (fun pre s => ∃ f', s = mkT cap N f' ks ∧ Rep cap N f' (· ∈ ms) (PayN add (pr mul pre))) vs (mkT cap N f ks)
    ⟨f, rfl, hf⟩ (by
      rintro pre a post s hl ⟨g, rfl, hg⟩
      have hroom := hg.room (l := ms) (fun x hx => hx) hlen
      obtain ⟨r, r1, r2⟩ := hg.find' (ks := ks) hroom a.1
      unfold stepN
      simp only [r1, ok_bind]
      rcases r2 with ⟨i, rfl, hi, hD, hk, hp⟩ | ⟨rfl, hD⟩
      · have hic : i < cap := Nat.lt_of_lt_of_le hi hg.le
        simp only [mkT_table, rd_tab hic, ok_bind, put_eq hic]
        have hgi : g i = ⟨some a.1, (g i).val⟩ := by rw [← hk]
        unfold PayN at hp
        cases hs : Spec.sum1 add (pick (pr mul pre) a.1) with
        | none =>
          rw [hs] at hp
          simp only at hp
          simp only [hp, use_some, ok_bind, Bool.false_eq_true, if_false]
          refine ⟨_, rfl, _, rfl, ?_⟩
          rw [hk]
          refine hg.update hi hk ?_ ?_
          · unfold PayN
            rw [pr_snoc, pick_snoc_self, sum1_append_singleton, hs]
          · intro x p hx _ hp
            rw [pr_snoc]; exact PayN_snoc_ne hx hp
        | some v =>
          rw [hs] at hp
          simp only at hp
          simp only [hp, use_some, ok_bind, if_true]
          refine ⟨_, rfl, _, rfl, ?_⟩
          rw [hk]
          refine hg.update hi hk ?_ ?_
          · unfold PayN
            rw [pr_snoc, pick_snoc_self, sum1_append_singleton, hs]
          · intro x p hx _ hp
            rw [pr_snoc]; exact PayN_snoc_ne hx hp
      · refine ⟨_, rfl, g, rfl, hg.mono (fun _ => Iff.rfl) ?_⟩
        intro x p hx hp
        rw [pr_snoc]
        exact PayN_snoc_ne (fun h => hD (h ▸ hx)) hp)
  exact ⟨f', h1, h2⟩

/-- `gather` over stored keys writes their sums and empties their slots. -/
theorem gather_ok {D : Nat → Prop} {Pay : Nat → Val V → Prop} {add : V → V → V} {ps : List (Nat × V)}
    (hf : Rep cap N f D Pay) {K : List Nat} (hn : K.Nodup) (hK : ∀ x ∈ K, D x)
    (hP : ∀ x ∈ K, ∀ p, Pay x p → PayN add ps x p) :
    ∃ f', K.foldlM Tbl.gather1 (mkT cap N f ks, []) = .ok (mkT cap N f' ks, found add ps K) ∧
      Punched N f f' K := by
  obtain ⟨s, h1, f', rfl, h2⟩ := foldlM_inv (f := Tbl.gather1)
    (fun pre s => ∃ f', s = (mkT cap N f' ks, found add ps pre) ∧ Punched N f f' pre) K (mkT cap N f ks, [])
    ⟨f, rfl, Punched.nil⟩ (by
      rintro pre a post s hl ⟨g, rfl, hg⟩
      have ha : a ∈ K := by rw [hl]; simp
      obtain ⟨i, hi, r1, r2, r3, r4⟩ := hg.step (ks := ks) hf (not_mem_of_nodup_split hn hl) (hK a ha)
      have hic : i < cap := Nat.lt_of_lt_of_le hi hf.le
      have hp := hP a ha _ (hf.pay i hi a r3)
      unfold Tbl.gather1
      simp only [r1, ok_bind, mkT_table, rd_tab hic, put_eq hic, r2, r3, found_snoc]
      unfold PayN at hp
      cases hs : Spec.sum1 add (pick ps a) with
      | none =>
        rw [hs] at hp
        simp only at hp
        simp only [hp, use_some, ok_bind, Bool.false_eq_true, if_false, List.append_nil]
        exact ⟨_, rfl, _, rfl, r4 _ rfl⟩
      | some v =>
        rw [hs] at hp
        simp only at hp
        simp only [hp, use_some, ok_bind, if_true]
        exact ⟨_, rfl, _, rfl, r4 _ rfl⟩)
  exact ⟨f', h1, h2⟩

theorem numericRow_ok {A B M : CSR V} {row : Nat} (h : Msa.Ok A B M row) (mul add : V → V → V) {cap : Nat}
    (hcap : adjustSize (M.rowCols row).length ≤ cap) {t : Tbl (Val V)} (ht : Clean cap t) :
    ∃ t', numericRow mul add A B M row t = .ok (t', maskedRow mul add A B M row) ∧ Clean cap t' := by
  obtain ⟨N, f, rfl, hf⟩ := ht
  unfold numericRow
  simp only [maskLen_eq h.wfM h.ltM, ok_bind, resize_ok hcap, maskLoop_eq h.wfM h.ltM]
  obtain ⟨f1, r1, r2⟩ := insertsM_ok (ks := []) add (adjustSize_pow2 (M.rowCols row).length) hcap hf
    (lt_adjustSize (Nat.le_refl _))
  erw [r1]
  simp only [ok_bind]
  rw [nest_eq h.wfA h.wfB h.sh.ab h.lt _ _ (stepN mul add) (by
      intro j k s hj hk hk'
      simp only [rd_of_lt hj, rd_of_lt hk, rd_of_lt hk', ok_bind, stepN]
      congr 1)]
  obtain ⟨f2, r3, r4⟩ := accumN_ok (ks := []) (mul := mul) r2 (lt_adjustSize (Nat.le_refl _)) (visits A B row)
  rw [r3]
  simp only [ok_bind]
  obtain ⟨f3, r5, r6⟩ := gather_ok (ks := []) r4 h.nodup (fun x hx => hx) (fun _ _ _ hp => hp)
  refine ⟨mkT cap (adjustSize (M.rowCols row).length) f3 [], ?_, _, f3, rfl, r6.all r4 (fun _ hx => hx)⟩
  refine Eq.trans r5 ?_
  rw [pr_visits, found_prods]; rfl

/-! ## Complement -/

/-- Loop body of the complemented `numericRow` for one product. -/
def stepC (mul add : V → V → V) (t : Tbl (Val V)) (x : Nat × V × V) : Res (Tbl (Val V)) := do
  let idx ← t.findIdx x.1
  let e ← rd t.table idx
  if e.key = none then t.insertAt idx x.1 (mul x.2.1 x.2.2) true
  else do
    let b ← use e.val.v2
    if b then do
      let v ← use e.val.v1
      t.put idx { e with val := { e.val with v1 := some (add v (mul x.2.1 x.2.2)) } }
    else .ok t

/-- Payload in the complemented row: mask keys stay unset, others hold their sum. -/
def PayC (add : V → V → V) (ms : List Nat) (ps : List (Nat × V)) (x : Nat) (p : Val V) : Prop :=
  (x ∈ ms → p.v2 = some false) ∧ (x ∉ ms → ∃ v, Spec.sum1 add (pick ps x) = some v ∧ p = ⟨some v, some true⟩)

theorem PayC_snoc_ne {add : V → V → V} {ms : List Nat} {ps : List (Nat × V)} {c x : Nat} {w : V} {p : Val V}
    (h : x ∈ ms ∨ x ≠ c) (hp : PayC add ms ps x p) : PayC add ms (ps ++ [(c, w)]) x p := by
  refine ⟨hp.1, fun hx => ?_⟩
  rcases h with h | h
  · exact absurd h hx
  · rw [pick_snoc_ne h]; exact hp.2 hx

theorem dirtyOf_snoc (ms : List Nat) (vs : List (Nat × V × V)) (x : Nat × V × V) :
    dirtyOf ms (vs ++ [x]) = if x.1 ∈ ms ∨ x.1 ∈ dirtyOf ms vs then dirtyOf ms vs else dirtyOf ms vs ++ [x.1] := by
  by_cases hm : x.1 ∈ ms
  · simp [Msa.dirtyOf_snoc_blocked hm, hm]
  · by_cases hd : x.1 ∈ dirtyOf ms vs
    · simp [Msa.dirtyOf_snoc_old hd, hd]
    · simp only [hm, hd, or_self, if_false]
      simp only [dirtyOf] at hd ⊢
      simp only [List.map_append, List.map_cons, List.map_nil, List.filter_append]
      simp only [hm, not_false_eq_true, decide_true, List.filter_cons_of_pos, List.filter_nil,
        firsts_append_singleton, hd, if_false]

theorem accumC_ok {mul add : V → V → V} {ms l : List Nat} (hf : Rep cap N f (· ∈ ms) (PayN add []))
    (hlen : l.length < N) (vs : List (Nat × V × V)) (hml : ∀ x ∈ ms, x ∈ l) (hvl : ∀ x ∈ vs, x.1 ∈ l) :
    ∃ f', vs.foldlM (stepC mul add) (mkT cap N f []) = .ok (mkT cap N f' (dirtyOf ms vs)) ∧
      Rep cap N f' (fun x => x ∈ ms ∨ x ∈ dirtyOf ms vs) (PayC add ms (pr mul vs)) ∧
      ∀ i, ∀ x ∈ ms, (f' i).key = some x ↔ (f i).key = some x := by
  obtain ⟨s, h1, f', rfl, h2, h3⟩ := foldlM_inv (f := stepC mul add)
    (fun pre s => ∃ f', s = mkT cap N f' (dirtyOf ms pre) ∧
      Rep cap N f' (fun x => x ∈ ms ∨ x ∈ dirtyOf ms pre) (PayC add ms (pr mul pre)) ∧
      ∀ i, ∀ x ∈ ms, (f' i).key = some x ↔ (f i).key = some x) vs (mkT cap N f [])
    ⟨f, rfl, hf.mono (by simp [dirtyOf]) (fun x p hx hp => ⟨fun _ => PayN_nil.1 hp, fun h => absurd hx h⟩),
      fun _ _ _ => Iff.rfl⟩ (by
      rintro pre a post s hl ⟨g, rfl, hg, hst⟩
      have hroom := hg.room (l := l) (by
        rintro x (hx | hx)
        · exact hml x hx
        · obtain ⟨_, y, hy, rfl⟩ := mem_dirtyOf.1 hx
          exact hvl y (by rw [hl]; simp [hy])) hlen
      obtain ⟨i, hi, r1, r2⟩ := hg.find (ks := dirtyOf ms pre) hroom a.1
      have hic : i < cap := Nat.lt_of_lt_of_le hi hg.le
      unfold stepC
      simp only [r1, ok_bind, mkT_table, rd_tab hic]
      rcases r2 with ⟨hD, hk, hp⟩ | ⟨hD, hk, hins⟩
      · rw [if_neg (by rw [hk]; simp)]
        have hd' : dirtyOf ms (pre ++ [a]) = dirtyOf ms pre := by rw [dirtyOf_snoc, if_pos hD]
        rw [hd']
        by_cases hm : a.1 ∈ ms
        · simp only [hp.1 hm, use_some, ok_bind, Bool.false_eq_true, if_false]
          refine ⟨_, rfl, g, rfl, hg.mono (fun _ => Iff.rfl) ?_, hst⟩
          intro x p hx hp
          rw [pr_snoc]
          apply PayC_snoc_ne _ hp
          by_cases hxa : x = a.1
          · exact .inl (hxa ▸ hm)
          · exact .inr hxa
        · obtain ⟨v, hv, hpv⟩ := hp.2 hm
          simp only [hpv, use_some, ok_bind, if_true, put_eq hic]
          refine ⟨_, rfl, _, rfl, ?_, ?_⟩
          · rw [hk]
            refine hg.update hi hk ?_ ?_
            · refine ⟨fun h => absurd h hm, fun _ => ?_⟩
              rw [pr_snoc, pick_snoc_self, sum1_append_singleton, hv]
              exact ⟨_, rfl, rfl⟩
            · intro x p hx _ hp
              rw [pr_snoc]; exact PayC_snoc_ne (.inr hx) hp
          · intro j x hx
            rw [← hst j x hx]
            by_cases hj : j = i
            · subst hj; rw [upd_same]
            · rw [upd_ne _ _ hj]
      · rw [if_pos hk]
        have hd' : dirtyOf ms (pre ++ [a]) = dirtyOf ms pre ++ [a.1] := by rw [dirtyOf_snoc, if_neg hD]
        rw [hd']
        have hm : a.1 ∉ ms := fun h => hD (.inl h)
        simp only [Tbl.insertAt, put_eq hic, ok_bind]
        refine ⟨_, rfl, _, rfl, ?_, ?_⟩
        · refine (hins (PayC add ms (pr mul (pre ++ [a]))) _ ?_ ?_).mono ?_ (fun _ _ _ hp => hp)
          · refine ⟨fun h => absurd h hm, fun _ => ?_⟩
            have hnone : Spec.sum1 add (pick (pr mul pre) a.1) = none := by
              rw [Msa.sum1_pr_none]
              intro hx
              exact hD (.inr (mem_dirtyOf.2 ⟨hm, hx⟩))
            rw [pr_snoc, pick_snoc_self, sum1_append_singleton, hnone]
            exact ⟨_, rfl, rfl⟩
          · intro x p hx _ hp
            rw [pr_snoc]; exact PayC_snoc_ne (.inr hx) hp
          · intro x
            simp only [List.mem_append, List.mem_singleton]
            constructor
            · rintro (h | h | h)
              · exact .inr (.inl h)
              · exact .inr (.inr h)
              · exact .inl h
            · rintro (h | h | h)
              · exact .inr (.inr h)
              · exact .inl h
              · exact .inr (.inl h)
        · intro j x hx
          rw [← hst j x hx]
          by_cases hj : j = i
          · subst hj; rw [upd_same, hk]
            simp only [Option.some.injEq, reduceCtorEq, iff_false]
            intro h; exact hm (h ▸ hx)
          · rw [upd_ne _ _ hj])
  exact ⟨f', h1, h2, h3⟩

theorem erases_ok {D : Nat → Prop} {Pay : Nat → Val V → Prop} (hf : Rep cap N f D Pay) {ms : List Nat}
    (hD : ∀ x, D x ↔ x ∈ ms) (hlen : ms.length < N) :
    ∃ f', ms.foldlM (fun t c => (do
        let r ← Tbl.erase t c
        .ok r.1 : Res (Tbl (Val V)))) (mkT cap N f ks) = .ok (mkT cap N f' ks) ∧ ∀ i < cap, (f' i).key = none := by
  obtain ⟨s, h1, f', rfl, h2⟩ := foldlM_inv (f := fun t c => (do
        let r ← Tbl.erase t c
        .ok r.1 : Res (Tbl (Val V))))
    (fun pre s => ∃ f', s = mkT cap N f' ks ∧ Rep cap N f' (fun x => x ∈ ms ∧ x ∉ pre) Pay) ms (mkT cap N f ks)
    ⟨f, rfl, hf.mono (by simp [hD]) (fun _ _ _ hp => hp)⟩ (by
      rintro pre a post s hl ⟨g, rfl, hg⟩
      have hroom := hg.room (l := ms) (fun x hx => hx.1) hlen
      obtain ⟨g', b, r1, r2, r3⟩ := Rep.erase (ks := ks) hg hroom a
      refine ⟨mkT cap N g' ks, by rw [r1]; rfl, g', rfl, r3.mono ?_ (fun _ _ _ hp => hp)⟩
      intro x
      simp only [List.mem_append, List.mem_singleton, not_or]
      constructor
      · rintro ⟨h1, h2, h3⟩; exact ⟨h3, h1, h2⟩
      · rintro ⟨h1, h2, h3⟩; exact ⟨h2, h3, h1⟩)
  exact ⟨f', h1, h2.all_none (fun x hx => hx.2 hx.1)⟩

/-- The complemented row, for masks that may repeat columns. -/
theorem numericRowC_okD {A B M : CSR V} {row : Nat} (hA : A.WF) (hB : B.WF) (hM : M.WF) (sh : Spec.Shapes A B M)
    (hr : row < A.rows) (sorted : Bool) (mul add : V → V → V)
    {cap flops : Nat} (hcap : adjustSize ((M.rowCols row).length + flops) ≤ cap)
    (hfl : (complCols A B M row).length ≤ flops) {t : Tbl (Val V)} (ht : Clean cap t) :
    ∃ t', numericRowC sorted mul add A B M row flops t = .ok (t', complRow sorted mul add A B M row) ∧
      Clean cap t' := by
  obtain ⟨N, f, rfl, hf⟩ := ht
  unfold numericRowC
  simp only [maskLen_eq hM (sh.ma ▸ hr : row < M.rows), ok_bind, resize_ok hcap, maskLoop_eq hM (sh.ma ▸ hr : row < M.rows)]
  generalize hS : adjustSize ((M.rowCols row).length + flops) = S at *
  have hSp : Pow2 S := hS ▸ adjustSize_pow2 _
  have hms : (M.rowCols row).length < S := hS ▸ lt_adjustSize (Nat.le_add_right _ _)
  have hl : ((M.rowCols row) ++ complCols A B M row).length < S := by
    rw [← hS]; apply lt_adjustSize; rw [List.length_append]; omega
  obtain ⟨f1, r1, r2⟩ := insertsM_ok (ks := []) add hSp hcap hf hms
  erw [r1]
  simp only [ok_bind]
  rw [nest_eq hA hB sh.ab hr _ _ (stepC mul add) (by
      intro j k s hj hk hk'
      simp only [rd_of_lt hj, rd_of_lt hk, rd_of_lt hk', ok_bind, stepC])]
  obtain ⟨f2, r3, r4, r5⟩ := accumC_ok (mul := mul) r2 hl (visits A B row)
    (fun x hx => List.mem_append_left _ hx) (by
      intro x hx
      rw [List.mem_append]
      by_cases hm : x.1 ∈ M.rowCols row
      · exact .inl hm
      · right; rw [← dirtyOf_visits]; exact mem_dirtyOf.2 ⟨hm, x, hx, rfl⟩)
  rw [r3]
  simp only [ok_bind, Tbl.gatherList, mkT_keys, Tbl.gather]
  rw [dirtyOf_visits] at *
  generalize hK : (if sorted = true then (complCols A B M row).mergeSort (· ≤ ·) else complCols A B M row) = K
  have hperm : K.Perm (complCols A B M row) := by
    rw [← hK]; cases sorted
    · exact List.Perm.refl _
    · exact List.mergeSort_perm _ _
  have hKm : ∀ x, x ∈ K → x ∉ M.rowCols row := by
    intro x hx
    have := hperm.mem_iff.1 hx
    rw [← dirtyOf_visits] at this
    exact (mem_dirtyOf.1 this).1
  obtain ⟨f3, r6, r7⟩ := gather_ok (ks := complCols A B M row) (add := add) (ps := pr mul (visits A B row)) r4
    (hperm.nodup_iff.2 (complCols_nodup A B M row)) (fun x hx => .inr (hperm.mem_iff.1 hx)) (by
      intro x hx p hp
      obtain ⟨v, hv, hpv⟩ := hp.2 (hKm x hx)
      unfold PayN; rw [hv]; exact hpv)
  rw [r6]
  simp only [ok_bind]
  -- the table is back to the state after the mask insertions
  have hkeys : ∀ i, i < S → (f3 i).key = (f1 i).key := by
    intro i hi
    by_cases hx : i < S ∧ ∃ x ∈ K, (f2 i).key = some x
    · rw [(r7 i).1 hx]
      obtain ⟨_, x, hxK, hxi⟩ := hx
      cases hk : (f1 i).key with
      | none => rfl
      | some y =>
        have hy : y ∈ M.rowCols row := (r2.dom y).2 ⟨i, hi, hk⟩
        have := (r5 i y hy).2 hk
        rw [hxi] at this; cases this
        exact absurd hy (hKm _ hxK)
    · rw [(r7 i).2 hx]
      cases hk : (f2 i).key with
      | none =>
        cases hk1 : (f1 i).key with
        | none => rfl
        | some y =>
          have hy : y ∈ M.rowCols row := (r2.dom y).2 ⟨i, hi, hk1⟩
          have := (r5 i y hy).2 hk1
          rw [hk] at this; simp at this
      | some y =>
        rcases (r4.dom y).2 ⟨i, hi, hk⟩ with hy | hy
        · exact ((r5 i y hy).1 hk).symm
        · exact absurd ⟨hi, y, hperm.mem_iff.2 hy, hk⟩ hx
  have r8 : Rep cap S f3 (· ∈ M.rowCols row) (fun _ _ => True) := by
    refine ⟨hSp, hcap, r2.good.congr hkeys, ?_, fun _ _ _ _ => trivial, ?_⟩
    · intro x
      rw [r2.dom x]
      constructor
      · rintro ⟨i, hi, hx⟩; exact ⟨i, hi, by rw [hkeys i hi]; exact hx⟩
      · rintro ⟨i, hi, hx⟩; exact ⟨i, hi, by rw [← hkeys i hi]; exact hx⟩
    · intro i h1 h2
      rw [(r7 i).2 (by omega)]
      exact r4.rest i h1 h2
  obtain ⟨f4, r9, r10⟩ := erases_ok (ks := []) r8 (fun _ => Iff.rfl) hms
  erw [r9]
  simp only [ok_bind]
  refine ⟨mkT cap S f4 [], ?_, _, f4, rfl, r10⟩
  rw [pr_visits, found_prods]
  unfold complRow
  rw [hK]

theorem numericRowC_ok {A B M : CSR V} {row : Nat} (h : Msa.Ok A B M row) (sorted : Bool) (mul add : V → V → V)
    {cap flops : Nat} (hcap : adjustSize ((M.rowCols row).length + flops) ≤ cap)
    (hfl : (complCols A B M row).length ≤ flops) {t : Tbl (Val V)} (ht : Clean cap t) :
    ∃ t', numericRowC sorted mul add A B M row flops t = .ok (t', complRow sorted mul add A B M row) ∧
      Clean cap t' :=
  numericRowC_okD h.wfA h.wfB h.wfM h.sh h.lt sorted mul add hcap hfl ht

end

end Verif.Model.Hash
