import Verif.Model.Spa
import Verif.Lemmas.TwoPass
import Verif.Lemmas.HashMult
import Verif.Lemmas.HeapAlg

/-! # The sparse accumulator kernel -/

namespace Verif.Model.Spa

variable {V : Type}

/-- Flags after the mask row `m` has been set and the products with columns `pre` have been inserted. -/
def flagOf (m pre : List Nat) (c : Nat) : Nat := if c ∈ m then (if c ∈ pre then 2 else 1) else 0

theorem clearFlags_ok {cols : Nat} {m pre : List Nat} (hm : ∀ c ∈ m, c < cols) :
    clearFlags m (tab cols (flagOf m pre)) = .ok (tab cols fun _ => 0) := by
  unfold clearFlags
  have := foldlM_desc (f := fun (flags : List Nat) index => wr flags index 0)
    (fun done => tab cols fun c => if c ∈ done then 0 else flagOf m pre c) m (by
      intro done a post hl
      rw [wr_tab (hm a (by simp [hl]))]
      congr 1
      apply tab_ext
      intro c _
      by_cases h : c = a
      · subst h; rw [upd_same]; simp
      · rw [upd_ne _ _ h]; simp [h])
  simp only [List.not_mem_nil, if_false] at this
  rw [this]
  congr 1
  apply tab_ext
  intro c _
  unfold flagOf
  split <;> rfl

theorem flag_snoc {m pre : List Nat} {c : Nat} : ∀ j, flagOf m (pre ++ [c]) j = if j = c ∧ c ∈ m then 2 else flagOf m pre j := by
  intro j
  unfold flagOf
  by_cases h : j = c
  · subst h; by_cases hm : j ∈ m <;> simp [hm]
  · simp [h]

theorem allow_loop {cols : Nat} {m : List Nat} (hm : ∀ c ∈ m, c < cols) :
    m.foldlM (fun (s : Str) c => s.allow c) { committed := 0, flags := tab cols fun _ => 0, possible := [] } =
      .ok { committed := 0, flags := tab cols (flagOf m []), possible := m } := by
  have := foldlM_desc (f := fun (s : Str) c => s.allow c)
    (fun done => ({ committed := 0, flags := tab cols (flagOf done []), possible := done } : Str)) m (by
      intro done a post hl
      unfold Str.allow
      simp only [wr_tab (hm a (by simp [hl])), ok_bind]
      congr 2
      apply tab_ext
      intro c _
      unfold flagOf
      by_cases h : c = a
      · subst h; rw [upd_same]; simp
      · rw [upd_ne _ _ h]; simp [h])
  refine Eq.trans ?_ this
  congr 2

theorem count_loop {cols : Nat} {m : List Nat} (L : List Nat) (hL : ∀ c ∈ L, c < cols) :
    L.foldlM (fun (s : Str) c => s.insert c) { committed := 0, flags := tab cols (flagOf m []), possible := m } =
      .ok { committed := (firsts (L.filter fun c => decide (c ∈ m))).length, flags := tab cols (flagOf m L), possible := m } := by
  refine foldlM_desc (f := fun (s : Str) c => s.insert c)
    (fun pre => ({ committed := (firsts (pre.filter fun c => decide (c ∈ m))).length, flags := tab cols (flagOf m pre), possible := m } : Str)) L ?_
  intro pre c post hl
  have hc : c < cols := hL c (by simp [hl])
  unfold Str.insert
  simp only [rd_tab hc, ok_bind]
  rw [List.filter_append]
  by_cases hm : c ∈ m
  · have hf : ([c].filter fun c => decide (c ∈ m)) = [c] := by simp [hm]
    rw [hf, firsts_append_singleton]
    by_cases hp : c ∈ pre
    · have h1 : flagOf m pre c = 2 := by unfold flagOf; simp [hm, hp]
      rw [h1, if_neg (by omega), if_pos (by rw [mem_firsts, List.mem_filter]; simp [hm, hp])]
      congr 2
      apply tab_ext
      intro j _
      rw [flag_snoc]
      split
      · rename_i h; rw [h.1, h1]
      · rfl
    · have h1 : flagOf m pre c = 1 := by unfold flagOf; simp [hm, hp]
      rw [h1, if_pos rfl, if_neg (by rw [mem_firsts, List.mem_filter]; simp [hp]), wr_tab hc, List.length_append]
      simp only [ok_bind, List.length_cons, List.length_nil]
      congr 2
      apply tab_ext
      intro j _
      rw [flag_snoc]
      by_cases h : j = c
      · subst h; rw [upd_same, if_pos ⟨rfl, hm⟩]
      · rw [upd_ne _ _ h, if_neg (by simp [h])]
  · have hf : ([c].filter fun c => decide (c ∈ m)) = [] := by simp [hm]
    have h1 : flagOf m pre c = 0 := by unfold flagOf; simp [hm]
    rw [hf, List.append_nil, h1, if_neg (by omega)]
    congr 2
    apply tab_ext
    intro j _
    rw [flag_snoc, if_neg (by simp [hm])]

theorem countRow_ok {A B M : CSR V} (h : Spec.Valid A B M) {i : Nat} (hi : i < A.rows) (g : Nat → Nat) :
    countRow A B M i (tab A.rows g) { committed := 0, flags := tab B.cols fun _ => 0, possible := [] } =
      .ok (tab A.rows (upd g i (touchedIn A B M i).length),
        { committed := 0, flags := tab B.cols fun _ => 0, possible := [] }) := by
  have hiM : i < M.rows := by rw [h.shapes.ma]; exact hi
  have hm : ∀ c ∈ M.rowCols i, c < B.cols := fun c hc => by
    have := CSR.rowCols_lt h.wfM hc
    rwa [h.shapes.mb] at this
  unfold countRow
  rw [maskLoop_eq h.wfM hiM, allow_loop hm, ok_bind, nest_eq h.wfA h.wfB h.shapes.ab hi _ _ (fun (s : Str) x => s.insert x.1) (by
    intro j k s hj hk hk'; simp only [rd_of_lt hk, ok_bind])]
  have := count_loop (cols := B.cols) (m := M.rowCols i) ((visits A B i).map (fun x => x.1)) (by
    intro c hc
    obtain ⟨x, hx, rfl⟩ := List.mem_map.1 hc
    exact visits_lt h.wfB hx)
  rw [foldlM_map] at this
  rw [this]
  simp only [ok_bind, wr_tab hi]
  unfold Str.reset
  simp only [clearFlags_ok hm, ok_bind]
  rfl

/-! ## Second pass -/

theorem allowA_loop {cols : Nat} {m : List Nat} (hm : ∀ c ∈ m, c < cols) (vals : List V) :
    m.foldlM (fun (s : Acc V) c => s.allow c) { values := vals, flags := tab cols fun _ => 0, present := [], possible := [] } =
      .ok { values := vals, flags := tab cols (flagOf m []), present := [], possible := m } := by
  have := foldlM_desc (f := fun (s : Acc V) c => s.allow c)
    (fun done => ({ values := vals, flags := tab cols (flagOf done []), present := [], possible := done } : Acc V)) m (by
      intro done a post hl
      unfold Acc.allow
      simp only [wr_tab (hm a (by simp [hl])), ok_bind]
      congr 2
      apply tab_ext
      intro c _
      unfold flagOf
      by_cases h : c = a
      · subst h; rw [upd_same]; simp
      · rw [upd_ne _ _ h]; simp [h])
  refine Eq.trans ?_ this
  congr 2

/-- Values after the products `L`. -/
def valOf (add : V → V → V) (v0 : Nat → V) (m : List Nat) (L : List (Nat × V)) (c : Nat) : V :=
  if c ∈ m then (Spec.sum1 (fun a b => add b a) (pick L c)).getD (v0 c) else v0 c

theorem fill_loop (add : V → V → V) {cols : Nat} {m : List Nat} (v0 : Nat → V) (L : List (Nat × V)) (hL : ∀ x ∈ L, x.1 < cols) :
    L.foldlM (fun (s : Acc V) x => s.insert add x.1 x.2)
      { values := tab cols v0, flags := tab cols (flagOf m []), present := [], possible := m } =
      .ok { values := tab cols (valOf add v0 m L), flags := tab cols (flagOf m (L.map (·.1))),
            present := firsts ((L.map (·.1)).filter fun c => decide (c ∈ m)), possible := m } := by
  have key := foldlM_desc (f := fun (s : Acc V) (x : Nat × V) => s.insert add x.1 x.2)
    (fun pre => ({ values := tab cols (valOf add v0 m pre), flags := tab cols (flagOf m (pre.map (·.1))), present := firsts ((pre.map (·.1)).filter fun c => decide (c ∈ m)), possible := m } : Acc V)) L (by
    rintro pre ⟨c, w⟩ post hl
    have hc : c < cols := hL (c, w) (by simp [hl])
    have hmap : (pre ++ [(c, w)]).map (·.1) = pre.map (·.1) ++ [c] := by simp
    rw [hmap, List.filter_append]
    unfold Acc.insert
    simp only [rd_tab hc, ok_bind]
    by_cases hm : c ∈ m
    · have hf : ([c].filter fun c => decide (c ∈ m)) = [c] := by simp [hm]
      rw [hf, firsts_append_singleton]
      by_cases hp : c ∈ pre.map (·.1)
      · have h1 : flagOf m (pre.map (·.1)) c = 2 := by unfold flagOf; rw [if_pos hm, if_pos hp]
        have hs : ∃ u, Spec.sum1 (fun a b => add b a) (pick pre c) = some u := by
          cases hs : Spec.sum1 (fun a b => add b a) (pick pre c) with
          | none =>
            rw [sum1_eq_none, pick_eq_nil] at hs
            obtain ⟨p, hp', rfl⟩ := List.mem_map.1 hp
            exact absurd rfl (hs p hp')
          | some v => exact ⟨v, rfl⟩
        obtain ⟨u, hu⟩ := hs
        have h2 : valOf add v0 m pre c = u := by unfold valOf; rw [if_pos hm, hu]; rfl
        rw [h1, if_neg (by omega), if_pos rfl, if_pos (by rw [mem_firsts, List.mem_filter]; exact ⟨hp, by simp [hm]⟩), h2,
          wr_tab hc, ok_bind]
        congr 2
        · apply tab_ext
          intro j _
          by_cases h : j = c
          · subst h
            rw [upd_same]
            unfold valOf
            rw [if_pos hm, Hash.pick_snoc_self, sum1_append_singleton, hu]
            rfl
          · rw [upd_ne _ _ h]
            unfold valOf
            rw [Hash.pick_snoc_ne h]
        · apply tab_ext
          intro j _
          rw [flag_snoc]
          split
          · rename_i h; rw [h.1, h1]
          · rfl
      · have h1 : flagOf m (pre.map (·.1)) c = 1 := by unfold flagOf; rw [if_pos hm, if_neg hp]
        rw [h1, if_pos rfl, if_neg (by rw [mem_firsts, List.mem_filter]; exact fun h => hp h.1), wr_tab hc, ok_bind, wr_tab hc,
          ok_bind]
        have hn : Spec.sum1 (fun a b => add b a) (pick pre c) = none := by
          rw [sum1_eq_none, pick_eq_nil]
          intro p hp' hpc
          exact hp (List.mem_map.2 ⟨p, hp', hpc⟩)
        congr 2
        · apply tab_ext
          intro j _
          by_cases h : j = c
          · subst h
            rw [upd_same]
            unfold valOf
            rw [if_pos hm, Hash.pick_snoc_self, sum1_append_singleton, hn]
            rfl
          · rw [upd_ne _ _ h]
            unfold valOf
            rw [Hash.pick_snoc_ne h]
        · apply tab_ext
          intro j _
          rw [flag_snoc]
          by_cases h : j = c
          · subst h; rw [upd_same, if_pos ⟨rfl, hm⟩]
          · rw [upd_ne _ _ h, if_neg (by simp [h])]
    · have hf : ([c].filter fun c => decide (c ∈ m)) = [] := by simp [hm]
      have h1 : flagOf m (pre.map (·.1)) c = 0 := by unfold flagOf; rw [if_neg hm]
      rw [hf, List.append_nil, h1, if_neg (by omega), if_neg (by omega)]
      congr 2
      · apply tab_ext
        intro j _
        unfold valOf
        by_cases h : j = c
        · subst h; rw [if_neg hm, if_neg hm]
        · rw [Hash.pick_snoc_ne h]
      · apply tab_ext
        intro j _
        rw [flag_snoc, if_neg (by simp [hm])])
  refine Eq.trans ?_ key
  congr 2
  apply tab_ext
  intro j _
  unfold valOf pick
  simp [Spec.sum1]

/-- Writing the entries listed in `present`. -/
theorem output_loop {cols : Nat} (f : Nat → V) (present : List Nat) (hp : ∀ c ∈ present, c < cols) (off : Nat)
    (X : List (Nat × V)) (hX : off + present.length ≤ X.length) :
    present.foldlM (fun (x : (List Nat × List V) × Nat) index => do
      let c ← wr x.1.1 (off + x.2) index
      let y ← rd (tab cols f) index
      let v ← wr x.1.2 (off + x.2) y
      .ok ((c, v), x.2 + 1)) ((X.map (·.1), X.map (·.2)), 0) =
    .ok (((X.take off ++ present.map (fun c => (c, f c)) ++ X.drop (off + present.length)).map (·.1),
      (X.take off ++ present.map (fun c => (c, f c)) ++ X.drop (off + present.length)).map (·.2)), present.length) := by
  have := foldlM_desc (f := fun (x : (List Nat × List V) × Nat) index => (do
      let c ← wr x.1.1 (off + x.2) index
      let y ← rd (tab cols f) index
      let v ← wr x.1.2 (off + x.2) y
      .ok ((c, v), x.2 + 1) : Res ((List Nat × List V) × Nat)))
    (fun pre => (((X.take off ++ pre.map (fun c => (c, f c)) ++ X.drop (off + pre.length)).map (·.1),
      (X.take off ++ pre.map (fun c => (c, f c)) ++ X.drop (off + pre.length)).map (·.2)), pre.length)) present (by
    intro pre c post hl
    have hc := hp c (by simp [hl])
    have hlt : off + pre.length < X.length := by rw [hl] at hX; simp at hX; omega
    have hlen : (X.take off ++ pre.map (fun c => (c, f c)) ++ X.drop (off + pre.length)).length = X.length := by
      simp; omega
    have hset := HashMult.set_mid X (pre.map (fun c => (c, f c))) (c, f c) off (by simpa using hlt)
    simp only [List.length_map, List.length_append, List.length_cons, List.length_nil] at hset
    rw [wr_of_lt (by rw [List.length_map, hlen]; exact hlt), ok_bind, rd_tab hc, ok_bind,
      wr_of_lt (by rw [List.length_map, hlen]; exact hlt), ok_bind]
    simp only [List.map_append (f := fun c => (c, f c)), List.map_cons, List.map_nil, List.length_append, List.length_cons,
      List.length_nil]
    rw [← hset, List.map_set, List.map_set])
  refine Eq.trans ?_ this
  simp

/-- The entries of row `i` in the order in which they are written. -/
def expRow (mul add : V → V → V) (A B M : CSR V) (i : Nat) : List (Nat × V) :=
  (touchedIn A B M i).filterMap fun c => (Spec.dot mul (fun a b => add b a) A B i c).map fun v => (c, v)

theorem expRow_eq (mul add : V → V → V) {A B M : CSR V} (i : Nat) (v0 : Nat → V) :
    expRow mul add A B M i = (touchedIn A B M i).map fun c => (c, valOf add v0 (M.rowCols i) (prods mul A B i) c) := by
  unfold expRow
  have : ∀ c ∈ touchedIn A B M i, ((Spec.dot mul (fun a b => add b a) A B i c).map fun v => (c, v)) =
      some (c, valOf add v0 (M.rowCols i) (prods mul A B i) c) := by
    intro c hc
    obtain ⟨h1, h2⟩ := mem_touchedIn.1 hc
    obtain ⟨v, hv⟩ := (mem_visits_iff (mul := mul) (add := fun a b => add b a)).1 h1
    unfold valOf
    rw [hv, if_pos h2, ← dot_eq, hv]
    rfl
  rw [Heap.filterMap_congr_mem this, List.filterMap_eq_map']

theorem fillRow_ok (mul add : V → V → V) {A B M : CSR V} (h : Spec.Valid A B M) {i : Nat} (hi : i < A.rows) (v0 : Nat → V)
    {rowptr : List Nat} {off : Nat} (ho : rd rowptr i = .ok off) (X : List (Nat × V))
    (hX : off + (expRow mul add A B M i).length ≤ X.length) :
    ∃ v1, fillRow mul add A B M rowptr i (X.map (·.1), X.map (·.2))
      { values := tab B.cols v0, flags := tab B.cols fun _ => 0, present := [], possible := [] } =
      .ok (((X.take off ++ expRow mul add A B M i ++ X.drop (off + (expRow mul add A B M i).length)).map (·.1),
          (X.take off ++ expRow mul add A B M i ++ X.drop (off + (expRow mul add A B M i).length)).map (·.2)),
        { values := tab B.cols v1, flags := tab B.cols fun _ => 0, present := [], possible := [] }) := by
  have hiM : i < M.rows := by rw [h.shapes.ma]; exact hi
  have hm : ∀ c ∈ M.rowCols i, c < B.cols := fun c hc => by
    have := CSR.rowCols_lt h.wfM hc
    rwa [h.shapes.mb] at this
  unfold fillRow
  rw [maskLoop_eq h.wfM hiM, allowA_loop hm, ok_bind, nest_eq h.wfA h.wfB h.shapes.ab hi _ _
    (fun (s : Acc V) x => s.insert add x.1 (mul x.2.1 x.2.2)) (by
    intro j k s hj hk hk'; simp only [rd_of_lt hj, rd_of_lt hk, rd_of_lt hk', ok_bind])]
  have e1 := fill_loop add (cols := B.cols) (m := M.rowCols i) v0 (prods mul A B i) (fun x hx => prods_lt h.wfB hx)
  have hcols : (prods mul A B i).map (·.1) = (visits A B i).map (·.1) := by unfold prods; rw [List.map_map]; rfl
  rw [hcols] at e1
  have e2 : (visits A B i).foldlM (fun (s : Acc V) x => s.insert add x.1 (mul x.2.1 x.2.2))
      { values := tab B.cols v0, flags := tab B.cols (flagOf (M.rowCols i) []), present := [], possible := M.rowCols i } =
      (prods mul A B i).foldlM (fun (s : Acc V) x => s.insert add x.1 x.2)
      { values := tab B.cols v0, flags := tab B.cols (flagOf (M.rowCols i) []), present := [], possible := M.rowCols i } := by
    unfold prods; rw [foldlM_map]
  rw [e2, e1, ok_bind, ho, ok_bind]
  unfold Acc.outputReset
  refine ⟨valOf add v0 (M.rowCols i) (prods mul A B i), ?_⟩
  have hX' : off + (touchedIn A B M i).length ≤ X.length := by
    rw [expRow_eq mul add i v0, List.length_map] at hX; exact hX
  have e3 := output_loop (cols := B.cols) (valOf add v0 (M.rowCols i) (prods mul A B i)) (touchedIn A B M i) (by
    intro c hc
    exact hm c (mem_touchedIn.1 hc).2) off X hX'
  refine (congrArg (· >>= _) e3).trans ?_
  simp only [ok_bind, clearFlags_ok hm]
  rw [expRow_eq mul add i v0, List.length_map]

theorem expRow_spec (mul add : V → V → V) {A B M : CSR V} (i : Nat) :
    (∀ c v, (c, v) ∈ expRow mul add A B M i ↔ c ∈ M.rowCols i ∧ Spec.dot mul (fun a b => add b a) A B i c = some v) ∧
      ((expRow mul add A B M i).map (·.1)).Nodup ∧ (expRow mul add A B M i).map (·.1) = touchedIn A B M i := by
  have hn : (expRow mul add A B M i).map (·.1) = touchedIn A B M i := by
    unfold expRow
    rw [List.map_filterMap]
    have : ∀ c ∈ touchedIn A B M i, (((Spec.dot mul (fun a b => add b a) A B i c).map fun v => (c, v)).map fun x => x.1) =
        some c := by
      intro c hc
      obtain ⟨v, hv⟩ := (mem_visits_iff (mul := mul) (add := fun a b => add b a)).1 (mem_touchedIn.1 hc).1
      rw [hv]; rfl
    rw [Heap.filterMap_congr_mem this]
    simp
  refine ⟨?_, by rw [hn]; exact firsts_nodup _, hn⟩
  intro c v
  unfold expRow
  rw [List.mem_filterMap]
  constructor
  · rintro ⟨c', h1, h2⟩
    rw [Option.map_eq_some_iff] at h2
    obtain ⟨v', h2, h3⟩ := h2
    cases h3
    exact ⟨(mem_touchedIn.1 h1).2, h2⟩
  · rintro ⟨h1, h2⟩
    exact ⟨c, mem_touchedIn.2 ⟨mem_visits_iff.2 ⟨v, h2⟩, h1⟩, by rw [h2]; rfl⟩

theorem spaSpGEMM_ok (mul add : V → V → V) {A B M : CSR V} (h : Spec.Valid A B M) (hsmall : A.rows + 1 < 2 ^ 17) (dflt : V)
    {n nd : Nat} (hn : 0 < n) :
    ∃ C, Spec.IsMaskedSet mul (fun a b => add b a) A B M C ∧
      (∀ i < A.rows, C.rowCols i = touchedIn A B M i) ∧ ∀ sch : TwoPassSched, sch.Adm A.rows n →
      (spaSpGEMM mul add A B M dflt n nd sch = .ok none ∧
        ∃ t < n, sch.count.count t ≤ A.rows + 1 ∨ sch.fill.count t ≤ A.rows + 1) ∨
      spaSpGEMM mul add A B M dflt n nd sch = .ok (some C) := by
  have hexp := expRow_spec mul add (A := A) (B := B) (M := M)
  refine ⟨ofRows A.rows B.cols true (expRow mul add A B M), isMaskedSet h.wfB (fun i _ => ⟨(hexp i).1, (hexp i).2.1⟩), ?_, ?_⟩
  · intro i hi
    rw [ofRows_rowCols A.rows _ _ _ hi]
    exact (hexp i).2.2
  intro sch hadm
  unfold spaSpGEMM
  refine twoPass_ok h.wfA h.wfB h.shapes.ab h.rowsPos hsmall hn (expRow mul add A B M)
    (fun _ _ a => a = { committed := 0, flags := tab B.cols fun _ => 0, possible := [] })
    (fun _ _ a => ∃ v0, a = { values := tab B.cols v0, flags := tab B.cols fun _ => 0, present := [], possible := [] })
    (fun t lo hi _ _ => ⟨_, rfl, by rw [Conv.replicate_eq_tab]⟩) ?_
    (fun t lo hi _ _ => ⟨_, rfl, fun _ => dflt, by rw [Conv.replicate_eq_tab, Conv.replicate_eq_tab]⟩) ?_ hadm
  · rintro lo hi i a - h1 h2 h3 rfl g
    refine ⟨_, ?_, rfl⟩
    rw [countRow_ok h (by omega) g]
    have : (expRow mul add A B M i).length = (touchedIn A B M i).length := by
      rw [← (hexp i).2.2, List.length_map]
    rw [this]
  · rintro lo hi i a - h1 h2 h3 ⟨v0, rfl⟩ rowptr off ho X hX
    obtain ⟨v1, e⟩ := fillRow_ok mul add h (show i < A.rows by omega) v0 ho X hX
    exact ⟨_, e, v1, rfl⟩

end Verif.Model.Spa
