import Verif.Model.LpMult
import Verif.Lemmas.TwoPass
import Verif.Lemmas.HashMult
import Verif.Lemmas.HeapAlg
import Verif.Lemmas.Alias

/-! # The linear-probing hash kernels -/

namespace Verif.Model.LpMult
open Hash Slots

variable {V P W : Type}

/-- Number of slots of `map_lp(sz)`. -/
def slots (sz : Nat) : Nat := Hash.grow sz sz 16

theorem slots_pow2 (sz : Nat) : Pow2 (slots sz) := grow_pow2 _ _ ⟨4, rfl⟩

theorem le_slots (sz : Nat) : sz ≤ slots sz := le_grow _ _ (by omega) (by omega)

theorem newTable_eq (sz : Nat) (dflt : P) : newTable sz dflt = mkT (slots sz) (slots sz) (fun _ => ⟨none, dflt⟩) [] := by
  unfold newTable mkT slots
  simp only [Conv.replicate_eq_tab]

/-! ## Setting up the mask row -/

theorem ins_ok {N : Nat} (hN : Pow2 N) (val : P) (L : List Nat) (hlen : (firsts L).length < N) :
    ∃ K : Nat → Option (Nat × P), Good N (keys K) ∧ (∀ c v, (∃ i < N, K i = some (c, v)) ↔ c ∈ L ∧ v = val) ∧
      ∀ f ks, (∀ i < N, (f i).key = none) → ∃ f',
        L.foldlM (fun t c => insert t c val) (mkT N N f ks) = .ok (mkT N N f' ks) ∧ Holds N K f' := by
  induction L using list_snoc_induction with
  | h0 =>
    refine ⟨fun _ => none, Good.empty (fun _ _ => rfl), ?_, ?_⟩
    · intro c v; simp
    · intro f ks hf
      exact ⟨f, rfl, fun i hi => ⟨by rw [hf i hi]; rfl, by intro c v h; cases h⟩⟩
  | h1 L c ih =>
    have hle := HashMult.firsts_mono (l := L) (l' := L ++ [c]) (by intro x hx; exact List.mem_append_left _ hx)
    obtain ⟨K, hg, hK, hrun⟩ := ih (by omega)
    have hkey : ∀ i < N, ∀ x, keys K i = some x → x ∈ L := by
      intro i hi x h
      unfold keys at h
      rw [Option.map_eq_some_iff] at h
      obtain ⟨⟨c', v⟩, h, rfl⟩ := h
      exact ((hK c' v).1 ⟨i, hi, h⟩).1
    have hroom : ∃ q < N, keys K q = none ∨ keys K q = some c := by
      obtain ⟨q, hq, h⟩ := room hg (l := firsts L) (by
        intro i hi x hx; rw [mem_firsts]; exact hkey i hi x hx) (by omega)
      exact ⟨q, hq, Or.inl h⟩
    obtain ⟨i, hi, h1, h2⟩ := slot_exists hN hg c hroom
    by_cases hcL : c ∈ L
    · -- already in the table
      have hs : keys K i = some c := by
        rcases h2 with h | ⟨_, h, _⟩
        · exact h
        · obtain ⟨j, hj, e⟩ := (hK c val).2 ⟨hcL, rfl⟩
          exact absurd (by unfold keys; rw [e]; rfl) (h j hj)
      refine ⟨K, hg, ?_, ?_⟩
      · intro c' v
        rw [hK, List.mem_append, List.mem_singleton]
        constructor
        · rintro ⟨h, h'⟩; exact ⟨Or.inl h, h'⟩
        · rintro ⟨h | rfl, h'⟩
          · exact ⟨h, h'⟩
          · exact ⟨hcL, h'⟩
      · intro f ks hf
        obtain ⟨f', e1, hh⟩ := hrun f ks hf
        refine ⟨f', ?_, hh⟩
        rw [List.foldlM_append, e1]
        simp only [ok_bind, List.foldlM_cons, List.foldlM_nil]
        unfold insert
        have hk : (f' i).key = some c := by rw [(hh i hi).1, hs]
        simp only [h1 P N f' ks (Nat.le_refl _) (fun j hj => (hh j hj).1), ok_bind, mkT_table, rd_tab hi]
        rw [if_neg (by rw [hk]; simp)]
        rfl
    · have hs : keys K i = none ∧ (∀ j < N, keys K j ≠ some c) ∧
          ∀ j < N, dist N (home N c) j < dist N (home N c) i → keys K j ≠ none := by
        rcases h2 with h | h
        · exact absurd (hkey i hi c h) hcL
        · exact h
      refine ⟨upd K i (some (c, val)), good_upd hg hi (Or.inr hs), ?_, ?_⟩
      · intro c' v'
        rw [map_upd hg hi (Or.inr ⟨hs.1, hs.2.1⟩), hK, List.mem_append, List.mem_singleton]
        constructor
        · rintro (⟨rfl, rfl⟩ | ⟨_, h, h'⟩)
          · exact ⟨Or.inr rfl, rfl⟩
          · exact ⟨Or.inl h, h'⟩
        · rintro ⟨h | rfl, h'⟩
          · exact Or.inr ⟨fun e => hcL (e ▸ h), h, h'⟩
          · exact Or.inl ⟨rfl, h'⟩
      · intro f ks hf
        obtain ⟨f', e1, hh⟩ := hrun f ks hf
        refine ⟨upd f' i ⟨some c, val⟩, ?_, hh.upd i c val⟩
        rw [List.foldlM_append, e1]
        simp only [ok_bind, List.foldlM_cons, List.foldlM_nil]
        unfold insert
        have hk : (f' i).key = none := by rw [(hh i hi).1, hs.1]
        simp only [h1 P N f' ks (Nat.le_refl _) (fun j hj => (hh j hj).1), ok_bind, mkT_table, rd_tab hi]
        rw [if_pos hk, put_eq hi]
        rfl

theorem maskRow_ok {M : CSR V} (hM : M.WF) {i : Nat} (hi : i < M.rows) (val : P) {N : Nat} (hN : Pow2 N)
    (hlen : (M.rowCols i).length < N) :
    ∃ K : Nat → Option (Nat × P), Good N (keys K) ∧ (∀ c v, (∃ j < N, K j = some (c, v)) ↔ c ∈ M.rowCols i ∧ v = val) ∧
      (∃ q < N, keys K q = none) ∧ ∀ f ks, (∀ j < N, (f j).key = none) → ∃ f',
        maskRow M i val (mkT N N f ks) = .ok (mkT N N f' ks) ∧ Holds N K f' := by
  have hl : (firsts (M.rowCols i)).length ≤ (M.rowCols i).length :=
    nodup_length_le (firsts_nodup _) (by intro x hx; rwa [mem_firsts] at hx)
  obtain ⟨K, hg, hK, hrun⟩ := ins_ok hN val (M.rowCols i) (by omega)
  refine ⟨K, hg, hK, ?_, ?_⟩
  · refine room hg (l := M.rowCols i) ?_ hlen
    intro j hj x h
    unfold keys at h
    rw [Option.map_eq_some_iff] at h
    obtain ⟨⟨c', v⟩, h, rfl⟩ := h
    exact ((hK c' v).1 ⟨j, hj, h⟩).1
  · intro f ks hf
    obtain ⟨f', e, hh⟩ := hrun f ks hf
    refine ⟨f', ?_, hh⟩
    rw [← e]
    have h2 := maskLoop_eq hM hi (mkT N N f ks) (fun c t => insert t c val)
    unfold maskLoop at h2
    unfold maskRow
    rw [← h2]
    rw [CSR.rd_ptr hM (Nat.le_of_lt hi), CSR.rd_ptr hM (i := i + 1) hi]
    simp only [ok_bind]
    rw [forPtr_of_le (hM.ptrMono i hi)]

/-! ## Going through the products -/

/-- The end of a probe. -/
theorem find_ok {N : Nat} (hN : Pow2 N) {K : Nat → Option (Nat × P)} (hg : Good N (keys K)) (hr : ∃ q < N, keys K q = none)
    (c : Nat) : (∃ i < N, ∃ u, K i = some (c, u) ∧ ∀ f ks, Holds N K f → find (mkT N N f ks) c = .ok (some i)) ∨
      ((∀ i < N, ∀ u, K i ≠ some (c, u)) ∧ ∀ f ks, Holds N K f → find (mkT N N f ks) c = .ok none) := by
  obtain ⟨q, hq, h⟩ := hr
  obtain ⟨i, hi, h1, h2⟩ := slot_exists hN hg c ⟨q, hq, Or.inl h⟩
  rcases h2 with h2 | ⟨h2, h3, _⟩
  · left
    have h2' := h2
    unfold keys at h2
    rw [Option.map_eq_some_iff] at h2
    obtain ⟨⟨c', u⟩, h2, rfl⟩ := h2
    refine ⟨i, hi, u, h2, ?_⟩
    intro f ks hh
    unfold find
    have hk : (f i).key = some c' := by rw [(hh i hi).1, h2']
    simp only [h1 P N f ks (Nat.le_refl _) (fun j hj => (hh j hj).1), ok_bind, mkT_table, rd_tab hi]
    rw [if_neg (by rw [hk]; simp)]
  · right
    refine ⟨?_, ?_⟩
    · intro j hj u e
      exact h3 j hj (by unfold keys; rw [e]; rfl)
    · intro f ks hh
      unfold find
      have hk : (f i).key = none := by rw [(hh i hi).1, h2]
      simp only [h1 P N f ks (Nat.le_refl _) (fun j hj => (hh j hj).1), ok_bind, mkT_table, rd_tab hi]
      rw [if_pos hk]

/-- Contents after the payloads have been changed by the products `L`. -/
def after (g : P → W → P) (K : Nat → Option (Nat × P)) (L : List (Nat × W)) : Nat → Option (Nat × P) :=
  fun i => (K i).map fun x => (x.1, (pick L x.1).foldl g x.2)

theorem after_nil (g : P → W → P) (K : Nat → Option (Nat × P)) : after g K [] = K := by
  funext i
  unfold after
  cases K i <;> rfl

theorem keys_after (g : P → W → P) (K : Nat → Option (Nat × P)) (L : List (Nat × W)) : keys (after g K L) = keys K := by
  funext i
  unfold keys after
  cases K i <;> rfl

/-- A product in a column that is not in the table changes nothing. -/
theorem after_miss (g : P → W → P) {N : Nat} {K : Nat → Option (Nat × P)} {L : List (Nat × W)} {c : Nat} {w : W}
    (h : ∀ i < N, ∀ u, after g K L i ≠ some (c, u)) : ∀ i < N, after g K (L ++ [(c, w)]) i = after g K L i := by
  intro i hi
  unfold after at h ⊢
  cases hK : K i with
  | none => rfl
  | some x =>
    have hne : x.1 ≠ c := by
      intro e
      refine h i hi ((pick L x.1).foldl g x.2) ?_
      rw [hK, ← e]; rfl
    simp only [Option.map_some]
    rw [pick_snoc_ne hne]

theorem after_hit (g : P → W → P) {N : Nat} {K : Nat → Option (Nat × P)} (hg : Good N (keys K)) {L : List (Nat × W)} {c : Nat}
    {w : W} {i : Nat} (hi : i < N) {u : P} (h : after g K L i = some (c, u)) :
    ∀ j < N, after g K (L ++ [(c, w)]) j = upd (after g K L) i (some (c, g u w)) j := by
  intro j hj
  have hki : keys K i = some c := by rw [← keys_after g K L]; unfold keys; rw [h]; rfl
  by_cases hji : j = i
  · subst hji
    rw [upd_same]
    unfold after at h ⊢
    rw [Option.map_eq_some_iff] at h
    obtain ⟨⟨c', u'⟩, h, e⟩ := h
    cases e
    rw [h]
    simp only [Option.map_some]
    rw [pick_snoc_self, List.foldl_append]
    rfl
  · rw [upd_ne _ _ hji]
    unfold after
    cases hK : K j with
    | none => rfl
    | some x =>
      have hne : x.1 ≠ c := by
        intro e
        exact hji (hg.uniq j hj i hi c (by unfold keys; rw [hK, ← e]; rfl) hki)
      simp only [Option.map_some]
      rw [pick_snoc_ne hne]

theorem Holds.congr {N : Nat} {K K' : Nat → Option (Nat × P)} {f : Nat → Entry P} (h : Holds N K f)
    (he : ∀ i < N, K' i = K i) : Holds N K' f := by
  intro i hi
  unfold keys
  rw [he i hi]
  exact h i hi

/-- The second pass over the products. -/
theorem products_ok {N : Nat} (hN : Pow2 N) (g : P → W → P) {K : Nat → Option (Nat × P)} (hg : Good N (keys K))
    (hr : ∃ q < N, keys K q = none) {f : Nat → Entry P} {ks : List Nat} (hh : Holds N K f) (L : List (Nat × W)) :
    ∃ f', L.foldlM (fun (t : Tbl P) x => do
        let hv ← find t x.1
        match hv with
        | none => .ok t
        | some hv => do
          let e ← rd t.table hv
          t.put hv { e with val := g e.val x.2 }) (mkT N N f ks) = .ok (mkT N N f' ks) ∧ Holds N (after g K L) f' := by
  obtain ⟨t, e, f', rfl, h⟩ := foldlM_inv (f := fun (t : Tbl P) (x : Nat × W) => (do
        let hv ← find t x.1
        match hv with
        | none => .ok t
        | some hv => do
          let e ← rd t.table hv
          t.put hv { e with val := g e.val x.2 } : Res (Tbl P)))
    (fun pre t => ∃ f', t = mkT N N f' ks ∧ Holds N (after g K pre) f') L (mkT N N f ks)
    ⟨f, rfl, by rw [after_nil]; exact hh⟩ (by
      rintro pre ⟨c, w⟩ post t hl ⟨f', rfl, hf'⟩
      rcases find_ok hN (K := after g K pre) (by rw [keys_after]; exact hg) (by rw [keys_after]; exact hr) c with
        ⟨i, hi, u, h1, h2⟩ | ⟨h1, h2⟩
      · simp only [h2 f' ks hf', ok_bind, mkT_table, rd_tab hi, put_eq hi]
        have hk : (f' i).key = some c := by rw [(hf' i hi).1]; unfold keys; rw [h1]; rfl
        have hv : (f' i).val = u := (hf' i hi).2 c u h1
        refine ⟨_, rfl, _, rfl, ?_⟩
        rw [hk, hv]
        exact Holds.congr (hf'.upd i c (g u w)) (after_hit g hg hi h1)
      · simp only [h2 f' ks hf', ok_bind]
        exact ⟨_, rfl, f', rfl, Holds.congr hf' (after_miss g h1)⟩)
  exact ⟨f', e, h⟩

/-- The first pass over the products. -/
theorem count_ok {N : Nat} (hN : Pow2 N) {K : Nat → Option (Nat × Bool)} (hg : Good N (keys K))
    (hr : ∃ q < N, keys K q = none) {m : List Nat} (hK : ∀ c v, (∃ j < N, K j = some (c, v)) ↔ c ∈ m ∧ v = false)
    {f : Nat → Entry Bool} {ks : List Nat} (hh : Holds N K f) {rows row : Nat} (hrow : row < rows) (g0 : Nat → Nat)
    (L : List Nat) :
    ∃ f', L.foldlM (fun (s : List Nat × Tbl Bool) c => do
        let hv ← find s.2 c
        match hv with
        | none => .ok (s.1, s.2)
        | some hv => do
          let e ← rd s.2.table hv
          if e.val = false then do
            let x ← rd s.1 row
            let rowNz ← wr s.1 row (x + 1)
            let t ← s.2.put hv { e with val := true }
            .ok (rowNz, t)
          else .ok (s.1, s.2)) (tab rows (upd g0 row 0), mkT N N f ks) =
      .ok (tab rows (upd g0 row (firsts (L.filter fun c => decide (c ∈ m))).length), mkT N N f' ks) := by
  obtain ⟨s, e, f', rfl, _⟩ := foldlM_inv (f := fun (s : List Nat × Tbl Bool) (c : Nat) => (do
        let hv ← find s.2 c
        match hv with
        | none => .ok (s.1, s.2)
        | some hv => do
          let e ← rd s.2.table hv
          if e.val = false then do
            let x ← rd s.1 row
            let rowNz ← wr s.1 row (x + 1)
            let t ← s.2.put hv { e with val := true }
            .ok (rowNz, t)
          else .ok (s.1, s.2) : Res (List Nat × Tbl Bool)))
    (fun pre s => ∃ f', s = (tab rows (upd g0 row (firsts (pre.filter fun c => decide (c ∈ m))).length), mkT N N f' ks) ∧
      Holds N (after (fun _ (_ : Unit) => true) K (pre.map fun c => (c, ()))) f') L
    (tab rows (upd g0 row 0), mkT N N f ks)
    ⟨f, rfl, by rw [List.map_nil, after_nil]; exact hh⟩ (by
      rintro pre c post s hl ⟨f', rfl, hf'⟩
      have hlast : ∀ (l : List Unit) (b : Bool), l.foldl (fun _ (_ : Unit) => true) b = true ↔ l ≠ [] ∨ b = true := by
        intro l
        induction l with
        | nil => intro b; simp
        | cons x l ih => intro b; rw [List.foldl_cons, ih]; simp
      have hpick : pick (pre.map fun c => (c, ())) c ≠ [] ↔ c ∈ pre := by
        rw [Ne, pick_eq_nil]
        constructor
        · intro h
          apply Classical.byContradiction
          intro hno
          apply h
          intro p hp hpc
          obtain ⟨x, hx, rfl⟩ := List.mem_map.1 hp
          exact hno (hpc ▸ hx)
        · intro h h'
          exact h' (c, ()) (List.mem_map.2 ⟨c, h, rfl⟩) rfl
      have hmap : (pre ++ [c]).map (fun c => (c, ())) = pre.map (fun c => (c, ())) ++ [(c, ())] := by simp
      rw [hmap, List.filter_append]
      rcases find_ok hN (K := after (fun _ (_ : Unit) => true) K (pre.map fun c => (c, ()))) (by rw [keys_after]; exact hg)
        (by rw [keys_after]; exact hr) c with ⟨i, hi, u, h1, h2⟩ | ⟨h1, h2⟩
      · have hk : (f' i).key = some c := by rw [(hf' i hi).1]; unfold keys; rw [h1]; rfl
        have hv : (f' i).val = u := (hf' i hi).2 c u h1
        have hcm : c ∈ m ∧ (u = true ↔ c ∈ pre) := by
          have h1' := h1
          unfold after at h1'
          rw [Option.map_eq_some_iff] at h1'
          obtain ⟨⟨c', u'⟩, h3, e3⟩ := h1'
          cases e3
          obtain ⟨h4, h5⟩ := (hK c' u').1 ⟨i, hi, h3⟩
          refine ⟨h4, ?_⟩
          subst h5
          rw [hlast, hpick]
          simp
        have hf : ([c].filter fun c => decide (c ∈ m)) = [c] := by simp [hcm.1]
        rw [hf, firsts_append_singleton]
        simp only [h2 f' ks hf', ok_bind, mkT_table, rd_tab hi]
        rw [hv]
        cases u with
        | false =>
          have hnp : c ∉ pre := fun h => by have := hcm.2.2 h; cases this
          rw [if_pos rfl, if_neg (by rw [mem_firsts, List.mem_filter]; exact fun h => hnp h.1), rd_tab hrow, ok_bind, upd_same,
            wr_tab hrow, ok_bind, put_eq hi, ok_bind]
          refine ⟨_, rfl, _, ?_, Holds.congr (hf'.upd i c true) (after_hit _ hg hi h1)⟩
          rw [hk, Alias.upd_upd, List.length_append]
          rfl
        | true =>
          have hp : c ∈ pre := hcm.2.1 rfl
          rw [if_neg (by simp), if_pos (by rw [mem_firsts, List.mem_filter]; exact ⟨hp, by simp [hcm.1]⟩)]
          refine ⟨_, rfl, f', rfl, Holds.congr hf' ?_⟩
          intro j hj
          rw [after_hit _ hg hi h1 j hj]
          by_cases hji : j = i
          · subst hji; rw [upd_same, h1]
          · rw [upd_ne _ _ hji]
      · have hcm : c ∉ m := by
          intro h
          obtain ⟨j, hj, e⟩ := (hK c false).2 ⟨h, rfl⟩
          exact h1 j hj ((pick (pre.map fun c => (c, ())) c).foldl (fun _ _ => true) false) (by unfold after; rw [e]; rfl)
        have hf : ([c].filter fun c => decide (c ∈ m)) = [] := by simp [hcm]
        rw [hf, List.append_nil]
        simp only [h2 f' ks hf', ok_bind]
        exact ⟨_, rfl, f', rfl, Holds.congr hf' (after_miss _ h1)⟩)
  exact ⟨f', e⟩

theorem countProducts_ok {A B M : CSR V} (h : Spec.Valid A B M) {i : Nat} (hi : i < A.rows) {N : Nat} (hN : Pow2 N)
    {K : Nat → Option (Nat × Bool)} (hg : Good N (keys K)) (hr : ∃ q < N, keys K q = none)
    (hK : ∀ c v, (∃ j < N, K j = some (c, v)) ↔ c ∈ M.rowCols i ∧ v = false) {f : Nat → Entry Bool} {ks : List Nat}
    (hh : Holds N K f) (g : Nat → Nat) :
    ∃ f', countProducts A B i (tab A.rows g) (mkT N N f ks) =
      .ok (tab A.rows (upd g i (touchedIn A B M i).length), mkT N N f' ks) := by
  obtain ⟨f', e⟩ := count_ok hN hg hr hK (ks := ks) hh hi g ((visits A B i).map fun x => x.1)
  refine ⟨f', ?_⟩
  unfold countProducts
  rw [wr_tab hi, ok_bind]
  rw [foldlM_map] at e
  unfold touchedIn
  rw [← e]
  exact nest_eq h.wfA h.wfB h.shapes.ab hi _ _ _ (by
    rintro j k ⟨s1, s2⟩ hj hk hk'
    simp only [rd_of_lt hk, ok_bind]
    exact congrArg _ (funext fun hv => by cases hv <;> rfl))

theorem countRow_ok {A B M : CSR V} (h : Spec.Valid A B M) {i : Nat} (hi : i < A.rows) {N : Nat} (hN : Pow2 N)
    (hlen : (M.rowCols i).length < N) {f : Nat → Entry Bool} {ks : List Nat} (hf : ∀ j < N, (f j).key = none) (g : Nat → Nat) :
    ∃ f', countRow A B M i (tab A.rows g) (mkT N N f ks) =
      .ok (tab A.rows (upd g i (touchedIn A B M i).length), mkT N N f' ks) ∧ ∀ j < N, (f' j).key = none := by
  have hiM : i < M.rows := by rw [h.shapes.ma]; exact hi
  obtain ⟨K, hg, hK, hr, hrun⟩ := maskRow_ok h.wfM hiM false hN hlen
  obtain ⟨f1, e1, hh⟩ := hrun f ks hf
  obtain ⟨f2, e2⟩ := countProducts_ok h hi hN hg hr hK (ks := ks) hh g
  obtain ⟨f3, e3, h3⟩ := reset_ok (cap := N) (N := N) (s := N) (f := f2) (ks := ks) (Nat.le_refl _)
  refine ⟨f3, ?_, h3⟩
  unfold countRow
  rw [e1, ok_bind, e2]
  simp only [ok_bind]
  unfold reset
  have : (mkT N N f2 ks).size = N := rfl
  rw [this, e3]
  rfl

/-! ## Second pass -/

/-- The payload after a product. -/
def payStep (add : V → V → V) (p : V × Bool) (w : V) : V × Bool := if p.2 = false then (w, true) else (add p.1 w, true)

theorem payStep_fold (add : V → V → V) (d : V) (l : List V) :
    l.foldl (payStep add) (d, false) = match Spec.sum1 add l with
      | none => (d, false)
      | some v => (v, true) := by
  induction l using list_snoc_induction with
  | h0 => rfl
  | h1 l x ih =>
    rw [List.foldl_append, ih, sum1_append_singleton]
    cases Spec.sum1 add l <;> rfl

theorem addProducts_ok (mul add : V → V → V) {A B M : CSR V} (h : Spec.Valid A B M) {i : Nat} (hi : i < A.rows) {N : Nat}
    (hN : Pow2 N) {K : Nat → Option (Nat × V × Bool)} (hg : Good N (keys K)) (hr : ∃ q < N, keys K q = none)
    {f : Nat → Entry (V × Bool)} {ks : List Nat} (hh : Holds N K f) :
    ∃ f', addProducts mul add A B i (mkT N N f ks) = .ok (mkT N N f' ks) ∧
      Holds N (after (payStep add) K (prods mul A B i)) f' := by
  obtain ⟨f', e, h'⟩ := products_ok hN (payStep add) hg hr (ks := ks) hh (prods mul A B i)
  refine ⟨f', ?_, h'⟩
  rw [← e]
  unfold prods
  rw [foldlM_map]
  unfold addProducts
  refine nest_eq h.wfA h.wfB h.shapes.ab hi _ _ _ ?_
  intro j k t hj hk hk'
  simp only [rd_of_lt hj, rd_of_lt hk, rd_of_lt hk', ok_bind]
  refine congrArg _ (funext fun hv => ?_)
  cases hv with
  | none => rfl
  | some hv =>
    show (rd t.table hv >>= _) = (rd t.table hv >>= _)
    refine congrArg _ (funext fun e => ?_)
    unfold payStep
    split <;> rfl

/-- Slots whose flag is set. -/
def flagged (K : Nat → Option (Nat × V × Bool)) : Nat → Option (Nat × V) :=
  fun i => (K i).bind fun x => if x.2.2 then some (x.1, x.2.1) else none

theorem good_flagged {N : Nat} {K : Nat → Option (Nat × V × Bool)} (hg : Good N (keys K)) :
    ((content N (flagged K)).map (·.1)).Nodup := by
  unfold content
  rw [List.map_filterMap]
  refine List.Pairwise.filterMap (R := fun a b => a < N ∧ b < N ∧ a ≠ b) _ ?_ ?_
  · rintro a a' ⟨h1, h2, h3⟩ x hx y hy
    intro hxy
    subst hxy
    have key : ∀ b, ((flagged K b).map fun x => x.1) = some x → keys K b = some x := by
      intro b hb
      unfold flagged at hb
      unfold keys
      cases hK : K b with
      | none => rw [hK] at hb; cases hb
      | some z =>
        rw [hK] at hb
        simp only [Option.bind_some] at hb
        split at hb
        · exact hb
        · cases hb
    exact h3 (hg.uniq a h1 a' h2 x (key a hx) (key a' hy))
  · refine List.Pairwise.imp_of_mem ?_ (List.nodup_range (n := N))
    intro a b ha hb hab
    exact ⟨by simpa using ha, by simpa using hb, hab⟩

theorem gather_ok {N : Nat} {f : Nat → Entry (V × Bool)} {ks : List Nat} {K : Nat → Option (Nat × V × Bool)}
    (hh : Holds N K f) (off : Nat) (X : List (Nat × V)) (hX : off + (content N (flagged K)).length ≤ X.length) :
    ∃ f', gather (mkT N N f ks) off (X.map (·.1), X.map (·.2)) =
      .ok (((X.take off ++ content N (flagged K) ++ X.drop (off + (content N (flagged K)).length)).map (·.1),
        (X.take off ++ content N (flagged K) ++ X.drop (off + (content N (flagged K)).length)).map (·.2)), mkT N N f' ks) ∧
      ∀ j < N, (f' j).key = none := by
  unfold gather
  obtain ⟨s, e1, f', e2, e3, _⟩ := forRange_inv (body := fun j (s : (List Nat × List V) × Tbl (V × Bool) × Nat) => do
      let e ← rd s.2.1.table j
      let (out, k) ← (match e.key with
        | some c =>
          if e.val.2 then do
            let cs ← wr s.1.1 (off + s.2.2) c
            let vs ← wr s.1.2 (off + s.2.2) e.val.1
            .ok ((cs, vs), s.2.2 + 1)
          else .ok (s.1, s.2.2)
        | none => .ok (s.1, s.2.2) : Res ((List Nat × List V) × Nat))
      let t ← s.2.1.putEmpty j
      .ok (out, t, k))
    (fun n s => ∃ f', s = (((X.take off ++ content n (flagged K) ++ X.drop (off + (content n (flagged K)).length)).map (·.1),
        (X.take off ++ content n (flagged K) ++ X.drop (off + (content n (flagged K)).length)).map (·.2)),
        mkT N N f' ks, (content n (flagged K)).length) ∧ (∀ j < n, (f' j).key = none) ∧ ∀ j, n ≤ j → f' j = f j)
    0 N (Nat.zero_le _) ((X.map (·.1), X.map (·.2)), mkT N N f ks, 0)
    ⟨f, by simp [content], by omega, fun _ _ => rfl⟩ (by
      rintro j s _ hj ⟨f', rfl, h1, h2⟩
      have hjf := h2 j (Nat.le_refl _)
      have hnew : ∀ k < j + 1, (upd f' j ⟨none, (f' j).val⟩ k).key = none := by
        intro k hk
        by_cases hkj : k = j
        · subst hkj; rw [upd_same]
        · rw [upd_ne _ _ hkj]; exact h1 k (by omega)
      have hold : ∀ k, j + 1 ≤ k → upd f' j ⟨none, (f' j).val⟩ k = f k := by
        intro k hk
        rw [upd_ne _ _ (by omega)]; exact h2 k (by omega)
      simp only [mkT_table, rd_tab hj, ok_bind, hjf]
      cases hK : K j with
      | none =>
        have hk : (f j).key = none := by rw [(hh j hj).1]; unfold keys; rw [hK]; rfl
        have hs : content (j + 1) (flagged K) = content j (flagged K) := by
          rw [HashMult.content_succ]; unfold flagged; rw [hK]; simp
        rw [hs, hk]
        simp only [ok_bind, putEmpty_eq hj]
        exact ⟨_, rfl, _, rfl, hnew, hold⟩
      | some x =>
        obtain ⟨c, v, b⟩ := x
        have hk : (f j).key = some c := by rw [(hh j hj).1]; unfold keys; rw [hK]; rfl
        have hv : (f j).val = (v, b) := (hh j hj).2 c _ hK
        rw [hk, hv]
        cases b with
        | false =>
          have hs : content (j + 1) (flagged K) = content j (flagged K) := by
            rw [HashMult.content_succ]; unfold flagged; rw [hK]; simp
          rw [hs]
          simp only [Bool.false_eq_true, if_false, ok_bind, putEmpty_eq hj]
          exact ⟨_, rfl, _, rfl, hnew, hold⟩
        | true =>
          have hs : content (j + 1) (flagged K) = content j (flagged K) ++ [(c, v)] := by
            rw [HashMult.content_succ]
            have : flagged K j = some (c, v) := by unfold flagged; rw [hK]; rfl
            rw [this]; rfl
          have hlt : off + (content j (flagged K)).length < X.length := by
            have := HashMult.content_le (K := flagged K) (N := j + 1) (M := N) (by omega)
            rw [hs, List.length_append] at this
            simp at this; omega
          have hlen : (X.take off ++ content j (flagged K) ++ X.drop (off + (content j (flagged K)).length)).length =
              X.length := by
            simp; omega
          have hset := HashMult.set_mid X (content j (flagged K)) (c, v) off hlt
          simp only [if_true]
          rw [wr_of_lt (by rw [List.length_map, hlen]; exact hlt), ok_bind,
            wr_of_lt (by rw [List.length_map, hlen]; exact hlt), ok_bind]
          simp only [ok_bind, putEmpty_eq hj]
          refine ⟨_, rfl, _, ?_, hnew, hold⟩
          rw [hs, ← hset, List.map_set, List.map_set, List.length_append]
          rfl)
  refine ⟨f', ?_, e3⟩
  have e4 := e1.trans (by rw [e2])
  refine (congrArg (· >>= _) e4).trans ?_
  rfl

/-- What a row of the result has to be. -/
def IsRow (mul add : V → V → V) (A B M : CSR V) (i : Nat) (r : List (Nat × V)) : Prop :=
  (∀ c v, (c, v) ∈ r ↔ c ∈ M.rowCols i ∧ Spec.dot mul add A B i c = some v) ∧ (r.map (·.1)).Nodup

theorem fillRow_ok (mul add : V → V → V) (dflt : V) {A B M : CSR V} (h : Spec.Valid A B M) {i : Nat} (hi : i < A.rows) {N : Nat}
    (hN : Pow2 N) (hlen : (M.rowCols i).length < N) :
    ∃ r, IsRow mul add A B M i r ∧ ∀ (f : Nat → Entry (V × Bool)) ks, (∀ j < N, (f j).key = none) →
      ∀ rowptr off, rd rowptr i = .ok off → ∀ X : List (Nat × V), off + r.length ≤ X.length →
      ∃ f', fillRow mul add dflt A B M rowptr i (X.map (·.1), X.map (·.2)) (mkT N N f ks) =
        .ok (((X.take off ++ r ++ X.drop (off + r.length)).map (·.1), (X.take off ++ r ++ X.drop (off + r.length)).map (·.2)),
          mkT N N f' ks) ∧ ∀ j < N, (f' j).key = none := by
  have hiM : i < M.rows := by rw [h.shapes.ma]; exact hi
  obtain ⟨K, hg, hK, hr, hrun⟩ := maskRow_ok h.wfM hiM (dflt, false) hN hlen
  refine ⟨content N (flagged (after (payStep add) K (prods mul A B i))), ⟨?_, good_flagged (by rw [keys_after]; exact hg)⟩, ?_⟩
  · intro c v
    rw [mem_content, dot_eq]
    constructor
    · rintro ⟨j, hj, e⟩
      unfold flagged after at e
      cases hKj : K j with
      | none => rw [hKj] at e; cases e
      | some x =>
        obtain ⟨c', p⟩ := x
        obtain ⟨h1, h2⟩ := (hK c' p).1 ⟨j, hj, hKj⟩
        rw [hKj] at e
        subst h2
        simp only [Option.map_some, Option.bind_some] at e
        rw [payStep_fold] at e
        cases hs : Spec.sum1 add (pick (prods mul A B i) c') with
        | none => rw [hs] at e; simp at e
        | some w =>
          rw [hs] at e
          simp only [if_true, Option.some.injEq, Prod.mk.injEq] at e
          obtain ⟨rfl, rfl⟩ := e
          exact ⟨h1, hs⟩
    · rintro ⟨h1, h2⟩
      obtain ⟨j, hj, e⟩ := (hK c (dflt, false)).2 ⟨h1, rfl⟩
      refine ⟨j, hj, ?_⟩
      unfold flagged after
      rw [e]
      simp only [Option.map_some, Option.bind_some]
      rw [payStep_fold, h2]
      rfl
  · intro f ks hf rowptr off ho X hX
    obtain ⟨f1, e1, hh⟩ := hrun f ks hf
    obtain ⟨f2, e2, hh2⟩ := addProducts_ok mul add h hi hN hg hr (ks := ks) hh
    obtain ⟨f3, e3, h3⟩ := gather_ok (ks := ks) hh2 off X hX
    refine ⟨f3, ?_, h3⟩
    unfold fillRow
    rw [e1, ok_bind, e2, ok_bind, ho, ok_bind, e3]

/-! ## The calls -/

theorem maxRow_ok {M : CSR V} (hM : M.WF) {lo hi : Nat} (h : lo ≤ hi) (hhi : hi ≤ M.rows) :
    ∃ m, maxRow M lo hi = .ok m ∧ ∀ i, lo ≤ i → i < hi → (M.rowCols i).length ≤ m := by
  unfold maxRow
  obtain ⟨m, e, hm⟩ := forRange_inv (body := fun ra m => (do
      let e ← rd M.rowptr (ra + 1)
      let b ← rd M.rowptr ra
      .ok (max m (e - b)) : Res Nat)) (fun k m => ∀ i, lo ≤ i → i < k → (M.rowCols i).length ≤ m) lo hi h 0
    (by intro i h1 h2; omega) (by
      intro k m hk1 hk2 hm
      rw [CSR.rd_ptr hM (i := k + 1) (by omega), ok_bind, CSR.rd_ptr hM (by omega), ok_bind]
      refine ⟨_, rfl, ?_⟩
      intro i h1 h2
      by_cases hik : i = k
      · subst hik
        rw [CSR.rowCols_length hM (by omega)]
        omega
      · have := hm i h1 (by omega)
        omega)
  exact ⟨m, e, hm⟩

theorem hashMask_ok (mul add : V → V → V) {A B M : CSR V} (h : Spec.Valid A B M) (hsmall : A.rows + 1 < 2 ^ 17) (dflt : V)
    {n nd : Nat} (hn : 0 < n) :
    ∃ C, Spec.IsMaskedSet mul add A B M C ∧ ∀ sch : TwoPassSched, sch.Adm A.rows n →
      (hashMask mul add A B M dflt n nd sch = .ok none ∧
        ∃ t < n, sch.count.count t ≤ A.rows + 1 ∨ sch.fill.count t ≤ A.rows + 1) ∨
      hashMask mul add A B M dflt n nd sch = .ok (some C) := by
  have hma := h.shapes.ma
  have hex : ∀ i, ∃ r, i < A.rows → IsRow mul add A B M i r ∧ ∀ lo hi m, Blk A B n lo hi → lo ≤ i → i < hi →
      maxRow M lo hi = .ok m → ∀ (f : Nat → Entry (V × Bool)) ks, (∀ j < slots (m + 1), (f j).key = none) →
      ∀ rowptr off, rd rowptr i = .ok off → ∀ X : List (Nat × V), off + r.length ≤ X.length →
      ∃ f', fillRow mul add dflt A B M rowptr i (X.map (·.1), X.map (·.2)) (mkT (slots (m + 1)) (slots (m + 1)) f ks) =
        .ok (((X.take off ++ r ++ X.drop (off + r.length)).map (·.1), (X.take off ++ r ++ X.drop (off + r.length)).map (·.2)),
          mkT (slots (m + 1)) (slots (m + 1)) f' ks) ∧ ∀ j < slots (m + 1), (f' j).key = none := by
    intro i
    by_cases hi : i < A.rows
    · obtain ⟨lo, hi', hb, h1, h2, h3⟩ := Blk.exists (A := A) (B := B) hn hi
      obtain ⟨m, hm, hmax⟩ := maxRow_ok h.wfM (lo := lo) (hi := hi') (by omega) (by omega)
      obtain ⟨r, hr, hrun⟩ := fillRow_ok mul add dflt h hi (slots_pow2 (m + 1)) (by
        have := le_slots (m + 1)
        have := hmax i h1 h2
        omega)
      refine ⟨r, fun _ => ⟨hr, ?_⟩⟩
      intro lo2 hi2 m2 hb2 h1' h2' hm2
      obtain ⟨rfl, rfl⟩ := hb.unique hb2 h1 h2 h1' h2'
      rw [hm] at hm2
      cases hm2
      exact hrun
    · exact ⟨[], fun h => absurd h hi⟩
  obtain ⟨exp, hexp⟩ := Classical.axiomOfChoice hex
  refine ⟨ofRows A.rows B.cols true exp, isMaskedSet h.wfB (fun i hi => (hexp i hi).1), ?_⟩
  intro sch hadm
  unfold hashMask
  refine twoPass_ok h.wfA h.wfB h.shapes.ab h.rowsPos hsmall hn exp
    (fun lo hi a => ∃ m f, maxRow M lo hi = .ok m ∧ (∀ i, lo ≤ i → i < hi → (M.rowCols i).length ≤ m) ∧
      a = mkT (slots (m + 1)) (slots (m + 1)) f [] ∧ ∀ j < slots (m + 1), (f j).key = none)
    (fun lo hi a => ∃ m f, maxRow M lo hi = .ok m ∧
      a = mkT (slots (m + 1)) (slots (m + 1)) f [] ∧ ∀ j < slots (m + 1), (f j).key = none) ?_ ?_ ?_ ?_ hadm
  · intro t lo hi h1 h2
    obtain ⟨m, hm, hmax⟩ := maxRow_ok h.wfM h1 (by omega)
    rw [hm, ok_bind, newTable_eq]
    exact ⟨_, rfl, m, _, rfl, hmax, rfl, fun _ _ => rfl⟩
  · rintro lo hi i a - h1 h2 h3 ⟨m, f, hm, hmax, rfl, hf⟩ g
    obtain ⟨f', e, hf'⟩ := countRow_ok h (i := i) (by omega) (slots_pow2 (m + 1)) (by
      have := le_slots (m + 1)
      have := hmax i h1 h2
      omega) (ks := []) hf g
    have hr := (hexp i (by omega)).1
    refine ⟨_, ?_, m, f', hm, hmax, rfl, hf'⟩
    rw [e, masked_len hr.1 hr.2]
  · intro t lo hi h1 h2
    obtain ⟨m, hm, hmax⟩ := maxRow_ok h.wfM h1 (by omega)
    rw [hm, ok_bind, newTable_eq]
    exact ⟨_, rfl, m, _, rfl, rfl, fun _ _ => rfl⟩
  · rintro lo hi i a hb h1 h2 h3 ⟨m, f, hm, rfl, hf⟩ rowptr off ho X hX
    obtain ⟨f', e, hf'⟩ := (hexp i (by omega)).2 lo hi m hb h1 h2 hm f [] hf rowptr off ho X hX
    exact ⟨_, e, m, f', hm, rfl, hf'⟩

theorem rowTable_eq {M : CSR V} (hM : M.WF) {i : Nat} (hi : i < M.rows) (dflt : P) :
    rowTable M i dflt = .ok (mkT (slots ((M.rowCols i).length + 1)) (slots ((M.rowCols i).length + 1)) (fun _ => ⟨none, dflt⟩) []) := by
  unfold rowTable
  rw [CSR.rd_ptr hM (i := i + 1) hi, ok_bind, CSR.rd_ptr hM (by omega), ok_bind, newTable_eq, CSR.rowCols_length hM hi]

/-- First pass of the variant without bins. -/
theorem wobin_count {A B M : CSR V} (h : Spec.Valid A B M) {order1 : List Nat} (ho1 : order1.Perm (List.range A.rows)) :
    order1.foldlM (fun rowNz i => (do
      let t ← rowTable M i false
      let t ← maskRow M i false t
      let (rowNz, _) ← countProducts A B i rowNz t
      .ok rowNz : Res (List Nat))) (List.replicate A.rows 0) = .ok (tab A.rows fun i => (touchedIn A B M i).length) := by
  have hma := h.shapes.ma
  have e1 := fillOrder (n := A.rows) (fun rowNz i => (do
      let t ← rowTable M i false
      let t ← maskRow M i false t
      let (rowNz, _) ← countProducts A B i rowNz t
      .ok rowNz : Res (List Nat))) (fun D => tab A.rows fun i => if D i then (touchedIn A B M i).length else 0) order1 ho1 (by
    intro D i hi _
    have hiM : i < M.rows := by omega
    obtain ⟨K, hg, hK, hr, hrun⟩ := maskRow_ok h.wfM hiM false (slots_pow2 ((M.rowCols i).length + 1)) (by
      have := le_slots ((M.rowCols i).length + 1)
      omega)
    obtain ⟨f1, e1, hh⟩ := hrun (fun _ => ⟨none, false⟩) [] (fun _ _ => rfl)
    obtain ⟨f2, e2⟩ := countProducts_ok h hi (slots_pow2 _) hg hr hK (ks := []) hh
      (fun i => if D i then (touchedIn A B M i).length else 0)
    rw [rowTable_eq h.wfM hiM, ok_bind, e1, ok_bind, e2]
    simp only [ok_bind]
    congr 1
    apply tab_ext
    intro j _
    by_cases hji : j = i
    · subst hji; rw [upd_same]; simp
    · rw [upd_ne _ _ hji]; simp [hji])
  have e1' : (List.replicate A.rows 0 : List Nat) =
      tab A.rows fun i => if (fun _ => false : Nat → Bool) i then (touchedIn A B M i).length else 0 := by
    rw [Conv.replicate_eq_tab]; exact tab_ext (fun _ _ => rfl)
  rw [e1', e1]
  congr 1
  exact tab_ext (fun i hi => by simp [hi])

theorem hashMaskWobin_ok (mul add : V → V → V) {A B M : CSR V} (h : Spec.Valid A B M) (hsmall : A.rows + 1 < 2 ^ 17) (dflt : V)
    (nd : Nat) : ∃ C, Spec.IsMaskedSet mul add A B M C ∧ ∀ order1 s1 s2 order2 : List Nat,
      order1.Perm (List.range A.rows) → order2.Perm (List.range A.rows) →
      hashMaskWobin mul add A B M dflt nd order1 s1 s2 order2 = .ok (some C) := by
  have hma := h.shapes.ma
  have hex : ∀ i, ∃ r, i < A.rows → IsRow mul add A B M i r ∧ ∀ (f : Nat → Entry (V × Bool)) ks,
      (∀ j < slots ((M.rowCols i).length + 1), (f j).key = none) →
      ∀ rowptr off, rd rowptr i = .ok off → ∀ X : List (Nat × V), off + r.length ≤ X.length →
      ∃ f', fillRow mul add dflt A B M rowptr i (X.map (·.1), X.map (·.2))
          (mkT (slots ((M.rowCols i).length + 1)) (slots ((M.rowCols i).length + 1)) f ks) =
        .ok (((X.take off ++ r ++ X.drop (off + r.length)).map (·.1), (X.take off ++ r ++ X.drop (off + r.length)).map (·.2)),
          mkT (slots ((M.rowCols i).length + 1)) (slots ((M.rowCols i).length + 1)) f' ks) ∧
          ∀ j < slots ((M.rowCols i).length + 1), (f' j).key = none := by
    intro i
    by_cases hi : i < A.rows
    · obtain ⟨r, hr⟩ := fillRow_ok mul add dflt h hi (slots_pow2 ((M.rowCols i).length + 1)) (by
        have := le_slots ((M.rowCols i).length + 1)
        omega)
      exact ⟨r, fun _ => hr⟩
    · exact ⟨[], fun h => absurd h hi⟩
  obtain ⟨exp, hexp⟩ := Classical.axiomOfChoice hex
  have hlen : ∀ i < A.rows, lens exp i = (touchedIn A B M i).length := fun i hi =>
    masked_len (hexp i hi).1.1 (hexp i hi).1.2
  refine ⟨ofRows A.rows B.cols true exp, isMaskedSet h.wfB (fun i hi => (hexp i hi).1), ?_⟩
  intro order1 s1 s2 order2 ho1 ho2
  unfold hashMaskWobin
  have e2 : (tab A.rows fun i => (touchedIn A B M i).length) = tab A.rows (lens exp) :=
    tab_ext (fun i hi => (hlen i hi).symm)
  rw [wobin_count h ho1, ok_bind, e2, scan_small hsmall]
  simp only [ok_bind]
  rw [rd_tab (by omega), ok_bind]
  have e3 := fillOrder (n := A.rows) (fun out i => (do
      let t ← rowTable M i (dflt, false)
      let (out, _) ← fillRow mul add dflt A B M (tab (A.rows + 1) (psum (lens exp))) i out t
      .ok out : Res (List Nat × List V)))
    (fun D => ((partly exp (0, dflt) D A.rows).map (·.1), (partly exp (0, dflt) D A.rows).map (·.2))) order2 ho2 (by
    intro D i hi _
    have hX : psum (lens exp) i + (exp i).length ≤ (partly exp (0, dflt) D A.rows).length := by
      rw [partly_length]
      exact psum_mono (f := lens exp) (show i + 1 ≤ A.rows from hi)
    obtain ⟨f', e, _⟩ := (hexp i hi).2 (fun _ => ⟨none, (dflt, false)⟩) [] (fun _ _ => rfl) (tab (A.rows + 1) (psum (lens exp)))
      (psum (lens exp) i) (rd_tab (by omega)) _ hX
    rw [rowTable_eq h.wfM (by omega), ok_bind, e]
    simp only [ok_bind]
    rw [← partly_add exp (0, dflt) D hi]
    rfl)
  simp only [partly_none, List.map_replicate, partly_all] at e3
  rw [e3]
  rfl

/-- With `2^17 - 1` or more rows the prefix sum reads past the end of the row counts. -/
theorem hashMaskWobin_big (mul add : V → V → V) {A B M : CSR V} (h : Spec.Valid A B M) (hbig : 2 ^ 17 ≤ A.rows + 1) (dflt : V)
    {nd : Nat} (hnd : 0 < nd) {order1 s1 s2 order2 : List Nat} (ho1 : order1.Perm (List.range A.rows)) (C : CSR V) :
    hashMaskWobin mul add A B M dflt nd order1 s1 s2 order2 ≠ .ok (some C) := by
  intro hrun
  unfold hashMaskWobin at hrun
  rw [wobin_count h ho1, ok_bind] at hrun
  obtain ⟨r, h3, hrun⟩ := Alias.bind_ok' hrun
  cases r with
  | none => cases hrun
  | some ps => exact UtilScan.scan_short hnd (by omega) (by simp) _ _ _ h3

end Verif.Model.LpMult
