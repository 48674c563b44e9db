import Verif.Lemmas.RaceOld

/-! # The older kernels have no data races -/

namespace Verif.Model.RaceOld
open Hash (Tbl Entry mkT)
open Slots

variable {V α β : Type}

/-! ## What the rows access -/

/-- Stores at or after `off`. -/
def From (off : Nat) (a : Access) : Prop := a.write = true ∧ off ≤ a.idx

theorem all_symRow (A B : CSR V) (binId : List Nat) (i : Nat) (t : Tbl V) : (symRow A B binId i t).All (CellOf i) := by
  unfold symRow
  refine all_bind (all_priv _) fun bid => ?_
  split
  · exact all_bind (all_priv _) fun _ => all_bind (all_priv _) fun _ => all_bind (all_put ⟨rfl, rfl⟩) fun _ => trivial
  · exact all_bind (all_put ⟨rfl, rfl⟩) fun _ => trivial

theorem all_writeOut (off index : Nat) (pv : List (Nat × V)) : (writeOut off index pv).All (From off) := by
  unfold writeOut loop
  exact all_forList (fun j _ => all_bind (all_priv _) fun _ =>
    all_bind (all_put ⟨rfl, Nat.le_add_right _ _⟩) fun _ => all_putV ⟨rfl, Nat.le_add_right _ _⟩) _

theorem all_gather (t : Tbl V) (shRow off : Nat) : (gather t shRow off).All (From off) := by
  unfold gather loop
  refine all_forList (fun j index => all_bind (all_priv _) fun e => ?_) _
  split
  · exact all_bind (all_put ⟨rfl, Nat.le_add_right _ _⟩) fun _ => all_bind (all_putV ⟨rfl, Nat.le_add_right _ _⟩) fun _ => trivial
  · trivial

theorem all_numRow (sorted : Bool) (sortf : List (Nat × V) → List (Nat × V)) (mul add : V → V → V) (dflt : V) (A B : CSR V)
    {rowptr binId : List Nat} {i off : Nat} (ho : rd rowptr i = .ok off) (t : Tbl V) :
    (numRow sorted sortf mul add dflt A B rowptr binId i t).All (From off) := by
  unfold numRow
  refine all_bind (all_priv _) fun bid => ?_
  split
  · refine all_priv_bind fun off' h => ?_
    rw [ho] at h
    cases h
    refine all_bind (all_priv _) fun _ => all_bind (all_priv _) fun t => ?_
    split
    · exact all_bind (all_priv _) fun _ => all_bind (all_priv _) fun _ => all_bind (all_writeOut _ _ _) fun _ => trivial
    · exact all_bind (all_gather _ _ _) fun _ => trivial
  · trivial

theorem all_spaCountRow (A B M : CSR V) (i : Nat) (s : Spa.Str) : (spaCountRow A B M i s : Prog V Spa.Str).All (CellOf i) := by
  unfold spaCountRow
  exact all_bind (all_priv _) fun _ => all_bind (all_priv _) fun _ => all_bind (all_put ⟨rfl, rfl⟩) fun _ => all_priv _

theorem all_spaFillRow (mul add : V → V → V) (A B M : CSR V) {rowptr : List Nat} {i off : Nat} (ho : rd rowptr i = .ok off)
    (s : Spa.Acc V) : (spaFillRow mul add A B M rowptr i s).All (From off) := by
  unfold spaFillRow
  refine all_bind (all_priv _) fun _ => all_bind (all_priv _) fun s => all_priv_bind fun off' h => ?_
  rw [ho] at h
  cases h
  unfold outputReset
  refine all_bind (all_forList (fun index k => ?_) _) fun _ => all_bind (all_priv _) fun _ => trivial
  exact all_bind (all_put ⟨rfl, Nat.le_add_right _ _⟩) fun _ => all_bind (all_priv _) fun _ =>
    all_bind (all_putV ⟨rfl, Nat.le_add_right _ _⟩) fun _ => trivial

theorem all_countProducts (A B : CSR V) (i : Nat) (t : Tbl Bool) : (countProducts A B i t).All (CellOf i) := by
  unfold countProducts nestP loop
  refine all_bind (all_put ⟨rfl, rfl⟩) fun _ => all_bind (all_priv _) fun _ => all_bind (all_priv _) fun _ => ?_
  refine all_forList (fun j s => all_bind (all_priv _) fun _ => all_bind (all_priv _) fun _ => all_bind (all_priv _) fun _ => ?_) _
  refine all_forList (fun k s => all_bind (all_priv _) fun _ => all_bind (all_priv _) fun hv => ?_) _
  split
  · trivial
  · refine all_bind (all_priv _) fun e => ?_
    split
    · exact all_bind (all_get ⟨rfl, rfl⟩) fun _ => all_bind (all_put ⟨rfl, rfl⟩) fun _ => all_priv _
    · trivial

theorem all_lpCountRow (A B M : CSR V) (i : Nat) (t : Tbl Bool) : (lpCountRow A B M i t).All (CellOf i) := by
  unfold lpCountRow
  exact all_bind (all_priv _) fun _ => all_bind (all_countProducts _ _ _ _) fun _ => all_priv _

theorem all_wobinCount (A B M : CSR V) (i : Nat) : (wobinCount A B M i).All (CellOf i) := by
  unfold wobinCount
  exact all_bind (all_priv _) fun _ => all_bind (all_priv _) fun _ => all_bind (all_countProducts _ _ _ _) fun _ => trivial

theorem all_lpFillRow (mul add : V → V → V) (dflt : V) (A B M : CSR V) {rowptr : List Nat} {i off : Nat} (ho : rd rowptr i = .ok off)
    (t : Tbl (V × Bool)) : (lpFillRow mul add dflt A B M rowptr i t).All (From off) := by
  unfold lpFillRow
  refine all_bind (all_priv _) fun _ => all_bind (all_priv _) fun s => all_priv_bind fun off' h => ?_
  rw [ho] at h
  cases h
  unfold lpGather loop
  refine all_bind (all_forList (fun j s => all_bind (all_priv _) fun e => ?_) _) fun _ => trivial
  refine all_bind ?_ fun _ => all_bind (all_priv _) fun _ => trivial
  split
  · split
    · exact all_bind (all_put ⟨rfl, Nat.le_add_right _ _⟩) fun _ => all_bind (all_putV ⟨rfl, Nat.le_add_right _ _⟩) fun _ => trivial
    · trivial
  · trivial

/-! ## The kernels -/

theorem twoPass_free {A B : CSR V} (hA : A.WF) (hB : B.WF) (hAB : A.cols = B.rows) (hpos : 0 < A.rows)
    (hsmall : A.rows + 1 < 2 ^ 17) {dflt : V} {n nd : Nat} (hn : 0 < n) {init1 : Nat → Nat → Nat → Res α}
    {row1 : Nat → List Nat → α → Res (List Nat × α)} {prog1 : Nat → α → Prog V α} {init2 : Nat → Nat → Nat → Res β}
    {row2 : List Nat → Nat → List Nat × List V → β → Res ((List Nat × List V) × β)} {prog2 : List Nat → Nat → β → Prog V β}
    (exp : Nat → List (Nat × V)) (I1 : Nat → Nat → α → Prop) (I2 : Nat → Nat → β → Prop)
    (hinit1 : ∀ t lo hi, lo ≤ hi → hi ≤ A.rows → ∃ a, init1 t lo hi = .ok a ∧ I1 lo hi a)
    (hrow1 : ∀ lo hi i a, Blk A B n lo hi → lo ≤ i → i < hi → hi ≤ A.rows → I1 lo hi a → ∀ g, ∃ a',
      row1 i (tab A.rows g) a = .ok (tab A.rows (upd g i (exp i).length), a') ∧ I1 lo hi a')
    (hinit2 : ∀ t lo hi, lo ≤ hi → hi ≤ A.rows → ∃ a, init2 t lo hi = .ok a ∧ I2 lo hi a)
    (hrow2 : ∀ lo hi i a, Blk A B n lo hi → lo ≤ i → i < hi → hi ≤ A.rows → I2 lo hi a → ∀ rowptr off, rd rowptr i = .ok off →
      ∀ X : List (Nat × V), off + (exp i).length ≤ X.length → ∃ a', row2 rowptr i (X.map (·.1), X.map (·.2)) a =
        .ok (((X.take off ++ exp i ++ X.drop (off + (exp i).length)).map (·.1),
          (X.take off ++ exp i ++ X.drop (off + (exp i).length)).map (·.2)), a') ∧ I2 lo hi a')
    (hx1 : ∀ i a x ys, (prog1 i a).exec (x, ys) = (row1 i x a >>= fun r => .ok ((r.1, ys), r.2)))
    (hc1 : ∀ i a, (prog1 i a).All (CellOf i))
    (hx2 : ∀ rowptr i a g, (prog2 rowptr i a).exec g = row2 rowptr i g a)
    (hf2 : ∀ rowptr i off a, rd rowptr i = .ok off → (prog2 rowptr i a).All (From off))
    {sch : TwoPassSched} (hadm : sch.Adm A.rows n) :
    ∀ tr ∈ twoPassTraces A B dflt n nd init1 row1 prog1 init2 prog2 sch, ¬ Racy tr := by
  obtain ⟨p, e1, hp⟩ := Bin.setMaxBin_ok hA hB hAB hpos hsmall (cols := B.cols) (min := 8) (by omega) hn nd hadm
  have ho := Bin.bounds (Bin.nprod A B) (psum (Bin.nprod A B) A.rows) A.rows hn
  have hpo := hp.off
  have hblk : ∀ t < n, Blk A B n (Bin.bound (Bin.nprod A B) (psum (Bin.nprod A B) A.rows) A.rows n t)
    (Bin.bound (Bin.nprod A B) (psum (Bin.nprod A B) A.rows) A.rows n (t + 1)) := fun t ht => ⟨t, ht, rfl, rfl⟩
  generalize Bin.bound (Bin.nprod A B) (psum (Bin.nprod A B) A.rows) A.rows n = o at ho hpo hblk
  have hoff : ∀ t ≤ n, p.rowsOffset[t]? = some (o t) := fun t ht => by rw [hpo]; exact tab_getElem? (by omega)
  have hr1 : ∀ t < n, ∀ i a, o t ≤ i → i < o (t + 1) → I1 (o t) (o (t + 1)) a → ∀ g, ∃ a',
      row1 i (tab A.rows g) a = .ok (tab A.rows (upd g i (lens exp i)), a') ∧ I1 (o t) (o (t + 1)) a' := by
    intro t ht i a hi1 hi2 hI g
    exact hrow1 _ _ i a (hblk t ht) hi1 hi2 (ho.le (by omega)) hI g
  intro tr htr
  unfold twoPassTraces at htr
  rw [e1] at htr
  simp only [done] at htr
  rw [Conv.replicate_eq_tab] at htr
  rcases List.mem_cons.1 htr with rfl | htr
  · exact count_free ho hoff (fun t a => I1 (o t) (o (t + 1)) a)
      (fun t ht => hinit1 t _ _ (ho.mono t ht) (ho.le (by omega))) hr1 hx1 hc1 _ _
  rcases count_ok ho hoff (cnt := lens exp) (fun t a => I1 (o t) (o (t + 1)) a) (init := init1) (row := row1)
    (fun t ht => hinit1 t _ _ (ho.mono t ht) (ho.le (by omega))) hr1 (fun _ => 0) sch.count with ⟨e2, -⟩ | ⟨as, e2, _⟩
  · rw [e2] at htr
    cases htr
  · rw [e2] at htr
    simp only at htr
    rw [scan_small hsmall] at htr
    simp only at htr
    rw [rd_tab (by omega)] at htr
    rw [List.mem_singleton.1 htr]
    refine fill_free ho hoff (row := row2 (tab (A.rows + 1) (psum (lens exp)))) (fun t a => I2 (o t) (o (t + 1)) a)
      (fun t ht => hinit2 t _ _ (ho.mono t ht) (ho.le (by omega))) ?_ (fun i a g => hx2 _ i a g) ?_ dflt sch.fill
    · intro t ht i a hi1 hi2 hI X hX
      have hle := ho.le (t := t + 1) (by omega)
      exact hrow2 _ _ i a (hblk t ht) hi1 hi2 hle hI _ (psum (lens exp) i) (rd_tab (by omega)) X hX
    · intro i hi a
      exact hf2 _ i _ a (rd_tab (by omega))

theorem spa_free (mul add : V → V → V) {A B M : CSR V} (h : Spec.Valid A B M) (hsmall : A.rows + 1 < 2 ^ 17) (dflt : V)
    {n nd : Nat} (hn : 0 < n) {w1 w2 : Nat → Nat} {sch : TwoPassSched} (hadm : sch.Adm A.rows n) :
    ∀ tr ∈ spaTraces mul add A B M dflt n nd w1 w2 sch, ¬ Racy tr := by
  intro tr htr
  unfold spaTraces at htr
  rcases List.mem_append.1 htr with htr | htr
  · exact bin_free tr htr
  have hexp := Spa.expRow_spec mul add (A := A) (B := B) (M := M)
  refine twoPass_free h.wfA h.wfB h.shapes.ab h.rowsPos hsmall hn (Spa.expRow mul add A B M)
    (row2 := Spa.fillRow mul add A B M)
    (fun _ _ a => a = { committed := 0, flags := tab B.cols fun _ => 0, possible := [] })
    (fun _ _ a => ∃ v0, a = { values := tab B.cols v0, flags := tab B.cols fun _ => 0, present := [], possible := [] })
    (fun t lo hi _ _ => ⟨_, rfl, by rw [Conv.replicate_eq_tab]⟩) ?_
    (fun t lo hi _ _ => ⟨_, rfl, fun _ => dflt, by rw [Conv.replicate_eq_tab, Conv.replicate_eq_tab]⟩) ?_
    (fun i a x ys => exec_spaCountRow A B M i a x ys) (fun i a => all_spaCountRow A B M i a)
    (fun rowptr i a g => exec_spaFillRow mul add A B M rowptr i a g) (fun rowptr i off a ho => all_spaFillRow mul add A B M ho a)
    hadm tr htr
  · rintro lo hi i a - h1 h2 h3 rfl g
    refine ⟨_, ?_, rfl⟩
    rw [Spa.countRow_ok h (by omega) g]
    have : (Spa.expRow mul add A B M i).length = (touchedIn A B M i).length := by
      rw [← (hexp i).2.2, List.length_map]
    rw [this]
  · rintro lo hi i a - h1 h2 h3 ⟨v0, rfl⟩ rowptr off ho X hX
    obtain ⟨v1, e⟩ := Spa.fillRow_ok mul add h (show i < A.rows by omega) v0 ho X hX
    exact ⟨_, e, v1, rfl⟩

theorem lp_free (mul add : V → V → V) {A B M : CSR V} (h : Spec.Valid A B M) (hsmall : A.rows + 1 < 2 ^ 17) (dflt : V)
    {n nd : Nat} (hn : 0 < n) {w1 w2 : Nat → Nat} {tables : List Nat} {sch : TwoPassSched} (hadm : sch.Adm A.rows n) :
    ∀ tr ∈ lpTraces mul add A B M dflt n nd w1 w2 tables sch, ¬ Racy tr := by
  intro tr htr
  unfold lpTraces at htr
  rcases List.mem_append.1 htr with htr | htr
  · rcases List.mem_append.1 htr with htr | htr
    · exact bin_free tr htr
    · cases e : done (Bin.setMaxBin A B A.rows B.cols 8 n nd sch.bin) with
      | none => rw [e] at htr; cases htr
      | some p =>
        rw [e] at htr
        rw [List.mem_singleton.1 htr]
        exact table_free
  have hma := h.shapes.ma
  have hex : ∀ i, ∃ r, i < A.rows → LpMult.IsRow mul add A B M i r ∧ ∀ lo hi m, Blk A B n lo hi → lo ≤ i → i < hi →
      LpMult.maxRow M lo hi = .ok m → ∀ (f : Nat → Entry (V × Bool)) ks, (∀ j < LpMult.slots (m + 1), (f j).key = none) →
      ∀ rowptr off, rd rowptr i = .ok off → ∀ X : List (Nat × V), off + r.length ≤ X.length →
      ∃ f', LpMult.fillRow mul add dflt A B M rowptr i (X.map (·.1), X.map (·.2))
          (mkT (LpMult.slots (m + 1)) (LpMult.slots (m + 1)) f ks) =
        .ok (((X.take off ++ r ++ X.drop (off + r.length)).map (·.1), (X.take off ++ r ++ X.drop (off + r.length)).map (·.2)),
          mkT (LpMult.slots (m + 1)) (LpMult.slots (m + 1)) f' ks) ∧ ∀ j < LpMult.slots (m + 1), (f' j).key = none := by
    intro i
    by_cases hi : i < A.rows
    · obtain ⟨lo, hi', hb, h1, h2, h3⟩ := Blk.exists (A := A) (B := B) hn hi
      obtain ⟨m, hm, hmax⟩ := LpMult.maxRow_ok h.wfM (lo := lo) (hi := hi') (by omega) (by omega)
      obtain ⟨r, hr, hrun⟩ := LpMult.fillRow_ok mul add dflt h hi (LpMult.slots_pow2 (m + 1)) (by
        have := LpMult.le_slots (m + 1)
        have := hmax i h1 h2
        omega)
      refine ⟨r, fun _ => ⟨hr, ?_⟩⟩
      intro lo2 hi2 m2 hb2 h1' h2' hm2
      obtain ⟨rfl, rfl⟩ := hb.unique hb2 h1 h2 h1' h2'
      rw [hm] at hm2
      cases hm2
      exact hrun
    · exact ⟨[], fun h => absurd h hi⟩
  obtain ⟨exp, hexp⟩ := Classical.axiomOfChoice hex
  refine twoPass_free h.wfA h.wfB h.shapes.ab h.rowsPos hsmall hn exp (row2 := LpMult.fillRow mul add dflt A B M)
    (fun lo hi a => ∃ m f, LpMult.maxRow M lo hi = .ok m ∧ (∀ i, lo ≤ i → i < hi → (M.rowCols i).length ≤ m) ∧
      a = mkT (LpMult.slots (m + 1)) (LpMult.slots (m + 1)) f [] ∧ ∀ j < LpMult.slots (m + 1), (f j).key = none)
    (fun lo hi a => ∃ m f, LpMult.maxRow M lo hi = .ok m ∧
      a = mkT (LpMult.slots (m + 1)) (LpMult.slots (m + 1)) f [] ∧ ∀ j < LpMult.slots (m + 1), (f j).key = none) ?_ ?_ ?_ ?_
    (fun i a x ys => exec_lpCountRow A B M i a x ys) (fun i a => all_lpCountRow A B M i a)
    (fun rowptr i a g => exec_lpFillRow mul add dflt A B M rowptr i a g)
    (fun rowptr i off a ho => all_lpFillRow mul add dflt A B M ho a) hadm tr htr
  · intro t lo hi h1 h2
    obtain ⟨m, hm, hmax⟩ := LpMult.maxRow_ok h.wfM h1 (by omega)
    rw [hm, ok_bind, LpMult.newTable_eq]
    exact ⟨_, rfl, m, _, rfl, hmax, rfl, fun _ _ => rfl⟩
  · rintro lo hi i a - h1 h2 h3 ⟨m, f, hm, hmax, rfl, hf⟩ g
    obtain ⟨f', e, hf'⟩ := LpMult.countRow_ok h (i := i) (by omega) (LpMult.slots_pow2 (m + 1)) (by
      have := LpMult.le_slots (m + 1)
      have := hmax i h1 h2
      omega) (ks := []) hf g
    have hr := (hexp i (by omega)).1
    refine ⟨_, ?_, m, f', hm, hmax, rfl, hf'⟩
    rw [e, masked_len hr.1 hr.2]
  · intro t lo hi h1 h2
    obtain ⟨m, hm, hmax⟩ := LpMult.maxRow_ok h.wfM h1 (by omega)
    rw [hm, ok_bind, LpMult.newTable_eq]
    exact ⟨_, rfl, m, _, rfl, rfl, fun _ _ => rfl⟩
  · rintro lo hi i a hb h1 h2 h3 ⟨m, f, hm, rfl, hf⟩ rowptr off ho X hX
    obtain ⟨f', e, hf'⟩ := (hexp i (by omega)).2 lo hi m hb h1 h2 hm f [] hf rowptr off ho X hX
    exact ⟨_, e, m, f', hm, rfl, hf'⟩

theorem wobin_free (mul add : V → V → V) {A B M : CSR V} (h : Spec.Valid A B M) (hsmall : A.rows + 1 < 2 ^ 17) (dflt : V)
    {nd : Nat} {w1 w2 : Nat → Nat} {order1 s1 s2 order2 : List Nat}
    (ho1 : order1.Perm (List.range A.rows)) (ho2 : order2.Perm (List.range A.rows)) :
    ∀ tr ∈ wobinTraces mul add A B M dflt nd w1 w2 order1 s1 s2 order2, ¬ Racy tr := by
  intro tr htr
  unfold wobinTraces at htr
  rcases List.mem_cons.1 htr with rfl | htr
  · exact loop_free (own := CellOf)
      (fun i _ => all_wobinCount A B M i)
      (fun i _ j _ hij a b ha hb _ h => hij (by rw [← ha.2, ← hb.2, h])) _
  have hma := h.shapes.ma
  have hex : ∀ i, ∃ r, i < A.rows → LpMult.IsRow mul add A B M i r ∧ ∀ (f : Nat → Entry (V × Bool)) ks,
      (∀ j < LpMult.slots ((M.rowCols i).length + 1), (f j).key = none) →
      ∀ rowptr off, rd rowptr i = .ok off → ∀ X : List (Nat × V), off + r.length ≤ X.length →
      ∃ f', LpMult.fillRow mul add dflt A B M rowptr i (X.map (·.1), X.map (·.2))
          (mkT (LpMult.slots ((M.rowCols i).length + 1)) (LpMult.slots ((M.rowCols i).length + 1)) f ks) =
        .ok (((X.take off ++ r ++ X.drop (off + r.length)).map (·.1), (X.take off ++ r ++ X.drop (off + r.length)).map (·.2)),
          mkT (LpMult.slots ((M.rowCols i).length + 1)) (LpMult.slots ((M.rowCols i).length + 1)) f' ks) ∧
          ∀ j < LpMult.slots ((M.rowCols i).length + 1), (f' j).key = none := by
    intro i
    by_cases hi : i < A.rows
    · obtain ⟨r, hr⟩ := LpMult.fillRow_ok mul add dflt h hi (LpMult.slots_pow2 ((M.rowCols i).length + 1)) (by
        have := LpMult.le_slots ((M.rowCols i).length + 1)
        omega)
      exact ⟨r, fun _ => hr⟩
    · exact ⟨[], fun h => absurd h hi⟩
  obtain ⟨exp, hexp⟩ := Classical.axiomOfChoice hex
  have e2 : (tab A.rows fun i => (touchedIn A B M i).length) = tab A.rows (lens exp) :=
    tab_ext (fun i hi => (masked_len (hexp i hi).1.1 (hexp i hi).1.2).symm)
  rw [LpMult.wobin_count h ho1, e2] at htr
  simp only at htr
  rw [scan_small hsmall] at htr
  simp only [done] at htr
  rw [rd_tab (by omega)] at htr
  rw [List.mem_singleton.1 htr]
  refine loop_free (own := SegOf exp) ?_ (fun i _ j _ hij a b ha hb _ => seg_disj hij ha hb) _
  intro i hio
  have hi : i < A.rows := by
    have := ho2.mem_iff.1 hio
    simpa using this
  unfold wobinFill
  rw [LpMult.rowTable_eq h.wfM (by omega)]
  refine all_priv_bind fun t ht => all_bind ?_ fun _ => trivial
  cases ht
  have hp : rd (tab (A.rows + 1) (psum (lens exp))) i = .ok (psum (lens exp) i) := rd_tab (by omega)
  refine seg_all (dflt := dflt) (all_lpFillRow mul add dflt A B M hp _) ?_
  obtain ⟨f', e, _⟩ := (hexp i hi).2 (fun _ => ⟨none, (dflt, false)⟩) [] (fun _ _ => rfl) _ _ hp
    (List.replicate (psum (lens exp) (i + 1)) (0, dflt)) (by
      rw [List.length_replicate]
      exact Nat.le_refl (psum (lens exp) i + lens exp i))
  exact ⟨_, by rw [exec_lpFillRow, e]⟩

open HashMult in
theorem hash_free {sorted : Bool} {sortf : List (Nat × V) → List (Nat × V)} (hs : Spec.SortsBy (·.1) sortf)
    (mul add : V → V → V) (dflt : V) {A B : CSR V} (hA : A.WF) (hB : B.WF) (hAB : A.cols = B.rows) (hpos : 0 < A.rows)
    (hsmall : A.rows + 1 < 2 ^ 17) {n : Nat} (hn : 0 < n) (nd : Nat) {w1 w2 : Nat → Nat} {tables : List Nat}
    {sch : HashMult.Sched} (hadm : HashMult.Adm A.rows n sch) :
    ∀ tr ∈ hashTraces sorted sortf mul add A B dflt n nd w1 w2 tables sch, ¬ Racy tr := by
  intro tr htr
  unfold hashTraces at htr
  rcases List.mem_append.1 htr with htr | htr
  · exact bin_free tr htr
  have hbin : ∀ i, ∃ b, Bin.IsBin (Bin.nprod A B i) B.cols 8 b := fun i =>
    let ⟨b, _, h⟩ := Bin.binIdOf_ok (Bin.nprod A B i) B.cols (min := 8) (by omega)
    ⟨b, h⟩
  obtain ⟨b, hb⟩ := Classical.axiomOfChoice hbin
  have hex : ∀ i, ∃ r, i < A.rows → IsRow mul add sorted A B i r ∧
      ∀ {cap s : Nat} {f : Nat → Entry V} {ks : List Nat},
      (0 < b i → 8 <<< (b i - 1) ≤ cap) → ∀ (rowptr : List Nat) (off : Nat), rd rowptr i = .ok off →
      rd rowptr (i + 1) = .ok (off + width A B i) → ∀ X : List (Nat × V), off + width A B i ≤ X.length →
      ∃ s' f', HashMult.numRow sorted sortf mul add dflt A B rowptr (tab A.rows b) i (X.map (·.1), X.map (·.2)) (mkT cap s f ks) =
        .ok (((X.take off ++ r ++ X.drop (off + width A B i)).map (·.1),
          (X.take off ++ r ++ X.drop (off + width A B i)).map (·.2)), mkT cap s' f' ks) := by
    intro i
    by_cases hi : i < A.rows
    · obtain ⟨r, h⟩ := numRow_ok hs mul add dflt hA hB hAB hi (hb i) (sorted := sorted)
      exact ⟨r, fun _ => h⟩
    · exact ⟨[], fun h => absurd h hi⟩
  obtain ⟨exp, hexp⟩ := Classical.axiomOfChoice hex
  have hlen : ∀ i < A.rows, lens exp i = width A B i := fun i hi => (hexp i hi).1.len
  obtain ⟨p, e1, hp⟩ := Bin.setMaxBin_ok hA hB hAB hpos hsmall (cols := B.cols) (min := 8) (by omega) hn nd hadm
  obtain ⟨pn, po, pb⟩ := p
  obtain ⟨h1, h2, b', h3, h4⟩ := hp
  simp only at h1 h2 h3
  subst h1 h2
  have h3' : pb = tab A.rows b := by
    rw [h3]; exact tab_ext (fun i hi => bin_unique (h4 i hi) (hb i))
  subst h3'
  have ho := Bin.bounds (Bin.nprod A B) (psum (Bin.nprod A B) A.rows) A.rows hn
  generalize Bin.bound (Bin.nprod A B) (psum (Bin.nprod A B) A.rows) A.rows n = o at ho e1
  have hoff : ∀ t ≤ n, (tab (n + 1) o)[t]? = some (o t) := fun t ht => tab_getElem? (by omega)
  have hloc : ∀ t, ∃ s, t < n → Bin.localSize (tab A.rows (Bin.nprod A B)) B.cols 8 (o t) (o (t + 1)) = .ok s ∧
      ∀ i, o t ≤ i → i < o (t + 1) → 0 < b i → 8 <<< (b i - 1) ≤ s := by
    intro t
    by_cases ht : t < n
    · obtain ⟨s, k1, k2⟩ := Bin.localSize_ok (f := Bin.nprod A B) (cols := B.cols) (a := 3) (ho.mono t ht)
        (ho.le (t := t + 1) (by omega))
      refine ⟨s, fun _ => ⟨k1, ?_⟩⟩
      intro i hi1 hi2 h0
      have := k2 i hi1 hi2 (b i) (hb i) h0
      rw [Nat.shiftLeft_eq]
      exact this
    · exact ⟨0, fun h => absurd h ht⟩
  obtain ⟨sz, hsz⟩ := Classical.axiomOfChoice hloc
  let I : Nat → Tbl V → Prop := fun t a => ∃ cap s f ks, a = mkT cap s f ks ∧
    ∀ i, o t ≤ i → i < o (t + 1) → 0 < b i → 8 <<< (b i - 1) ≤ cap
  have htab : ∀ t < n, rd ((List.range n).map fun t => newTable (sz t) dflt) t = .ok (newTable (sz t) dflt) :=
    fun t ht => rd_tab ht
  have hI0 : ∀ t < n, I t (newTable (sz t) dflt) := fun t ht =>
    ⟨sz t, 0, fun _ => ⟨some 0, dflt⟩, [], by unfold newTable mkT; rw [Conv.replicate_eq_tab], (hsz t ht).2⟩
  have hrow : ∀ t, t < n → ∀ i, i < o (t + 1) → i < A.rows := by
    intro t ht i hi
    have := ho.le (t := t + 1) (by omega)
    omega
  have hr1 : ∀ t < n, ∀ i a, o t ≤ i → i < o (t + 1) → I t a → ∀ g, ∃ a',
      HashMult.symRow A B (tab A.rows b) i (tab A.rows g) a = .ok (tab A.rows (upd g i (lens exp i)), a') ∧ I t a' := by
    rintro t ht i a hi1 hi2 ⟨cap, s, f, ks, rfl, hc⟩ g
    have hi := hrow t ht i hi2
    obtain ⟨s', f', e⟩ := symRow_ok hA hB hAB hi (hb i) (s := s) (f := f) (ks := ks) (hc i hi1 hi2) g
    exact ⟨_, by rw [e, hlen i hi], cap, s', f', ks, rfl, hc⟩
  rw [e1] at htr
  simp only [done] at htr
  rcases List.mem_cons.1 htr with rfl | htr
  · exact table_free
  rw [mapM_ok (g := fun t => newTable (sz t) dflt) (by
    intro t ht
    have ht : t < n := by simpa using ht
    rw [rd_tab (by omega), ok_bind, rd_tab (by omega), ok_bind, (hsz t ht).1]
    rfl)] at htr
  simp only at htr
  rcases List.mem_cons.1 htr with rfl | htr
  · exact count_free ho hoff I (fun t ht => ⟨_, htab t ht, hI0 t ht⟩) hr1 (fun i a x ys => exec_symRow A B _ i a x ys)
      (fun i a => all_symRow A B _ i a) _ _
  rcases count_ok ho hoff (cnt := lens exp) I (init := fun t _ _ => rd ((List.range n).map fun t => newTable (sz t) dflt) t)
    (row := HashMult.symRow A B (tab A.rows b)) (fun t ht => ⟨_, htab t ht, hI0 t ht⟩) hr1
    (Bin.nprod A B) sch.sym with ⟨e2, -⟩ | ⟨as, e2, has⟩
  · rw [e2] at htr
    cases htr
  · rw [e2] at htr
    simp only at htr
    rw [scan_small hsmall] at htr
    simp only at htr
    rw [rd_tab (by omega)] at htr
    rw [List.mem_singleton.1 htr]
    refine fill_free ho hoff (exp := exp) I (init := fun t _ _ => rd as t)
      (row := HashMult.numRow sorted sortf mul add dflt A B (tab (A.rows + 1) (psum (lens exp))) (tab A.rows b)) ?_ ?_
      (fun i a g => exec_numRow sorted sortf mul add dflt A B _ _ i a g) ?_ dflt sch.num
    · intro t ht
      obtain ⟨a, ha, hIa⟩ := has t ht
      exact ⟨a, rd_of_getElem? ha, hIa⟩
    · rintro t ht i a hi1 hi2 ⟨cap, s, f, ks, rfl, hc⟩ X hX
      have hi := hrow t ht i hi2
      have hX' : psum (lens exp) i + width A B i ≤ X.length := by rw [← hlen i hi]; exact hX
      obtain ⟨s', f', e⟩ := (hexp i hi).2 (s := s) (f := f) (ks := ks) (hc i hi1 hi2) (tab (A.rows + 1) (psum (lens exp)))
        (psum (lens exp) i) (rd_tab (by omega)) (by rw [rd_tab (by omega), ← hlen i hi]; rfl) X hX'
      refine ⟨_, ?_, cap, s', f', ks, rfl, hc⟩
      rw [e, ← hlen i hi]
      rfl
    · intro i hi a
      exact all_numRow sorted sortf mul add dflt A B (rd_tab (by omega)) a

/-! ## The number of threads -/

theorem team_accesses (n : Nat) : ∀ (team : List Nat) (x : Nat), ∀ t ∈ team,
    (t, (⟨.numbers, 0, true⟩ : Access)) ∈ loopTrace id (teamProg (V := V) n) team ([x], []) := by
  intro team
  induction team with
  | nil => intro x t ht; cases ht
  | cons u us ih =>
    intro x t ht
    rw [loopTrace]
    rcases List.mem_cons.1 ht with rfl | ht
    · exact List.mem_append_left _ (by simp [teamProg, put, Prog.accesses, wr])
    · exact List.mem_append_right _ (ih n t ht)

theorem team_racy (V : Type) {n : Nat} (hn : 2 ≤ n) {team : List Nat} (ht : team.Perm (List.range n)) : Racy (teamTrace V n team) := by
  have h0 : 0 ∈ team := ht.mem_iff.2 (List.mem_range.2 (by omega))
  have h1 : 1 ∈ team := ht.mem_iff.2 (List.mem_range.2 (by omega))
  exact ⟨_, team_accesses n team 0 0 h0, _, team_accesses n team 0 1 h1, by decide, rfl, rfl, Or.inl rfl⟩

theorem team_racy_iff (V : Type) {n : Nat} {team : List Nat} (ht : team.Perm (List.range n)) :
    Racy (teamTrace V n team) ↔ 2 ≤ n := by
  refine ⟨?_, fun h2 => team_racy V h2 ht⟩
  intro hr
  apply Classical.byContradiction
  intro hlt
  obtain ⟨x, hx, y, hy, hne, -⟩ := hr
  have hz : ∀ z ∈ teamTrace V n team, z.1 = 0 := by
    intro z hz
    obtain ⟨i, hi, e, -⟩ := mem_loopTrace (own := fun _ _ => True) (fun i _ => all_put trivial) _ z hz
    have := List.mem_range.1 (ht.mem_iff.1 hi)
    rw [e]
    show i = 0
    omega
  exact hne (by rw [hz x hx, hz y hy])

end Verif.Model.RaceOld
