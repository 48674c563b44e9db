import Verif.Lemmas.RaceConv

/-! # Freedom from races -/

namespace Verif.Model.RaceConv
open RaceOld (Arr Access Racy done)
open RaceOuter (Prog priv loop loopTrace wp wp_bind wp_mono wp_priv wp_loop loop_free)
open RaceDot (get_of_rd set_of_wr)
open Outer (rd_lt wr_len forRange_reach foldlM_reach psum_sep)

variable {V σ α ι : Type}

/-- The numbers do not decrease. -/
def Mono (ptr : List Nat) : Prop := ∀ i j x y : Nat, i ≤ j → ptr[i]? = some x → ptr[j]? = some y → x ≤ y

/-- A cell between two neighbouring pointers. -/
def InRow (ptr : List Nat) (i : Nat) (a : Access) : Prop :=
  ∃ b e, ptr[i]? = some b ∧ ptr[i + 1]? = some e ∧ b ≤ a.idx ∧ a.idx < e

theorem inRow_disj {ptr : List Nat} (h : Mono ptr) {i j : Nat} (hij : i ≠ j) {a b : Access} (ha : InRow ptr i a) (hb : InRow ptr j b) :
    a.idx ≠ b.idx := by
  obtain ⟨x, y, h1, h2, h3, h4⟩ := ha
  obtain ⟨z, w, k1, k2, k3, k4⟩ := hb
  intro e
  rcases Nat.lt_or_ge i j with hl | hl
  · have := h (i + 1) j _ _ hl h2 k1; omega
  · have := h (j + 1) i _ _ (by omega) k2 h1; omega

theorem mono_tab (n : Nat) (f : Nat → Nat) : Mono (tab n (psum f)) := by
  intro i j x y hij hx hy
  have hj : j < n := by
    by_contra hc
    rw [List.getElem?_eq_none (by rw [tab_length]; omega)] at hy
    cases hy
  rw [tab_getElem? (by omega)] at hx
  rw [tab_getElem? hj] at hy
  cases hx; cases hy
  exact psum_mono hij

theorem mono_ptr {A : CSR V} (h : A.WF) : Mono A.rowptr := by
  intro i j x y hij hx hy
  have hj : j < A.rowptr.length := by
    by_contra hc
    rw [List.getElem?_eq_none (by omega)] at hy
    cases hy
  rw [h.ptrLen] at hj
  have := CSR.ptr_le_ptr h hij (show j ≤ A.rows by omega)
  unfold CSR.ptr at this
  rw [List.getD_eq_getElem?_getD, hx, List.getD_eq_getElem?_getD, hy] at this
  exact this

variable {P : Access → Prop}

theorem wp_op {β : Type} {l : List Access} {f : σ → Res (σ × β)} {g : σ} (h : ∀ a ∈ l, P a) :
    wp P (.op l f .ret) (fun _ _ => True) g := ⟨h, fun _ _ => trivial⟩

theorem wp_op1 {β : Type} {a : Access} {f : σ → Res (σ × β)} {g : σ} (h : P a) : wp P (.op [a] f .ret) (fun _ _ => True) g :=
  wp_op (by intro x hx; rw [List.mem_singleton] at hx; rw [hx]; exact h)

/-- One piece after another, when nothing needs to be known about its result. -/
theorem wp_seq {β : Type} {p : Prog σ α} {q : α → Prog σ β} {g : σ} (h1 : wp P p (fun _ _ => True) g)
    (h2 : ∀ x g, wp P (q x) (fun _ _ => True) g) : wp P (p >>= q) (fun _ _ => True) g :=
  wp_bind (wp_mono h1 fun g x _ => h2 x g)

theorem wp_loop' {body : Nat → Prog σ Unit} {len lo : Nat} {g : σ}
    (h : ∀ j g, lo ≤ j → j < lo + len → wp P (body j) (fun _ _ => True) g) : wp P (loop lo len body) (fun _ _ => True) g :=
  wp_mono (wp_loop (I := fun _ _ => True) len lo trivial fun j g h1 h2 _ => h j g h1 h2) fun _ _ _ => trivial

/-! ## `sortIds` -/

theorem collect_own : ∀ (len j : Nat) (acc : List (Nat × V)) (g : List Nat × List V),
    (∀ a : Access, j ≤ a.idx → a.idx < j + len → P a) → wp P (collectProg len j acc) (fun _ _ => True) g := by
  intro len
  induction len with
  | zero => intros; trivial
  | succ len ih =>
    intro j acc g h
    rw [collectProg]
    refine wp_seq (wp_op1 (h _ (Nat.le_refl _) (by show j < _; omega))) fun c g => ?_
    refine wp_seq (wp_op1 (h _ (Nat.le_refl _) (by show j < _; omega))) fun v g => ?_
    exact ih _ _ _ fun a h1 h2 => h a (by omega) (by omega)

theorem putBack_own (tosort : List (Nat × V)) : ∀ (len j it : Nat) (g : List Nat × List V),
    (∀ a : Access, j ≤ a.idx → a.idx < j + len → P a) → wp P (putBackProg tosort len j it) (fun _ _ => True) g := by
  intro len
  induction len with
  | zero => intros; trivial
  | succ len ih =>
    intro j it g h
    rw [putBackProg]
    refine wp_seq (wp_priv fun _ _ => trivial) fun x g => ?_
    refine wp_seq (wp_op1 (h _ (Nat.le_refl _) (by show j < _; omega))) fun c g => ?_
    refine wp_seq (wp_op1 (h _ (Nat.le_refl _) (by show j < _; omega))) fun v g => ?_
    exact ih _ _ _ fun a h1 h2 => h a (by omega) (by omega)

theorem sort_own (sortf : List (Nat × V) → List (Nat × V)) (ptr : List Nat) (i : Nat) (g : List Nat × List V) :
    wp (InRow ptr i) (sortProg sortf ptr i) (fun _ _ => True) g := by
  refine wp_bind (wp_priv fun b hb => ?_)
  refine wp_bind (wp_priv fun e he => ?_)
  have key : ∀ a : Access, b ≤ a.idx → a.idx < b + (e - b) → InRow ptr i a := fun a h1 h2 =>
    ⟨b, e, rd_lt hb, rd_lt he, h1, by omega⟩
  exact wp_seq (collect_own _ _ _ _ key) fun t g => putBack_own _ _ _ _ _ key

theorem sort_free {ptr : List Nat} (h : Mono ptr) (sortf : List (Nat × V) → List (Nat × V)) (who : Nat → Nat) (order : List Nat)
    (g : List Nat × List V) : ¬ Racy (loopTrace who (sortProg sortf ptr) order g) :=
  loop_free (fun i _ g => sort_own sortf ptr i g) (fun _ _ _ _ hij _ _ ha hb _ => inRow_disj h hij ha hb) g

/-! ## The constructors -/

theorem col_own (sortf : List (Nat × V) → List (Nat × V)) (ptr : List Nat) (i : Nat) (g : List (Nat × V) × List Nat × List V) :
    wp (InRow ptr i) (colProg sortf ptr i) (fun _ _ => True) g := by
  refine wp_bind (wp_priv fun b hb => ?_)
  refine wp_bind (wp_priv fun e he => ?_)
  have key : ∀ a : Access, b ≤ a.idx → a.idx < b + (e - b) → InRow ptr i a := fun a h1 h2 =>
    ⟨b, e, rd_lt hb, rd_lt he, h1, by omega⟩
  refine wp_seq (wp_op ?_) fun _ g => wp_loop' fun j g h1 h2 => ?_
  · intro a ha
    obtain ⟨k, hk, rfl⟩ := List.mem_map.1 ha
    rw [List.mem_range'_1] at hk
    exact key _ hk.1 hk.2
  · refine wp_seq (wp_op1 (key _ h1 h2)) fun p g => ?_
    exact wp_seq (wp_op1 (key _ h1 h2)) fun _ g => wp_op1 (key _ h1 h2)

theorem edge_own (sortf : List Nat → List Nat) (ptr : List Nat) (i : Nat) (g : List Nat) :
    wp (InRow ptr i) (edgeProg sortf ptr i) (fun _ _ => True) g := by
  refine wp_bind (wp_priv fun b hb => ?_)
  refine wp_bind (wp_priv fun e he => ?_)
  refine wp_op ?_
  intro a ha
  obtain ⟨k, hk, rfl⟩ := List.mem_map.1 ha
  rw [List.mem_range'_1] at hk
  exact ⟨b, e, rd_lt hb, rd_lt he, hk.1, by show k < e; omega⟩

theorem countKeys_len {key : Nat → Res Nat} {nnz n : Nat} {work : List Nat}
    (h : Conv.countKeys key nnz (List.replicate n 0) = .ok work) : work.length = n := by
  refine (forRange_reach (fun w : List Nat => w.length = n) ?_ (by simp) h).1
  intro k s s' hs he
  obtain ⟨t, -, he⟩ := Alias.bind_ok' he
  obtain ⟨c, -, he⟩ := Alias.bind_ok' he
  rw [wr_len he, hs]

/-- The pointer array is made of sums of the counts. -/
theorem ptr_of_work {work w p q : List Nat} {n total : Nat} (hl : work.length = n) (h1 : Conv.cumulativeSum work n = .ok (w, total))
    (h2 : wr (List.replicate (n + 1) 0) n total = .ok p) (h3 : Conv.copyN w n p = .ok q) : Mono q := by
  have e := eq_tab work 0
  rw [hl] at e
  rw [e, Conv.cumulativeSum_eq] at h1
  cases h1
  have := Conv.ptrArray n fun i => work.getD i 0
  rw [h2, ok_bind, h3] at this
  cases this
  exact mono_tab _ _

theorem triples_mono {dflt : V} {triples : List (Nat × Nat × V)} {n : Nat} {colptr : List Nat} {tosort : List (Nat × V)}
    (h : triplesSetup dflt triples n = .ok (colptr, tosort)) : Mono colptr := by
  unfold triplesSetup at h
  obtain ⟨work, h1, h⟩ := Alias.bind_ok' h
  obtain ⟨⟨w, total⟩, h2, h⟩ := Alias.bind_ok' h
  obtain ⟨p, h3, h⟩ := Alias.bind_ok' h
  obtain ⟨q, h4, h⟩ := Alias.bind_ok' h
  obtain ⟨x, -, h⟩ := Alias.bind_ok' h
  cases h
  exact ptr_of_work (countKeys_len h1) h2 h3 h4

theorem edges_mono {edges : List (Nat × Nat)} {n : Nat} {colptr rowids : List Nat}
    (h : edgesSetup edges n = .ok (colptr, rowids)) : Mono colptr := by
  unfold edgesSetup at h
  obtain ⟨work, h1, h⟩ := Alias.bind_ok' h
  obtain ⟨⟨w, total⟩, h2, h⟩ := Alias.bind_ok' h
  obtain ⟨p, h3, h⟩ := Alias.bind_ok' h
  obtain ⟨q, h4, h⟩ := Alias.bind_ok' h
  obtain ⟨x, -, h⟩ := Alias.bind_ok' h
  cases h
  exact ptr_of_work (countKeys_len h1) h2 h3 h4

theorem triples_free (sortf : List (Nat × V) → List (Nat × V)) (who : Nat → Nat) (order : List Nat) (dflt : V)
    (triples : List (Nat × Nat × V)) (n : Nat) : ∀ tr ∈ triplesTraces sortf who order dflt triples n, ¬ Racy tr := by
  intro tr htr
  unfold triplesTraces at htr
  cases hs : triplesSetup dflt triples n with
  | error e => rw [hs] at htr; cases htr
  | ok r =>
    obtain ⟨colptr, tosort⟩ := r
    rw [hs] at htr
    rw [List.mem_singleton] at htr
    rw [htr]
    exact loop_free (fun i _ g => col_own sortf colptr i g)
      (fun _ _ _ _ hij _ _ ha hb _ => inRow_disj (triples_mono hs) hij ha hb) _

theorem edges_free (sortf : List Nat → List Nat) (w1 w2 : Nat → Nat) (order order2 : List Nat) (dflt one : V)
    (edges : List (Nat × Nat)) (n : Nat) : ∀ tr ∈ edgesTraces sortf w1 w2 order order2 dflt one edges n, ¬ Racy tr := by
  intro tr htr
  unfold edgesTraces at htr
  cases hs : edgesSetup edges n with
  | error e => rw [hs] at htr; cases htr
  | ok r =>
    obtain ⟨colptr, rowids⟩ := r
    rw [hs] at htr
    rcases List.mem_cons.1 htr with rfl | htr
    · exact loop_free (fun i _ g => edge_own sortf colptr i g)
        (fun _ _ _ _ hij _ _ ha hb _ => inRow_disj (edges_mono hs) hij ha hb) _
    · split at htr
      · cases htr
      · rw [List.mem_singleton] at htr
        rw [htr]
        exact loop_free (own := fun i a => a.idx = i) (fun i _ g => wp_op1 rfl)
          (fun _ _ _ _ hij _ _ ha hb _ => by rw [ha, hb]; exact hij) _

/-! ## `Intersect` -/

theorem merge_own (add : V → V → V) (A B : CSR V) (i : Nat) (g : List Nat × List (List (Nat × V))) :
    wp (fun a => a.idx = i) (mergeProg add A B i) (fun _ _ => True) g :=
  wp_seq (wp_priv fun _ _ => trivial) fun _ _ => wp_seq (wp_op1 rfl) fun _ _ => wp_op1 rfl

/-- The counts are the lengths of the rows, whichever iterations have run. -/
theorem merge_lens {add : V → V → V} {A B : CSR V} {order : List Nat} {m : Nat} {r : List Nat × List (List (Nat × V))}
    (h : loopRun (mergeProg add A B) order (List.replicate m 0, List.replicate m []) = .ok r) :
    r.1 = r.2.map List.length ∧ r.1.length = m := by
  refine (foldlM_reach (fun s : List Nat × List (List (Nat × V)) => s.1 = s.2.map List.length ∧ s.1.length = m) ?_ (by simp) h).1
  rintro s i s' ⟨h1, h2⟩ he
  rw [exec_mergeProg] at he
  simp only [bind_assoc, ok_bind] at he
  obtain ⟨xs, -, he⟩ := Alias.bind_ok' he
  obtain ⟨vecs, e1, he⟩ := Alias.bind_ok' he
  obtain ⟨nz, e2, he⟩ := Alias.bind_ok' he
  cases he
  obtain ⟨-, rfl⟩ := set_of_wr e1
  obtain ⟨-, rfl⟩ := set_of_wr e2
  exact ⟨by rw [List.map_set, h1], by simpa using h2⟩

theorem copy_own (vecs : List (List (Nat × V))) (rowptr : List Nat) (i : Nat) (g : List Nat × List V) :
    wp (fun a => ∃ xs off, vecs[i]? = some xs ∧ rowptr[i]? = some off ∧ off ≤ a.idx ∧ a.idx < off + xs.length)
      (copyProg vecs rowptr i) (fun _ _ => True) g := by
  refine wp_bind (wp_priv fun xs hx => ?_)
  refine wp_bind (wp_priv fun off ho => ?_)
  refine wp_loop' fun k g h1 h2 => ?_
  refine wp_seq (wp_priv fun _ _ => trivial) fun x g => ?_
  refine wp_seq (wp_op1 ⟨xs, off, rd_lt hx, rd_lt ho, ?_, ?_⟩) fun _ g => wp_op1 ⟨xs, off, rd_lt hx, rd_lt ho, ?_, ?_⟩ <;> dsimp only <;> omega

theorem intersect_free (add : V → V → V) (A B : CSR V) (dflt : V) {n : Nat} (hn : 0 < n) (w1 w2 : Nat → Nat)
    (order1 s1 s2 order2 : List Nat) : ∀ tr ∈ intersectTraces add A B dflt n w1 w2 order1 s1 s2 order2, ¬ Racy tr := by
  intro tr htr
  unfold intersectTraces at htr
  split at htr
  · cases htr
  rcases List.mem_cons.1 htr with rfl | htr
  · exact loop_free (fun i _ g => merge_own add A B i g) (fun _ _ _ _ hij _ _ ha hb _ => by rw [ha, hb]; exact hij) _
  cases hr : loopRun (mergeProg add A B) order1 (List.replicate A.rows 0, List.replicate A.rows []) with
  | error e => rw [hr] at htr; cases htr
  | ok r =>
    obtain ⟨rowNz, vecs⟩ := r
    obtain ⟨l1, l2⟩ := merge_lens hr
    rw [hr] at htr
    dsimp only at htr l1 l2
    cases hd : done (UtilScan.scan rowNz (A.rows + 1) (List.replicate (A.rows + 1) 0) n s1 s2) with
    | none => rw [hd] at htr; cases htr
    | some rowptr =>
      rw [hd] at htr
      dsimp only at htr
      have hsc : UtilScan.scan rowNz (A.rows + 1) (List.replicate (A.rows + 1) 0) n s1 s2 = .ok (some rowptr) := by
        unfold done at hd
        split at hd
        · rename_i x e; rw [e, hd]
        · cases hd
      have hsmall : A.rows + 1 < 2 ^ 17 := by
        by_contra hc
        exact UtilScan.scan_short hn hc (by omega) s1 s2 rowptr hsc
      have hp : rowptr = tab (A.rows + 1) (psum fun i => rowNz.getD i 0) := by
        unfold UtilScan.scan at hsc
        rw [if_pos hsmall, UtilScan.seqScan_eq (f := fun i => rowNz.getD i 0) (by omega) ?_ (by simp)] at hsc
        · cases hsc; rfl
        · intro i hi
          rw [List.getD_eq_getElem?_getD, List.getElem?_eq_getElem (by omega)]
          rfl
      cases hz : rd rowptr A.rows with
      | error e => rw [hz] at htr; cases htr
      | ok nnz =>
        rw [hz] at htr
        rw [List.mem_singleton] at htr
        rw [htr]
        refine loop_free (fun i _ g => copy_own vecs rowptr i g) ?_ _
        rintro i - j - hij a b ⟨x, o, e1, e2, e3, e4⟩ ⟨y, q, f1, f2, f3, f4⟩ - hab
        have off : ∀ i (o : Nat) (x : List (Nat × V)), vecs[i]? = some x → rowptr[i]? = some o →
            o = psum (fun i => rowNz.getD i 0) i ∧ x.length = rowNz.getD i 0 := by
          intro i o x h1 h2
          have hi : i < A.rows := by
            by_contra hc
            have : vecs.length = A.rows := by rw [← l2, l1, List.length_map]
            rw [List.getElem?_eq_none (by omega)] at h1
            cases h1
          rw [hp, tab_getElem? (by omega)] at h2
          cases h2
          refine ⟨rfl, ?_⟩
          rw [List.getD_eq_getElem?_getD, l1, List.getElem?_map, h1]
          rfl
        obtain ⟨rfl, hx⟩ := off i o x e1 e2
        obtain ⟨rfl, hy⟩ := off j q y f1 f2
        refine hij (psum_sep (f := fun i => rowNz.getD i 0) (i := a.idx - psum (fun i => rowNz.getD i 0) i)
          (k := b.idx - psum (fun i => rowNz.getD i 0) j) ?_ ?_ ?_) <;> omega

/-! ## Transposition -/

theorem count_own (A : CSR V) (p : Nat × Nat) (g : List Nat × List Nat) :
    wp (fun a => a.idx = p.2) (countProg A p) (fun _ _ => True) g := by
  refine wp_seq (wp_priv fun _ _ => trivial) fun c g => ?_
  exact wp_seq (wp_op (by simp)) fun x g => wp_op1 rfl

theorem place_own (A : CSR V) (colptr dloc : List Nat) (p : Nat × Nat) (g : List Nat × List V) :
    wp (fun a => ∃ c b d, A.colids[p.2]? = some c ∧ colptr[c]? = some b ∧ dloc[p.2]? = some d ∧ a.idx = b + d)
      (placeProg A colptr dloc p) (fun _ _ => True) g := by
  refine wp_bind (wp_priv fun c hc => ?_)
  refine wp_bind (wp_priv fun b hb => ?_)
  refine wp_bind (wp_priv fun d hd => ?_)
  refine wp_seq (wp_op1 ⟨c, b, d, rd_lt hc, rd_lt hb, rd_lt hd, rfl⟩) fun _ g => ?_
  exact wp_seq (wp_priv fun _ _ => trivial) fun v g => wp_op1 ⟨c, b, d, rd_lt hc, rd_lt hb, rd_lt hd, rfl⟩

/-- The pointers are sums of the counters. -/
theorem pointers_sum {A : CSR V} {f : Nat → Nat} {past colptr cp : List Nat}
    (h : pointers A (tab A.cols f ++ past) colptr = .ok cp) : ∀ i ≤ A.cols, cp[i]? = some (psum f i) := by
  unfold pointers at h
  obtain ⟨c0, h0, h⟩ := Alias.bind_ok' h
  obtain ⟨l0, rfl⟩ := set_of_wr h0
  have key : ∀ (len lo : Nat) (c : List Nat), lo + len ≤ A.cols + 1 → (∀ i ≤ lo, i ≤ A.cols → c[i]? = some (psum f i)) →
      ∀ c', forRange lo (lo + len) c (fun i colptr => do
        let x ← rd (tab A.cols f ++ past) i
        let y ← rd colptr i
        wr colptr (i + 1) (x + y)) = .ok c' → ∀ i ≤ lo + len, i ≤ A.cols → c'[i]? = some (psum f i) := by
    intro len
    induction len with
    | zero =>
      intro lo c _ hc c' he
      rw [forRange_zero] at he
      cases he
      exact hc
    | succ len ih =>
      intro lo c hlo hc c' he
      rw [forRange_succ] at he
      obtain ⟨c1, h1, he⟩ := Alias.bind_ok' he
      obtain ⟨x, hx, h1⟩ := Alias.bind_ok' h1
      obtain ⟨y, hy, h1⟩ := Alias.bind_ok' h1
      obtain ⟨hl, rfl⟩ := set_of_wr h1
      have := ih (lo + 1) _ (by omega) ?_ c' he
      · intro i hi; exact this i (by omega)
      · intro i hi hic
        by_cases hil : i = lo + 1
        · subst hil
          rw [List.getElem?_set_self hl]
          have hx' := rd_lt hx
          rw [List.getElem?_append_left (by rw [tab_length]; omega), tab_getElem? (by omega)] at hx'
          have hy' := rd_lt hy
          rw [hc lo (Nat.le_refl _) (by omega)] at hy'
          cases hx'; cases hy'
          rw [psum, Nat.add_comm]
        · rw [List.getElem?_set_ne (fun e => hil e.symm)]
          exact hc i (by omega) hic
  have h' := key (A.cols + 1) 0 (colptr.set 0 0) (by omega) (by
    intro i hi _
    have : i = 0 := by omega
    subst this
    rw [List.getElem?_set_self l0]
    rfl) cp (by rw [Nat.zero_add]; exact h)
  intro i hi
  exact h' i (by omega) hi

open Transpose in
theorem transpose_free {A : CSR V} (h : A.WF) (past colptr rowidx : List Nat) (val : List V) (w1 w2 : Nat → Nat)
    {order1 order2 : List (Nat × Nat)} (h1 : order1.Perm (cells A)) (h2 : order2.Perm (cells A)) :
    ∀ tr ∈ transposeTraces A past colptr rowidx val w1 w2 order1 order2, ¬ Racy tr := by
  have nd : ((cells A).map (·.2)).Nodup := by rw [cells_snd h]; exact List.nodup_range
  have lt : ∀ p ∈ cells A, p.2 < A.nnz := by
    intro p hp
    have : p.2 ∈ (cells A).map (·.2) := List.mem_map.2 ⟨p, hp, rfl⟩
    rw [cells_snd h] at this
    simpa using this
  have inj : ∀ p ∈ cells A, ∀ q ∈ cells A, p.2 = q.2 → p = q := fun p hp q hq e =>
    List.inj_on_of_nodup_map nd hp hq e
  intro tr htr
  unfold transposeTraces at htr
  rcases List.mem_cons.1 htr with rfl | htr
  · refine loop_free (fun p _ g => count_own A p g) ?_ _
    intro p hp q hq hpq a b ha hb _ e
    exact hpq (inj p (h1.mem_iff.1 hp) q (h1.mem_iff.1 hq) (by rw [← ha, ← hb, e]))
  obtain ⟨d, e1, e2⟩ := count_loop h past order1 (fun p hp => lt p (h1.mem_iff.1 hp)) ((h1.map _).nodup_iff.2 nd)
  rw [loopRun_eq (exec_countProg A), e1] at htr
  dsimp only at htr
  cases hp : pointers A (tab A.cols (Conv.cnt (keyed A order1)) ++ past) colptr with
  | error e => rw [hp] at htr; cases htr
  | ok cp =>
    rw [hp] at htr
    rw [List.mem_singleton] at htr
    rw [htr]
    have hcp := pointers_sum hp
    refine loop_free (fun p _ g => place_own A cp d p g) ?_ _
    rintro p hpm q hqm hpq x y ⟨c, b, l, g1, g2, g3, g4⟩ ⟨c', b', l', k1, k2, k3, k4⟩ - hxy
    have pm := h2.mem_iff.1 hpm
    have qm := h2.mem_iff.1 hqm
    have col : ∀ (p : Nat × Nat) (c : Nat), A.colids[p.2]? = some c → c = colOf A p.2 := by
      intro p c hc
      unfold colOf
      rw [List.getD_eq_getElem?_getD, hc]
      rfl
    have hc := col p c g1
    have hc' := col q c' k1
    subst hc; subst hc'
    rw [hcp _ (Nat.le_of_lt (colOf_lt h (lt p pm)))] at g2
    rw [hcp _ (Nat.le_of_lt (colOf_lt h (lt q qm)))] at k2
    cases g2; cases k2
    -- places of the pairs in the order of the first loop
    have pos : ∀ p ∈ cells A, ∃ a b, order1 = a ++ p :: b := fun p hp => List.append_of_mem (h1.mem_iff.2 hp)
    have less : ∀ (a : List (Nat × Nat)) (p : Nat × Nat) (b : List (Nat × Nat)), order1 = a ++ p :: b →
        Conv.cnt (keyed A a) (colOf A p.2) + 1 ≤ Conv.cnt (keyed A order1) (colOf A p.2) := by
      intro a p b e
      have := Conv.cnt_le_of_append (keyed A (a ++ [p])) (keyed A b) (colOf A p.2)
      unfold keyed at this ⊢
      rw [List.map_append, List.map_cons, List.map_nil, Conv.cnt_snoc, if_pos rfl] at this
      rw [e]
      simpa using this
    obtain ⟨a1, b1, o1⟩ := pos p pm
    obtain ⟨a2, b2, o2⟩ := pos q qm
    rw [e2 a1 p b1 o1] at g3
    rw [e2 a2 q b2 o2] at k3
    cases g3; cases k3
    have hcc : colOf A p.2 = colOf A q.2 := by
      refine psum_sep (f := Conv.cnt (keyed A order1)) (i := Conv.cnt (keyed A a1) (colOf A p.2))
        (k := Conv.cnt (keyed A a2) (colOf A q.2)) ?_ ?_ (by rw [← g4, ← k4, hxy])
      · have := less a1 p b1 o1; omega
      · have := less a2 q b2 o2; omega
    have hcount : Conv.cnt (keyed A a1) (colOf A q.2) = Conv.cnt (keyed A a2) (colOf A q.2) := by
      rw [hcc] at g4; omega
    -- one of the pairs comes before the other one
    have strict : ∀ (a : List (Nat × Nat)) (p : Nat × Nat) (m : List (Nat × Nat)),
        Conv.cnt (keyed A a) (colOf A p.2) < Conv.cnt (keyed A (a ++ p :: m)) (colOf A p.2) := by
      intro a p m
      have := Conv.cnt_le_of_append (keyed A (a ++ [p])) (keyed A m) (colOf A p.2)
      unfold keyed at this ⊢
      rw [List.map_append, List.map_cons, List.map_nil, Conv.cnt_snoc, if_pos rfl] at this
      have e : (a ++ p :: m).map (fun p => (colOf A p.2, p)) =
          (a.map (fun p => (colOf A p.2, p)) ++ [(colOf A p.2, p)]) ++ m.map fun p => (colOf A p.2, p) := by simp
      rw [e]
      omega
    rw [o1] at o2
    rcases List.append_eq_append_iff.1 o2 with ⟨m, m1, m2⟩ | ⟨m, m1, m2⟩
    · cases m with
      | nil => exact hpq (by simp at m2; exact m2.1)
      | cons z m =>
        simp only [List.cons_append, List.cons.injEq] at m2
        have := strict a1 p m
        rw [m1, ← m2.1, ← hcc] at hcount
        omega
    · cases m with
      | nil => exact hpq (by simp at m2; exact m2.1.symm)
      | cons z m =>
        simp only [List.cons_append, List.cons.injEq] at m2
        have := strict a2 q m
        rw [m1, ← m2.1] at hcount
        omega

end Verif.Model.RaceConv
