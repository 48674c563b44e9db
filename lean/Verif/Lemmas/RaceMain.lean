import Verif.Lemmas.RaceCall

/-! # Conflicts in whole calls: the drivers -/

namespace Verif.Model.Race

variable {V : Type} {alg : RowAlg V} {mul add : V → V → V} {A B M : CSR V} {exp : Nat → List (Nat × V)}

/-- First row of thread `t`. -/
abbrev rowOf (compl : Bool) (A B M : CSR V) (n t : Nat) : Nat :=
  bnd (psum (flopsOf compl A B M)) (psum (flopsOf compl A B M) A.rows) A.rows n t

/-- Some thread other than the last one has no rows. -/
def Idle (compl : Bool) (A B M : CSR V) (n : Nat) : Prop :=
  ∃ u, u + 1 < n ∧ rowOf compl A B M n u = rowOf compl A B M n (u + 1)

theorem idle_of_conflict {b : Nat → Nat} {rows n : Nat} (hs : Split b rows n) {x y : Nat × Access} (hx1 : x.1 < n) (hy1 : y.1 < n)
    (hx : OwnB exp b rows n x.1 x.2) (hy : OwnB exp b rows n y.1 y.2) (hc : Conflict x y) :
    ∃ u, u + 1 < n ∧ b u = b (u + 1) := by
  -- the empty last thread reads `rowptr[rows]`, which no other thread writes
  have key : ∀ x y : Nat × Access, x.1 < n → y.1 < n → OwnB exp b rows n x.1 x.2 → OwnB exp b rows n y.1 y.2 → Conflict x y →
      x.2.arr = .rowptr → x.2.write = false → b x.1 = b (x.1 + 1) → x.1 + 1 < n := by
    intro x y hx1 hy1 hx hy hc harr hw he
    rcases Nat.lt_or_ge (x.1 + 1) n with h | h
    · exact h
    · exfalso
      have hxn : x.1 + 1 = n := by omega
      rw [hxn, hs.last] at he
      have hyw : y.2.write = true := by
        rcases hc.2.2.2 with h' | h'
        · rw [hw] at h'; cases h'
        · exact h'
      have hyarr : y.2.arr = .rowptr := hc.2.1 ▸ harr
      have hidx : x.2.idx = rows := by
        rcases hx with ⟨h1, -⟩ | ⟨-, h1⟩ | ⟨-, -, h1⟩ | ⟨h1, -⟩
        · rw [harr] at h1; simp at h1
        · rcases h1 with ⟨h1, h2⟩ | ⟨h1, -⟩
          · rw [hxn, hs.last] at h2; omega
          · exact h1
        · omega
        · rw [harr] at h1; simp at h1
      rcases hy with ⟨h1, -⟩ | ⟨-, h1⟩ | ⟨-, h1, -⟩ | ⟨h1, -⟩
      · rw [hyarr] at h1; simp at h1
      · have := hs.le (y.1 + 1)
        have := hc.2.2.1
        have := hc.1
        omega
      · rw [hyw] at h1; cases h1
      · rw [hyarr] at h1; simp at h1
  obtain ⟨h1, ⟨h2, h3⟩ | ⟨h2, h3⟩⟩ := conflict_B hs hx1 hy1 hx hy hc
  · exact ⟨x.1, key x y hx1 hy1 hx hy hc h1 h2 h3, h3⟩
  · exact ⟨y.1, key y x hy1 hx1 hy hx ⟨Ne.symm hc.1, hc.2.1.symm, hc.2.2.1.symm, hc.2.2.2.symm⟩ (hc.2.1 ▸ h1) h2 h3, h3⟩

theorem conflicts_prepare (compl : Bool) {n : Nat} {sch : Scheds} :
    ∀ tr ∈ tracesPrepare compl A B M n sch, Racy tr → 2 ≤ A.rows ∧ A.rows < n := by
  rintro tr htr ⟨x, hx, y, hy, hc⟩
  unfold tracesPrepare at htr
  rcases List.mem_cons.1 htr with rfl | htr
  · exfalso
    obtain ⟨i, -, rfl⟩ := List.mem_map.1 hx
    obtain ⟨j, -, rfl⟩ := List.mem_map.1 hy
    exact hc.1 hc.2.2.1
  · split at htr
    · exact conflicts_scan tr htr x hx y hy hc
    · cases htr

theorem racy_prepare {compl : Bool} {n : Nat} {sch : Scheds} {r} (hp : prepare compl A B M n sch = .ok (some r))
    (h2 : 2 ≤ A.rows) (hn : A.rows < n) : ∃ tr ∈ tracesPrepare compl A B M n sch, Racy tr := by
  unfold prepare at hp
  obtain ⟨-, -, hp⟩ := bind_ok hp
  obtain ⟨⟨fpr, fl⟩, hf, hp⟩ := bind_ok hp
  obtain ⟨s, hs, hp⟩ := bind_ok hp
  cases s with
  | none => cases hp
  | some cum =>
    obtain ⟨tr, h1, h2⟩ := racy_scan h2 hn hs
    refine ⟨tr, ?_, h2⟩
    unfold tracesPrepare
    rw [hf]
    exact List.mem_cons_of_mem _ h1

/-! ## One-phase driver -/

/-- Set-up of the main region of the one-phase driver. -/
theorem region1p (hA : A.WF) (hM : M.WF) (sh : Spec.Shapes A B M) (hc : Contract1 alg mul add A B M exp) {n : Nat} (hn : 0 < n) :
    ∃ (l0 : L1 alg.N V) (ls1 : List (L1 alg.N V)) (Inv : Nat → alg.N → Prop),
      setup n (init1 alg A B M n (tab A.rows (fun i => some (flopsOf alg.compl A B M i))) (psum (flopsOf alg.compl A B M) A.rows)
        (tab A.rows (fun i => some (psum (flopsOf alg.compl A B M) i)))) = .ok (l0 :: ls1) ∧
      setup n (distributeWork (psum (flopsOf alg.compl A B M) A.rows) (tab A.rows (fun i => some (psum (flopsOf alg.compl A B M) i)))
        A.rows n) = .ok ((List.range n).map fun t => (rowOf alg.compl A B M n t, rowOf alg.compl A B M n (t + 1))) ∧
      (∀ t g x, t < n → I1 alg A B M exp (rowOf alg.compl A B M n) n Inv t g x → x.done = false →
        ∃ g' x', step1 alg mul add A B M (tab A.rows (fun i => some (flopsOf alg.compl A B M i))) t g x = .ok (g', x') ∧
        I1 alg A B M exp (rowOf alg.compl A B M n) n Inv t g' x' ∧
        (x'.done = true ∨ rowOf alg.compl A B M n (t + 1) + 1 - x'.row < rowOf alg.compl A B M n (t + 1) + 1 - x.row) ∧
        ∀ u y, u < n → u ≠ t → I1 alg A B M exp (rowOf alg.compl A B M n) n Inv u g y →
          I1 alg A B M exp (rowOf alg.compl A B M n) n Inv u g' y) ∧
      ∀ t < n, I1 alg A B M exp (rowOf alg.compl A B M n) n Inv t
        { rowNvals := List.replicate A.rows none, threadsNvals := List.replicate n none } ((l0 :: ls1).getD t l0) := by
  unfold rowOf
  generalize hP : psum (flopsOf alg.compl A B M) = P
  generalize hb : bnd P (P A.rows) A.rows n = b
  have hs : Split b A.rows n := hb ▸ split_bnd P (P A.rows) A.rows hn
  have hf : ∀ i < A.rows, Has (tab A.rows fun i => some (flopsOf alg.compl A B M i)) (flopsOf alg.compl A B M) i :=
    fun i hi => has_tab hi
  have hcum : ∀ i < A.rows, Has (tab A.rows fun i => some (P i)) P i := fun i hi => has_tab hi
  have hPm : ∀ i j, i ≤ j → j < A.rows → P i ≤ P j := fun i j h _ => by rw [← hP]; exact psum_mono h
  have hdw : ∀ t < n, distributeWork (P A.rows) (tab A.rows fun i => some (P i)) A.rows n t =
      .ok (b t, b (t + 1)) := fun t ht => by rw [distributeWork_eq _ ht hcum hPm, hb]
  have hsz : ∀ t, ∃ sz, t < n → scanInputs alg.compl true alg.calcA alg.calcM alg.calcF (b t) (b (t + 1))
      (tab A.rows fun i => some (flopsOf alg.compl A B M i)) A M = .ok sz ∧
      sz.sizeC = psum (boundOf alg.compl A B M) (b (t + 1)) - psum (boundOf alg.compl A B M) (b t) ∧
      ∀ i, b t ≤ i → i < b (t + 1) → Covers alg.compl alg.calcA alg.calcM alg.calcF A B M sz i := by
    intro t
    by_cases ht : t < n
    · obtain ⟨sz, h1, h2, h3⟩ := scanInputs_ok hA hM sh.ma alg.compl true alg.calcA alg.calcM alg.calcF
        (hs.mono t ht) (hs.le (t + 1)) hf
      exact ⟨sz, fun _ => ⟨h1, h2 rfl, h3⟩⟩
    · exact ⟨{}, fun h => absurd h ht⟩
  obtain ⟨sz, hsz⟩ := Classical.axiomOfChoice hsz
  have hls : setup n (init1 alg A B M n (tab A.rows fun i => some (flopsOf alg.compl A B M i)) (P A.rows)
      (tab A.rows fun i => some (P i))) = .ok ((List.range n).map fun t => l1init alg B b sz t) := by
    apply mapM_ok
    intro t ht
    have ht' : t < n := by simpa using ht
    unfold init1
    rw [hdw t ht']
    simp only [ok_bind]
    rw [(hsz t ht').1]; rfl
  have hrg : setup n (distributeWork (P A.rows) (tab A.rows fun i => some (P i)) A.rows n) =
      .ok ((List.range n).map fun t => (b t, b (t + 1))) := by
    apply mapM_ok
    intro t ht
    exact hdw t (by simpa using ht)
  rw [hls, hrg]
  obtain ⟨m, rfl⟩ : ∃ m, n = m + 1 := ⟨n - 1, by omega⟩
  generalize hl0 : (List.range (m + 1)).map (fun t => l1init alg B b sz t) = ls0
  cases ls0 with
  | nil => simp [List.range_succ] at hl0
  | cons l0 ls1 =>
  have hget : ∀ t < m + 1, (l0 :: ls1).getD t l0 = l1init alg B b sz t := by
    intro t ht
    rw [← hl0, list_getD_map_range _ _ ht]
  obtain ⟨Inv, hInv⟩ := Classical.axiomOfChoice (fun t => hc.num (sz t))
  refine ⟨l0, ls1, Inv, rfl, rfl, ?_, ?_⟩
  · exact step1_ok hc hs hf (fun t ht i h1 h2 hz acc hacc =>
      (hInv t).2 i (Nat.lt_of_lt_of_le h2 (hs.le _)) ((hsz t ht).2.2 i h1 h2) hz _ (Or.inl rfl) acc hacc)
  · intro t ht
    rw [hget t ht]
    exact { rnLen := by simp, tnLen := by simp, stop := rfl, cap := (hsz t ht).2.1,
            lo := Nat.le_refl _, hi := hs.mono t ht, inv := (hInv t).1, out := (seg_self _ _).symm,
            has := fun i h1 h2 => by simp only [l1init] at h2; omega, fin := fun h => by simp [l1init] at h }

theorem conflicts1p (hA : A.WF) (hB : B.WF) (hM : M.WF) (sh : Spec.Shapes A B M)
    (hc : Contract1 alg mul add A B M exp) (hrows : 0 < A.rows) {nt dflt : Nat}
    (hn : 0 < setNumThreads nt dflt) (sch : Scheds) (ho : sch.flops.Perm (List.range A.rows)) :
    ∀ tr ∈ traces1p alg mul add A B M nt dflt sch, Racy tr →
      (2 ≤ A.rows ∧ A.rows < setNumThreads nt dflt) ∨ Idle alg.compl A B M (setNumThreads nt dflt) := by
  rintro tr htr hrc
  unfold traces1p at htr
  generalize setNumThreads nt dflt = n at *
  simp only at htr
  rcases List.mem_append.1 htr with htr | htr
  · exact Or.inl (conflicts_prepare alg.compl tr htr hrc)
  right
  obtain ⟨x, hx, y, hy, hcf⟩ := hrc
  rcases prepare_ok hA hB hM sh alg.compl hn hrows sch ho with ⟨h, -⟩ | h
  · rw [h] at htr; cases htr
  rw [h] at htr
  obtain ⟨l0, ls1, Inv, e1, e2, e3, e4⟩ := region1p hA hM sh hc hn
  simp only [e1, e2] at htr
  have hs : Split (rowOf alg.compl A B M n) A.rows n := split_bnd _ _ A.rows hn
  rcases List.mem_cons.1 htr with rfl | htr
  · have key := trace_own (exec_prog1 alg mul add A B M _) _ e3 _ (fun t g x _ hI _ => own_prog1 hI) sch.first _ _ e4
    exact absurd hcf (no_conflict_A hs (key x hx).1 (key y hy).1 (key x hx).2 (key y hy).2)
  rcases phase_inv _ _ e3 sch.first _ _ e4 with ⟨h1, -⟩ | ⟨g1, ls', h1, h2⟩
  · rw [h1] at htr; cases htr
  rw [h1] at htr
  obtain ⟨g2, e5, e6⟩ := initC_ok (exp := exp) (g := g1) hs
    (by
      intro i hi
      obtain ⟨t, ht, h3, h4⟩ := hs.row_cover hi
      obtain ⟨hf1, hI⟩ := h2 t ht
      exact hI.has i h3 (by rw [(hI.fin hf1).1]; exact h4))
    (by
      intro t ht
      obtain ⟨hf1, hI⟩ := h2 t ht
      exact (hI.fin hf1).2)
  simp only [e5] at htr
  rcases List.mem_cons.1 htr with rfl | htr
  · have hr : ∀ t < n, (fun t => ((List.range n).map fun t => (rowOf alg.compl A B M n t, rowOf alg.compl A B M n (t + 1))).getD t
        (0, 0)) t = (rowOf alg.compl A B M n t, rowOf alg.compl A B M n (t + 1)) := by
      intro t ht; exact list_getD_map_range _ _ ht
    have key := trace_own (exec_prog3 A.rows n _ _) (I3 exp (rowOf alg.compl A B M n) A.rows n)
      (step3_ok hs hr (by
        intro t ht
        obtain ⟨hf1, hI⟩ := h2 t ht
        show (ls' t).out = _
        rw [hI.out, (hI.fin hf1).1])) _ (fun t g x ht hI _ => own_prog3 hs hr ht hI) sch.second g2 (fun _ => .start)
      (fun t ht => ⟨e6, trivial⟩)
    exact idle_of_conflict hs (key x hx).1 (key y hy).1 (key x hx).2 (key y hy).2 hcf
  · cases htr

theorem races1p (hA : A.WF) (hB : B.WF) (hM : M.WF) (sh : Spec.Shapes A B M)
    (hc : Contract1 alg mul add A B M exp) (hrows : 0 < A.rows) {zb : Bool} {nt dflt : Nat}
    (hn : 0 < setNumThreads nt dflt) (sch : Scheds) (ho : sch.flops.Perm (List.range A.rows)) {C : CSR V}
    (hret : spgemm1p alg mul add A B M zb nt dflt sch = .ok (some C))
    (h : (2 ≤ A.rows ∧ A.rows < setNumThreads nt dflt) ∨ Idle alg.compl A B M (setNumThreads nt dflt)) :
    ∃ tr ∈ traces1p alg mul add A B M nt dflt sch, Racy tr := by
  unfold spgemm1p at hret
  unfold traces1p
  generalize setNumThreads nt dflt = n at *
  simp only at hret ⊢
  obtain ⟨p, hp, hret⟩ := bind_ok hret
  cases p with
  | none => cases hret
  | some p =>
  rcases h with ⟨h2, h3⟩ | ⟨u, hu, he⟩
  · obtain ⟨tr, k1, k2⟩ := racy_prepare hp h2 h3
    exact ⟨tr, List.mem_append_left _ k1, k2⟩
  rcases prepare_ok hA hB hM sh alg.compl hn hrows sch ho with ⟨h, -⟩ | h
  · rw [h] at hp; cases hp
  rw [h] at hp ⊢
  cases hp
  obtain ⟨l0, ls1, Inv, e1, e2, e3, e4⟩ := region1p hA hM sh hc hn
  simp only [e1, e2, ok_bind] at hret ⊢
  have hs : Split (rowOf alg.compl A B M n) A.rows n := split_bnd _ _ A.rows hn
  obtain ⟨r, hr1, hret⟩ := bind_ok hret
  cases r with
  | none => cases hret
  | some r =>
  rw [hr1]
  obtain ⟨g, hg, hret⟩ := bind_ok hret
  simp only [hg]
  obtain ⟨q, hq, -⟩ := bind_ok hret
  cases q with
  | none => simp_all
  | some q =>
  exact ⟨_, List.mem_append_right _ (List.mem_cons_of_mem _ List.mem_cons_self),
    racy3 hs hn (by intro t ht; exact list_getD_map_range _ _ ht) hq hu he⟩

/-! ## Two-phase driver -/

/-- Set-up of the main region of the two-phase driver. -/
theorem region2p (hA : A.WF) (hM : M.WF) (sh : Spec.Shapes A B M) (hc : Contract alg mul add A B M exp) {n : Nat} (hn : 0 < n) :
    ∃ (l0 : L2 alg.S × alg.N) (ls1 : List (L2 alg.S × alg.N)) (InvS : Nat → alg.S → Prop) (InvN : Nat → alg.N → Prop),
      setup n (init2 alg A B M n (tab A.rows (fun i => some (flopsOf alg.compl A B M i))) (psum (flopsOf alg.compl A B M) A.rows)
        (tab A.rows (fun i => some (psum (flopsOf alg.compl A B M) i)))) = .ok (l0 :: ls1) ∧
      setup n (distributeWork (psum (flopsOf alg.compl A B M) A.rows) (tab A.rows (fun i => some (psum (flopsOf alg.compl A B M) i)))
        A.rows n) = .ok ((List.range n).map fun t => (rowOf alg.compl A B M n t, rowOf alg.compl A B M n (t + 1))) ∧
      (∀ t g x, t < n → I2 alg A exp (rowOf alg.compl A B M n) n InvS t g x → x.done = false →
        ∃ g' x', step2 alg A B M (tab A.rows (fun i => some (flopsOf alg.compl A B M i))) t g x = .ok (g', x') ∧
        I2 alg A exp (rowOf alg.compl A B M n) n InvS t g' x' ∧
        (x'.done = true ∨ rowOf alg.compl A B M n (t + 1) + 1 - x'.row < rowOf alg.compl A B M n (t + 1) + 1 - x.row) ∧
        ∀ u y, u < n → u ≠ t → I2 alg A exp (rowOf alg.compl A B M n) n InvS u g y →
          I2 alg A exp (rowOf alg.compl A B M n) n InvS u g' y) ∧
      (∀ t < n, I2 alg A exp (rowOf alg.compl A B M n) n InvS t
        { rowNvals := List.replicate A.rows none, threadsNvals := List.replicate n none } ((l0 :: ls1).getD t l0).1) ∧
      (∀ rng : Nat → Nat × Nat, (∀ t < n, rng t = (rowOf alg.compl A B M n t, rowOf alg.compl A B M n (t + 1))) →
        ∀ t g x, t < n → I4 alg exp (rowOf alg.compl A B M n) A.rows n InvN t g x → x.fin = false →
        ∃ g' x', step4 alg mul add A B M n rng t g x = .ok (g', x') ∧ I4 alg exp (rowOf alg.compl A B M n) A.rows n InvN t g' x' ∧
        (x'.fin = true ∨ ticks4 exp (rowOf alg.compl A B M n) t x'.ctl < ticks4 exp (rowOf alg.compl A B M n) t x.ctl) ∧
        ∀ u y, u < n → u ≠ t → I4 alg exp (rowOf alg.compl A B M n) A.rows n InvN u g y →
          I4 alg exp (rowOf alg.compl A B M n) A.rows n InvN u g' y) ∧
      ∀ t < n, InvN t ((l0 :: ls1).getD t l0).2 := by
  unfold rowOf
  generalize hP : psum (flopsOf alg.compl A B M) = P
  generalize hb : bnd P (P A.rows) A.rows n = b
  have hs : Split b A.rows n := hb ▸ split_bnd P (P A.rows) A.rows hn
  have hf : ∀ i < A.rows, Has (tab A.rows fun i => some (flopsOf alg.compl A B M i)) (flopsOf alg.compl A B M) i :=
    fun i hi => has_tab hi
  have hcum : ∀ i < A.rows, Has (tab A.rows fun i => some (P i)) P i := fun i hi => has_tab hi
  have hPm : ∀ i j, i ≤ j → j < A.rows → P i ≤ P j := fun i j h _ => by rw [← hP]; exact psum_mono h
  have hdw : ∀ t < n, distributeWork (P A.rows) (tab A.rows fun i => some (P i)) A.rows n t =
      .ok (b t, b (t + 1)) := fun t ht => by rw [distributeWork_eq _ ht hcum hPm, hb]
  have hsz : ∀ t, ∃ sz, t < n → scanInputs alg.compl false alg.calcA alg.calcM alg.calcF (b t) (b (t + 1))
      (tab A.rows fun i => some (flopsOf alg.compl A B M i)) A M = .ok sz ∧
      ∀ i, b t ≤ i → i < b (t + 1) → Covers alg.compl alg.calcA alg.calcM alg.calcF A B M sz i := by
    intro t
    by_cases ht : t < n
    · obtain ⟨sz, h1, h2, h3⟩ := scanInputs_ok hA hM sh.ma alg.compl false alg.calcA alg.calcM alg.calcF
        (hs.mono t ht) (hs.le (t + 1)) hf
      exact ⟨sz, fun _ => ⟨h1, h3⟩⟩
    · exact ⟨{}, fun h => absurd h ht⟩
  obtain ⟨sz, hsz⟩ := Classical.axiomOfChoice hsz
  have hls : setup n (init2 alg A B M n (tab A.rows fun i => some (flopsOf alg.compl A B M i)) (P A.rows)
      (tab A.rows fun i => some (P i))) = .ok ((List.range n).map fun t =>
        ({ row := b t, acc := alg.initS B.cols (sz t), nvals := 0, stop := b (t + 1) },
          alg.initN B.cols (sz t))) := by
    apply mapM_ok
    intro t ht
    have ht' : t < n := by simpa using ht
    unfold init2
    rw [hdw t ht']
    simp only [ok_bind]
    rw [(hsz t ht').1]; rfl
  have hrg : setup n (distributeWork (P A.rows) (tab A.rows fun i => some (P i)) A.rows n) =
      .ok ((List.range n).map fun t => (b t, b (t + 1))) := by
    apply mapM_ok
    intro t ht
    exact hdw t (by simpa using ht)
  rw [hls, hrg]
  obtain ⟨m, rfl⟩ : ∃ m, n = m + 1 := ⟨n - 1, by omega⟩
  generalize hl0 : (List.range (m + 1)).map (fun t =>
        (({ row := b t, acc := alg.initS B.cols (sz t), nvals := 0, stop := b (t + 1) } : L2 alg.S),
          alg.initN B.cols (sz t))) = ls0
  cases ls0 with
  | nil => simp [List.range_succ] at hl0
  | cons l0 ls1 =>
  have hget : ∀ t < m + 1, (l0 :: ls1).getD t l0 =
      ({ row := b t, acc := alg.initS B.cols (sz t), nvals := 0, stop := b (t + 1) }, alg.initN B.cols (sz t)) := by
    intro t ht
    rw [← hl0, list_getD_map_range _ _ ht]
  obtain ⟨InvN, hInvN⟩ := Classical.axiomOfChoice (fun t => hc.num (sz t))
  obtain ⟨InvS, hInvS⟩ := Classical.axiomOfChoice (fun t => hc.sym (sz t))
  refine ⟨l0, ls1, InvS, InvN, rfl, rfl, ?_, ?_, ?_, ?_⟩
  · exact step2_ok hc hs hf (fun t ht i h1 h2 hz acc hacc =>
      (hInvS t).2 i (Nat.lt_of_lt_of_le h2 (hs.le _)) ((hsz t ht).2 i h1 h2) hz acc hacc)
  · intro t ht
    rw [hget t ht]
    exact { rnLen := by simp, tnLen := by simp, stop := rfl,
            lo := Nat.le_refl _, hi := hs.mono t ht, inv := (hInvS t).1, out := by simp,
            has := fun i h1 h2 => by simp only at h2; omega, fin := fun h => by simp at h }
  · intro rng hr
    exact step4_ok hc hs hr (fun t ht i h1 h2 hz hl acc hacc =>
      (hInvN t).2 i (Nat.lt_of_lt_of_le h2 (hs.le _)) ((hsz t ht).2 i h1 h2) hz _ (Or.inr ⟨rfl, hl⟩) acc hacc)
  · intro t ht
    rw [hget t ht]
    exact (hInvN t).1

theorem conflicts2p (hA : A.WF) (hB : B.WF) (hM : M.WF) (sh : Spec.Shapes A B M)
    (hc : Contract alg mul add A B M exp) (hrows : 0 < A.rows) {nt dflt : Nat}
    (hn : 0 < setNumThreads nt dflt) (sch : Scheds) (ho : sch.flops.Perm (List.range A.rows)) :
    ∀ tr ∈ traces2p alg mul add A B M nt dflt sch, Racy tr →
      (2 ≤ A.rows ∧ A.rows < setNumThreads nt dflt) ∨ Idle alg.compl A B M (setNumThreads nt dflt) := by
  rintro tr htr hrc
  unfold traces2p at htr
  generalize setNumThreads nt dflt = n at *
  simp only at htr
  rcases List.mem_append.1 htr with htr | htr
  · exact Or.inl (conflicts_prepare alg.compl tr htr hrc)
  right
  obtain ⟨x, hx, y, hy, hcf⟩ := hrc
  rcases prepare_ok hA hB hM sh alg.compl hn hrows sch ho with ⟨h, -⟩ | h
  · rw [h] at htr; cases htr
  rw [h] at htr
  obtain ⟨l0, ls1, InvS, InvN, e1, e2, e3, e4, e5, e6⟩ := region2p hA hM sh hc hn
  simp only [e1, e2] at htr
  have hs : Split (rowOf alg.compl A B M n) A.rows n := split_bnd _ _ A.rows hn
  rcases List.mem_cons.1 htr with rfl | htr
  · have key := trace_own (exec_prog2 alg A B M _) _ e3 _ (fun t g x _ hI _ => own_prog2 hI) sch.first _ _ e4
    exact absurd hcf (no_conflict_A hs (key x hx).1 (key y hy).1 (key x hx).2 (key y hy).2)
  rcases phase_inv _ _ e3 sch.first _ _ e4 with ⟨h1, -⟩ | ⟨g1, ls', h1, h2⟩
  · rw [h1] at htr; cases htr
  rw [h1] at htr
  obtain ⟨g2, e7, e8⟩ := initC_ok (exp := exp) (g := g1) hs
    (by
      intro i hi
      obtain ⟨t, ht, h3, h4⟩ := hs.row_cover hi
      obtain ⟨hf1, hI⟩ := h2 t ht
      exact hI.has i h3 (by rw [(hI.fin hf1).1]; exact h4))
    (by
      intro t ht
      obtain ⟨hf1, hI⟩ := h2 t ht
      exact (hI.fin hf1).2)
  simp only [e7] at htr
  rcases List.mem_cons.1 htr with rfl | htr
  · have hr : ∀ t < n, (fun t => ((List.range n).map fun t => (rowOf alg.compl A B M n t, rowOf alg.compl A B M n (t + 1))).getD t
        (0, 0)) t = (rowOf alg.compl A B M n t, rowOf alg.compl A B M n (t + 1)) := by
      intro t ht; exact list_getD_map_range _ _ ht
    have key := trace_own (μ := fun t x => ticks4 exp (rowOf alg.compl A B M n) t x.ctl) (exec_prog4 alg mul add A B M n _)
      (I4 alg exp (rowOf alg.compl A B M n) A.rows n InvN)
      (e5 _ hr) _ (fun t g x ht hI _ => own_prog4 hr ht hI) sch.second g2
      (fun t => { ctl := .start, acc := ((l0 :: ls1).getD t l0).2 }) (fun t ht => ⟨e8, e6 t ht, trivial⟩)
    exact idle_of_conflict hs (key x hx).1 (key y hy).1 (key x hx).2 (key y hy).2 hcf
  · cases htr

theorem races2p (hA : A.WF) (hB : B.WF) (hM : M.WF) (sh : Spec.Shapes A B M)
    (hc : Contract alg mul add A B M exp) (hrows : 0 < A.rows) {zb : Bool} {nt dflt : Nat}
    (hn : 0 < setNumThreads nt dflt) (sch : Scheds) (ho : sch.flops.Perm (List.range A.rows)) {C : CSR V}
    (hret : spgemm2p alg mul add A B M zb nt dflt sch = .ok (some C))
    (h : (2 ≤ A.rows ∧ A.rows < setNumThreads nt dflt) ∨ Idle alg.compl A B M (setNumThreads nt dflt)) :
    ∃ tr ∈ traces2p alg mul add A B M nt dflt sch, Racy tr := by
  unfold spgemm2p at hret
  unfold traces2p
  generalize setNumThreads nt dflt = n at *
  simp only at hret ⊢
  obtain ⟨p, hp, hret⟩ := bind_ok hret
  cases p with
  | none => cases hret
  | some p =>
  rcases h with ⟨h2, h3⟩ | ⟨u, hu, he⟩
  · obtain ⟨tr, k1, k2⟩ := racy_prepare hp h2 h3
    exact ⟨tr, List.mem_append_left _ k1, k2⟩
  rcases prepare_ok hA hB hM sh alg.compl hn hrows sch ho with ⟨h, -⟩ | h
  · rw [h] at hp; cases hp
  rw [h] at hp ⊢
  cases hp
  obtain ⟨l0, ls1, InvS, InvN, e1, e2, e3, e4, e5, e6⟩ := region2p hA hM sh hc hn
  simp only [e1, e2, ok_bind] at hret ⊢
  have hs : Split (rowOf alg.compl A B M n) A.rows n := split_bnd _ _ A.rows hn
  obtain ⟨r, hr1, hret⟩ := bind_ok hret
  cases r with
  | none => cases hret
  | some r =>
  rw [hr1]
  obtain ⟨g, hg, hret⟩ := bind_ok hret
  simp only [hg]
  obtain ⟨q, hq, -⟩ := bind_ok hret
  cases q with
  | none => simp_all
  | some q =>
  exact ⟨_, List.mem_append_right _ (List.mem_cons_of_mem _ List.mem_cons_self),
    racy4 hs hn (by intro t ht; exact list_getD_map_range _ _ ht) hq hu he⟩

end Verif.Model.Race
