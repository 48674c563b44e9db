import Verif.Model.Bin
import Verif.Lemmas.Blocks
import Verif.Lemmas.Common
import Verif.Lemmas.Hash

/-! # The work partition of the older kernels -/

namespace Verif.Model.Bin

variable {V : Type}

/-- Number of products of row `i`. -/
def nprod (A B : CSR V) (i : Nat) : Nat := (visits A B i).length

theorem intprodRow_eq {A B : CSR V} (hA : A.WF) (hB : B.WF) (hAB : A.cols = B.rows) {i : Nat} (hi : i < A.rows) :
    intprodRow A B i = .ok (nprod A B i) := by
  rw [show nprod A B i = (visits A B i).length from rfl, ← flopsRow_eq hA hB hAB hi]
  unfold intprodRow flopsRow rowLen
  simp only [bind_assoc, ok_bind]

theorem setIntprodNum_eq {A B : CSR V} (hA : A.WF) (hB : B.WF) (hAB : A.cols = B.rows) {order : List Nat}
    (ho : order.Perm (List.range A.rows)) :
    setIntprodNum A B order (List.replicate A.rows 0) = .ok (tab A.rows (nprod A B), psum (nprod A B) A.rows) := by
  unfold setIntprodNum
  have hlt : ∀ i ∈ order, i < A.rows := fun i hi => by simpa using ho.mem_iff.1 hi
  have := foldlM_desc (f := fun (x : List Nat × Nat) i => (do
      let nz ← intprodRow A B i
      let rowNz ← wr x.1 i nz
      .ok (rowNz, x.2 + nz) : Res (List Nat × Nat)))
    (fun pre => (tab A.rows (fun i => if i ∈ pre then nprod A B i else 0), (pre.map (nprod A B)).sum)) order (by
    intro pre a post hl
    have ha : a < A.rows := hlt a (by simp [hl])
    have h3 : tab A.rows (upd (fun i => if i ∈ pre then nprod A B i else 0) a (nprod A B a)) =
        tab A.rows (fun i => if i ∈ pre ++ [a] then nprod A B i else 0) := by
      congr 1; funext i
      by_cases hi : i = a <;> simp [upd, hi]
    simp only [intprodRow_eq hA hB hAB ha, ok_bind, wr_tab ha, h3]
    simp)
  have e0 : (List.replicate A.rows 0, 0) =
      ((tab A.rows (fun i => if i ∈ ([] : List Nat) then nprod A B i else 0),
      ((([] : List Nat)).map (nprod A B)).sum) : List Nat × Nat) := by
    rw [Conv.replicate_eq_tab]; simp
  rw [e0]
  refine this.trans ?_
  congr 2
  · apply tab_ext
    intro i hi
    rw [if_pos (ho.mem_iff.2 (by simpa using hi))]
  · rw [← sum_map_range]
    exact (ho.map _).sum_nat

/-- The first row of thread `t`. -/
def bound (f : Nat → Nat) (total rows n t : Nat) : Nat :=
  if t = 0 then 0 else if t = n then rows
  else min rows (lb (psum f) ((total + n - 1) / n * t) (rows + 1))

theorem bounds (f : Nat → Nat) (total rows : Nat) {n : Nat} (hn : 0 < n) : Bounds n rows (bound f total rows n) where
  first := rfl
  last := by unfold bound; rw [if_neg (by omega), if_pos rfl]
  mono := by
    intro t ht
    unfold bound
    by_cases h0 : t = 0
    · rw [if_pos h0]; omega
    · rw [if_neg h0, if_neg (by omega), if_neg (by omega)]
      by_cases h1 : t + 1 = n
      · rw [if_pos h1]; omega
      · rw [if_neg h1]
        have := lb_mono (P := psum f) (Nat.mul_le_mul_left ((total + n - 1) / n) (Nat.le_succ t)) (rows + 1)
        have h2 : t.succ = t + 1 := rfl
        rw [h2] at this
        omega

theorem setRowsOffset_eq {rowNz : List Nat} {f : Nat → Nat} {rows n : Nat} (total : Nat) (hf : rowNz = tab rows f)
    (hsmall : rows + 1 < 2 ^ 17) (hn : 0 < n) (nd : Nat) (s1 s2 : List Nat) {orderT : List Nat}
    (ho : orderT.Perm (List.range n)) :
    setRowsOffset rowNz total rows n nd s1 s2 orderT = .ok (some (tab (n + 1) (bound f total rows n))) := by
  unfold setRowsOffset
  have hs : UtilScan.scan rowNz (rows + 1) (List.replicate (rows + 1) 0) nd s1 s2 = .ok (some (tab (rows + 1) (psum f))) := by
    unfold UtilScan.scan
    rw [if_pos hsmall, UtilScan.seqScan_eq (f := f) (by omega)
      (by intro i hi; rw [hf, tab_getElem? (by omega)]) (by simp)]
    rfl
  rw [hs]
  simp only [ok_bind]
  have hmap : (tab (rows + 1) (psum f)).map some = tab (rows + 1) (fun i => some (psum f i)) := by
    unfold tab; rw [List.map_map]; rfl
  have hlb : ∀ x, lowerBound ((tab (rows + 1) (psum f)).map some) (rows + 1) x = .ok (lb (psum f) x (rows + 1)) := by
    intro x
    rw [hmap]
    exact lowerBound_eq x (fun i hi => has_tab hi) (fun i j hij _ => psum_mono hij)
  simp only [hlb, ok_bind]
  rw [Conv.replicate_eq_tab, wr_tab (by omega), ok_bind]
  have hfill := fillOrder (n := n) (fun (off : List Nat) t =>
      wr off (t + 1) (if lb (psum f) ((total + n - 1) / n * (t + 1)) (rows + 1) > rows then rows
        else lb (psum f) ((total + n - 1) / n * (t + 1)) (rows + 1)))
    (fun D => tab (n + 1) fun t => if t ≠ 0 ∧ D (t - 1) = true then
      min rows (lb (psum f) ((total + n - 1) / n * t) (rows + 1)) else 0) orderT ho (by
      intro D t ht hD
      rw [wr_tab (by omega)]
      congr 1
      apply tab_ext
      intro j hj
      by_cases hjt : j = t + 1
      · subst hjt
        rw [upd_same]
        simp only [Nat.add_sub_cancel, beq_self_eq_true, Bool.or_true, ne_eq, Nat.add_eq_zero_iff, Nat.succ_ne_self,
          and_false, not_false_eq_true, and_self, if_true]
        split <;> omega
      · rw [upd_ne _ _ hjt]
        by_cases hj0 : j = 0
        · simp [hj0]
        · have : (j - 1 == t) = false := by simp; omega
          simp only [this, Bool.or_false])
  have e0 : tab (n + 1) (upd (fun _ => 0) 0 0) = tab (n + 1) fun t => if t ≠ 0 ∧ (fun _ => false : Nat → Bool) (t - 1) = true then
      min rows (lb (psum f) ((total + n - 1) / n * t) (rows + 1)) else 0 := by
    apply tab_ext
    intro j _
    by_cases hj : j = 0
    · subst hj; rw [upd_same]; simp
    · rw [upd_ne _ _ hj]; simp
  rw [e0, hfill, ok_bind, wr_tab (by omega), ok_bind]
  congr 2
  apply tab_ext
  intro j hj
  unfold bound
  by_cases hjn : j = n
  · subst hjn; rw [upd_same, if_neg (by omega), if_pos rfl]
  · rw [upd_ne _ _ hjn]
    by_cases hj0 : j = 0
    · subst hj0; simp
    · rw [if_neg hj0, if_neg hjn, if_pos ⟨hj0, by simp; omega⟩]

/-! ## Bins -/

theorem lt_two_pow (n : Nat) : n < 2 ^ n := Nat.lt_two_pow_self

theorem binIdx_ok {nz min : Nat} (hmin : 0 < min) : ∀ (fuel j : Nat), nz < fuel + j → (∀ k < j, min * 2 ^ k < nz) →
    ∃ m, binIdx nz min fuel j = .ok m ∧ nz ≤ min * 2 ^ m ∧ ∀ k < m, min * 2 ^ k < nz := by
  intro fuel
  induction fuel with
  | zero =>
    intro j h hk
    exfalso
    have h1 : 0 < j := by omega
    have h2 := hk (j - 1) (by omega)
    have h3 : j - 1 < 2 ^ (j - 1) := lt_two_pow _
    have h4 : 2 ^ (j - 1) ≤ min * 2 ^ (j - 1) := Nat.le_mul_of_pos_left _ hmin
    omega
  | succ fuel ih =>
    intro j h hk
    unfold binIdx
    rw [Nat.shiftLeft_eq]
    by_cases hc : nz > min * 2 ^ j
    · rw [if_pos hc]
      apply ih _ (by omega)
      intro k hkj
      rcases Nat.lt_or_ge k j with h' | h'
      · exact hk k h'
      · have : k = j := by omega
        subst this; exact hc
    · rw [if_neg hc]
      exact ⟨j, rfl, by omega, hk⟩

/-- What `set_bin_id` stores for a row with `nz` products. -/
structure IsBin (nz cols min b : Nat) : Prop where
  zero : b = 0 ↔ Nat.min nz cols = 0
  fits : 0 < b → Nat.min nz cols ≤ min * 2 ^ (b - 1)
  least : ∀ k, k + 1 < b → min * 2 ^ k < Nat.min nz cols

theorem binIdOf_ok (nz cols : Nat) {min : Nat} (hmin : 0 < min) : ∃ b, binIdOf nz cols min = .ok b ∧ IsBin nz cols min b := by
  unfold binIdOf
  have he : (if nz > cols then cols else nz) = Nat.min nz cols := by
    rw [show Nat.min nz cols = Min.min nz cols from rfl]
    split <;> omega
  simp only [he]
  obtain ⟨m, hm⟩ : ∃ m, m = Nat.min nz cols := ⟨_, rfl⟩
  rw [← hm]
  by_cases h0 : m = 0
  · rw [if_pos h0]
    exact ⟨0, rfl, ⟨by simp [← hm, h0], by omega, by omega⟩⟩
  · rw [if_neg h0]
    obtain ⟨k, e1, e2, e3⟩ := binIdx_ok (nz := m) hmin (m + 1) 0 (by omega) (by omega)
    refine ⟨k + 1, by rw [e1]; rfl, ⟨by rw [← hm]; omega, ?_, ?_⟩⟩
    · intro _; rw [← hm]; simpa using e2
    · intro k' hk'; rw [← hm]; exact e3 k' (by omega)

theorem setBinId_ok {rowNz : List Nat} {f : Nat → Nat} {rows cols min : Nat} (hf : rowNz = tab rows f) (hmin : 0 < min)
    {order : List Nat} (ho : order.Perm (List.range rows)) :
    ∃ b : Nat → Nat, setBinId rowNz cols min order (List.replicate rows 0) = .ok (tab rows b) ∧
      ∀ i < rows, IsBin (f i) cols min (b i) := by
  have hb : ∀ i, ∃ b, binIdOf (f i) cols min = .ok b ∧ IsBin (f i) cols min b := fun i => binIdOf_ok _ _ hmin
  refine ⟨fun i => (hb i).choose, ?_, fun i _ => (hb i).choose_spec.2⟩
  unfold setBinId
  have := fillOrder (n := rows) (fun (binId : List Nat) i => do
      let nz ← rd rowNz i
      let b ← binIdOf nz cols min
      wr binId i b) (fun D => tab rows fun i => if D i then (hb i).choose else 0) order ho (by
      intro D i hi _
      rw [hf, rd_tab hi, ok_bind, (hb i).choose_spec.1, ok_bind, wr_tab hi]
      congr 1
      apply tab_ext
      intro j _
      by_cases hj : j = i
      · subst hj; rw [upd_same]; simp
      · rw [upd_ne _ _ hj]; simp [hj])
  rw [Conv.replicate_eq_tab]
  refine this.trans ?_
  congr 1
  apply tab_ext
  intro i hi
  simp [hi]

/-- The loops of the partition run over all rows and all threads. -/
structure Adm (rows n : Nat) (sch : Sched) : Prop where
  intprod : sch.intprod.Perm (List.range rows)
  threads : sch.threads.Perm (List.range n)
  ids : sch.ids.Perm (List.range rows)

/-- What `set_max_bin` returns. -/
structure IsPart (A B : CSR V) (cols min n : Nat) (p : Part) : Prop where
  rowNz : p.rowNz = tab A.rows (nprod A B)
  off : p.rowsOffset = tab (n + 1) (bound (nprod A B) (psum (nprod A B) A.rows) A.rows n)
  ids : ∃ b : Nat → Nat, p.binId = tab A.rows b ∧ ∀ i < A.rows, IsBin (nprod A B i) cols min (b i)

theorem setMaxBin_ok {A B : CSR V} (hA : A.WF) (hB : B.WF) (hAB : A.cols = B.rows) (hpos : 0 < A.rows)
    (hsmall : A.rows + 1 < 2 ^ 17) {cols min n : Nat} (hmin : 0 < min) (hn : 0 < n) (nd : Nat) {sch : Sched}
    (ho : Adm A.rows n sch) :
    ∃ p, setMaxBin A B A.rows cols min n nd sch = .ok (some p) ∧ IsPart A B cols min n p := by
  obtain ⟨b, e1, e2⟩ := setBinId_ok (cols := cols) (f := nprod A B) rfl hmin ho.ids
  refine ⟨⟨_, _, _⟩, ?_, ⟨rfl, rfl, b, rfl, e2⟩⟩
  unfold setMaxBin
  rw [check_of (by simp; omega), ok_bind, setIntprodNum_eq hA hB hAB ho.intprod]
  simp only [ok_bind]
  rw [setRowsOffset_eq _ rfl hsmall hn nd sch.s1 sch.s2 ho.threads]
  simp only [ok_bind]
  rw [e1]
  rfl

/-! ## Local tables -/

theorem max_loop {f : Nat → Nat} {rows lo hi : Nat} (h : lo ≤ hi) (hr : hi ≤ rows) :
    ∃ m, forRange lo hi 0 (fun j m => do
      let x ← rd (tab rows f) j
      .ok (if m < x then x else m)) = .ok m ∧ ∀ i, lo ≤ i → i < hi → f i ≤ m := by
  obtain ⟨m, e1, e2⟩ := forRange_inv (body := fun j m => do
      let x ← rd (tab rows f) j
      .ok (if m < x then x else m))
    (fun k m => ∀ i, lo ≤ i → i < k → f i ≤ m) lo hi h 0 (by intro i h1 h2; omega) (by
      intro k m h1 h2 h3
      refine ⟨_, by rw [rd_tab (by omega)]; rfl, ?_⟩
      intro i hi1 hi2
      by_cases hik : i = k
      · subst hik; split <;> omega
      · have := h3 i hi1 (by omega)
        split <;> omega)
  exact ⟨m, e1, e2⟩

/-- The table of a thread is large enough for the bins of its rows. -/
theorem localSize_ok {f : Nat → Nat} {rows cols lo hi a : Nat} (h : lo ≤ hi) (hr : hi ≤ rows) :
    ∃ s, localSize (tab rows f) cols (2 ^ a) lo hi = .ok s ∧
      ∀ i, lo ≤ i → i < hi → ∀ b, IsBin (f i) cols (2 ^ a) b → 0 < b → 2 ^ a * 2 ^ (b - 1) ≤ s := by
  unfold localSize
  obtain ⟨m, e1, e2⟩ := max_loop (f := f) h hr
  rw [e1]
  simp only [ok_bind]
  by_cases hm : m > 0
  · rw [if_pos hm]
    refine ⟨_, rfl, ?_⟩
    intro i h1 h2 b hb hb0
    have hfi := e2 i h1 h2
    have hnz : ¬ Nat.min (f i) cols = 0 := by rw [← hb.zero]; omega
    rw [show Nat.min (f i) cols = min (f i) cols from rfl] at hnz
    have hq : (if m > cols then cols else m) = min m cols := by split <;> omega
    rw [hq]
    obtain ⟨q, hqq⟩ : ∃ q, q = min m cols := ⟨_, rfl⟩
    rw [← hqq]
    have hpos : 0 < 2 ^ a := Nat.two_pow_pos a
    have hle : q ≤ Hash.grow q q (2 ^ a) := Hash.le_grow _ _ hpos (by omega)
    obtain ⟨e, he⟩ := Hash.grow_pow2 (target := q) q (2 ^ a) ⟨a, rfl⟩
    have hge := Hash.size_le_grow (target := q) q (2 ^ a)
    rw [he] at hle hge ⊢
    rw [← Nat.pow_add]
    apply Nat.pow_le_pow_right (by omega)
    have hae : a ≤ e := (Nat.pow_le_pow_iff_right (by omega)).1 hge
    by_cases hb1 : b = 1
    · subst hb1; simpa using hae
    · have := hb.least (b - 2) (by omega)
      rw [show Nat.min (f i) cols = min (f i) cols from rfl, ← Nat.pow_add] at this
      have h3 : 2 ^ (a + (b - 2)) < 2 ^ e := by omega
      have := (Nat.pow_lt_pow_iff_right (by omega : 1 < 2)).1 h3
      omega
  · rw [if_neg hm]
    refine ⟨0, rfl, ?_⟩
    intro i h1 h2 b hb hb0
    have hfi := e2 i h1 h2
    have : Nat.min (f i) cols = 0 := by
      rw [show Nat.min (f i) cols = min (f i) cols from rfl]; omega
    have := hb.zero.2 this
    omega

end Verif.Model.Bin
