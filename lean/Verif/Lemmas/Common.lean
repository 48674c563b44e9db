import Verif.Lemmas.Scan
import Verif.Lemmas.Rows

/-! # Driver helpers: proofs -/

namespace Verif.Model

variable {V : Type}

theorem verifyInputs_ok {A B M : CSR V} (h : Spec.Shapes A B M) : verifyInputs A B M = .ok () := by
  unfold verifyInputs
  simp [h.ab, h.ma, h.mb]

theorem rowLen_eq {X : CSR V} (h : X.WF) {i : Nat} (hi : i < X.rows) : rowLen X i = .ok (X.row i).length := by
  unfold rowLen
  rw [CSR.rd_ptr h hi, CSR.rd_ptr h (Nat.le_of_lt hi), CSR.row_length h hi]; rfl

theorem flopsRow_eq {A B : CSR V} (hA : A.WF) (hB : B.WF) (hAB : A.cols = B.rows) {i : Nat} (hi : i < A.rows) :
    flopsRow A B i = .ok (visits A B i).length := by
  unfold flopsRow
  rw [CSR.rd_ptr hA (Nat.le_of_lt hi), CSR.rd_ptr hA hi]
  simp only [ok_bind]
  have hlen : A.ptr (i + 1) ≤ (A.colids.zip A.values).length := by
    rw [CSR.zip_length hA]; exact CSR.ptr_le_nnz hA hi
  rw [forRange_eq_slice (L := A.colids.zip A.values) (g := fun s ka => .ok (s + (B.row ka.1).length)) hlen]
  · show (A.row i).foldlM _ 0 = _
    unfold visits
    obtain ⟨h1, -⟩ := foldlM_pure (f := fun s (ka : Nat × V) => (.ok (s + (B.row ka.1).length) : Res Nat))
      (fun s ka => s + (B.row ka.1).length) (fun _ => True) (A.row i) 0 trivial
      (fun _ _ _ _ => ⟨rfl, trivial⟩)
    rw [h1]
    congr 1
    have : ∀ (l : List (Nat × V)) s, l.foldl (fun s ka => s + (B.row ka.1).length) s =
        s + (l.flatMap fun ka => (B.row ka.1).map fun jb => (jb.1, ka.2, jb.2)).length := by
      intro l
      induction l with
      | nil => intro s; simp
      | cons a l ih => intro s; simp only [List.foldl_cons, ih, List.flatMap_cons, List.length_append,
                        List.length_map]; omega
    rw [this]; simp
  · intro j hj _ _ s
    have hjn : j < A.nnz := by rw [← CSR.zip_length hA]; exact hj
    have hjc : j < A.colids.length := by rw [hA.colLen]; exact hjn
    have hin : A.colids[j] < B.rows := by
      rw [← hAB]; exact hA.inBounds _ (List.getElem_mem hjc)
    rw [rd_of_lt hjc]
    simp only [ok_bind, rowLen_eq hB hin, List.getElem_zip]

/-- Work of row `i` as used by the drivers. -/
def flopsOf (compl : Bool) (A B M : CSR V) (i : Nat) : Nat :=
  if compl then (visits A B i).length
  else if M.rowCols i = [] then 0 else (visits A B i).length

theorem rowCols_eq_nil {M : CSR V} (hM : M.WF) {i : Nat} (hi : i < M.rows) :
    M.rowCols i = [] ↔ M.ptr (i + 1) = M.ptr i := by
  rw [← List.length_eq_zero_iff, CSR.rowCols_length hM hi]
  have := hM.ptrMono i hi
  omega

theorem flopsRowMasked_eq {A B M : CSR V} (hA : A.WF) (hB : B.WF) (hM : M.WF) (sh : Spec.Shapes A B M)
    {i : Nat} (hi : i < A.rows) : flopsRowMasked A B M i = .ok (flopsOf false A B M i) := by
  have hi' : i < M.rows := sh.ma ▸ hi
  unfold flopsRowMasked flopsOf
  rw [CSR.rd_ptr hM hi', CSR.rd_ptr hM (Nat.le_of_lt hi')]
  simp only [ok_bind, Bool.false_eq_true, if_false, rowCols_eq_nil hM hi']
  by_cases h : M.ptr (i + 1) = M.ptr i
  · simp [h]
  · simp only [ne_eq, h, not_false_eq_true, if_true, if_false]
    exact flopsRow_eq hA hB sh.ab hi

theorem sum_map_range (f : Nat → Nat) (n : Nat) : ((List.range n).map f).sum = psum f n := by
  induction n with
  | zero => rfl
  | succ n ih => simp [List.range_succ, ih, psum]

theorem calculateFlops_eq {A B M : CSR V} (hA : A.WF) (hB : B.WF) (hM : M.WF) (sh : Spec.Shapes A B M)
    (compl : Bool) {order : List Nat} (ho : order.Perm (List.range A.rows)) :
    calculateFlops compl A B M order =
      .ok (tab A.rows (fun i => some (flopsOf compl A B M i)), psum (flopsOf compl A B M) A.rows) := by
  unfold calculateFlops
  have hlt : ∀ i ∈ order, i < A.rows := fun i hi => by simpa using ho.mem_iff.1 hi
  have := foldlM_desc (f := fun (x : List (Option Nat) × Nat) i => (do
      let f ← if compl then flopsRow A B i else flopsRowMasked A B M i
      let fpr ← wr x.1 i (some f)
      .ok (fpr, x.2 + f) : Res (List (Option Nat) × Nat)))
    (fun pre => (tab A.rows (fun i => if i ∈ pre then some (flopsOf compl A B M i) else none),
      (pre.map (flopsOf compl A B M)).sum)) order (by
    intro pre a post hl
    have ha : a < A.rows := hlt a (by simp [hl])
    have h1 := flopsRowMasked_eq hA hB hM sh ha
    have h2 : flopsRow A B a = .ok (flopsOf true A B M a) := by
      simpa [flopsOf] using flopsRow_eq hA hB sh.ab ha
    have h3 : tab A.rows (upd (fun i => if i ∈ pre then some (flopsOf compl A B M i) else none) a
        (some (flopsOf compl A B M a))) =
        tab A.rows (fun i => if i ∈ pre ++ [a] then some (flopsOf compl A B M i) else none) := by
      congr 1; funext i
      by_cases hi : i = a <;> simp [upd, hi]
    cases compl
    · simp only [Bool.false_eq_true, if_false, h1, ok_bind, wr_tab ha, h3]
      simp
    · simp only [if_true, h2, ok_bind, wr_tab ha, h3]
      simp)
  have e0 : (List.replicate A.rows none, 0) =
      ((tab A.rows (fun i => if i ∈ ([] : List Nat) then some (flopsOf compl A B M i) else none),
      ((([] : List Nat)).map (flopsOf compl A B M)).sum) : List (Option Nat) × Nat) := by
    congr 1
    apply List.ext_getElem?
    intro i
    by_cases hi : i < A.rows
    · rw [tab_getElem? hi]; simp [hi]
    · simp [tab, hi]
  rw [e0]
  refine this.trans ?_
  congr 2
  · apply tab_ext
    intro i hi
    rw [if_pos (ho.mem_iff.2 (by simpa using hi))]
  · rw [← sum_map_range]
    exact (ho.map _).sum_nat

/-! ## lower_bound -/

/-- The position `lower_bound` must return for the values `P 0 ≤ ... ≤ P (r-1)`. -/
def lb (P : Nat → Nat) (x : Nat) : Nat → Nat
  | 0 => 0
  | r + 1 => if P r < x then r + 1 else lb P x r

theorem lb_le (P : Nat → Nat) (x r : Nat) : lb P x r ≤ r := by
  induction r with
  | zero => exact Nat.le_refl _
  | succ r ih => unfold lb; split <;> omega

theorem lb_mono {P : Nat → Nat} {x y : Nat} (h : x ≤ y) (r : Nat) : lb P x r ≤ lb P y r := by
  induction r with
  | zero => exact Nat.le_refl _
  | succ r ih =>
    unfold lb
    by_cases h1 : P r < x
    · rw [if_pos h1, if_pos (by omega)]; exact Nat.le_refl _
    · rw [if_neg h1]
      split
      · have := lb_le P x r; omega
      · exact ih

/-- `lb` is the only position that separates the smaller from the other values. -/
theorem lb_unique {P : Nat → Nat} {x r k : Nat} (hk : k ≤ r) (h1 : ∀ i < k, P i < x)
    (h2 : ∀ i, k ≤ i → i < r → x ≤ P i) : lb P x r = k := by
  induction r with
  | zero => have : k = 0 := by omega
            subst this; rfl
  | succ r ih =>
    unfold lb
    rcases Nat.lt_or_ge r k with h | h
    · have : k = r + 1 := by omega
      subst this
      rw [if_pos (h1 r (by omega))]
    · have := h2 r h (by omega)
      rw [if_neg (by omega)]
      exact ih h (fun i hi hi' => h2 i hi (by omega))

theorem lbGo_eq {P : Nat → Nat} {a : List (Option Nat)} {r x : Nat} (ha : ∀ i < r, Has a P i)
    (hP : ∀ i j, i ≤ j → j < r → P i ≤ P j) :
    ∀ (fuel first len : Nat), len ≤ fuel → first + len ≤ r → (∀ i < first, P i < x) →
      (∀ i, first + len ≤ i → i < r → x ≤ P i) → lbGo a x fuel first len = .ok (lb P x r) := by
  intro fuel
  induction fuel with
  | zero =>
    intro first len h1 h2 h3 h4
    have : len = 0 := by omega
    subst this
    unfold lbGo
    rw [lb_unique (by omega) h3 (by simpa using h4)]
  | succ fuel ih =>
    intro first len h1 h2 h3 h4
    cases len with
    | zero =>
      unfold lbGo
      rw [lb_unique (by omega) h3 (by simpa using h4)]
    | succ len =>
      unfold lbGo
      have hh : first + (len + 1) / 2 < r := by omega
      simp only [(ha _ hh).rd, ok_bind, use_some]
      by_cases hm : P (first + (len + 1) / 2) < x
      · rw [if_pos hm]
        apply ih
        · omega
        · omega
        · intro i hi
          have := hP i (first + (len + 1) / 2) (by omega) hh
          omega
        · intro i hi hi'
          exact h4 i (by omega) hi'
      · rw [if_neg hm]
        apply ih
        · omega
        · omega
        · exact h3
        · intro i hi hi'
          have := hP (first + (len + 1) / 2) i (by omega) hi'
          omega

theorem lowerBound_eq {P : Nat → Nat} {a : List (Option Nat)} {r : Nat} (x : Nat) (ha : ∀ i < r, Has a P i)
    (hP : ∀ i j, i ≤ j → j < r → P i ≤ P j) : lowerBound a r x = .ok (lb P x r) :=
  lbGo_eq ha hP r 0 r (Nat.le_refl _) (by omega) (fun i hi => by omega) (fun i h1 h2 => by omega)

/-! ## distributeWork -/

/-- First row of thread `t`; `t = n` gives the number of rows. -/
def bnd (P : Nat → Nat) (total rows n t : Nat) : Nat :=
  if t = 0 then 0 else if t = n then rows else lb P (total / n * t) rows

theorem bnd_zero (P : Nat → Nat) (total rows n : Nat) : bnd P total rows n 0 = 0 := rfl

theorem bnd_last (P : Nat → Nat) (total rows : Nat) {n : Nat} (hn : 0 < n) : bnd P total rows n n = rows := by
  unfold bnd; rw [if_neg (by omega), if_pos rfl]

theorem bnd_le (P : Nat → Nat) (total rows n t : Nat) : bnd P total rows n t ≤ rows := by
  unfold bnd
  split
  · omega
  · split
    · omega
    · exact lb_le _ _ _

theorem bnd_mono (P : Nat → Nat) (total rows : Nat) {n t : Nat} (ht : t < n) :
    bnd P total rows n t ≤ bnd P total rows n (t + 1) := by
  unfold bnd
  by_cases h0 : t = 0
  · rw [if_pos h0]; omega
  · rw [if_neg h0, if_neg (by omega), if_neg (by omega)]
    by_cases h1 : t + 1 = n
    · rw [if_pos h1]; exact lb_le _ _ _
    · rw [if_neg h1]; exact lb_mono (Nat.mul_le_mul_left _ (by omega)) _

theorem bnd_mono' (P : Nat → Nat) (total rows : Nat) {n s t : Nat} (hst : s ≤ t) (ht : t ≤ n) :
    bnd P total rows n s ≤ bnd P total rows n t := by
  induction t with
  | zero => have : s = 0 := by omega
            subst this; exact Nat.le_refl _
  | succ t ih =>
    rcases Nat.lt_or_ge s (t + 1) with h | h
    · exact Nat.le_trans (ih (by omega) (by omega)) (bnd_mono P total rows (by omega))
    · have : s = t + 1 := by omega
      subst this; exact Nat.le_refl _

theorem distributeWork_eq {P : Nat → Nat} {a : List (Option Nat)} {rows n t : Nat} (total : Nat) (ht : t < n)
    (ha : ∀ i < rows, Has a P i) (hP : ∀ i j, i ≤ j → j < rows → P i ≤ P j) :
    distributeWork total a rows n t = .ok (bnd P total rows n t, bnd P total rows n (t + 1)) := by
  unfold distributeWork bnd
  simp only [lowerBound_eq _ ha hP]
  by_cases h0 : t = 0
  · subst h0
    by_cases h1 : n = 1
    · subst h1; simp
    · have h2 : ¬ (0 = n - 1) := by omega
      have h3 : ¬ (1 = n) := by omega
      simp [h2, h3]
  · have hn : ¬ (t = n) := by omega
    by_cases h1 : t + 1 = n
    · have h2 : t = n - 1 := by omega
      have h3 : ¬ (n - 1 = 0) := by omega
      have h4 : ¬ (n - 1 = n) := by omega
      subst h2
      simp [h3, h4, h1]
      omega
    · have h2 : ¬ (t = n - 1) := by omega
      simp [h0, h1, h2, hn]

/-- Every row belongs to exactly one thread. -/
theorem bnd_cover (P : Nat → Nat) (total : Nat) {rows n i : Nat} (hn : 0 < n) (hi : i < rows) :
    ∃ t, t < n ∧ bnd P total rows n t ≤ i ∧ i < bnd P total rows n (t + 1) := by
  have key : ∀ k, k ≤ n → i < bnd P total rows n k →
      ∃ t, t < k ∧ bnd P total rows n t ≤ i ∧ i < bnd P total rows n (t + 1) := by
    intro k
    induction k with
    | zero => intro _ h; rw [bnd_zero] at h; omega
    | succ k ih =>
      intro hk h
      by_cases h' : i < bnd P total rows n k
      · obtain ⟨t, h1, h2⟩ := ih (by omega) h'
        exact ⟨t, by omega, h2⟩
      · exact ⟨k, by omega, by omega, h⟩
  exact key n (Nat.le_refl _) (by rw [bnd_last _ _ _ hn]; exact hi)

/-! ## scanInputs -/

/-- Bound used for the private output buffers. -/
def boundOf (compl : Bool) (A B M : CSR V) (i : Nat) : Nat :=
  if compl then flopsOf compl A B M i else min (flopsOf compl A B M i) (M.row i).length

/-- The sizes cover row `i`. -/
structure Covers (compl calcA calcM calcF : Bool) (A B M : CSR V) (sz : Sizes) (i : Nat) : Prop where
  a : calcA = true → (A.row i).length ≤ sz.maxA
  m : calcM = true → (M.row i).length ≤ sz.maxM
  f : calcF = true → flopsOf compl A B M i ≤ sz.maxFlops

theorem scanInputs_ok {A B M : CSR V} (hA : A.WF) (hM : M.WF) (hMA : M.rows = A.rows)
    (compl calcC calcA calcM calcF : Bool) {fpr : List (Option Nat)} {b e : Nat} (hbe : b ≤ e)
    (he : e ≤ A.rows) (hf : ∀ i < A.rows, Has fpr (flopsOf compl A B M) i) :
    ∃ sz, scanInputs compl calcC calcA calcM calcF b e fpr A M = .ok sz ∧
      (calcC = true → sz.sizeC = psum (boundOf compl A B M) e - psum (boundOf compl A B M) b) ∧
      ∀ i, b ≤ i → i < e → Covers compl calcA calcM calcF A B M sz i := by
  unfold scanInputs
  have hf' : ∀ i < A.rows, rd fpr i = .ok (some (flopsOf compl A B M i)) := fun i hi => (hf i hi).rd
  obtain ⟨sz, h1, h2, h3⟩ := forRange_inv (body := fun row s => (do
    let s ← if calcC then do
        let f ← rd fpr row
        let f ← use f
        if !compl then do
          let m ← rowLen M row
          .ok { s with sizeC := s.sizeC + min f m }
        else .ok { s with sizeC := s.sizeC + f }
      else .ok s
    let s ← if calcA then do
        let a ← rowLen A row
        .ok { s with maxA := max s.maxA a }
      else .ok s
    let s ← if calcM then do
        let m ← rowLen M row
        .ok { s with maxM := max s.maxM m }
      else .ok s
    if calcF then do
      let f ← rd fpr row
      let f ← use f
      .ok { s with maxFlops := max s.maxFlops f }
    else .ok s : Res Sizes))
    (fun i sz => (calcC = true → sz.sizeC = psum (boundOf compl A B M) i - psum (boundOf compl A B M) b) ∧
      ∀ k, b ≤ k → k < i → Covers compl calcA calcM calcF A B M sz k) b e hbe {}
    (by
      refine ⟨fun _ => by simp, fun k h1 h2 => by omega⟩)
    (by
      rintro i s hi1 hi2 ⟨hs1, hs2⟩
      have hi : i < A.rows := by omega
      have hiM : i < M.rows := by omega
      simp only [hf' i hi, rowLen_eq hA hi, rowLen_eq hM hiM, ok_bind, use_some]
      have hp := psum_mono (f := boundOf compl A B M) hi1
      refine ⟨{ sizeC := if calcC then s.sizeC + boundOf compl A B M i else s.sizeC,
                maxA := if calcA then max s.maxA (A.row i).length else s.maxA,
                maxM := if calcM then max s.maxM (M.row i).length else s.maxM,
                maxFlops := if calcF then max s.maxFlops (flopsOf compl A B M i) else s.maxFlops }, ?_, ?_, ?_⟩
      · unfold boundOf
        cases compl <;> cases calcC <;> cases calcA <;> cases calcM <;> cases calcF <;> simp
      · intro hc
        simp only [hc, if_true, hs1 hc, psum]
        omega
      · intro k hk1 hk2
        rcases Nat.lt_or_ge k i with h | h
        · have hcov := hs2 k hk1 h
          refine ⟨fun hc => ?_, fun hc => ?_, fun hc => ?_⟩
          · have := hcov.a hc; simp only [hc, if_true]; omega
          · have := hcov.m hc; simp only [hc, if_true]; omega
          · have := hcov.f hc; simp only [hc, if_true]; omega
        · have : k = i := by omega
          subst this
          refine ⟨fun hc => ?_, fun hc => ?_, fun hc => ?_⟩
          · simp only [hc, if_true]; omega
          · simp only [hc, if_true]; omega
          · simp only [hc, if_true]; omega)
  exact ⟨sz, h1, h2, h3⟩

end Verif.Model
