import Verif.Lemmas.Intersect
import Verif.Lemmas.Alias
import Verif.Props.Examples

/-!
# C24, C48: intersection of matrices and the prefix sum it uses
-/

namespace Verif.Props
open Model Model.Intersect
open Spec (IsIntersection)

variable {V : Type}

/-- C48: the prefix sum returns the sums of the preceding source elements, for every team size and every interleaving,
provided the source has as many elements as the destination (the last one is not added) and, in the parallel branch,
there are at most as many threads as elements. A run is incomplete only if some thread was not given enough steps. -/
theorem C48_scan {inp : List Nat} {N n : Nat} (hN : 0 < N) (hn : 0 < n) (hnN : N < 2 ^ 17 ∨ n ≤ N) (hin : inp.length = N)
    (s1 s2 : List Nat) :
    (UtilScan.scan inp N (List.replicate N 0) n s1 s2 = .ok none ∧ ∃ t < n, s1.count t ≤ N + 2 ∨ s2.count t ≤ N) ∨
    ∃ out, UtilScan.scan inp N (List.replicate N 0) n s1 s2 = .ok (some out) ∧ out.length = N ∧
      ∀ i < N, out[i]? = some (inp.take i).sum := by
  have hsum : ∀ i, i ≤ N → psum (fun k => inp.getD k 0) i = (inp.take i).sum := by
    intro i
    induction i with
    | zero => intro _; simp [psum]
    | succ i ih =>
      intro hi
      have h : i < inp.length := by omega
      rw [List.take_add_one, List.sum_append, ← ih (by omega)]
      simp [psum, h]
  rcases UtilScan.scan_spec (inp := inp) (out := List.replicate N 0) (f := fun k => inp.getD k 0) hN hn hnN
    (by intro i hi; simp only [List.getD_eq_getElem?_getD]; rw [List.getElem?_eq_getElem (by omega)]; rfl)
    (by simp) s1 s2 with h | h
  · exact Or.inl h
  · right
    refine ⟨_, h, by simp, ?_⟩
    intro i hi
    rw [tab_getElem? hi, hsum i (by omega)]

example : ∃ out, UtilScan.scan [3, 1, 4] 3 [0, 0, 0] 2 [] [] = .ok (some out) ∧ out = [0, 3, 4] :=
  ⟨_, by decide, rfl⟩

/-- C48: in all callers the source is one element shorter than the destination. Then the sequential branch is right. -/
theorem C48_scan_callers_partial {inp : List Nat} {N n : Nat} (hN : N < 2 ^ 17) (hin : inp.length + 1 = N) (s1 s2 : List Nat) :
    ∃ out, UtilScan.scan inp N (List.replicate N 0) n s1 s2 = .ok (some out) ∧ out.length = N ∧
      ∀ i < N, out[i]? = some (inp.take i).sum := by
  have hsum : ∀ i, i < N → psum (fun k => inp.getD k 0) i = (inp.take i).sum := by
    intro i
    induction i with
    | zero => intro _; simp [psum]
    | succ i ih =>
      intro hi
      have h : i < inp.length := by omega
      rw [List.take_add_one, List.sum_append, ← ih (by omega)]
      simp [psum, h]
  refine ⟨tab N (psum fun k => inp.getD k 0), ?_, by simp, ?_⟩
  · unfold UtilScan.scan
    rw [if_pos hN, UtilScan.seqScan_eq (f := fun k => inp.getD k 0) (by omega)
      (by intro i hi; simp only [List.getD_eq_getElem?_getD]; rw [List.getElem?_eq_getElem (by omega)]; rfl) (by simp)]
    rfl
  · intro i hi
    rw [tab_getElem? hi, hsum i hi]

/-- C48, violated: with 2^17 or more elements the same calls take the parallel branch, whose last thread reads one element
past the end of the source. No run gets through, whatever the team size and the interleaving. -/
theorem C48_scan_callers_violated {inp out : List Nat} {N n : Nat} (hn : 0 < n) (hN : 2 ^ 17 ≤ N)
    (hin : inp.length + 1 = N) (s1 s2 : List Nat) (r : List Nat) :
    UtilScan.scan inp N out n s1 s2 ≠ .ok (some r) :=
  UtilScan.scan_short hn (by omega) hin s1 s2 r

/-- The out-of-bounds read of a run with one thread. -/
theorem C48_scan_callers_run (s2 : List Nat) :
    UtilScan.scan (List.replicate (2 ^ 17 - 1) 0) (2 ^ 17) (List.replicate (2 ^ 17) 0) 1
      (List.replicate (2 ^ 17 + 1) 0) s2 = .error .oob := by
  unfold UtilScan.scan
  rw [if_neg (by omega)]
  obtain ⟨L, hL⟩ : ∃ L, L = 2 ^ 17 := ⟨_, rfl⟩
  rw [← hL]
  have hL0 : 0 < L := by omega
  clear hL
  have hst : UtilScan.stop L 1 0 = L := by unfold UtilScan.stop; simp
  have hss : UtilScan.start L 1 0 = 0 := by unfold UtilScan.start; simp
  have key : ∀ (m i : Nat) (ls : Nat → UtilScan.Ctl1), i + m = L → 0 < m → ls 0 = .at i →
      runs 1 (UtilScan.step1 (List.replicate (L - 1) 0) L 1) (· == .done) (List.replicate m 0)
        (List.replicate L 0, List.replicate 1 0) ls = .error .oob := by
    intro m
    induction m with
    | zero => intro i ls _ h; omega
    | succ m ih =>
      intro i ls hi _ hls
      rw [List.replicate_succ]
      unfold runs
      rw [if_pos ⟨by omega, by rw [hls]; rfl⟩, hls]
      unfold UtilScan.step1
      simp only [hst]
      rw [if_neg (by omega)]
      by_cases hlt : i < L - 1
      · rw [if_pos hlt, rd_of_getElem? (x := 0) (by rw [List.getElem?_replicate, if_pos (by omega)]), ok_bind,
          rd_of_getElem? (x := 0) (by rw [List.getElem?_replicate, if_pos (by omega)]), ok_bind,
          wr_of_lt (by simp; omega)]
        simp only [ok_bind, Nat.add_zero]
        have hset : (List.replicate L 0).set (i + 1) 0 = List.replicate L 0 := by
          apply List.ext_getElem?
          intro k
          rw [List.getElem?_set]
          by_cases hk : i + 1 = k
          · subst hk; rw [if_pos rfl, List.getElem?_replicate, List.length_replicate]
          · rw [if_neg hk]
        rw [hset]
        exact ih (i + 1) _ (by omega) (by omega) (upd_same _ _ _)
      · rw [if_neg hlt, rd_oob (a := List.replicate (L - 1) 0) (by simp)]
        rw [rd_of_getElem? (x := 0) (by rw [List.getElem?_replicate, if_pos (by omega)])]
        rfl
  unfold phase
  rw [show L + 1 = L.succ from rfl, List.replicate_succ]
  unfold runs
  rw [if_pos ⟨by omega, rfl⟩]
  unfold UtilScan.step1
  simp only [hss]
  rw [wr_of_lt (by simp; omega)]
  simp only [ok_bind]
  have hset : (List.replicate L 0).set 0 0 = List.replicate L 0 := by
    apply List.ext_getElem?
    intro k
    rw [List.getElem?_set]
    by_cases hk : 0 = k
    · subst hk; rw [if_pos rfl, List.getElem?_replicate, List.length_replicate]
    · rw [if_neg hk]
  rw [hset]
  have := key L 0 (upd (fun _ => UtilScan.Ctl1.first) 0 (.at 0)) (by omega) hL0 (upd_same _ _ _)
  refine (congrArg (· >>= _) (congrArg (· >>= _) this)).trans rfl

/-- C24 for matrices with fewer than 2^17 - 1 rows: the call returns the intersection, for every team size and every order
of the parallel loops. (Missing: larger matrices, for which the claim is false, `C24_intersect_violated`.) -/
theorem C24_intersect_partial (add : V → V → V) {A B : CSR V} (hA : A.WF) (hB : B.WF) (sA : A.SortedRows) (sB : B.SortedRows)
    (hr : A.rows = B.rows) (hc : A.cols = B.cols) (hsmall : A.rows + 1 < 2 ^ 17) (dflt : V) {n : Nat} (hn : 0 < n)
    {order1 order2 : List Nat} (ho1 : order1.Perm (List.range A.rows)) (ho2 : order2.Perm (List.range A.rows))
    (s1 s2 : List Nat) :
    ∃ C, intersect add A B dflt n order1 s1 s2 order2 = .ok (some C) ∧ IsIntersection add A B C := by
  refine ⟨_, intersect_eq hA hB sA sB hr hc dflt s1 s2 hsmall hn ho1 ho2, ?_, rfl, rfl, ?_, ?_⟩
  · refine ofRows_wf _ _ _ _ hA.zero ?_
    intro i hi x hx
    obtain ⟨a, ha⟩ := sect_cols hx
    exact CSR.row_lt hA (x := (x.1, a)) ha
  · intro i hi j v
    unfold sectMat
    rw [ofRows_row A.rows _ _ _ hi]
    exact mem_sect
  · intro i hi
    unfold sectMat
    rw [ofRows_rowCols A.rows _ _ _ hi]
    exact sect_sorted (incRow hA sA hi) (incRow hB sB (by rw [← hr]; exact hi))

example := C24_intersect_partial (· + ·) Ex.wfA Ex.wfB Ex.sortedA Ex.sortedB rfl rfl (by decide) 0 (n := 4) (by decide)
  (order1 := [2, 0, 1]) (order2 := [1, 0, 2]) (by decide) (by decide) [] []

example : intersect (· + ·) Ex.A Ex.B 0 4 [2, 0, 1] [] [] [1, 0, 2] = .ok (some
    { rows := 3, cols := 3, nnz := 2, rowptr := [0, 1, 1, 2], colids := [0, 2], values := [2, 10] }) := by
  decide +kernel

/-- C24, shapes that differ: the empty matrix is returned. -/
theorem C24_mismatch (add : V → V → V) {A B : CSR V} (h : A.rows ≠ B.rows ∨ A.cols ≠ B.cols) (dflt : V) (n : Nat)
    (order1 s1 s2 order2 : List Nat) :
    ∃ C, intersect add A B dflt n order1 s1 s2 order2 = .ok (some C) ∧ C.rows = 0 ∧ C.cols = 0 ∧ C.nnz = 0 := by
  refine ⟨emptyCSR, ?_, rfl, rfl, rfl⟩
  unfold intersect
  rw [if_pos h]

/-- C24, violated: with 2^17 - 1 or more rows no run returns a matrix, because the prefix sum reads past the end of the row
counts. -/
theorem C24_intersect_violated (add : V → V → V) {A B : CSR V} (hr : A.rows = B.rows) (hc : A.cols = B.cols)
    (hbig : 2 ^ 17 ≤ A.rows + 1) (dflt : V) {n : Nat} (hn : 0 < n) (order1 s1 s2 order2 : List Nat) (C : CSR V) :
    intersect add A B dflt n order1 s1 s2 order2 ≠ .ok (some C) := by
  intro h
  unfold intersect at h
  rw [if_neg (by omega)] at h
  obtain ⟨⟨rowNz, vecs⟩, h1, h⟩ := Alias.bind_ok' h
  have hl : rowNz.length = A.rows := by
    have := Alias.foldlM_pres (fun s : List Nat × List (List (Nat × V)) => s.1.length = A.rows) (by
      rintro ⟨r, v⟩ i s' hp hs
      simp only at hs
      obtain ⟨xs, _, hs⟩ := Alias.bind_ok' hs
      obtain ⟨v', _, hs⟩ := Alias.bind_ok' hs
      obtain ⟨r', hw, hs⟩ := Alias.bind_ok' hs
      cases hs
      unfold wr at hw
      split at hw
      · cases hw; simpa using hp
      · cases hw) order1 _ _ (by simp) h1
    exact this
  simp only at h
  obtain ⟨r, h2, h⟩ := Alias.bind_ok' h
  cases r with
  | none => cases h
  | some rowptr => exact UtilScan.scan_short hn (by omega) (by omega) _ _ _ h2

/-- A well-formed sorted matrix with `2^17` rows (all empty), an input for which the claim fails. -/
def bigA : CSR Int :=
  { rows := 2 ^ 17, cols := 1, nnz := 0, rowptr := List.replicate (2 ^ 17 + 1) 0, colids := [], values := [] }

theorem bigA_wf : bigA.WF where
  zero := rfl
  ptrLen := List.length_replicate
  ptrFirst := by unfold CSR.ptr bigA; rw [List.getD_eq_getElem?_getD, List.getElem?_replicate]; rfl
  ptrMono := by
    intro i _
    have : ∀ j, bigA.ptr j = 0 := by
      intro j
      unfold CSR.ptr bigA
      rw [List.getD_eq_getElem?_getD, List.getElem?_replicate]
      split <;> rfl
    rw [this, this]; exact Nat.le_refl _
  ptrLast := by
    unfold CSR.ptr bigA; rw [List.getD_eq_getElem?_getD, List.getElem?_replicate]
    split <;> rfl
  colLen := rfl
  valLen := rfl
  inBounds := by intro c hc; cases hc

theorem bigA_sorted : bigA.SortedRows := by
  intro i _
  have h : bigA.colids = [] := rfl
  unfold CSR.rowCols slice
  rw [h, List.drop_nil, List.take_nil]
  exact List.Pairwise.nil

example (order1 s1 s2 order2 : List Nat) (C : CSR Int) :
    intersect (· + ·) bigA bigA 0 4 order1 s1 s2 order2 ≠ .ok (some C) :=
  C24_intersect_violated _ rfl rfl (by show 2 ^ 17 ≤ 2 ^ 17 + 1; omega) 0 (by decide) _ _ _ _ _

end Verif.Props
