import Verif.Model.Outer2
import Verif.Lemmas.OuterProd
import Verif.Lemmas.HeapGenNeg

/-! # The outer-product kernel with balanced blocks -/

namespace Verif.Model.Outer2
open Verif.Spec
open Verif.Model.Inner
open Outer (prodsOf sel)

variable {V : Type}

/-! ### Counting -/

theorem sel_id (W : List (Nat × Nat × V)) (r : Nat) : (sel (fun r => r / 1) r W).length = Conv.cnt W r := by
  unfold sel Conv.cnt
  have := congrArg List.length (Conv.bucket_filter W r)
  rw [List.length_map] at this
  rw [this]
  simp

theorem cnt_sel (bo : Nat → Nat) (b : Nat) (W : List (Nat × Nat × V)) (r : Nat) :
    Conv.cnt (sel bo b W) r = if bo r = b then Conv.cnt W r else 0 := by
  induction W using list_snoc_induction with
  | h0 => simp [sel, Conv.cnt, Conv.bucket]
  | h1 W t ih =>
    obtain ⟨k, x⟩ := t
    rw [Outer.sel_append, Conv.cnt_snoc]
    by_cases hb : bo k = b
    · have : sel bo b [(k, x)] = [(k, x)] := by simp [sel, hb]
      rw [this, Conv.cnt_snoc, ih]
      by_cases hk : k = r
      · subst hk; simp [hb]
      · simp [hk]
    · have : sel bo b [(k, x)] = [] := by simp [sel, hb]
      rw [this, List.append_nil, ih]
      by_cases hk : k = r
      · subst hk; simp [hb]
      · simp [hk]

theorem sel_length {bo : Nat → Nat} {b rows : Nat} {W : List (Nat × Nat × V)} (h : ∀ t ∈ W, t.1 < rows) :
    (sel bo b W).length = psum (fun r => if bo r = b then Conv.cnt W r else 0) rows := by
  rw [← Conv.psum_cnt (n := rows) (sel bo b W) fun t ht => h t (List.mem_filter.1 ht).1]
  exact psum_congr fun r _ => cnt_sel bo b W r

/-! ### The blocks -/

/-- Number of the block and the products in it so far, before row `i` -/
def blkSt (F : Nat → Nat) (avg : Nat) : Nat → Nat × Nat
  | 0 => (0, 0)
  | i + 1 => if (blkSt F avg i).2 + F i > avg then ((blkSt F avg i).1 + 1, 0) else ((blkSt F avg i).1, (blkSt F avg i).2 + F i)

def bo (F : Nat → Nat) (avg i : Nat) : Nat := (blkSt F avg i).1

theorem bo_succ (F : Nat → Nat) (avg i : Nat) : bo F avg i ≤ bo F avg (i + 1) ∧ bo F avg (i + 1) ≤ bo F avg i + 1 := by
  unfold bo
  rw [blkSt]
  split
  · exact ⟨Nat.le_succ _, Nat.le_refl _⟩
  · exact ⟨Nat.le_refl _, Nat.le_succ _⟩

theorem bo_mono (F : Nat → Nat) (avg : Nat) : ∀ r s, r ≤ s → bo F avg r ≤ bo F avg s := by
  intro r s h
  induction s with
  | zero => rw [show r = 0 by omega]
  | succ s ih =>
    rcases Nat.lt_or_ge r (s + 1) with h1 | h1
    · exact Nat.le_trans (ih (by omega)) (bo_succ F avg s).1
    · rw [show r = s + 1 by omega]

theorem blkSt_le (F : Nat → Nat) (avg : Nat) : ∀ i, (blkSt F avg i).1 * (avg + 1) + (blkSt F avg i).2 ≤ psum F i := by
  intro i
  induction i with
  | zero => simp [blkSt, psum]
  | succ i ih =>
    rw [blkSt, psum]
    split
    · simp only [Nat.add_mul, Nat.one_mul, Nat.add_zero]
      omega
    · simp only
      omega

/-- The products of block `b` in the rows before `i` -/
def bsum (F : Nat → Nat) (avg b i : Nat) : Nat := psum (fun r => if bo F avg r = b then F r else 0) i

theorem psum_zero {f : Nat → Nat} {n : Nat} (h : ∀ k < n, f k = 0) : psum f n = 0 := by
  induction n with
  | zero => rfl
  | succ n ih => rw [psum, ih fun k hk => h k (by omega), h n (by omega)]

theorem bsum_high {F : Nat → Nat} {avg b i : Nat} (h : ∀ r < i, bo F avg r ≠ b) : bsum F avg b i = 0 :=
  psum_zero fun r hr => if_neg (h r hr)

theorem blkSt_vol (F : Nat → Nat) (avg : Nat) : ∀ i, (blkSt F avg i).2 = bsum F avg (bo F avg i) i := by
  intro i
  induction i with
  | zero => rfl
  | succ i ih =>
    by_cases h : (blkSt F avg i).2 + F i > avg
    · have h1 : bo F avg (i + 1) = bo F avg i + 1 := by unfold bo; rw [blkSt, if_pos h]
      rw [h1, bsum_high]
      · rw [blkSt, if_pos h]
      · intro r hr
        have := bo_mono F avg r i (by omega)
        omega
    · have h1 : bo F avg (i + 1) = bo F avg i := by unfold bo; rw [blkSt, if_neg h]
      rw [h1, blkSt, if_neg h]
      show (blkSt F avg i).2 + F i = psum _ (i + 1)
      rw [psum, if_pos rfl, ih]
      rfl

theorem lt_of_avg {T k x : Nat} (hx : 0 < x) (h : k * (T / x + 1) ≤ T) : k < x := by
  by_contra hge
  have h1 : x * (T / x + 1) ≤ k * (T / x + 1) := Nat.mul_le_mul_right _ (by omega)
  have h2 := Nat.lt_mul_div_succ T hx
  omega

/-! ### The columns of the threads -/

/-- The columns before column `i` are distributed over the threads before thread `tid - 1`, with `g (tid - 1), ...` left for it. -/
structure Offs (n : Nat) (G : Nat → Nat) (avg i tid tvol : Nat) (off : List Nat) (g : Nat → Nat) : Prop where
  off : off = tab (n + 1) g
  pos : 1 ≤ tid
  vol : (tid - 1) * (avg + 1) + tvol ≤ psum G i
  zero : g 0 = 0
  mono : ∀ k < tid - 1, g k ≤ g (k + 1)
  le : g (tid - 1) ≤ i
  rest : ∀ k, tid ≤ k → g k = 0

theorem flatMap_ranges {g : Nat → Nat} (h0 : g 0 = 0) : ∀ m, (∀ k < m, g k ≤ g (k + 1)) →
    (List.range m).flatMap (fun t => List.range' (g t) (g (t + 1) - g t)) = List.range (g m) := by
  intro m
  induction m with
  | zero => intro _; simp [h0]
  | succ m ih =>
    intro h
    rw [List.range_succ, List.flatMap_append, ih fun k hk => h k (by omega)]
    simp only [List.flatMap_cons, List.flatMap_nil, List.append_nil]
    rw [List.range_eq_range', List.range_eq_range']
    have := h m (by omega)
    have e : g (m + 1) = g m + (g (m + 1) - g m) := by omega
    conv => rhs; rw [e, ← List.range'_append_1]
    simp

theorem colsOf_all {n rows tid : Nat} {g : Nat → Nat} (htn : tid ≤ n) (h1 : 1 ≤ tid) (h0 : g 0 = 0) (hm : ∀ k < tid - 1, g k ≤ g (k + 1))
    (hle : g (tid - 1) ≤ rows) (hr : ∀ k, tid ≤ k → g k = 0) :
    (List.range n).flatMap (colsOf (tab (n + 1) (upd g tid rows))) = List.range rows := by
  have e : ∀ t < n, colsOf (tab (n + 1) (upd g tid rows)) t = List.range' (upd g tid rows t) (upd g tid rows (t + 1) - upd g tid rows t) := by
    intro t ht
    unfold colsOf
    simp only [List.getD_eq_getElem?_getD]
    rw [tab_getElem? (by omega), tab_getElem? (by omega)]
    rfl
  have e' : (List.range n).flatMap (colsOf (tab (n + 1) (upd g tid rows))) =
      (List.range n).flatMap fun t => List.range' (upd g tid rows t) (upd g tid rows (t + 1) - upd g tid rows t) :=
    Conv.flatMap_congr_mem _ _ _ fun t ht => e t (List.mem_range.1 ht)
  obtain ⟨d, rfl⟩ : ∃ d, n = tid + d := ⟨n - tid, by omega⟩
  rw [e', List.range_add, List.flatMap_append, List.flatMap_map]
  have z : (List.range d).flatMap (fun t => List.range' (upd g tid rows (tid + t)) (upd g tid rows (tid + t + 1) - upd g tid rows (tid + t))) = [] := by
    rw [List.flatMap_eq_nil_iff]
    intro t _
    rw [upd_ne _ _ (show tid + t + 1 ≠ tid by omega), hr _ (by omega)]
    simp
  rw [z, List.append_nil, flatMap_ranges (g := upd g tid rows)]
  · rw [upd_same]
  · rw [upd_ne _ _ (by omega), h0]
  · intro k hk
    rw [upd_ne _ _ (show k ≠ tid by omega)]
    by_cases hk' : k + 1 = tid
    · rw [hk', upd_same, show k = tid - 1 by omega]
      exact hle
    · rw [upd_ne _ _ hk']
      exact hm k (by omega)

/-! ### The symbolic phase -/

section
variable {mul : V → V → V} {A : CSC V} {B : CSR V}

/-- Products of a row and of a column -/
def rowF (mul : V → V → V) (A : CSC V) (B : CSR V) : Nat → Nat := Conv.cnt (Outer.prods mul A B (List.range A.cols))

def colF (mul : V → V → V) (A : CSC V) (B : CSR V) (k : Nat) : Nat := if k < A.cols then (prodsOf mul A B k).length else 0

theorem prods_succ (i : Nat) : Outer.prods mul A B (List.range (i + 1)) = Outer.prods mul A B (List.range i) ++ prodsOf mul A B i := by
  unfold Outer.prods
  rw [List.range_succ, List.flatMap_append]
  simp

theorem flopCol_eq (h : ValidOuter A B) {i : Nat} (hi : i < A.cols) (hr : i < A.rows) (f g : Nat → Nat) :
    flopCol A B i (tab A.rows g, tab A.rows f) =
      .ok (tab A.rows (upd g i (prodsOf mul A B i).length), tab A.rows fun r => f r + Conv.cnt (prodsOf mul A B i) r) := by
  have hab := h.ab
  have key := Outer.flopCol_eq mul h (npb := 1) (nb := A.rows) Nat.one_pos (fun r hr => by simpa using hr) hi f
  unfold Outer.flopCol at key
  rw [CSR.rd_ptr h.wfB (by omega), ok_bind, CSR.rd_ptr h.wfB (by omega), ok_bind, rd_cptr h.wfA (by omega), ok_bind,
    rd_cptr h.wfA (by omega), ok_bind] at key
  unfold flopCol
  rw [CSR.rd_ptr h.wfB (by omega), ok_bind, CSR.rd_ptr h.wfB (by omega), ok_bind, rd_cptr h.wfA (by omega), ok_bind,
    rd_cptr h.wfA (by omega), ok_bind]
  have hlen : (prodsOf mul A B i).length = (B.ptr (i + 1) - B.ptr i) * (A.ptr (i + 1) - A.ptr i) := by
    have := Outer.prods_length mul A B [i]
    simp only [Outer.prods, List.flatMap_cons, List.flatMap_nil, List.append_nil, List.map_cons, List.map_nil, List.sum_cons, List.sum_nil, Nat.add_zero] at this
    rw [this, CSR.row_length h.wfB (by omega), Nat.mul_comm]
    congr 1
    unfold CSC.col
    rw [slice_length (by rw [czip_length h.wfA]; exact cptr_le_nnz h.wfA hi)]
  rw [wr_tab hr, ok_bind, ← hlen]
  have e : Outer.flopEntry A 1 (B.ptr (i + 1) - B.ptr i) = flopEntry A (B.ptr (i + 1) - B.ptr i) := by
    funext j s
    unfold Outer.flopEntry flopEntry
    cases rd A.rowids j with
    | error _ => rfl
    | ok r =>
      simp only [ok_bind]
      rw [Outer.div_ok Nat.one_pos, ok_bind, Nat.div_one]
  rw [e] at key
  simp only
  rw [key, ok_bind]
  simp only [sel_id]

theorem flops_eq (h : ValidOuter A B) (hsq : A.cols ≤ A.rows) :
    forRange 0 A.cols (List.replicate A.rows 0, List.replicate A.rows 0) (flopCol A B) =
      .ok (tab A.rows (colF mul A B), tab A.rows (rowF mul A B)) := by
  obtain ⟨s, e1, e2⟩ := forRange_inv (body := flopCol A B)
    (fun i s => s = (tab A.rows fun k => if k < i then (prodsOf mul A B k).length else 0, tab A.rows (Conv.cnt (Outer.prods mul A B (List.range i)))))
    0 A.cols (Nat.zero_le _) (List.replicate A.rows 0, List.replicate A.rows 0) (by
      rw [Conv.replicate_eq_tab]
      congr 1) (by
      rintro i s _ hi rfl
      refine ⟨_, flopCol_eq (mul := mul) h hi (by omega) _ _, ?_⟩
      congr 1
      · apply tab_ext
        intro k _
        by_cases hk : k = i
        · subst hk; simp [upd]
        · have : k < i + 1 ↔ k < i := by omega
          simp only [upd_ne _ _ hk, this]
      · apply tab_ext
        intro r _
        rw [prods_succ]
        unfold Conv.cnt
        rw [Conv.bucket_append, List.length_append])
  rw [e1, e2]
  rfl

theorem rowF_sum (h : ValidOuter A B) : psum (rowF mul A B) A.rows = (Outer.prods mul A B (List.range A.cols)).length :=
  Conv.psum_cnt _ fun _ ht => (Outer.prods_row h ht).1

theorem colF_sum (hsq : A.cols ≤ A.rows) : psum (colF mul A B) A.rows = (Outer.prods mul A B (List.range A.cols)).length := by
  have h1 : ∀ k ≤ A.cols, psum (colF mul A B) k = (Outer.prods mul A B (List.range k)).length := by
    intro k
    induction k with
    | zero => intro _; rfl
    | succ k ih =>
      intro hk
      rw [psum, ih (by omega), prods_succ, List.length_append, colF, if_pos (by omega)]
  have h2 : ∀ d, psum (colF mul A B) (A.cols + d) = psum (colF mul A B) A.cols := by
    intro d
    induction d with
    | zero => rfl
    | succ d ih => rw [← Nat.add_assoc, psum, ih, colF, if_neg (by omega), Nat.add_zero]
  rw [← h1 _ (Nat.le_refl _), ← h2 (A.rows - A.cols), show A.cols + (A.rows - A.cols) = A.rows by omega]

theorem total_eq (F : Nat → Nat) (rows : Nat) :
    forRange 0 rows 0 (fun i t => do let x ← rd (tab rows F) i; .ok (t + x)) = .ok (psum F rows) := by
  obtain ⟨s, e1, e2⟩ := forRange_inv (body := fun i t => do let x ← rd (tab rows F) i; .ok (t + x)) (fun i s => s = psum F i)
    0 rows (Nat.zero_le _) 0 rfl (by
      rintro i s _ hi rfl
      refine ⟨_, ?_, rfl⟩
      simp only [rd_tab hi, ok_bind]
      rfl)
  rw [e1, e2]

/-- The variables before row `i` -/
structure SymOk (rows n nb : Nat) (F G : Nat → Nat) (avgB avgT i : Nat) (s : Sym) : Prop where
  bid : s.bid = bo F avgB i
  bvol : s.bvol = (blkSt F avgB i).2
  blk : s.blk = tab rows fun r => if r < i then some (bo F avgB r) else if r = 0 then some 0 else none
  flops : s.flops = tab nb fun b => bsum F avgB b i
  count : ∃ c, s.count = tab nb c
  offs : ∃ g, Offs n G avgT i s.tid s.tvol s.off g

theorem symRow_ok {rows n nb : Nat} {F G : Nat → Nat} (hn : 0 < n) (hnb : 0 < nb) (hFG : psum F rows = psum G rows) {i : Nat} (hi : i < rows) {s : Sym}
    (h : SymOk rows n nb F G (psum F rows / nb) (psum F rows / n) i s) :
    ∃ s', symRow (tab rows F) (tab rows G) (psum F rows / nb) (psum F rows / n) i s = .ok s' ∧
      SymOk rows n nb F G (psum F rows / nb) (psum F rows / n) (i + 1) s' := by
  obtain ⟨h1, h2, h3, h4, ⟨c, h5⟩, g, h6⟩ := h
  generalize hB : psum F rows / nb = avgB at *
  generalize hT : psum F rows / n = avgT at *
  have hbid : s.bid < nb := by
    rw [h1]
    refine lt_of_avg (T := psum F rows) hnb ?_
    rw [hB]
    have h7 := blkSt_le F avgB i
    have h8 := psum_mono (f := F) (show i ≤ rows by omega)
    unfold bo
    omega
  unfold symRow
  rw [rd_tab hi, ok_bind, rd_tab hi, ok_bind, h4, wr_tab hbid, ok_bind, h5, rd_tab hbid, ok_bind, wr_tab hbid, ok_bind, h3, wr_tab hi, ok_bind]
  -- the arrays of the blocks
  have hblk : tab rows (upd (fun r => if r < i then some (bo F avgB r) else if r = 0 then some 0 else none) i (some s.bid)) =
      tab rows fun r => if r < i + 1 then some (bo F avgB r) else if r = 0 then some 0 else none := by
    apply tab_ext
    intro r _
    by_cases hr : r = i
    · subst hr
      rw [upd_same, if_pos (by omega), h1]
    · have : r < i + 1 ↔ r < i := by omega
      simp only [upd_ne _ _ hr, this]
  have hfl : tab nb (upd (fun b => bsum F avgB b i) s.bid (s.bvol + F i)) = tab nb fun b => bsum F avgB b (i + 1) := by
    apply tab_ext
    intro b _
    show _ = psum _ (i + 1)
    rw [psum]
    by_cases hb : b = s.bid
    · subst hb
      rw [upd_same, h2, blkSt_vol, h1, if_pos rfl]
      rfl
    · rw [upd_ne _ _ hb, if_neg (by rw [← h1]; exact fun e => hb e.symm)]
      rfl
  rw [hblk, hfl]
  -- the end of the block
  have hclose : ∃ s1, closeBlock avgB { s with bvol := s.bvol + F i, tvol := s.tvol + G i, flops := tab nb fun b => bsum F avgB b (i + 1), count := tab nb (upd c s.bid (c s.bid + 1)), blk := tab rows fun r => if r < i + 1 then some (bo F avgB r) else if r = 0 then some 0 else none } = s1 ∧
      s1.bid = bo F avgB (i + 1) ∧ s1.bvol = (blkSt F avgB (i + 1)).2 ∧ s1.tvol = s.tvol + G i ∧ s1.tid = s.tid ∧ s1.off = s.off ∧
      s1.blk = (tab rows fun r => if r < i + 1 then some (bo F avgB r) else if r = 0 then some 0 else none) ∧ s1.flops = (tab nb fun b => bsum F avgB b (i + 1)) ∧
      s1.count = tab nb (upd c s.bid (c s.bid + 1)) := by
    refine ⟨_, rfl, ?_⟩
    unfold closeBlock
    simp only
    by_cases hc : s.bvol + F i > avgB
    · rw [if_pos hc]
      rw [h2] at hc
      have e : blkSt F avgB (i + 1) = (bo F avgB i + 1, 0) := by rw [blkSt, if_pos hc]; rfl
      refine ⟨?_, ?_, rfl, rfl, rfl, rfl, rfl, rfl⟩
      · show s.bid + 1 = (blkSt F avgB (i + 1)).1
        rw [e, h1]
      · rw [e]
    · rw [if_neg hc]
      rw [h2] at hc
      have e : blkSt F avgB (i + 1) = (bo F avgB i, (blkSt F avgB i).2 + F i) := by rw [blkSt, if_neg hc]; rfl
      refine ⟨?_, ?_, rfl, rfl, rfl, rfl, rfl, rfl⟩
      · show s.bid = (blkSt F avgB (i + 1)).1
        rw [e, h1]
      · rw [e, ← h2]
  obtain ⟨s1, es1, k1, k2, k3, k4, k5, k6, k7, k8⟩ := hclose
  rw [es1]
  unfold closeThread
  have hv : (s.tid - 1) * (avgT + 1) + (s.tvol + G i) ≤ psum G (i + 1) := by
    have := h6.vol
    rw [psum]
    omega
  have hle := psum_mono (f := G) (show i + 1 ≤ rows by omega)
  by_cases hc : s1.tvol > avgT
  · rw [if_pos hc]
    rw [k3] at hc
    have hpos := h6.pos
    have hmul : s.tid * (avgT + 1) = (s.tid - 1) * (avgT + 1) + (avgT + 1) := by
      obtain ⟨m, hm⟩ : ∃ m, s.tid = m + 1 := ⟨s.tid - 1, by omega⟩
      rw [hm, Nat.add_sub_cancel, Nat.add_mul, Nat.one_mul]
    have htid : s.tid < n := by
      refine lt_of_avg (T := psum F rows) hn ?_
      rw [hT, hFG, hmul]
      omega
    rw [k4, k5, h6.off, wr_tab (by omega), ok_bind]
    refine ⟨_, rfl, k1, k2, k6, k7, ⟨_, k8⟩, upd g s.tid i, rfl, by simp, ?_, ?_, ?_, ?_, ?_⟩
    · simp only [Nat.add_sub_cancel, Nat.add_zero]
      rw [hmul]
      omega
    · rw [upd_ne _ _ (by omega), h6.zero]
    · intro k hk
      simp only [Nat.add_sub_cancel] at hk
      rw [upd_ne _ _ (show k ≠ s.tid by omega)]
      by_cases hk' : k + 1 = s.tid
      · rw [hk', upd_same, show k = s.tid - 1 by omega]
        exact h6.le
      · rw [upd_ne _ _ hk']
        exact h6.mono k (by omega)
    · simp only [Nat.add_sub_cancel]
      rw [upd_same]
      omega
    · intro k hk
      simp only at hk
      rw [upd_ne _ _ (by omega)]
      exact h6.rest k (by omega)
  · rw [if_neg hc]
    refine ⟨_, rfl, k1, k2, k6, k7, ⟨_, k8⟩, g, ?_⟩
    rw [k3, k4, k5]
    have := h6.le
    exact ⟨h6.off, h6.pos, hv, h6.zero, h6.mono, by omega, h6.rest⟩

/-- The symbolic phase: blocks of adjacent rows with room for their products, and all columns are distributed over the threads, up to the number of rows. -/
theorem symbolic_ok (mul : V → V → V) (h : ValidOuter A B) (hsq : A.cols ≤ A.rows) (h0 : 0 < A.rows) {n nb : Nat} (hn : 0 < n) (hnb : 0 < nb) :
    ∃ (b : Nat → Nat) (off : List Nat), (∀ r s, r ≤ s → b r ≤ b s) ∧ (∀ r < A.rows, b r < nb) ∧
      (List.range n).flatMap (colsOf off) = List.range A.rows ∧
      symbolic A B n nb = .ok (tab A.rows fun r => some (b r), tab nb fun c => (sel b c (Outer.prods mul A B (List.range A.cols))).length, off) := by
  have hFG : psum (rowF mul A B) A.rows = psum (colF mul A B) A.rows := by rw [rowF_sum h, colF_sum hsq]
  unfold symbolic
  rw [flops_eq (mul := mul) h hsq, ok_bind]
  simp only
  rw [total_eq, ok_bind, Outer.div_ok hnb, ok_bind, Outer.div_ok hn, ok_bind, Conv.replicate_eq_tab, wr_tab h0, ok_bind, Conv.replicate_eq_tab, wr_tab (by omega), ok_bind]
  generalize hF : rowF mul A B = F at hFG
  generalize hG : colF mul A B = G at hFG
  obtain ⟨s, e1, e2⟩ := forRange_inv (body := symRow (tab A.rows F) (tab A.rows G) (psum F A.rows / nb) (psum F A.rows / n))
    (SymOk A.rows n nb F G (psum F A.rows / nb) (psum F A.rows / n)) 0 A.rows (Nat.zero_le _)
    { bvol := 0, tvol := 0, bid := 0, tid := 1, blk := tab A.rows (upd (fun _ => none) 0 (some 0)), flops := List.replicate nb 0, count := List.replicate nb 0, off := tab (n + 1) (upd (fun _ => 0) 0 0) }
    (by
      refine ⟨rfl, rfl, ?_, ?_, ⟨_, Conv.replicate_eq_tab ..⟩, fun _ => 0, ?_, by simp, by simp, rfl, fun _ _ => Nat.le_refl _, Nat.le_refl _, fun _ _ => rfl⟩
      · apply tab_ext
        intro r _
        by_cases hr : r = 0
        · subst hr; simp [upd]
        · simp [upd, hr]
      · rw [Conv.replicate_eq_tab]
        rfl
      · apply tab_ext
        intro r _
        simp [upd])
    (fun i s _ hi hs => symRow_ok hn hnb hFG hi hs)
  rw [e1, ok_bind]
  obtain ⟨h1, h2, h3, h4, h5, g, h6⟩ := e2
  have hpos := h6.pos
  have htid : s.tid - 1 < n := by
    refine lt_of_avg (T := psum F A.rows) hn ?_
    have := h6.vol
    rw [hFG] at this ⊢
    omega
  rw [h6.off, wr_tab (by omega), ok_bind]
  have hb : ∀ r ≤ A.rows, bo F (psum F A.rows / nb) r < nb := by
    intro r hr
    refine lt_of_avg (T := psum F A.rows) hnb ?_
    have h7 := blkSt_le F (psum F A.rows / nb) r
    have h8 := psum_mono (f := F) (show r ≤ A.rows by omega)
    unfold bo
    omega
  refine ⟨bo F (psum F A.rows / nb), _, bo_mono _ _, fun r hr => hb r (by omega),
    colsOf_all (by omega) h6.pos h6.zero h6.mono h6.le h6.rest, ?_⟩
  congr 2
  · rw [h3]
    apply tab_ext
    intro r hr
    rw [if_pos hr]
  · congr 1
    rw [h4]
    apply tab_ext
    intro c _
    rw [sel_length (rows := A.rows) fun t ht => (Outer.prods_row h ht).1]
    subst hF
    rfl

theorem blockOf_ok {rows r : Nat} (b : Nat → Nat) (hr : r < rows) : blockOf (tab rows fun r => some (b r)) r = .ok (b r) := by
  unfold blockOf
  rw [rd_tab hr]
  rfl

/-! ### The whole program -/

theorem key_lt (t : Nat × Nat × V) : key t < 2 ^ 32 :=
  Nat.or_lt_two_pow (Nat.mod_lt _ (by omega)) (Nat.mod_lt _ (by omega))

/-- All that is known without conditions on the number of columns and the keys -/
theorem outer_run {add : V → V → V} (h : ValidOuter A B) (hsq : A.rows = A.cols) (h0 : 0 < A.rows) {n nb width : Nat} (hn : 0 < n) (hnb : 0 < nb) (hnb2 : nb + 1 < 2 ^ 17)
    (hsm : A.rows + 1 < 2 ^ 17) (hw : 0 < width) :
    ∃ (bl : Nat → Nat) (off : List Nat), (∀ r s, r ≤ s → bl r ≤ bl s) ∧ (∀ r < A.rows, bl r < nb) ∧
      (List.range n).flatMap (colsOf off) = List.range A.cols ∧
      ∀ {sortf : (Nat × Nat × V → Nat) → List (Nat × Nat × V) → List (Nat × Nat × V)}, SortsBy32 sortf →
      ∀ {mem : List Nat}, mem.length = A.rows + 1 → ∀ {sch : Sched}, sch.sort.Perm (List.range nb) → sch.copy.Perm (List.range nb) →
      (outerSpGEMM mul add sortf A B n nb width mem sch = .ok none ∧
        ∃ t, t < n ∧ sch.main.count t ≤ 1 + (Outer.prods mul A B (colsOf off t)).length + nb) ∨
      ∃ L : Nat → List (Nat × Nat × V), (∀ b < nb, (L b).Perm (sel bl b (Outer.prods mul A B (List.range A.cols)))) ∧
        outerSpGEMM mul add sortf A B n nb width mem sch =
          .ok (some (Outer.assemble A.rows B.cols (seg (fun b => Outer.merged add (sortf key (L b))) 0 nb))) := by
  obtain ⟨bl, off, hm, hb, hc, e⟩ := symbolic_ok mul h (Nat.le_of_eq hsq.symm) h0 hn hnb
  refine ⟨bl, off, hm, hb, by rw [hc, hsq], ?_⟩
  intro sortf hs mem hmem sch ho2 ho3
  unfold outerSpGEMM
  rw [e, ok_bind]
  simp only
  rw [rd_tab hnb, ok_bind]
  rcases Outer.region_ok (mul := mul) h (blk := blockOf (tab A.rows fun r => some (bl r))) (fun r hr => blockOf_ok bl hr) hb hw (asg := colsOf off) (n := n) (by rw [hc, hsq]) sch.main rfl with
    ⟨e, t, ht, hc⟩ | ⟨g, ls, L, e, hg, hL⟩
  · rw [e, ok_bind]
    exact .inl ⟨rfl, t, ht, hc⟩
  · rw [e, ok_bind]
    obtain ⟨J, eJ⟩ := Outer.sortBlocks_ok add (hs _ key_lt) hg ho2
    simp only
    rw [eJ, ok_bind]
    refine .inr ⟨L, hL, Outer.finish_ok hnb2 hsm hmem ?_ ho3⟩
    intro b hb t ht
    obtain ⟨x, hx, e1, _⟩ := Outer.merged_mem add ht
    rw [((hs _ key_lt).perm _).mem_iff, (hL b hb).mem_iff] at hx
    rw [← e1]
    exact (Outer.prods_row h (List.mem_filter.1 hx).1).1

theorem key_eq {t : Nat × Nat × V} (h1 : t.1 < 2 ^ 16) (h2 : t.2.1 < 2 ^ 16) : key t = t.1 * 2 ^ 16 + t.2.1 := by
  unfold key
  rw [Nat.shiftLeft_eq, Nat.mod_eq_of_lt (by omega), Nat.mod_eq_of_lt (b := 2 ^ 32) (by omega), ← Nat.shiftLeft_eq, ← Nat.shiftLeft_add_eq_or_of_lt h2, Nat.shiftLeft_eq]

theorem lexLe_of_key {s t : Nat × Nat × V} (h1 : s.1 < 2 ^ 16) (h2 : t.1 < 2 ^ 16) (h3 : s.2.1 < 2 ^ 16) (h4 : t.2.1 < 2 ^ 16) (h : key s ≤ key t) :
    Conv.lexLe (s.1, s.2.1) (t.1, t.2.1) := by
  rw [key_eq h1 h3, key_eq h2 h4] at h
  unfold Conv.lexLe
  simp only
  omega

/-! ### When no run returns, or the result is wrong -/

theorem outer_large {add : V → V → V} {sortf : (Nat × Nat × V → Nat) → List (Nat × Nat × V) → List (Nat × Nat × V)}
    {n nb width : Nat} {mem : List Nat} {sch : Sched} {C : CSR V} (hn : 0 < n) (h : ¬ A.rows + 1 < 2 ^ 17) :
    outerSpGEMM mul add sortf A B n nb width mem sch ≠ .ok (some C) := by
  intro e
  unfold outerSpGEMM at e
  obtain ⟨_, _, e⟩ := Alias.bind_ok' e
  obtain ⟨_, _, e⟩ := Alias.bind_ok' e
  obtain ⟨r, _, e⟩ := Alias.bind_ok' e
  match r, e with
  | none, e => cases e
  | some (g, _), e =>
    simp only at e
    obtain ⟨s, _, e⟩ := Alias.bind_ok' e
    unfold Outer.finish at e
    obtain ⟨r, _, e⟩ := Alias.bind_ok' e
    match r, e with
    | none, e => cases e
    | some cum, e =>
      simp only at e
      obtain ⟨total, _, e⟩ := Alias.bind_ok' e
      obtain ⟨rp, _, e⟩ := Alias.bind_ok' e
      obtain ⟨o, ho, e⟩ := Alias.bind_ok' e
      obtain ⟨r, hr, e⟩ := Alias.bind_ok' e
      match r, e, hr with
      | none, e, _ => cases e
      | some x, e, hr =>
        refine UtilScan.scan_short hn h ?_ _ _ _ hr
        have := Alias.foldlM_pres (fun s : Outer.Out V => s.byRow.length = A.rows) (fun s a s' hs he => by rw [Outer.copyBlock_length he, hs])
          _ _ _ (by simp) ho
        rw [this]

theorem outer_bad {add : V → V → V} (h : ValidOuter A B) (hsq : A.rows = A.cols) {n width : Nat} (hn : 0 < n) (hw : 0 < width)
    {sortf : (Nat × Nat × V → Nat) → List (Nat × Nat × V) → List (Nat × Nat × V)}
    (hs : SortsBy32 sortf) {mem : List Nat} (hm : mem.length = A.rows + 1) {sch : Sched}
    (ho2 : sch.sort.Perm (List.range 1)) (ho3 : sch.copy.Perm (List.range 1)) {a b c d : Nat × Nat × V}
    (hI : (Outer.prods mul A B (List.range A.cols)).Perm [a, b, c, d]) (hnd : ([a, b, c, d].map fun t => (t.1, t.2.1)).Nodup)
    (hcol : a.2.1 = b.2.1) (hab : key a ≤ key b) (hbc : key b < key c) (hbd : key b < key d)
    (hcnt : Conv.cnt [a, b, c, d] 0 = 2) {C : CSR V} (e : outerSpGEMM mul add sortf A B n 1 width mem sch = .ok (some C)) :
    ¬ C.SortedRows := by
  have hsm : A.rows + 1 < 2 ^ 17 := by
    by_contra hge
    exact outer_large hn hge e
  have hrows : 0 < A.rows := by
    have := (Outer.prods_row (mul := mul) h (t := a) (by rw [hI.mem_iff]; simp)).1
    omega
  obtain ⟨bl, off, _, hb, _, key'⟩ := outer_run (mul := mul) (add := add) h hsq hrows (n := n) (nb := 1) hn Nat.one_pos (by omega) hsm hw
  have hsel : sel bl 0 [a, b, c, d] = [a, b, c, d] := by
    unfold sel
    rw [List.filter_eq_self]
    intro t ht
    rw [← hI.mem_iff] at ht
    have := hb _ (Outer.prods_row h ht).1
    simpa using this
  rcases key' hs hm ho2 ho3 with e' | ⟨L, hL, e'⟩
  · rw [e'.1] at e
    cases e
  · rw [e'] at e
    obtain rfl := Option.some.inj (Except.ok.inj e)
    have hperm : (sortf key (L 0)).Perm [a, b, c, d] := by
      have := (hL 0 Nat.one_pos).trans (hI.filter _)
      rw [← hsel]
      exact ((hs _ key_lt).perm _).trans this
    have hW : seg (fun b => Outer.merged add (sortf key (L b))) 0 1 = sortf key (L 0) := by
      rw [exp_eq_seg]
      exact Outer.merged_nodup add ((hperm.map _).nodup_iff.2 hnd)
    rw [hW]
    have hne : a ≠ b := by
      rintro rfl
      simp at hnd
    obtain ⟨s, t, rest, eS, h1, h2⟩ := Outer.two_first hperm ((hs _ key_lt).sorted _) hne hab hbc hbd
    refine Outer.first_row_bad hrows eS (by rw [Outer.cnt_perm hperm, hcnt]) ?_
    rcases h1 with rfl | rfl <;> rcases h2 with rfl | rfl <;> simp [hcol]

theorem forRange_err {σ : Type} {body : Nat → σ → Res σ} {er : Err} (P : Nat → σ → Prop) {mid hi : Nat} (h2 : mid < hi)
    (hs : ∀ j s, j < mid → P j s → ∃ s', body j s = .ok s' ∧ P (j + 1) s') (hf : ∀ s, P mid s → body mid s = .error er) :
    ∀ (d lo : Nat) (s : σ), d + lo = mid → P lo s → forRange lo hi s body = .error er := by
  intro d
  induction d with
  | zero =>
    intro lo s hd h0
    rw [forRange_step (by omega), show lo = mid by omega, hf s (by rwa [show lo = mid by omega] at h0)]
    rfl
  | succ d ih =>
    intro lo s hd h0
    obtain ⟨s', e, h'⟩ := hs lo s (by omega) h0
    rw [forRange_step (by omega), e, ok_bind]
    exact ih (lo + 1) s' (by omega) h'

/-- More columns than rows: `flops_by_iters` is too small. -/
theorem symbolic_wide (mul : V → V → V) (h : ValidOuter A B) (hlt : A.rows < A.cols) (n nb : Nat) : symbolic A B n nb = .error .oob := by
  have hab := h.ab
  unfold symbolic
  rw [forRange_err (er := .oob) (fun i s => ∃ f g, s = (tab A.rows g, tab A.rows f)) hlt ?_ ?_ A.rows 0 _ (by omega)
    ⟨_, _, by rw [Conv.replicate_eq_tab]⟩]
  · rfl
  · rintro i s hi ⟨f, g, rfl⟩
    exact ⟨_, flopCol_eq (mul := mul) h (by omega) hi _ _, _, _, rfl⟩
  · rintro s ⟨f, g, rfl⟩
    unfold flopCol
    rw [CSR.rd_ptr h.wfB (by omega), ok_bind, CSR.rd_ptr h.wfB (by omega), ok_bind, rd_cptr h.wfA (by omega), ok_bind,
      rd_cptr h.wfA (by omega), ok_bind]
    simp only
    rw [wr, if_neg (by simp)]
    rfl

theorem symbolic_empty (mul : V → V → V) (h : ValidOuter A B) (h0 : A.rows = 0) {n nb : Nat} (hn : 0 < n) (hnb : 0 < nb) :
    symbolic A B n nb = .error .oob := by
  rcases Nat.eq_zero_or_pos A.cols with hc | hc
  · unfold symbolic
    rw [h0, hc, forRange_of_le (Nat.le_refl _), ok_bind, forRange_of_le (Nat.le_refl _), ok_bind, Outer.div_ok hnb, ok_bind, Outer.div_ok hn, ok_bind]
    rfl
  · exact symbolic_wide mul h (by omega) n nb

theorem pairs_fail (h : ValidOuter A B) {cs : List Nat} {c : Nat} (hc : c ∈ cs) (hge : A.cols ≤ c) (w) : Outer.pairs A B cs ≠ .ok w := by
  intro e
  unfold Outer.pairs at e
  obtain ⟨x, hx⟩ := Dot.foldlM_fails (f := fun w idx => do
    let b ← rd A.colptr idx
    let e ← rd A.colptr (idx + 1)
    forRange b e w fun j w => do
      let lo ← rd B.rowptr idx
      let hi ← rd B.rowptr (idx + 1)
      forRange lo hi w fun k w => .ok (w ++ [(j, k)])) (l := cs) ⟨c, hc, fun s => by
        cases rd A.colptr c with
        | error x => exact ⟨x, rfl⟩
        | ok b =>
          rw [ok_bind, rd_oob (by rw [h.wfA.ptrLen]; omega)]
          exact ⟨.oob, rfl⟩⟩ []
  rw [hx] at e
  cases e

/-- More rows than columns: a thread gets the number of a row as a column. -/
theorem outer_tall {add : V → V → V} (h : ValidOuter A B) (hlt : A.cols < A.rows) {n nb : Nat} (hn : 0 < n) (hnb : 0 < nb) (width : Nat)
    (sortf : (Nat × Nat × V → Nat) → List (Nat × Nat × V) → List (Nat × Nat × V)) (mem : List Nat) (sch : Sched) (C : CSR V) :
    outerSpGEMM mul add sortf A B n nb width mem sch ≠ .ok (some C) := by
  obtain ⟨bl, off, _, _, hc, e⟩ := symbolic_ok mul h (Nat.le_of_lt hlt) (by omega) hn hnb
  intro er
  unfold outerSpGEMM at er
  rw [e, ok_bind] at er
  obtain ⟨_, _, er⟩ := Alias.bind_ok' er
  obtain ⟨r, hr, er⟩ := Alias.bind_ok' er
  have hm : A.cols ∈ (List.range n).flatMap (colsOf off) := by rw [hc]; simpa using hlt
  obtain ⟨t, ht, hm⟩ := List.mem_flatMap.1 hm
  match r, hr, er with
  | none, _, er => cases er
  | some r, hr, _ =>
    refine phase_never (t := t) (List.mem_range.1 ht) (P := fun x => x = none) ?_ ?_ _ _ _ rfl r hr
    · rintro x rfl
      rfl
    · rintro g x r rfl e
      unfold Outer.step at e
      obtain ⟨w, hw, _⟩ := Alias.bind_ok' e
      exact absurd hw (pairs_fail h hm (Nat.le_refl _) w)

end

end Verif.Model.Outer2
