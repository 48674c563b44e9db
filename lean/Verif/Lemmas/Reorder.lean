import Verif.Model.Reorder
import Verif.Lemmas.Triples

/-! # Reordering inside rows -/

namespace Verif.Reorder
open Model Model.Inner
open Spec (SortsBy)

variable {V α : Type}

theorem slice_of_take {l l' : List α} {b lo hi : Nat} (h : l'.take b = l.take b) (hb : hi ≤ b) :
    slice l' lo hi = slice l lo hi := by
  apply List.ext_getElem?
  intro i
  by_cases hi' : i < hi - lo
  · rw [slice_getElem? hi', slice_getElem? hi']
    have e : ∀ m : List α, m[lo + i]? = (m.take b)[lo + i]? := by
      intro m
      rw [List.getElem?_take, if_pos (by omega)]
    rw [e l', e l, h]
  · unfold slice
    rw [List.getElem?_take, List.getElem?_take, if_neg hi', if_neg hi']

theorem slice_of_drop {l l' : List α} {e lo hi : Nat} (h : l'.drop e = l.drop e) (hb : e ≤ lo) :
    slice l' lo hi = slice l lo hi := by
  unfold slice
  have : ∀ m : List α, m.drop lo = (m.drop e).drop (lo - e) := by
    intro m
    rw [List.drop_drop]
    congr 1
    omega
  rw [this l', this l, h]

/-- `L'` differs from `L` at most in the range `[b, e)`, and there as `R` says. -/
structure Upd (b e : Nat) (R : List α → List α → Prop) (L L' : List α) : Prop where
  len : L'.length = L.length
  front : L'.take b = L.take b
  back : L'.drop e = L.drop e
  mid : R (slice L b e) (slice L' b e)

def unz (L : List (Nat × V)) : List Nat × List V := (L.map (·.1), L.map (·.2))

/-- A loop whose iterations change the entries of one row each. -/
theorem rows_loop {n N : Nat} {p : Nat → Nat} (hm : ∀ i < n, p i ≤ p (i + 1))
    {R : Nat → List (Nat × V) → List (Nat × V) → Prop}
    {step : List Nat × List V → Nat → Res (List Nat × List V)}
    (hstep : ∀ i < n, ∀ L : List (Nat × V), L.length = N →
      ∃ L', step (unz L) i = .ok (unz L') ∧ Upd (p i) (p (i + 1)) (R i) L L')
    (order : List Nat) (ho : order.Perm (List.range n)) (L : List (Nat × V)) (hL : L.length = N) :
    ∃ L', order.foldlM step (unz L) = .ok (unz L') ∧ L'.length = N ∧
      ∀ i < n, R i (slice L (p i) (p (i + 1))) (slice L' (p i) (p (i + 1))) := by
  have hmono : ∀ i j, i ≤ j → j ≤ n → p i ≤ p j := by
    intro i j hij
    induction j with
    | zero => intro _; simp [Nat.le_zero.1 hij]
    | succ j ih =>
      intro hj
      rcases Nat.lt_or_ge i (j + 1) with h | h
      · exact Nat.le_trans (ih (by omega) (by omega)) (hm j (by omega))
      · have : i = j + 1 := by omega
        subst this
        exact Nat.le_refl _
  have hnd : order.Nodup := ho.nodup_iff.2 List.nodup_range
  have hlt : ∀ i ∈ order, i < n := fun i hi => List.mem_range.1 (ho.mem_iff.1 hi)
  obtain ⟨s, e, L', rfl, h1, h2, _⟩ := foldlM_inv (f := step)
    (fun pre s => ∃ L', s = unz L' ∧ L'.length = N ∧
      (∀ i < n, i ∈ pre → R i (slice L (p i) (p (i + 1))) (slice L' (p i) (p (i + 1)))) ∧
      (∀ i < n, i ∉ pre → slice L' (p i) (p (i + 1)) = slice L (p i) (p (i + 1)))) order (unz L)
    ⟨L, rfl, hL, by simp, fun _ _ _ => rfl⟩
    (by
      rintro pre a post s hl ⟨L', rfl, h1, h2, h3⟩
      have ha : a < n := hlt a (by rw [hl]; simp)
      have hap : a ∉ pre := by
        rw [hl] at hnd
        intro h
        have := (List.nodup_append.1 hnd).2.2 a h a (by simp)
        exact this rfl
      obtain ⟨L'', e, u⟩ := hstep a ha L' h1
      have hoth : ∀ i < n, i ≠ a → slice L'' (p i) (p (i + 1)) = slice L' (p i) (p (i + 1)) := by
        intro i hi hne
        rcases Nat.lt_or_ge i a with h | h
        · exact slice_of_take u.front (hmono (i + 1) a h (by omega))
        · exact slice_of_drop u.back (hmono (a + 1) i (by omega) (by omega))
      refine ⟨_, e, L'', rfl, u.len.trans h1, ?_, ?_⟩
      · intro i hi hmem
        by_cases hia : i = a
        · subst hia
          have := u.mid
          rwa [h3 i hi hap] at this
        · rw [hoth i hi hia]
          apply h2 i hi
          simp only [List.mem_append, List.mem_singleton] at hmem
          exact hmem.resolve_right hia
      · intro i hi hmem
        simp only [List.mem_append, List.mem_singleton, not_or] at hmem
        rw [hoth i hi hmem.2, h3 i hi hmem.1])
  exact ⟨L', e, h1, fun i hi => h2 i hi (ho.mem_iff.2 (List.mem_range.2 hi))⟩

/-! ## Sorting one row -/

theorem collect_eq {b e : Nat} (L : List (Nat × V)) (he : e ≤ L.length) :
    collect b e (unz L) = .ok (slice L b e) := by
  unfold collect
  rw [forRange_eq_slice (L := L) (g := fun t x => .ok (t ++ [(x.1, x.2)])) he (by
    intro j hj _ _ s
    simp only [unz]
    rw [rd_of_lt (by simpa using hj), ok_bind, rd_of_lt (by simpa using hj), ok_bind]
    simp)]
  refine foldlM_desc (fun pre => pre) (slice L b e) ?_
  rintro pre a post _
  rfl

theorem putBack_eq {b e : Nat} (hbe : b ≤ e) (L x : List (Nat × V)) (he : e ≤ L.length) (hx : x.length = e - b) :
    putBack b e x (unz L) = .ok (unz (L.take b ++ x ++ L.drop e)) := by
  unfold putBack
  obtain ⟨s, e1, e2⟩ := forRange_inv (body := fun j (s : List Nat × List V × Nat) => do
      let y ← rd x s.2.2
      let ids ← wr s.1 j y.1
      let vals ← wr s.2.1 j y.2
      .ok (ids, vals, s.2.2 + 1))
    (fun k s => s = ((L.take b ++ x.take (k - b) ++ L.drop k).map (·.1),
      (L.take b ++ x.take (k - b) ++ L.drop k).map (·.2), k - b)) b e hbe
    ((unz L).1, (unz L).2, 0) (by simp [unz])
    (by
      rintro k s hk1 hk2 rfl
      have h1 : k - b < x.length := by omega
      have hlen : (L.take b ++ x.take (k - b)).length = k := by
        rw [List.length_append, List.length_take, List.length_take]
        omega
      have hd : L.drop k = L[k]'(by omega) :: L.drop (k + 1) := List.drop_eq_getElem_cons (by omega)
      have htot : k < (L.take b ++ x.take (k - b) ++ L.drop k).length := by
        rw [List.length_append, hlen, List.length_drop]
        omega
      have key : (L.take b ++ x.take (k - b) ++ L.drop k).set k (x[k - b]) =
          L.take b ++ x.take (k + 1 - b) ++ L.drop (k + 1) := by
        rw [List.set_append_right _ _ (by omega), hlen, Nat.sub_self, hd, List.set_cons_zero,
          show k + 1 - b = (k - b) + 1 by omega, List.take_succ_eq_append_getElem h1]
        simp only [List.append_assoc, List.cons_append, List.nil_append]
      refine ⟨_, by
        simp only []
        rw [rd_of_lt h1, ok_bind, wr_of_lt (by simpa using htot), ok_bind, wr_of_lt (by simpa using htot), ok_bind], ?_⟩
      rw [← List.map_set, ← List.map_set, key, show k - b + 1 = k + 1 - b by omega])
  refine (congrArg (· >>= _) (show forRange b e _ _ = _ from e1)).trans ?_
  rw [e2, ok_bind]
  simp only []
  rw [← hx, List.take_length]
  rfl

theorem upd_of_append {b e : Nat} (hbe : b ≤ e) (L x : List α) (he : e ≤ L.length) (hx : x.length = e - b)
    {R : List α → List α → Prop} (hR : R (slice L b e) x) : Upd b e R L (L.take b ++ x ++ L.drop e) := by
  have h1 : (L.take b).length = b := by rw [List.length_take]; omega
  have h2 : (L.take b ++ x).length = e := by rw [List.length_append, h1, hx]; omega
  refine ⟨?_, ?_, ?_, ?_⟩
  · rw [List.length_append, h2, List.length_drop]; omega
  · rw [List.append_assoc, List.take_append_of_le_length (by omega), List.take_of_length_le (by omega)]
  · rw [List.drop_append_of_le_length (by omega), List.drop_of_length_le (by omega), List.nil_append]
  · have : slice (L.take b ++ x ++ L.drop e) b e = x := by
      unfold slice
      rw [List.append_assoc, List.drop_append_of_le_length (by omega), List.drop_of_length_le (by omega),
        List.nil_append, List.take_append_of_le_length (by omega), List.take_of_length_le (by omega)]
    rw [this]
    exact hR

theorem sortRow_ok {n N : Nat} {p : Nat → Nat} {sortf : List (Nat × V) → List (Nat × V)}
    (hs : SortsBy Prod.fst sortf) {ptr : List Nat} (hp : ∀ i ≤ n, rd ptr i = .ok (p i))
    (hm : ∀ i < n, p i ≤ p (i + 1)) (hN : ∀ i ≤ n, p i ≤ N) {i : Nat} (hi : i < n) (L : List (Nat × V))
    (hL : L.length = N) :
    ∃ L', sortRow sortf ptr (unz L) i = .ok (unz L') ∧ Upd (p i) (p (i + 1)) (fun x y => y = sortf x) L L' := by
  have he : p (i + 1) ≤ L.length := by rw [hL]; exact hN _ (by omega)
  have hl : (sortf (slice L (p i) (p (i + 1)))).length = p (i + 1) - p i := by
    rw [(hs.perm _).length_eq, slice_length he]
  unfold sortRow
  rw [hp i (by omega), ok_bind, hp (i + 1) (by omega), ok_bind, collect_eq L he, ok_bind,
    putBack_eq (hm i hi) L _ he hl]
  exact ⟨_, rfl, upd_of_append (hm i hi) L _ he hl rfl⟩

/-! ## Shuffling one row -/

theorem slice_set {L : List α} {b e k : Nat} (hb : b ≤ k) (x : α) :
    slice (L.set k x) b e = (slice L b e).set (k - b) x := by
  unfold slice
  rw [List.drop_set, if_neg (by omega), List.take_set]

theorem swapStep_ok {b e j : Nat} (h1 : b ≤ j) (h2 : j < e) (L : List (Nat × V)) (he : e ≤ L.length)
    (rnd : Nat → Nat) :
    ∃ L', swapStep b (e - b) rnd j (unz L) = .ok (unz L') ∧ Upd b e (fun x y => y.Perm x) L L' := by
  have ht : rnd j % (e - b) < e - b := Nat.mod_lt _ (by omega)
  generalize hq : rnd j % (e - b) = t at ht
  have hbt : b + t < L.length := by omega
  have hj : j < L.length := by omega
  refine ⟨(L.set (b + t) L[j]).set j L[b + t], ?_, ?_, ?_, ?_, ?_⟩
  · unfold swapStep unz
    simp only [hq]
    rw [rd_of_lt (by simpa using hbt), ok_bind, rd_of_lt (by simpa using hbt), ok_bind, rd_of_lt (by simpa using hj),
      ok_bind, wr_of_lt (by simpa using hbt), ok_bind, rd_of_lt (by simpa using hj), ok_bind,
      wr_of_lt (by simpa using hbt), ok_bind, wr_of_lt (by simpa using hj), ok_bind, wr_of_lt (by simpa using hj),
      ok_bind]
    simp [List.map_set]
  · simp
  · rw [List.take_set, List.take_set, List.set_eq_of_length_le (by simp; omega),
      List.set_eq_of_length_le (by simp; omega)]
  · rw [List.drop_set, if_pos (by omega), List.drop_set, if_pos (by omega)]
  · rw [slice_set h1, slice_set (by omega)]
    have hl : (slice L b e).length = e - b := slice_length he
    have h3 : b + t - b < (slice L b e).length := by omega
    have h4 : j - b < (slice L b e).length := by omega
    have e1 : L[j] = (slice L b e)[j - b] := by
      have := slice_getElem? (l := L) (lo := b) (hi := e) (i := j - b) (by omega)
      rw [List.getElem?_eq_getElem h4, show b + (j - b) = j by omega, List.getElem?_eq_getElem hj] at this
      exact (Option.some.inj this).symm
    have e2 : L[b + t] = (slice L b e)[b + t - b] := by
      have := slice_getElem? (l := L) (lo := b) (hi := e) (i := b + t - b) (by omega)
      rw [List.getElem?_eq_getElem h3, List.getElem?_eq_getElem (by omega)] at this
      refine Eq.trans ?_ (Option.some.inj this).symm
      congr 1
      omega
    rw [e1, e2]
    exact List.set_set_perm h3 h4

theorem shuffleRow_ok {n N : Nat} {p : Nat → Nat} {signed : Bool} {rnd : Nat → Nat} {ptr : List Nat}
    (hp : ∀ i ≤ n, rd ptr i = .ok (p i)) (hm : ∀ i < n, p i ≤ p (i + 1)) (hN : ∀ i ≤ n, p i ≤ N)
    (hs : signed = true → ∀ i < n, p i < p (i + 1)) {i : Nat} (hi : i < n) (L : List (Nat × V)) (hL : L.length = N) :
    ∃ L', shuffleRow signed rnd ptr (unz L) i = .ok (unz L') ∧
      Upd (p i) (p (i + 1)) (fun x y => y.Perm x) L L' := by
  have he : p (i + 1) ≤ L.length := by rw [hL]; exact hN _ (by omega)
  unfold shuffleRow
  rw [hp i (by omega), ok_bind, hp (i + 1) (by omega), ok_bind]
  have hd : distribution signed (p (i + 1) - p i) = .ok () := by
    unfold distribution
    rw [if_neg]
    intro h
    simp only [Bool.and_eq_true, decide_eq_true_eq] at h
    have := hs h.1 i hi
    omega
  rw [hd, ok_bind]
  obtain ⟨s, e1, L', rfl, u⟩ := forRange_inv (body := swapStep (p i) (p (i + 1) - p i) rnd)
    (fun _ s => ∃ L', s = unz L' ∧ Upd (p i) (p (i + 1)) (fun x y => y.Perm x) L L') (p i) (p (i + 1)) (hm i hi)
    (unz L) ⟨L, rfl, rfl, rfl, rfl, List.Perm.refl _⟩
    (by
      rintro k s hk1 hk2 ⟨L', rfl, u⟩
      obtain ⟨L'', e, u'⟩ := swapStep_ok hk1 hk2 L' (by rw [u.len]; exact he) rnd
      exact ⟨_, e, L'', rfl, u'.len.trans u.len, u'.front.trans u.front, u'.back.trans u.back, u'.mid.trans u.mid⟩)
  exact ⟨L', e1, u⟩

/-! ## Matrices -/

theorem unz_zip {l : List Nat} {v : List V} (h : l.length = v.length) : unz (l.zip v) = (l, v) := by
  unfold unz
  rw [show (l.zip v).map (·.1) = l from List.map_fst_zip (by omega),
    show (l.zip v).map (·.2) = v from List.map_snd_zip (by omega)]

theorem zip_unz (L : List (Nat × V)) : (L.map (·.1)).zip (L.map (·.2)) = L := by
  induction L with
  | nil => rfl
  | cons x L ih => simp [ih]

/-- The matrix with the entries `L`. -/
def withEntries (A : CSR V) (L : List (Nat × V)) : CSR V := { A with colids := L.map (·.1), values := L.map (·.2) }

theorem withEntries_row (A : CSR V) (L : List (Nat × V)) (i : Nat) :
    (withEntries A L).row i = slice L (A.ptr i) (A.ptr (i + 1)) := by
  unfold CSR.row withEntries
  simp only []
  rw [zip_unz]
  rfl

theorem withEntries_wf {A : CSR V} (h : A.WF) {L : List (Nat × V)} (hl : L.length = A.nnz)
    (hr : ∀ i < A.rows, (slice L (A.ptr i) (A.ptr (i + 1))).Perm (A.row i)) : (withEntries A L).WF := by
  refine ⟨h.zero, h.ptrLen, h.ptrFirst, h.ptrMono, h.ptrLast, by simp [withEntries, hl], by simp [withEntries, hl], ?_⟩
  intro c hc
  unfold withEntries at hc
  simp only [] at hc
  rw [List.mem_map] at hc
  obtain ⟨x, hx, rfl⟩ := hc
  obtain ⟨k, hk, rfl⟩ := List.getElem_of_mem hx
  obtain ⟨r, hr1, hr2, hr3⟩ := cover_of (Q := A.ptr) h.ptrFirst A.rows k (by rw [h.ptrLast]; omega)
  have hm : L[k] ∈ slice L (A.ptr r) (A.ptr (r + 1)) := by
    have := slice_getElem? (l := L) (lo := A.ptr r) (hi := A.ptr (r + 1)) (i := k - A.ptr r) (by omega)
    rw [show A.ptr r + (k - A.ptr r) = k by omega, List.getElem?_eq_getElem hk] at this
    exact List.mem_of_getElem? this
  exact CSR.row_lt h ((hr r hr1).mem_iff.1 hm)

theorem sortIds_ok {sortf : List (Nat × V) → List (Nat × V)} (hs : SortsBy Prod.fst sortf) {A : CSR V} (h : A.WF)
    {order : List Nat} (ho : order.Perm (List.range A.rows)) :
    ∃ L : List (Nat × V), sortIds sortf order A = .ok (withEntries A L) ∧ L.length = A.nnz ∧
      ∀ i < A.rows, slice L (A.ptr i) (A.ptr (i + 1)) = sortf (A.row i) := by
  obtain ⟨L, e, h1, h2⟩ := rows_loop (n := A.rows) (N := A.nnz) (p := A.ptr) h.ptrMono
    (R := fun _ x y => y = sortf x) (step := sortRow sortf A.rowptr)
    (fun i hi L hL => sortRow_ok hs (fun i hi => CSR.rd_ptr h hi) h.ptrMono
      (fun i hi => CSR.ptr_le_nnz h hi) hi L hL) order ho (A.colids.zip A.values) (CSR.zip_length h)
  refine ⟨L, ?_, h1, h2⟩
  unfold sortIds
  rw [unz_zip (h.colLen.trans h.valLen.symm)] at e
  rw [e, ok_bind]
  rfl

theorem shuffleIds_ok {signed : Bool} (rnd : Nat → Nat) {A : CSR V} (h : A.WF)
    (hs : signed = true → ∀ i < A.rows, A.ptr i < A.ptr (i + 1)) :
    ∃ L : List (Nat × V), shuffleIds signed rnd A = .ok (withEntries A L) ∧ L.length = A.nnz ∧
      ∀ i < A.rows, (slice L (A.ptr i) (A.ptr (i + 1))).Perm (A.row i) := by
  obtain ⟨L, e, h1, h2⟩ := rows_loop (n := A.rows) (N := A.nnz) (p := A.ptr) h.ptrMono
    (R := fun _ x y => y.Perm x) (step := shuffleRow signed rnd A.rowptr)
    (fun i hi L hL => shuffleRow_ok (fun i hi => CSR.rd_ptr h hi) h.ptrMono
      (fun i hi => CSR.ptr_le_nnz h hi) hs hi L hL) _ (List.Perm.refl _) (A.colids.zip A.values) (CSR.zip_length h)
  refine ⟨L, ?_, h1, h2⟩
  unfold shuffleIds
  rw [unz_zip (h.colLen.trans h.valLen.symm)] at e
  rw [e, ok_bind]
  rfl

/-- The transposed matrix of a CSC matrix, in CSR. -/
def asRows (B : CSC V) : CSR V := ⟨B.cols, B.rows, B.nnz, B.colptr, B.rowids, B.values, B.zerobased⟩

theorem asRows_wf {B : CSC V} : (asRows B).WF ↔ B.WF := by
  constructor
  · rintro ⟨h1, h2, h3, h4, h5, h6, h7, h8⟩; exact ⟨h1, h2, h3, h4, h5, h6, h7, h8⟩
  · rintro ⟨h1, h2, h3, h4, h5, h6, h7, h8⟩; exact ⟨h1, h2, h3, h4, h5, h6, h7, h8⟩

/-! ## Testing the order -/

theorem isSortedLoop_ok (a : List Nat) : ∀ (n first : Nat), first + n < a.length →
    ∃ b, isSortedLoop a n first = .ok b ∧ (b = true ↔ (slice a first (first + n + 1)).Pairwise (· ≤ ·)) := by
  intro n
  induction n with
  | zero =>
    intro first h
    refine ⟨true, rfl, ?_⟩
    rw [slice_succ (by omega) (by omega), slice_empty (by omega)]
    simp
  | succ n ih =>
    intro first h
    unfold isSortedLoop
    rw [rd_of_lt (by omega), ok_bind, rd_of_lt (by omega), ok_bind, slice_succ (by omega) (by omega)]
    obtain ⟨b, e, hb⟩ := ih (first + 1) (by omega)
    rw [show first + 1 + n + 1 = first + (n + 1) + 1 by omega] at hb
    rw [slice_succ (lo := first + 1) (by omega) (by omega)] at hb ⊢
    by_cases hlt : a[first + 1] < a[first]
    · rw [if_pos hlt]
      refine ⟨false, rfl, by simp, fun hp => ?_⟩
      have := (List.pairwise_cons.1 hp).1 _ (List.mem_cons_self ..)
      omega
    · rw [if_neg hlt]
      refine ⟨b, e, hb.trans ?_⟩
      rw [List.pairwise_cons (a := a[first])]
      constructor
      · intro hp
        refine ⟨fun x hx => ?_, hp⟩
        rcases List.mem_cons.1 hx with rfl | hx
        · omega
        · have := (List.pairwise_cons.1 hp).1 x hx
          omega
      · exact fun hp => hp.2

theorem isSorted_ok (a : List Nat) {b e : Nat} (hbe : b ≤ e) (he : e ≤ a.length) :
    ∃ x, isSorted a b e = .ok x ∧ (x = true ↔ (slice a b e).Pairwise (· ≤ ·)) := by
  unfold isSorted
  by_cases h : b = e
  · rw [if_pos h, slice_empty (by omega)]
    exact ⟨true, rfl, by simp⟩
  · rw [if_neg h]
    obtain ⟨x, e1, e2⟩ := isSortedLoop_ok a (e - b - 1) b (by omega)
    rw [show b + (e - b - 1) + 1 = e by omega] at e2
    exact ⟨x, e1, e2⟩

theorem sortedFlag_ok {A : CSR V} (h : A.WF) :
    ∃ b, sortedFlag A.rows A.rowptr A.colids = .ok b ∧
      (b = true ↔ ∀ i < A.rows, (A.rowCols i).Pairwise (· ≤ ·)) := by
  unfold sortedFlag
  obtain ⟨s, e1, e2⟩ := forRange_inv (body := fun i sorted => do
      let b ← rd A.rowptr i
      let e ← rd A.rowptr (i + 1)
      let x ← isSorted A.colids b e
      .ok (sorted && x))
    (fun k s => s = true ↔ ∀ i < k, (A.rowCols i).Pairwise (· ≤ ·)) 0 A.rows (by omega) true (by simp)
    (by
      rintro k s _ hk hs
      obtain ⟨x, e1, e2⟩ := isSorted_ok A.colids (h.ptrMono k hk)
        (by rw [h.colLen]; exact CSR.ptr_le_nnz h (by omega))
      refine ⟨s && x, by
        rw [CSR.rd_ptr h (by omega), ok_bind, CSR.rd_ptr h (by omega), ok_bind, e1, ok_bind], ?_⟩
      rw [Bool.and_eq_true, hs, e2]
      constructor
      · rintro ⟨h1, h2⟩ i hi
        rcases Nat.lt_or_ge i k with h | h
        · exact h1 i h
        · have : i = k := by omega
          subst this
          exact h2
      · intro h1
        exact ⟨fun i hi => h1 i (by omega), h1 k (by omega)⟩)
  exact ⟨s, e1, e2⟩

end Verif.Reorder
