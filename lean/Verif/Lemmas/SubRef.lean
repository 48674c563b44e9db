import Verif.Model.SubRef
import Verif.Lemmas.Reorder
import Verif.Lemmas.Inner
import Verif.Lemmas.BitMap
import Verif.Lemmas.Triples

/-! # Lemmas on submatrix extraction -/

namespace Verif.SubRef
open Verif Model

variable {V σ : Type}

/-- the entry with row `r` -/
def look (c : List (Nat × V)) (r : Nat) : Option (Nat × V) := c.find? (fun x => x.1 == r)

/-- the entries with rows in `ri`, in the order of `ri` -/
def hits (ri : List Nat) (c : List (Nat × V)) : List (Nat × V) := ri.filterMap (look c)

theorem fm_congr {α β : Type} {f g : α → Option β} : ∀ {l : List α}, (∀ x ∈ l, f x = g x) → l.filterMap f = l.filterMap g
  | [], _ => rfl
  | a :: l, h => by
    have e := h a (by simp)
    have ih := fm_congr (l := l) fun x hx => h x (List.mem_cons_of_mem _ hx)
    simp only [List.filterMap_cons, e, ih]

theorem look_lt {c : List (Nat × V)} {r : Nat} (h : ∀ x ∈ c, r < x.1) : look c r = none := by
  unfold look
  rw [List.find?_eq_none]
  intro x hx
  have := h x hx
  simp
  omega

theorem look_cons_ne {c : List (Nat × V)} {x : Nat × V} {r : Nat} (h : x.1 ≠ r) : look (x :: c) r = look c r := by
  unfold look
  rw [List.find?_cons_of_neg (by simpa using h)]

theorem look_cons_self {c : List (Nat × V)} {x : Nat × V} {r : Nat} (h : x.1 = r) : look (x :: c) r = some x := by
  unfold look
  rw [List.find?_cons_of_pos (by simpa using h)]

theorem slice_cons {α : Type} {l : List α} {b e : Nat} (h : b < e) (he : e ≤ l.length) :
    slice l b e = l[b]'(by omega) :: slice l (b + 1) e := by
  unfold slice
  rw [List.drop_eq_getElem_cons (by omega), show e - b = (e - (b + 1)) + 1 by omega, List.take_succ_cons]

theorem matchLoop_ok {L : List (Nat × V)} {ri : List Nat} {e : Nat} (he : e ≤ L.length) {nextJ : Bool}
    {hit : Nat → σ → Res σ} {hit' : σ → Nat × V → Res σ}
    (hh : ∀ j (hj : j < e) s, hit j s = hit' s (L[j]'(by omega)))
    (hri : ri.Pairwise (fun a b => if nextJ then a < b else a ≤ b)) :
    ∀ fuel j k s, (e - j) + (ri.length - k) < fuel → ((slice L j e).map Prod.fst).Pairwise (· < ·) →
      matchLoop (L.map Prod.fst) ri e nextJ hit fuel j k s = (hits (ri.drop k) (slice L j e)).foldlM hit' s := by
  intro fuel
  induction fuel with
  | zero => intro j k s h; omega
  | succ fuel ih =>
    intro j k s hf hs
    unfold matchLoop
    split
    · rename_i hc
      obtain ⟨hj, hk⟩ := hc
      have hsl := slice_cons hj he
      have hdr : ri.drop k = ri[k] :: ri.drop (k + 1) := List.drop_eq_getElem_cons hk
      have hgt : ∀ y ∈ slice L (j + 1) e, (L[j]'(by omega)).1 < y.1 := by
        intro y hy
        rw [hsl, List.map_cons, List.pairwise_cons] at hs
        exact hs.1 _ (List.mem_map_of_mem hy)
      have hs' : ((slice L (j + 1) e).map Prod.fst).Pairwise (· < ·) := by
        rw [hsl, List.map_cons, List.pairwise_cons] at hs
        exact hs.2
      have hri' : ∀ r ∈ ri.drop (k + 1), if nextJ then ri[k] < r else ri[k] ≤ r := by
        have : (ri.drop k).Pairwise (fun a b => if nextJ then a < b else a ≤ b) :=
          List.Pairwise.sublist (List.drop_sublist _ _) hri
        rw [hdr, List.pairwise_cons] at this
        exact this.1
      rw [rd_of_lt hk, ok_bind, rd_of_lt (by simp; omega), ok_bind, List.getElem_map]
      split
      · rename_i hlt
        rw [ih j (k + 1) s (by omega) hs, hdr]
        unfold hits
        rw [List.filterMap_cons_none]
        apply look_lt
        intro y hy
        rw [hsl, List.mem_cons] at hy
        rcases hy with rfl | hy
        · exact hlt
        · exact Nat.lt_trans hlt (hgt y hy)
      · split
        · rename_i hnlt hlt
          rw [ih (j + 1) k s (by omega) hs']
          congr 1
          unfold hits
          apply fm_congr
          intro r hr
          rw [hsl, look_cons_ne]
          rw [hdr, List.mem_cons] at hr
          rcases hr with rfl | hr
          · omega
          · have := hri' r hr
            split at this <;> omega
        · rename_i h1 h2
          have heq : (L[j]'(by omega)).1 = ri[k] := by omega
          have e1 : hits (ri.drop k) (slice L j e) = (L[j]'(by omega)) :: hits (ri.drop (k + 1)) (slice L j e) := by
            unfold hits
            rw [hdr, List.filterMap_cons_some]
            rw [hsl, look_cons_self heq]
          rw [e1, List.foldlM_cons, hh j hj]
          congr 1
          funext s'
          cases nextJ with
          | false => exact ih j (k + 1) s' (by omega) hs
          | true =>
            rw [if_pos rfl, ih (j + 1) (k + 1) s' (by omega) hs']
            congr 1
            unfold hits
            apply fm_congr
            intro r hr
            rw [hsl, look_cons_ne]
            have := hri' r hr
            rw [if_pos rfl] at this
            omega
    · rename_i hc
      have : hits (ri.drop k) (slice L j e) = [] := by
        by_cases hj : j < e
        · rw [List.drop_eq_nil_of_le (by omega)]
          rfl
        · have : slice L j e = [] := by unfold slice; rw [show e - j = 0 by omega]; simp
          rw [this]
          unfold hits
          rw [List.filterMap_eq_nil_iff]
          intro r _
          rfl
      rw [this]
      rfl

/-- the write of one entry -/
def put (s : List Nat × List V × Nat) (x : Nat × V) : Res (List Nat × List V × Nat) := do
  let vals ← wr s.2.1 s.2.2 x.2
  let ids ← wr s.1 s.2.2 x.1
  .ok (ids, vals, s.2.2 + 1)

theorem emit_put {A : CSC V} (h : A.WF) {j : Nat} (hj : j < (A.rowids.zip A.values).length)
    (s : List Nat × List V × Nat) : emit A j s = put s (A.rowids.zip A.values)[j] := by
  have hz := Model.Inner.czip_length h
  unfold emit put
  rw [rd_of_lt (by rw [h.valLen]; omega), ok_bind]
  simp only [List.getElem_zip]
  congr 1
  funext vals
  rw [rd_of_lt (by rw [h.rowLen]; omega), ok_bind]

/-- the two arrays and the cursor -/
def st (L : List (Nat × V)) (n : Nat) : List Nat × List V × Nat := (L.map Prod.fst, L.map Prod.snd, n)

theorem put_st {L : List (Nat × V)} {n : Nat} (h : n < L.length) (x : Nat × V) :
    put (st L n) x = .ok (st (L.set n x) (n + 1)) := by
  unfold put st
  simp only
  rw [wr_of_lt (by simpa using h), ok_bind, wr_of_lt (by simpa using h), ok_bind, List.map_set, List.map_set]

theorem puts_st : ∀ (F L : List (Nat × V)) (n : Nat), n + F.length ≤ L.length →
    F.foldlM put (st L n) = .ok (st (L.take n ++ F ++ L.drop (n + F.length)) (n + F.length))
  | [], L, n, _ => by simp [pure, Except.pure]
  | x :: F, L, n, h => by
    have hn : n < L.length := by rw [List.length_cons] at h; omega
    have hl : n + 1 + F.length ≤ (L.set n x).length := by
      rw [List.length_cons] at h
      rw [List.length_set]
      omega
    rw [List.foldlM_cons, put_st hn, ok_bind, puts_st F _ _ hl, List.length_cons,
      show n + 1 + F.length = n + (F.length + 1) by omega]
    congr 2
    rw [List.take_succ_eq_append_getElem (by rw [List.length_set]; exact hn), List.getElem_set_self,
      List.take_set_of_le (Nat.le_refl _), List.drop_set_of_lt (by omega)]
    simp

theorem seg_getD (F : Nat → List (Nat × V)) (ci : List Nat) : ∀ n, n ≤ ci.length →
    seg (fun q => F (ci.getD q 0)) 0 n = (ci.take n).flatMap F
  | 0, _ => by simp [seg]
  | n + 1, h => by
    rw [seg_snoc _ (Nat.zero_le _), seg_getD F ci n (by omega), List.take_succ_eq_append_getElem (by omega),
      List.flatMap_append]
    simp [List.getD_eq_getElem?_getD, List.getElem?_eq_getElem (show n < ci.length by omega)]

theorem refBody_ok {A : CSC V} (h : A.WF) {dflt : V} {ri ci : List Nat} (hci : ∀ c ∈ ci, c < A.cols)
    {countCol : Nat → Nat → Nat → Res Nat}
    {fillCol : Nat → Nat → List Nat × List V × Nat → Res (List Nat × List V × Nat)} (F : Nat → List (Nat × V))
    (hcount : ∀ c ∈ ci, ∀ n, countCol (A.ptr c) (A.ptr (c + 1)) n = .ok (n + (F c).length))
    (hfill : ∀ c ∈ ci, ∀ s, fillCol (A.ptr c) (A.ptr (c + 1)) s = (F c).foldlM put s) :
    refBody dflt A ri ci countCol fillCol =
      if (ci.flatMap F).length = 0 then .error .assertion
      else .ok (Conv.ofCols ri.length ci.length (fun q => F (ci.getD q 0))) := by
  have hc : ci.foldlM (fun n c => do
      let b ← rd A.colptr c
      let e ← rd A.colptr (c + 1)
      countCol b e n) 0 = .ok (ci.flatMap F).length := by
    obtain ⟨n, e, rfl⟩ := foldlM_inv (f := fun n c => do
        let b ← rd A.colptr c
        let e ← rd A.colptr (c + 1)
        countCol b e n) (fun pre n => n = (pre.flatMap F).length) ci 0 rfl
      (by
        rintro pre c post n hl rfl
        have hm : c ∈ ci := by rw [hl]; simp
        have := hci c hm
        refine ⟨_, ?_, rfl⟩
        rw [Model.Inner.rd_cptr h (by omega), ok_bind, Model.Inner.rd_cptr h (by omega), ok_bind, hcount c hm]
        simp)
    exact e
  unfold refBody
  rw [hc, ok_bind]
  split
  · rename_i h0
    rw [h0]
    rfl
  · rename_i h0
    have hne : ci.length ≠ 0 := by
      intro hz
      rw [List.length_eq_zero_iff] at hz
      rw [hz] at h0
      exact h0 rfl
    rw [check_of (by simp only [decide_eq_true_eq]; exact ⟨h0, hne⟩), ok_bind]
    rw [wr_of_lt (by simp), ok_bind]
    generalize hN : (ci.flatMap F).length = N
    have hNp : psum (lens (fun q => F (ci.getD q 0))) ci.length = N := by
      have := seg_length (fun q => F (ci.getD q 0)) (Nat.zero_le ci.length)
      rw [seg_getD F ci _ (Nat.le_refl _), List.take_length, hN] at this
      simp only [psum] at this
      omega
    obtain ⟨s, e, rfl⟩ := forRange_inv (body := fillStep A ci fillCol)
      (fun i s => s = (tab (ci.length + 1) (fun t => if t ≤ i then psum (lens (fun q => F (ci.getD q 0))) t else 0),
        st (seg (fun q => F (ci.getD q 0)) 0 i ++
          List.replicate (N - psum (lens (fun q => F (ci.getD q 0))) i) (0, dflt))
          (psum (lens (fun q => F (ci.getD q 0))) i))) 0 ci.length (Nat.zero_le _)
      ((List.replicate (ci.length + 1) 0).set 0 0, List.replicate N 0, List.replicate N dflt, 0)
      (by
        rw [Conv.replicate_eq_tab, tab_set]
        refine Prod.ext ?_ ?_
        · apply tab_ext
          intro t ht
          unfold upd
          by_cases h : t = 0
          · subst h; simp [psum]
          · simp [h]
        · simp [st, seg, psum])
      (by
        rintro i s _ hi rfl
        have hm : ci[i] ∈ ci := List.getElem_mem _
        have hlt := hci _ hm
        have hD : ci.getD i 0 = ci[i] := by simp [List.getD_eq_getElem?_getD, List.getElem?_eq_getElem hi]
        have hs : psum (lens (fun q => F (ci.getD q 0))) (i + 1) =
            psum (lens (fun q => F (ci.getD q 0))) i + (F ci[i]).length := by
          show _ + (F (ci.getD i 0)).length = _
          rw [hD]
        have hle : psum (lens (fun q => F (ci.getD q 0))) (i + 1) ≤ N := by
          rw [← hNp]; exact psum_mono (by omega)
        have hsl : (seg (fun q => F (ci.getD q 0)) 0 i).length = psum (lens (fun q => F (ci.getD q 0))) i := by
          have := seg_length (fun q => F (ci.getD q 0)) (Nat.zero_le i)
          simp only [psum] at this
          omega
        refine ⟨_, ?_, rfl⟩
        unfold fillStep
        rw [rd_of_lt hi, ok_bind, Model.Inner.rd_cptr h (by omega), ok_bind, Model.Inner.rd_cptr h (by omega), ok_bind,
          hfill _ hm, puts_st _ _ _ (by rw [List.length_append, List.length_replicate, hsl]; omega), ok_bind]
        simp only
        rw [wr_tab (by omega), ok_bind]
        congr 1
        refine Prod.ext ?_ ?_
        · apply tab_ext
          intro t ht
          unfold upd
          by_cases h : t = i + 1
          · subst h; rw [if_pos rfl, if_pos (Nat.le_refl _), hs]; rfl
          · by_cases h2 : t ≤ i
            · simp [h, h2, show t ≤ i + 1 by omega]
            · simp [h, h2, show ¬ t ≤ i + 1 by omega]
        · show st _ _ = st _ _
          rw [hs, seg_snoc _ (Nat.zero_le _)]
          rw [List.take_left' hsl, List.drop_append, List.drop_eq_nil_of_le (by omega), List.nil_append, hsl,
            List.drop_replicate, hD]
          rw [show N - psum (lens (fun q => F (ci.getD q 0))) i -
            (psum (lens (fun q => F (ci.getD q 0))) i + (F ci[i]).length - psum (lens (fun q => F (ci.getD q 0))) i) =
            N - (psum (lens (fun q => F (ci.getD q 0))) i + (F ci[i]).length) by omega])
    rw [e, ok_bind]
    unfold Conv.ofCols
    rw [hNp]
    simp only [st, Nat.sub_self, List.replicate_zero, List.append_nil]
    congr 2
    apply tab_ext
    intro t ht
    rw [if_pos (by omega)]

theorem matchCol {A : CSC V} (h : A.WF) (hs : A.SortedCols) {ri : List Nat} {nextJ : Bool}
    (hri : ri.Pairwise (fun a b => if nextJ then a < b else a ≤ b)) {c : Nat} (hc : c < A.cols)
    {hit : Nat → σ → Res σ} {hit' : σ → Nat × V → Res σ}
    (hh : ∀ j (hj : j < (A.rowids.zip A.values).length) s, hit j s = hit' s (A.rowids.zip A.values)[j]) (s : σ) :
    matchLoop A.rowids ri (A.ptr (c + 1)) nextJ hit (A.ptr (c + 1) - A.ptr c + ri.length + 1) (A.ptr c) 0 s =
      (hits ri (A.col c)).foldlM hit' s := by
  have hz := Inner.czip_length h
  have hle : A.ptr (c + 1) ≤ (A.rowids.zip A.values).length := by rw [hz]; exact Inner.cptr_le_nnz h hc
  have hm : (A.rowids.zip A.values).map Prod.fst = A.rowids :=
    List.map_fst_zip (by rw [h.rowLen, h.valLen]; exact Nat.le_refl _)
  have := matchLoop_ok (L := A.rowids.zip A.values) hle (hit := hit) (hit' := hit')
    (fun j hj s => hh j (by omega) s) hri (A.ptr (c + 1) - A.ptr c + ri.length + 1) (A.ptr c) 0 s (by omega)
    (by have := hs c hc; rw [← Inner.col_map_fst h] at this; exact this)
  rw [hm] at this
  exact this

theorem count_fold (F : List (Nat × V)) (n : Nat) :
    F.foldlM (fun n (_ : Nat × V) => (.ok (n + 1) : Res Nat)) n = .ok (n + F.length) := by
  induction F generalizing n with
  | nil => rfl
  | cons x F ih =>
    rw [List.foldlM_cons, ok_bind, ih, List.length_cons]
    congr 1
    omega

theorem checkRef_ok {A : CSC V} {ri ci : List Nat} (hci : ∀ c ∈ ci, c ≤ A.cols) (hri : ∀ r ∈ ri, r ≤ A.rows) :
    checkRef A ri ci = .ok () := by
  unfold checkRef
  rw [check_of, ok_bind, check_of]
  · cases e : ri.getLast? with
    | none => rfl
    | some r => exact decide_eq_true (hri r (List.mem_of_getLast? e))
  · cases e : ci.getLast? with
    | none => rfl
    | some r => exact decide_eq_true (hci r (List.mem_of_getLast? e))

theorem spRef_ok {A : CSC V} (h : A.WF) (hs : A.SortedCols) (dflt : V) {ri ci : List Nat} (hri : ri.Pairwise (· ≤ ·))
    (hr : ∀ r ∈ ri, r ≤ A.rows) (hci : ∀ c ∈ ci, c < A.cols) :
    spRef dflt A ri ci =
      if (ci.flatMap fun c => hits ri (A.col c)).length = 0 then .error .assertion
      else .ok (Conv.ofCols ri.length ci.length (fun q => hits ri (A.col (ci.getD q 0)))) := by
  unfold spRef
  rw [checkRef_ok (fun c hc => Nat.le_of_lt (hci c hc)) hr, ok_bind]
  refine refBody_ok h hci (fun c => hits ri (A.col c)) (fun c hc n => ?_) (fun c hc s => ?_)
  · rw [matchCol h hs (by simpa using hri) (hci c hc) (hit' := fun n _ => .ok (n + 1)) (fun _ _ _ => rfl), count_fold]
  · exact matchCol h hs (by simpa using hri) (hci c hc) (fun j hj s => emit_put h hj s) s

theorem sets_ok (size : Nat) (ps : List Nat) (hps : ∀ p ∈ ps, p < 64 * ((size + 63) / 64)) :
    ∃ w, ps.foldlM BitMap.setBit (BitMap.reset (BitMap.make size)) = .ok w ∧ Spec.WordsOk w ∧
      w.length = (size + 63) / 64 ∧ ∀ q, Spec.HasBit w q ↔ q ∈ ps := by
  obtain ⟨r1, r2, r3⟩ := BitMap.reset_ok (BitMap.make size)
  obtain ⟨w, e, h1, h2, h3⟩ := foldlM_inv (f := BitMap.setBit)
    (fun pre w => w.length = (size + 63) / 64 ∧ Spec.WordsOk w ∧ ∀ q, Spec.HasBit w q ↔ q ∈ pre) ps
    (BitMap.reset (BitMap.make size)) ⟨by rw [r1]; simp [BitMap.make], r2, fun q => by simp [r3 q]⟩
    (by
      rintro pre a post w hl ⟨h1, h2, h3⟩
      have ha := hps a (by rw [hl]; simp)
      obtain ⟨w', e, g1, g2, g3⟩ := BitMap.setBit_ok h2 (p := a) (by omega)
      refine ⟨w', e, g1.trans h1, g2, fun q => ?_⟩
      rw [g3, h3, List.mem_append, List.mem_singleton, or_comm])
  exact ⟨w, e, h2, h1, h3⟩

/-- the entries with rows in `ri`, in the order of the column -/
def kept (ri : List Nat) (c : List (Nat × V)) : List (Nat × V) := c.filter (fun x => decide (x.1 ∈ ri))

theorem filter_fold {g : σ → Nat × V → Res σ} (p : Nat × V → Bool) (l : List (Nat × V)) (s : σ) :
    l.foldlM (fun s x => if p x then g s x else .ok s) s = (l.filter p).foldlM g s := by
  induction l generalizing s with
  | nil => rfl
  | cons x l ih =>
    rw [List.foldlM_cons]
    by_cases hp : p x = true
    · rw [List.filter_cons_of_pos hp, List.foldlM_cons, if_pos hp]
      congr 1
      funext s'
      exact ih s'
    · rw [List.filter_cons_of_neg hp, if_neg hp, ok_bind, ih]

theorem member_ok {A : CSC V} (h : A.WF) {ri : List Nat} {w : BitMap.Words} (hw : Spec.WordsOk w)
    (hb : ∀ q, Spec.HasBit w q ↔ q ∈ ri) {j : Nat} (hj : j < (A.rowids.zip A.values).length)
    (hlt : ((A.rowids.zip A.values)[j]).1 < 64 * w.length) :
    member A w j = .ok (decide (((A.rowids.zip A.values)[j]).1 ∈ ri)) := by
  have hz := Inner.czip_length h
  rw [List.getElem_zip] at hlt ⊢
  obtain ⟨b, g1, g2⟩ := BitMap.getBit_ok hw hlt
  unfold member
  rw [rd_of_lt (by rw [h.rowLen]; omega), ok_bind, g1]
  congr 1
  rw [Bool.eq_iff_iff, g2, hb, decide_eq_true_eq]

theorem scanCol {A : CSC V} (h : A.WF) {ri : List Nat} {w : BitMap.Words} (hw : Spec.WordsOk w)
    (hb : ∀ q, Spec.HasBit w q ↔ q ∈ ri) {c : Nat} (hc : c < A.cols) (hlt : ∀ x ∈ A.colRows c, x < 64 * w.length)
    {body : Nat → σ → Res σ} {g : σ → Nat × V → Res σ}
    (hbody : ∀ j (hj : j < (A.rowids.zip A.values).length) s b, member A w j = .ok b →
      body j s = if b then g s (A.rowids.zip A.values)[j] else .ok s) (s : σ) :
    forRange (A.ptr c) (A.ptr (c + 1)) s body = (kept ri (A.col c)).foldlM g s := by
  have hz := Inner.czip_length h
  have hle := Inner.cptr_le_nnz h (j := c + 1) hc
  rw [forRange_eq_slice (L := A.rowids.zip A.values)
    (g := fun s x => if decide (x.1 ∈ ri) then g s x else .ok s) (by omega)]
  · exact filter_fold (fun x => decide (x.1 ∈ ri)) _ s
  · intro j hj h1 h2 s
    apply hbody
    apply member_ok h hw hb
    apply hlt
    rw [← Inner.col_map_fst h]
    apply List.mem_map_of_mem
    have := slice_getElem? (l := A.rowids.zip A.values) (lo := A.ptr c) (hi := A.ptr (c + 1)) (i := j - A.ptr c)
      (by omega)
    rw [show A.ptr c + (j - A.ptr c) = j by omega, List.getElem?_eq_getElem hj] at this
    exact List.mem_of_getElem? this

theorem spRef1_ok {A : CSC V} (h : A.WF) (dflt : V) {ri ci : List Nat}
    (hr : ∀ r ∈ ri, r ≤ A.rows) (hci : ∀ c ∈ ci, c < A.cols) (hb : ∀ r ∈ ri, r < 64 * ((ri.length + 63) / 64))
    (hx : ∀ c ∈ ci, ∀ x ∈ A.colRows c, x < 64 * ((ri.length + 63) / 64)) :
    spRef1 dflt A ri ci =
      if (ci.flatMap fun c => kept ri (A.col c)).length = 0 then .error .assertion
      else .ok (Conv.ofCols ri.length ci.length (fun q => kept ri (A.col (ci.getD q 0)))) := by
  obtain ⟨w, e, hw, hl, hbit⟩ := sets_ok ri.length ri hb
  unfold spRef1
  rw [checkRef_ok (fun c hc => Nat.le_of_lt (hci c hc)) hr, ok_bind, e, ok_bind]
  refine refBody_ok h hci (fun c => kept ri (A.col c)) (fun c hc n => ?_) (fun c hc s => ?_)
  · rw [scanCol h hw hbit (hci c hc) (by rw [hl]; exact hx c hc) (g := fun n _ => .ok (n + 1)), count_fold]
    intro j hj s b hm
    rw [hm, ok_bind]
    cases b <;> rfl
  · apply scanCol h hw hbit (hci c hc) (by rw [hl]; exact hx c hc)
    intro j hj s b hm
    rw [hm, ok_bind, ← emit_put h hj]

theorem hits_eq_kept {c : List (Nat × V)} {ri : List Nat} (hc : (c.map Prod.fst).Pairwise (· < ·))
    (hri : ri.Pairwise (· < ·)) : hits ri c = kept ri c := by
  induction c generalizing ri with
  | nil =>
    unfold hits kept
    rw [List.filter_nil, List.filterMap_eq_nil_iff]
    intro r _
    rfl
  | cons x c ih =>
    rw [List.map_cons, List.pairwise_cons] at hc
    induction ri with
    | nil => simp [hits, kept]
    | cons r ri ihr =>
      have hri' := hri
      rw [List.pairwise_cons] at hri'
      obtain ⟨g1, g2⟩ := hri'
      have hgt : ∀ y ∈ c, x.1 < y.1 := fun y hy => hc.1 _ (List.mem_map_of_mem hy)
      rcases Nat.lt_trichotomy r x.1 with hlt | heq | hlt
      · have e1 : hits (r :: ri) (x :: c) = hits ri (x :: c) := by
          unfold hits
          rw [List.filterMap_cons_none]
          apply look_lt
          intro y hy
          rcases List.mem_cons.1 hy with rfl | hy
          · exact hlt
          · exact Nat.lt_trans hlt (hgt y hy)
        rw [e1, ihr g2]
        unfold kept
        apply List.filter_congr
        intro y hy
        have : y.1 ≠ r := by
          rcases List.mem_cons.1 hy with rfl | hy
          · omega
          · have := hgt y hy; omega
        simp [this]
      · have e1 : hits (r :: ri) (x :: c) = x :: hits ri c := by
          unfold hits
          rw [List.filterMap_cons_some (look_cons_self heq.symm)]
          congr 1
          apply fm_congr
          intro r' hr'
          apply look_cons_ne
          have := g1 r' hr'
          omega
        rw [e1, ih hc.2 g2]
        unfold kept
        rw [List.filter_cons_of_pos (by simp [heq])]
        congr 1
        apply List.filter_congr
        intro y hy
        have := hgt y hy
        simp [show y.1 ≠ r by omega]
      · have hne : ∀ r' ∈ r :: ri, x.1 < r' := by
          intro r' hr'
          rcases List.mem_cons.1 hr' with rfl | hr'
          · exact hlt
          · exact Nat.lt_trans hlt (g1 r' hr')
        have e1 : hits (r :: ri) (x :: c) = hits (r :: ri) c := by
          unfold hits
          apply fm_congr
          intro r' hr'
          apply look_cons_ne
          have := hne r' hr'
          omega
        rw [e1, ih hc.2 hri]
        unfold kept
        rw [List.filter_cons_of_neg]
        rw [decide_eq_true_eq]
        intro hx
        have := hne _ hx
        omega

theorem foldlM_err {α : Type} {f : σ → α → Res σ} {e0 : Err} (P : σ → Prop) {l : List α}
    (hstep : ∀ a ∈ l, ∀ s, P s → (∃ s', f s a = .ok s' ∧ P s') ∨ f s a = .error e0)
    (hbad : ∃ a ∈ l, ∀ s, P s → f s a = .error e0) (s : σ) (hs : P s) : l.foldlM f s = .error e0 := by
  induction l generalizing s with
  | nil => obtain ⟨a, ha, _⟩ := hbad; cases ha
  | cons x l ih =>
    rw [List.foldlM_cons]
    rcases hstep x (by simp) s hs with ⟨s', e, hs'⟩ | e
    · rw [e, ok_bind]
      refine ih (fun a ha => hstep a (List.mem_cons_of_mem _ ha)) ?_ s' hs'
      obtain ⟨a, ha, hb⟩ := hbad
      rcases List.mem_cons.1 ha with rfl | ha
      · rw [hb s hs] at e; cases e
      · exact ⟨a, ha, hb⟩
    · rw [e]; rfl

theorem puts_oob : ∀ (F L : List (Nat × V)) (n : Nat), F ≠ [] → L.length < n + F.length →
    F.foldlM put (st L n) = .error .oob
  | [], _, _, h, _ => absurd rfl h
  | x :: F, L, n, _, hl => by
    rw [List.foldlM_cons]
    by_cases hn : n < L.length
    · rw [put_st hn, ok_bind]
      apply puts_oob F
      · rintro rfl
        simp at hl
        omega
      · rw [List.length_set, show n + 1 + F.length = n + (x :: F).length by simp; omega]
        exact hl
    · have : put (st L n) x = .error .oob := by
        unfold put st
        simp only
        rw [show wr (L.map Prod.snd) n x.2 = .error .oob by simp [wr]; omega]
        rfl
      rw [this]
      rfl

/-- one step of the search of `SpRef2` -/
theorem findStep_eq {A : CSC V} (h : A.WF) (hs : A.SortedCols) {ri ci : List Nat} (hri : ri.Pairwise (· < ·)) {i : Nat}
    (hi : i < ci.length) (hc : ci[i] < A.cols) (L : List (Nat × V)) (len : List Nat) :
    findStep A ri ci i (L.map Prod.fst, L.map Prod.snd, len) = (do
      let t ← (hits ri (A.col ci[i])).foldlM put (st L (A.ptr ci[i]))
      let len ← wr len i (t.2.2 - A.ptr ci[i])
      .ok (t.1, t.2.1, len)) := by
  unfold findStep
  rw [rd_of_lt hi, ok_bind, Inner.rd_cptr h (by omega), ok_bind, Inner.rd_cptr h (by omega), ok_bind,
    matchCol h hs (by simpa using hri) hc (fun j hj s => emit_put h hj s)]
  rfl

/-- the number of stored entries of the selected columns -/
def nnzOf (A : CSC V) (ci : List Nat) : Nat := (ci.flatMap A.col).length

theorem nnz_loop {A : CSC V} (h : A.WF) {ci : List Nat} (hci : ∀ c ∈ ci, c < A.cols) :
    ci.foldlM (fun n c => do
      let e ← rd A.colptr (c + 1)
      let b ← rd A.colptr c
      .ok (n + e - b)) 0 = .ok (nnzOf A ci) := by
  obtain ⟨n, e, rfl⟩ := foldlM_inv (f := fun n c => do
      let e ← rd A.colptr (c + 1)
      let b ← rd A.colptr c
      .ok (n + e - b)) (fun pre n => n = nnzOf A pre) ci 0 rfl
    (by
      rintro pre c post n hl rfl
      have hc := hci c (by rw [hl]; simp)
      refine ⟨_, ?_, rfl⟩
      rw [Inner.rd_cptr h (by omega), ok_bind, Inner.rd_cptr h (by omega), ok_bind]
      congr 1
      have := Inner.col_length h hc
      have := h.ptrMono c hc
      unfold nnzOf
      rw [List.flatMap_append, List.length_append, List.flatMap_singleton]
      omega)
  exact e

theorem hits_sublist_length {A : CSC V} (h : A.WF) (hs : A.SortedCols) {ri : List Nat} (hri : ri.Pairwise (· < ·)) {c : Nat}
    (hc : c < A.cols) : (hits ri (A.col c)).length ≤ A.ptr (c + 1) - A.ptr c := by
  rw [hits_eq_kept (by rw [Inner.col_map_fst h]; exact hs c hc) hri, ← Inner.col_length h hc]
  exact List.length_filter_le _ _

theorem find_ok {A : CSC V} (h : A.WF) (hs : A.SortedCols) (dflt : V) {ri ci : List Nat} (hri : ri.Pairwise (· < ·))
    (hci : ∀ c ∈ ci, c < A.cols)
    (hfit : ∀ c ∈ ci, hits ri (A.col c) ≠ [] → A.ptr c + (hits ri (A.col c)).length ≤ nnzOf A ci) :
    ∃ L : List (Nat × V), forRange 0 ci.length (List.replicate (nnzOf A ci) 0, List.replicate (nnzOf A ci) dflt,
        List.replicate ci.length 0) (findStep A ri ci) =
          .ok (L.map Prod.fst, L.map Prod.snd, tab ci.length (fun q => (hits ri (A.col (ci.getD q 0))).length)) ∧
      ∀ c ∈ ci, ∀ u < (hits ri (A.col c)).length, L[A.ptr c + u]? = (hits ri (A.col c))[u]? := by
  obtain ⟨s, e, L, rfl, hl, hL⟩ := forRange_inv (body := findStep A ri ci)
    (fun i s => ∃ L : List (Nat × V), s = (L.map Prod.fst, L.map Prod.snd,
        tab ci.length (fun q => if q < i then (hits ri (A.col (ci.getD q 0))).length else 0)) ∧
      L.length = nnzOf A ci ∧
      ∀ t, (ht : t < ci.length) → t < i → ∀ u < (hits ri (A.col ci[t])).length,
        L[A.ptr ci[t] + u]? = (hits ri (A.col ci[t]))[u]?) 0 ci.length (Nat.zero_le _)
    (List.replicate (nnzOf A ci) 0, List.replicate (nnzOf A ci) dflt, List.replicate ci.length 0)
    ⟨List.replicate (nnzOf A ci) (0, dflt), by simp [← Conv.replicate_eq_tab], by simp, fun t _ h => absurd h (Nat.not_lt_zero t)⟩
    (by
      rintro i s _ hi ⟨L, rfl, hl, hL⟩
      have hm : ci[i] ∈ ci := List.getElem_mem _
      have hc := hci _ hm
      have hD : ci.getD i 0 = ci[i] := by simp [List.getD_eq_getElem?_getD, List.getElem?_eq_getElem hi]
      have hlen := hits_sublist_length h hs hri hc
      have hmono := h.ptrMono _ hc
      have htab : ∀ k, k = (hits ri (A.col ci[i])).length →
          tab ci.length (upd (fun q => if q < i then (hits ri (A.col (ci.getD q 0))).length else 0) i k) =
          tab ci.length (fun q => if q < i + 1 then (hits ri (A.col (ci.getD q 0))).length else 0) := by
        rintro k rfl
        apply tab_ext
        intro q _
        simp only [upd]
        by_cases hq : q = i
        · rw [if_pos hq, if_pos (by omega), hq, hD]
        · rw [if_neg hq]
          by_cases hq2 : q < i
          · rw [if_pos hq2, if_pos (by omega)]
          · rw [if_neg hq2, if_neg (by omega)]
      rw [findStep_eq h hs hri hi hc]
      by_cases hne : hits ri (A.col ci[i]) = []
      · refine ⟨_, ?_, L, rfl, hl, ?_⟩
        · rw [hne]
          show (wr _ _ _ >>= _) = _
          rw [wr_tab hi, ok_bind]
          congr 3
          apply htab
          rw [hne]
          simp [st]
        · intro t ht hti u hu
          by_cases hteq : t = i
          · subst hteq
            rw [hne] at hu
            exact absurd hu (Nat.not_lt_zero u)
          · exact hL t ht (by omega) u hu
      · have hf := hfit _ hm hne
        rw [puts_st _ _ _ (by rw [hl]; exact hf), ok_bind]
        refine ⟨_, ?_, L.take (A.ptr ci[i]) ++ hits ri (A.col ci[i]) ++
          L.drop (A.ptr ci[i] + (hits ri (A.col ci[i])).length), rfl, ?_, ?_⟩
        · rw [wr_tab hi, ok_bind]
          congr 3
          apply htab
          simp [st]
        · simp only [List.length_append, List.length_take, List.length_drop]
          omega
        · have hget : ∀ p, (L.take (A.ptr ci[i]) ++ hits ri (A.col ci[i]) ++
              L.drop (A.ptr ci[i] + (hits ri (A.col ci[i])).length))[p]? =
              if p < A.ptr ci[i] then L[p]?
              else if p < A.ptr ci[i] + (hits ri (A.col ci[i])).length then (hits ri (A.col ci[i]))[p - A.ptr ci[i]]?
              else L[p]? := by
            intro p
            have ht : (L.take (A.ptr ci[i])).length = A.ptr ci[i] := by
              rw [List.length_take]; omega
            by_cases h1 : p < A.ptr ci[i]
            · rw [if_pos h1, List.append_assoc, List.getElem?_append_left (by omega), List.getElem?_take_of_lt h1]
            · rw [if_neg h1, List.append_assoc, List.getElem?_append_right (by omega), ht]
              by_cases h2 : p < A.ptr ci[i] + (hits ri (A.col ci[i])).length
              · rw [if_pos h2, List.getElem?_append_left (by omega)]
              · rw [if_neg h2, List.getElem?_append_right (by omega), List.getElem?_drop]
                congr 1
                omega
          intro t ht hti u hu
          rw [hget]
          have htc := hci _ (List.getElem_mem ht)
          have htl := hits_sublist_length h hs hri htc
          have htm := h.ptrMono _ htc
          rcases Nat.lt_trichotomy ci[t] ci[i] with hlt | heq | hlt
          · have := Inner.cptr_le h (i := ci[t] + 1) (j := ci[i]) hlt (by omega)
            rw [if_pos (by omega)]
            apply hL t ht _ u hu
            rcases Nat.lt_or_ge t i with h1 | h1
            · exact h1
            · have : t = i := by omega
              subst this
              omega
          · rw [heq] at hu ⊢
            rw [if_neg (by omega), if_pos (by omega)]
            congr 1
            omega
          · have := Inner.cptr_le h (i := ci[i] + 1) (j := ci[t]) hlt (by omega)
            rw [if_neg (by omega), if_neg (by omega)]
            apply hL t ht _ u hu
            rcases Nat.lt_or_ge t i with h1 | h1
            · exact h1
            · have : t = i := by omega
              subst this
              omega)
  refine ⟨L, ?_, ?_⟩
  · rw [e]
    congr 3
    apply tab_ext
    intro q hq
    rw [if_pos hq]
  · intro c hc u hu
    obtain ⟨t, ht, rfl⟩ := List.getElem_of_mem hc
    exact hL t ht ht u hu

theorem copyOut_ok {L : List (Nat × V)} {len : List Nat} {F : List (Nat × V)} {b p : Nat}
    (hL : ∀ u < F.length, L[b + u]? = F[u]?) (M : List (Nat × V)) (hM : p + F.length ≤ M.length) :
    copyOut (L.map Prod.fst, L.map Prod.snd, len) b F.length p (M.map Prod.fst, M.map Prod.snd) =
      .ok ((M.take p ++ F ++ M.drop (p + F.length)).map Prod.fst,
        (M.take p ++ F ++ M.drop (p + F.length)).map Prod.snd) := by
  unfold copyOut
  obtain ⟨s, e, rfl⟩ := forRange_inv (body := fun t s => do
      let x ← rd (L.map Prod.fst) (b + t)
      let ids ← wr s.1 (p + t) x
      let v ← rd (L.map Prod.snd) (b + t)
      let vals ← wr s.2 (p + t) v
      .ok (ids, vals))
    (fun t s => s = ((M.take p ++ F.take t ++ M.drop (p + t)).map Prod.fst,
        (M.take p ++ F.take t ++ M.drop (p + t)).map Prod.snd)) 0 F.length (Nat.zero_le _)
    (M.map Prod.fst, M.map Prod.snd) (by simp)
    (by
      rintro t s _ ht rfl
      have hx : L[b + t]? = some F[t] := by rw [hL t ht, List.getElem?_eq_getElem ht]
      have hl1 : (M.take p).length = p := by rw [List.length_take]; omega
      have hl2 : (M.take p ++ F.take t).length = p + t := by
        rw [List.length_append, hl1, List.length_take]; omega
      have hlen : p + t < (M.take p ++ F.take t ++ M.drop (p + t)).length := by
        rw [List.length_append, hl2, List.length_drop]; omega
      have hset : (M.take p ++ F.take t ++ M.drop (p + t)).set (p + t) F[t] =
          M.take p ++ F.take (t + 1) ++ M.drop (p + (t + 1)) := by
        rw [List.set_append_right _ _ (by omega), hl2, Nat.sub_self, List.drop_eq_getElem_cons (by omega),
          List.set_cons_zero, List.take_succ_eq_append_getElem ht, Nat.add_assoc p t 1]
        simp only [List.append_assoc, List.singleton_append]
      refine ⟨_, ?_, rfl⟩
      simp only
      rw [rd_of_getElem? (x := F[t].1) (by rw [List.getElem?_map, hx]; rfl), ok_bind,
        wr_of_lt (by rw [List.length_map]; exact hlen), ok_bind,
        rd_of_getElem? (x := F[t].2) (by rw [List.getElem?_map, hx]; rfl), ok_bind,
        wr_of_lt (by rw [List.length_map]; exact hlen), ok_bind, ← List.map_set, ← List.map_set, hset])
  rw [List.take_length] at e
  exact e

theorem spRef2_ok {A : CSC V} (h : A.WF) (hs : A.SortedCols) (dflt : V) {ri ci : List Nat} (hri : ri.Pairwise (· < ·))
    (hr : ∀ r ∈ ri, r ≤ A.rows) (hci : ∀ c ∈ ci, c < A.cols)
    (hfit : ∀ c ∈ ci, hits ri (A.col c) ≠ [] → A.ptr c + (hits ri (A.col c)).length ≤ nnzOf A ci) :
    spRef2 dflt A ri ci = .ok (Conv.ofCols ri.length ci.length (fun q => hits ri (A.col (ci.getD q 0)))) := by
  obtain ⟨L, e, hL⟩ := find_ok h hs dflt hri hci hfit
  unfold spRef2
  rw [checkRef_ok (fun c hc => Nat.le_of_lt (hci c hc)) hr, ok_bind, nnz_loop h hci, ok_bind, e, ok_bind,
    wr_of_lt (by simp), ok_bind]
  generalize hexp : (fun q => hits ri (A.col (ci.getD q 0))) = exp
  have hx : ∀ q, hits ri (A.col (ci.getD q 0)) = exp q := fun q => by rw [← hexp]
  have hlens : tab ci.length (fun q => (hits ri (A.col (ci.getD q 0))).length) = tab ci.length (lens exp) :=
    tab_ext fun q _ => by rw [hx]; rfl
  obtain ⟨ptr, e2, rfl⟩ := forRange_inv (body := fun i ptr => do
      let p ← rd ptr i
      let l ← rd (tab ci.length (fun q => (hits ri (A.col (ci.getD q 0))).length)) i
      wr ptr (i + 1) (p + l))
    (fun i ptr => ptr = tab (ci.length + 1) (fun t => if t ≤ i then psum (lens exp) t else 0)) 0 ci.length
    (Nat.zero_le _) ((List.replicate (ci.length + 1) 0).set 0 0)
    (by
      rw [Conv.replicate_eq_tab, tab_set]
      apply tab_ext
      intro t ht
      simp only [upd]
      by_cases h : t = 0
      · subst h; simp [psum]
      · simp [h])
    (by
      rintro i s _ hi rfl
      refine ⟨_, ?_, rfl⟩
      rw [hlens, rd_tab (by omega), ok_bind, rd_tab hi, ok_bind, wr_tab (by omega)]
      congr 1
      apply tab_ext
      intro t ht
      simp only [upd]
      by_cases h : t = i + 1
      · subst h
        rw [if_pos rfl, if_pos (Nat.le_refl _), if_pos (Nat.le_refl _)]
        rfl
      · rw [if_neg h]
        by_cases h2 : t ≤ i
        · rw [if_pos h2, if_pos (by omega)]
        · rw [if_neg h2, if_neg (by omega)])
  simp only [e2, ok_bind]
  rw [rd_tab (by omega), ok_bind, if_pos (Nat.le_refl _)]
  obtain ⟨s, e3, rfl⟩ := forRange_inv (body := fun i s => do
      let c ← rd ci i
      let b ← rd A.colptr c
      let l ← rd (tab ci.length (fun q => (hits ri (A.col (ci.getD q 0))).length)) i
      let p ← rd (tab (ci.length + 1) (fun t => if t ≤ ci.length then psum (lens exp) t else 0)) i
      copyOut (L.map Prod.fst, L.map Prod.snd, tab ci.length (fun q => (hits ri (A.col (ci.getD q 0))).length)) b l p s)
    (fun i s => s = ((seg exp 0 i ++ List.replicate (psum (lens exp) ci.length - psum (lens exp) i) (0, dflt)).map Prod.fst,
      (seg exp 0 i ++ List.replicate (psum (lens exp) ci.length - psum (lens exp) i) (0, dflt)).map Prod.snd)) 0 ci.length
    (Nat.zero_le _) (List.replicate (psum (lens exp) ci.length) 0, List.replicate (psum (lens exp) ci.length) dflt)
    (by simp [seg, psum])
    (by
      rintro i s _ hi rfl
      have hm : ci[i] ∈ ci := List.getElem_mem _
      have hc := hci _ hm
      have hD : ci.getD i 0 = ci[i] := by simp [List.getD_eq_getElem?_getD, List.getElem?_eq_getElem hi]
      have hxi := hx i
      rw [hD] at hxi
      have hps : psum (lens exp) (i + 1) = psum (lens exp) i + (exp i).length := rfl
      have hle : psum (lens exp) (i + 1) ≤ psum (lens exp) ci.length := psum_mono (by omega)
      have hsl : (seg exp 0 i).length = psum (lens exp) i := by
        have := seg_length exp (Nat.zero_le i)
        simp only [psum] at this
        omega
      refine ⟨_, ?_, rfl⟩
      rw [rd_of_lt hi, ok_bind, Inner.rd_cptr h (by omega), ok_bind, rd_tab hi, ok_bind, rd_tab (by omega), ok_bind,
        if_pos (by omega), hx]
      rw [copyOut_ok (by rw [← hxi]; exact hL _ hm)
        _ (by rw [List.length_append, List.length_replicate, hsl]; omega)]
      have hfin : (seg exp 0 i ++ List.replicate (psum (lens exp) ci.length - psum (lens exp) i) (0, dflt)).take
            (psum (lens exp) i) ++ exp i ++
          (seg exp 0 i ++ List.replicate (psum (lens exp) ci.length - psum (lens exp) i) (0, dflt)).drop
            (psum (lens exp) i + (exp i).length) =
          seg exp 0 (i + 1) ++ List.replicate (psum (lens exp) ci.length - psum (lens exp) (i + 1)) (0, dflt) := by
        rw [List.take_left' hsl, List.drop_append, List.drop_eq_nil_of_le (by omega), List.nil_append, hsl,
            List.drop_replicate, seg_snoc _ (Nat.zero_le _), hps,
            show psum (lens exp) ci.length - psum (lens exp) i - (psum (lens exp) i + (exp i).length - psum (lens exp) i)
              = psum (lens exp) ci.length - (psum (lens exp) i + (exp i).length) by omega]
      rw [hfin])
  rw [e3, ok_bind]
  unfold Conv.ofCols
  simp only [Nat.sub_self, List.replicate_zero, List.append_nil]
  congr 2
  apply tab_ext
  intro t ht
  rw [if_pos (by omega)]

theorem spRef2_oob {A : CSC V} (h : A.WF) (hs : A.SortedCols) (dflt : V) {ri ci : List Nat} (hri : ri.Pairwise (· < ·))
    (hr : ∀ r ∈ ri, r ≤ A.rows) (hci : ∀ c ∈ ci, c < A.cols) {c : Nat} (hc : c ∈ ci) (hne : hits ri (A.col c) ≠ [])
    (hbig : nnzOf A ci < A.ptr c + (hits ri (A.col c)).length) :
    spRef2 dflt A ri ci = .error .oob := by
  unfold spRef2
  rw [checkRef_ok (fun c hc => Nat.le_of_lt (hci c hc)) hr, ok_bind, nnz_loop h hci, ok_bind]
  have : forRange 0 ci.length (List.replicate (nnzOf A ci) 0, List.replicate (nnzOf A ci) dflt,
      List.replicate ci.length 0) (findStep A ri ci) = .error .oob := by
    unfold forRange
    apply foldlM_err (fun s => ∃ L : List (Nat × V), L.length = nnzOf A ci ∧ s.1 = L.map Prod.fst ∧ s.2.1 = L.map Prod.snd ∧
      s.2.2.length = ci.length)
    · intro i hi s ⟨L, hl, h1, h2, h3⟩
      have hi : i < ci.length := by simpa using hi
      obtain ⟨s1, s2, s3⟩ := s
      simp only at h1 h2 h3
      subst h1 h2
      rw [findStep_eq h hs hri hi (hci _ (List.getElem_mem hi))]
      by_cases hn : hits ri (A.col ci[i]) = []
      · left
        rw [hn]
        refine ⟨(L.map Prod.fst, L.map Prod.snd, s3.set i (A.ptr ci[i] - A.ptr ci[i])), ?_, L, hl, rfl, rfl, ?_⟩
        · show (wr _ _ _ >>= _) = _
          rw [wr_of_lt (by omega), ok_bind]
          rfl
        · rw [List.length_set, h3]
      · by_cases hf : A.ptr ci[i] + (hits ri (A.col ci[i])).length ≤ L.length
        · left
          have hl' : (L.take (A.ptr ci[i]) ++ hits ri (A.col ci[i]) ++
              L.drop (A.ptr ci[i] + (hits ri (A.col ci[i])).length)).length = nnzOf A ci := by
            simp only [List.length_append, List.length_take, List.length_drop]
            omega
          rw [puts_st _ _ _ hf, ok_bind]
          generalize L.take (A.ptr ci[i]) ++ hits ri (A.col ci[i]) ++
            L.drop (A.ptr ci[i] + (hits ri (A.col ci[i])).length) = L' at hl' ⊢
          refine ⟨(L'.map Prod.fst, L'.map Prod.snd,
            s3.set i (A.ptr ci[i] + (hits ri (A.col ci[i])).length - A.ptr ci[i])), ?_, L', hl', rfl, rfl, ?_⟩
          · rw [wr_of_lt (by omega), ok_bind]
            rfl
          · rw [List.length_set, h3]
        · right
          rw [puts_oob _ _ _ hn (by omega)]
          rfl
    · obtain ⟨i, hi, rfl⟩ := List.getElem_of_mem hc
      refine ⟨i, by simpa using hi, ?_⟩
      rintro ⟨s1, s2, s3⟩ ⟨L, hl, h1, h2, h3⟩
      simp only at h1 h2 h3
      subst h1 h2
      rw [findStep_eq h hs hri hi (hci _ (List.getElem_mem hi)), puts_oob _ _ _ hne (by omega)]
      rfl
    · exact ⟨List.replicate (nnzOf A ci) (0, dflt), by simp, by simp, by simp, by simp⟩
  rw [this]
  rfl

end Verif.SubRef
