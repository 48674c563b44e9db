import Verif.Lemmas.HeapGen
import Verif.Lemmas.HeapCompl
import Verif.Lemmas.OldAlg

/-! # The heap row algorithms of the generic driver -/

namespace Verif.Model.Gen

open Heap (HP Ent HOk StepOk Filled numLoop emit St Pend IsHeap)
open Bin (nprod)

variable {V : Type} {mul add : V → V → V} {A B M : CSR V}

theorem set_mid {α : Type} (c0 x y : α) (l r : List α) : (c0 :: (l ++ x :: r)).set (l.length + 1) y = c0 :: (l ++ y :: r) := by
  simp

theorem push_ok {b : Buf V} {all : List (Nat × V)} {L : Nat} (h : Holds b all L) (hr : all.length < L) (cur key : Nat) (value : V) :
    ∃ b', push cur key value b = .ok (b', cur + 1) ∧ Holds b' (all ++ [(key, value)]) L := by
  obtain ⟨c0, v0, rc, rv, h1, h2, h3, h4, h5⟩ := h
  cases rc with
  | nil => simp at h4; omega
  | cons x rc =>
    cases rv with
    | nil => simp at h5; omega
    | cons y rv =>
      unfold push
      rw [wr_of_lt (by rw [h2, h3]; simp)]
      simp only [ok_bind]
      rw [wr_of_lt (by rw [h1, h3]; simp)]
      simp only [ok_bind]
      refine ⟨_, rfl, c0, v0, rc, rv, ?_, ?_, ?_, ?_, ?_⟩
      · simp only [h1, h3]
        have := set_mid c0 x key (all.map Prod.fst) rc
        rw [List.length_map] at this
        rw [this]; simp
      · simp only [h2, h3]
        have := set_mid v0 y value (all.map Prod.snd) rv
        rw [List.length_map] at this
        rw [this]; simp
      · simp [h3]
      · simp at h4 ⊢; omega
      · simp at h5 ⊢; omega

theorem store_ok {b : Buf V} {pre out out' : List (Nat × V)} {p : Option Nat} {L key : Nat} {value : V} (h : Holds b (pre ++ out) L)
    (he : emit add (out.getLast?.map Prod.fst) out key value = .ok (p, out')) (hr : pre.length + out'.length ≤ L) :
    ∃ b', store add out.length key value b = .ok (b', out'.length) ∧ Holds b' (pre ++ out') L ∧ p = out'.getLast?.map Prod.fst := by
  rcases List.eq_nil_or_concat out with rfl | ⟨o, ⟨c, v⟩, rfl⟩
  · have hp : ¬ ((([] : List (Nat × V)).getLast?.map Prod.fst) = some key) := by simp
    unfold emit at he
    rw [if_neg hp] at he
    cases he
    unfold store
    rw [if_neg (by simp)]
    rw [List.append_nil] at h
    obtain ⟨b', e1, e2⟩ := push_ok h (by simp at hr; omega) 0 key value
    exact ⟨b', e1, e2, rfl⟩
  · rw [List.concat_eq_append] at *
    have hl : (o ++ [(c, v)]).getLast?.map Prod.fst = some c := by simp
    have hcur : (o ++ [(c, v)]).length > 0 := by simp
    rw [hl] at he
    unfold store
    rw [if_pos hcur]
    obtain ⟨c0, v0, rc, rv, h1, h2, h3, h4, h5⟩ := h
    have hrc : rd b.cols b.pos = .ok c := by
      apply rd_of_getElem?
      rw [h1, h3]
      simp only [List.map_append, List.length_append, List.length_singleton, List.map_cons, List.map_nil, List.append_assoc]
      rw [show pre.length + (o.length + 1) = (pre.length + o.length) + 1 by omega, List.getElem?_cons_succ,
        List.getElem?_append_right (by simp), List.getElem?_append_right (by simp)]
      simp
    have hrv : rd b.vals b.pos = .ok v := by
      apply rd_of_getElem?
      rw [h2, h3]
      simp only [List.map_append, List.length_append, List.length_singleton, List.map_cons, List.map_nil, List.append_assoc]
      rw [show pre.length + (o.length + 1) = (pre.length + o.length) + 1 by omega, List.getElem?_cons_succ,
        List.getElem?_append_right (by simp), List.getElem?_append_right (by simp)]
      simp
    rw [hrc, ok_bind]
    unfold emit at he
    by_cases hk : c = key
    · subst hk
      rw [if_pos rfl] at he
      simp only [List.getLast?_append, List.getLast?_singleton, List.dropLast_concat] at he
      cases he
      rw [if_pos rfl, hrv, ok_bind, wr_of_lt (by rw [h2, h3]; simp; omega), ok_bind]
      refine ⟨⟨b.cols, b.vals.set b.pos (add value v), b.pos⟩, by simp, ⟨c0, v0, rc, rv, ?_, ?_, ?_, ?_, ?_⟩, by simp⟩
      · simpa using h1
      · simp only [h2, h3]
        have := set_mid v0 v (add value v) ((pre ++ o).map Prod.snd) rv
        rw [List.length_map] at this
        rw [show (pre ++ (o ++ [(c, v)])).length = (pre ++ o).length + 1 by simp; omega]
        rw [show (pre ++ (o ++ [(c, v)])).map Prod.snd ++ rv = (pre ++ o).map Prod.snd ++ v :: rv by simp, this]
        simp
      · simpa using h3
      · simpa using h4
      · simpa using h5
    · rw [if_neg (by simpa using hk)] at he
      cases he
      rw [if_neg hk]
      obtain ⟨b', e1, e2⟩ := push_ok ⟨c0, v0, rc, rv, h1, h2, h3, h4, h5⟩ (by simp at hr ⊢; omega) (o ++ [(c, v)]).length key value
      refine ⟨b', by simpa using e1, ?_, by simp⟩
      rw [← List.append_assoc]; exact e2

theorem emit_le {prev p : Option Nat} {out out' : List (Nat × V)} {key : Nat} {value : V}
    (h : emit add prev out key value = .ok (p, out')) : out.length ≤ out'.length := by
  have := (Heap.emit_length h).2
  simp only at this
  split at this <;> omega

theorem numLoop_le {insp maskEnd : Nat} : ∀ (fuel : Nat) (s : HP) (m : Nat) (prev : Option Nat) (out : List (Nat × V)) (s' : HP)
    (out' : List (Nat × V)), numLoop insp mul add A B M maskEnd fuel s m prev out = .ok (s', out') → out.length ≤ out'.length := by
  intro fuel
  induction fuel with
  | zero => intro s m prev out s' out' h; cases h
  | succ fuel ih =>
    intro s m prev out s' out' h
    unfold numLoop at h
    by_cases he : s.es.isEmpty = true
    · rw [if_pos he] at h; cases h; exact Nat.le_refl _
    · rw [if_neg he] at h
      obtain ⟨e, h1, h⟩ := Heap.bind_ok h
      obtain ⟨r, h2, h⟩ := Heap.bind_ok h
      by_cases hend : maskEnd ≤ r
      · rw [if_pos hend] at h; cases h; exact Nat.le_refl _
      · rw [if_neg hend] at h
        obtain ⟨mc, h3, h⟩ := Heap.bind_ok h
        by_cases hk : e.key = mc
        · rw [if_pos hk] at h
          obtain ⟨a, ha, h⟩ := Heap.bind_ok h
          obtain ⟨b, hb, h⟩ := Heap.bind_ok h
          obtain ⟨⟨prev', out''⟩, h4, h⟩ := Heap.bind_ok h
          obtain ⟨s2, h5, h⟩ := Heap.bind_ok h
          exact Nat.le_trans (emit_le h4) (ih _ _ _ _ _ _ h)
        · rw [if_neg hk] at h
          simp only [ok_bind] at h
          obtain ⟨s2, h5, h⟩ := Heap.bind_ok h
          exact ih _ _ _ _ _ _ h

/-- The loop on the buffer does what the loop on lists does. -/
theorem maskedLoop_of_num {ver : Old.Ver} {maskEnd L : Nat} {pre : List (Nat × V)} :
    ∀ (fuel : Nat) (s : HP) (m : Nat) (out : List (Nat × V)) (s' : HP) (out' : List (Nat × V)) (b : Buf V),
    numLoop (Old.depth ver) mul add A B M maskEnd fuel s m (out.getLast?.map Prod.fst) out = .ok (s', out') →
    Holds b (pre ++ out) L → pre.length + out'.length ≤ L →
    ∃ b', maskedLoop ver mul add A B M maskEnd fuel s m out.length b = .ok (b', out'.length) ∧ Holds b' (pre ++ out') L := by
  intro fuel
  induction fuel with
  | zero => intro s m out s' out' b h; cases h
  | succ fuel ih =>
    intro s m out s' out' b h hb hr
    unfold numLoop at h
    unfold maskedLoop
    by_cases he : s.es.isEmpty = true
    · rw [if_pos he] at h ⊢
      cases h; exact ⟨b, rfl, hb⟩
    · rw [if_neg he] at h ⊢
      obtain ⟨e, h1, h⟩ := Heap.bind_ok h
      obtain ⟨r, h2, h⟩ := Heap.bind_ok h
      rw [h1, ok_bind, Old.advance_eq, h2, ok_bind]
      by_cases hend : maskEnd ≤ r
      · rw [if_pos hend] at h ⊢
        cases h; exact ⟨b, rfl, hb⟩
      · rw [if_neg hend] at h ⊢
        obtain ⟨mc, h3, h⟩ := Heap.bind_ok h
        rw [h3, ok_bind]
        by_cases hk : e.key = mc
        · rw [if_pos hk] at h ⊢
          obtain ⟨x, hx, h⟩ := Heap.bind_ok h
          obtain ⟨y, hy, h⟩ := Heap.bind_ok h
          obtain ⟨⟨prev', out''⟩, h4, h⟩ := Heap.bind_ok h
          obtain ⟨s2, h5, h⟩ := Heap.bind_ok h
          have hle := numLoop_le _ _ _ _ _ _ _ h
          obtain ⟨b', e1, e2, e3⟩ := store_ok hb h4 (by omega)
          subst e3
          obtain ⟨b2, e4, e5⟩ := ih _ _ _ _ _ b' h e2 hr
          refine ⟨b2, ?_, e5⟩
          simp only [hx, hy, e1, ok_bind, Old.insertNext_eq, h5, e4]
        · rw [if_neg hk] at h ⊢
          simp only [ok_bind] at h ⊢
          obtain ⟨s2, h5, h⟩ := Heap.bind_ok h
          obtain ⟨b2, e4, e5⟩ := ih _ _ _ _ _ b h hb hr
          refine ⟨b2, ?_, e5⟩
          simp only [Old.insertNext_eq, h5, e4, ok_bind]

theorem depthOk (ver : Old.Ver) : Heap.DepthOk (Old.depth ver) M := by
  cases ver
  · left; decide
  · left; decide
  · right; left; rfl

theorem initHeap_ok {row : Nat} (h : HOk A B M row) {ver : Old.Ver} {cap : Nat} (hne : M.ptr row < M.ptr (row + 1) ∨ ver = .v0)
    (hcap : (A.row row).length ≤ cap) :
    ∃ es, initHeap ver A B M row (M.ptr row) (M.ptr (row + 1)) ⟨cap, []⟩ = .ok ⟨cap, es⟩ ∧
      Filled mul A B row (M.rowCols row) es := by
  unfold initHeap
  rw [CSR.rd_ptr h.wfA (Nat.le_of_lt h.lt), CSR.rd_ptr h.wfA (i := row + 1) h.lt]
  simp only [ok_bind]
  obtain ⟨es, h1, h2, h3, h4⟩ := Heap.fill_ok (mul := mul) h (L := M.rowCols row) hcap (body := fun j h => (do
    let inner ← rd A.colids j
    let bend ← rd B.rowptr (inner + 1)
    let bbeg ← rd B.rowptr inner
    if bend - bbeg = 0 then .ok h
    else if h.es.length < h.cap then do
      let key ← rd B.colids bbeg
      Old.firstEntry ver B M (M.ptr row) (M.ptr (row + 1)) bbeg bend j key h
    else .error .oob : Res HP)) (by
    intro j s hj1 hj2
    have hin := h.inner_lt hj2
    have hr1 := CSR.rd_ptr h.wfB (i := Heap.col A j + 1) hin
    have hr2 := CSR.rd_ptr h.wfB (i := Heap.col A j) (Nat.le_of_lt hin)
    have hs : StepOk A B (M.rowCols row) j s (do
        let inner ← rd A.colids j
        let bend ← rd B.rowptr (inner + 1)
        let bbeg ← rd B.rowptr inner
        if bend - bbeg = 0 then .ok s
        else do
          let key ← rd B.colids bbeg
          Old.firstEntry ver B M (M.ptr row) (M.ptr (row + 1)) bbeg bend j key s) := by
      rcases hne with hne | rfl
      · have := Heap.initStep_ok h (depthOk ver) hne (s := s) hj2
        cases ver
        · simpa only [Old.depth, Old.firstEntry, if_true] using this
        · simpa only [Old.depth, Old.firstEntry, if_true, Old.skipFirst_eq, if_neg (by decide : ¬ (1 : Nat) = 0)] using this
        · simpa only [Old.depth, Old.firstEntry, if_neg (by decide : ¬ Heap.SIZE_MAX = 0),
            if_neg (by decide : ¬ Heap.SIZE_MAX = 1), Old.common_eq, Heap.stopOf, if_true] using this
      · exact Heap.initStepC_ok h _ hj2
    simp only [Heap.rd_col h.wfA (h.a_lt hj2), ok_bind, hr1, hr2] at hs ⊢
    obtain ⟨k, k1, k2⟩ := hs
    refine ⟨k, k1, fun hl => ?_⟩
    rw [← k2 hl]
    simp only [if_pos hl])
  rw [h1, ok_bind]
  exact Heap.make_filled cap h2 h3 h4

theorem maskedRow_ok (hadd : Spec.AssocComm add) {row : Nat} (h : HOk A B M row) {ver : Old.Ver} {cap L : Nat}
    (hcap : (A.row row).length ≤ cap) {b : Buf V} {pre : List (Nat × V)} (hb : Holds b pre L)
    (hr : pre.length + (Model.maskedRow mul add A B M row).length ≤ L) :
    ∃ b' k, maskedRow ver mul add A B M row cap b = .ok (cap, b', k) ∧ Holds b' (pre ++ Model.maskedRow mul add A B M row) L ∧
      (k = some (Model.maskedRow mul add A B M row).length ∨ k = none ∧ Model.maskedRow mul add A B M row = []) := by
  have hle := h.wfM.ptrMono row h.ltM
  have hlen := CSR.rowCols_length h.wfM h.ltM
  unfold maskedRow
  rw [CSR.rd_ptr h.wfM (Nat.le_of_lt h.ltM), CSR.rd_ptr h.wfM (i := row + 1) h.ltM]
  simp only [ok_bind]
  have hnil : M.ptr row = M.ptr (row + 1) → Model.maskedRow mul add A B M row = [] := by
    intro he
    have : M.rowCols row = [] := List.eq_nil_of_length_eq_zero (by omega)
    unfold Model.maskedRow
    rw [this]; rfl
  by_cases he : M.ptr row = M.ptr (row + 1)
  · rw [hnil he, List.append_nil]
    by_cases hv : ver = .v0
    · rw [if_neg (by simp [hv])]
      obtain ⟨es, h1, h2⟩ := initHeap_ok (mul := mul) h (Or.inr hv) hcap
      rw [h1, ok_bind, Heap.turns_eq (mul := mul)]
      have : maskedLoop ver mul add A B M (M.ptr (row + 1)) ((prods mul A B row).length + 1) ⟨cap, es⟩ (M.ptr row) 0 b = .ok (b, 0) := by
        unfold maskedLoop
        cases es with
        | nil => rfl
        | cons e es =>
          simp only [List.isEmpty_cons, Bool.false_eq_true, if_false]
          have hrd : rd (e :: es) 0 = .ok e := rfl
          rw [hrd, ok_bind, he, Nat.sub_self]
          simp only [Old.advance, Nat.lt_irrefl, if_false, ok_bind, ge_iff_le, Nat.le_refl, if_true]
      rw [this]
      exact ⟨b, some 0, rfl, hb, Or.inl rfl⟩
    · rw [if_pos ⟨hv, he⟩]
      exact ⟨b, none, rfl, hb, Or.inr ⟨rfl, rfl⟩⟩
  · rw [if_neg (by simp [he])]
    have hlt : M.ptr row < M.ptr (row + 1) := by omega
    obtain ⟨es, h1, h2⟩ := initHeap_ok (mul := mul) (ver := ver) h (Or.inl hlt) hcap
    rw [h1, ok_bind, Heap.turns_eq (mul := mul)]
    have hnum := Heap.numLoop_ok (mul := mul) hadd h (cap := cap) (depthOk ver) (all := prods mul A B row) ((prods mul A B row).length + 1) es (M.ptr row) []
      none [] (by have := h2.len; omega)
      ⟨h2.heap, h2.ok, by simpa using h2.pend, by simp, by simp, ⟨fun _ => rfl, by simp⟩, by
        symm; apply Heap.filterMap_eq_nil_of; intro j _; rfl⟩ (Nat.le_refl _) (by omega)
      (fun m' k1 k2 => by omega)
    have hm : Model.maskedRow mul add A B M row =
        (M.rowCols row).filterMap fun j => (Spec.sum1 add (pick (prods mul A B row) j)).map fun v => (j, v) := by
      unfold Model.maskedRow
      simp only [dot_eq]
    rw [← hm] at hnum
    obtain ⟨b', e1, e2⟩ := maskedLoop_of_num (pre := pre) (L := L) _ _ _ [] _ _ b hnum (by simpa using hb) hr
    rw [List.length_nil] at e1
    rw [e1]
    exact ⟨b', _, rfl, e2, Or.inl rfl⟩

/-! ## Sizes -/

theorem psum_succ (f : Nat → Nat) (n : Nat) : psum f (n + 1) = psum f n + f n := rfl

theorem plainSize_ok {rows lo hi : Nat} {f : Nat → Nat} (h : lo ≤ hi) (hr : hi ≤ rows) :
    plainSize (tab rows f) lo hi = .ok (psum f hi - psum f lo) := by
  unfold plainSize
  have := forRange_inv (body := fun i s => do
      let x ← rd (tab rows f) i
      .ok (s + x)) (fun k s => s + psum f lo = psum f k) lo hi h 0 (by simp) (by
    intro k s h1 h2 hP
    rw [rd_tab (by omega), ok_bind]
    refine ⟨_, rfl, ?_⟩
    rw [psum_succ]; omega)
  obtain ⟨s, e1, e2⟩ := this
  rw [e1]
  congr 1
  omega

theorem maskedSize_ok (hM : M.WF) {rows lo hi : Nat} {f : Nat → Nat} (h : lo ≤ hi) (hr : hi ≤ rows) (hrM : rows = M.rows) :
    maskedSize M (tab rows f) lo hi = .ok (psum (fun i => min (f i) (M.row i).length) hi - psum (fun i => min (f i) (M.row i).length) lo) := by
  unfold maskedSize
  have := forRange_inv (body := fun row size => do
      let x ← rd (tab rows f) row
      let m ← rowLen M row
      .ok (size + min x m)) (fun k s => s + psum (fun i => min (f i) (M.row i).length) lo = psum (fun i => min (f i) (M.row i).length) k)
    lo hi h 0 (by simp) (by
    intro k s h1 h2 hP
    rw [rd_tab (by omega), ok_bind, rowLen_eq hM (by omega), ok_bind]
    refine ⟨_, rfl, ?_⟩
    rw [psum_succ]; omega)
  obtain ⟨s, e1, e2⟩ := this
  rw [e1]
  congr 1
  omega

theorem longest_ok {X : CSR V} (hX : X.WF) {lo hi : Nat} (h : lo ≤ hi) (hr : hi ≤ X.rows) :
    ∃ m, longest X lo hi = .ok m ∧ ∀ i, lo ≤ i → i < hi → (X.row i).length ≤ m := by
  unfold longest
  exact forRange_inv (body := fun i m => do
      let l ← rowLen X i
      .ok (if l > m then l else m)) (fun k m => ∀ i, lo ≤ i → i < k → (X.row i).length ≤ m) lo hi h 0 (by intro i h1 h2; omega) (by
    intro k s h1 h2 hP
    rw [rowLen_eq hX (by omega), ok_bind]
    refine ⟨_, rfl, ?_⟩
    intro i h3 h4
    by_cases hi : i = k
    · subst hi; split <;> omega
    · have := hP i h3 (by omega)
      split <;> omega)

/-- The room for a row is enough for what has been stored and the row. -/
theorem room {exp : Nat → List (Nat × V)} {bound : Nat → Nat} {lo i hi : Nat} (hb : ∀ i < hi, (exp i).length ≤ bound i) (h1 : lo ≤ i) (h2 : i < hi) :
    (seg exp lo i).length + (exp i).length ≤ psum bound hi - psum bound lo := by
  rw [seg_length exp h1]
  have hm : ∀ k, lo ≤ k → k ≤ hi → psum (lens exp) k - psum (lens exp) lo + psum bound lo ≤ psum bound k := by
    intro k hk hkh
    induction k with
    | zero => have : lo = 0 := by omega
              subst this; simp
    | succ k ih =>
      rcases Nat.lt_or_ge k lo with h | h
      · have : lo = k + 1 := by omega
        subst this; omega
      · have := ih h (by omega)
        have h3 := psum_mono (f := lens exp) h
        rw [psum_succ, psum_succ]
        have := hb k (by omega)
        have e : lens exp k = (exp k).length := rfl
        omega
  have h3 := hm (i + 1) (by omega) (by omega)
  have h4 := psum_mono (f := bound) (show i + 1 ≤ hi by omega)
  have h5 := psum_mono (f := lens exp) h1
  rw [psum_succ] at h3
  have e : lens exp i = (exp i).length := rfl
  omega

theorem contract_masked (hadd : Spec.AssocComm add) (hA : A.WF) (hM : M.WF) (hMA : M.rows = A.rows)
    (hok : ∀ i < A.rows, HOk A B M i) (ver : Old.Ver) (hbd : ∀ i < A.rows, (Model.maskedRow mul add A B M i).length ≤ min (nprod A B i) (M.row i).length) :
    Contract (masked ver) mul add A B M (Model.maskedRow mul add A B M) (fun i => min (nprod A B i) (M.row i).length)
      (fun lo hi cap => ∀ i, lo ≤ i → i < hi → (A.row i).length ≤ cap) where
  size lo hi h1 h2 := maskedSize_ok hM h1 h2 hMA.symm
  aux lo hi h1 h2 := longest_ok hA h1 h2
  row lo hi i cap b h1 h2 h3 hinv hb := by
    obtain ⟨b', k, e1, e2, e3⟩ := maskedRow_ok hadd (hok i (by omega)) (ver := ver) (hinv i h1 h2) hb (room (fun i hi => hbd i (by omega)) h1 h2)
    exact ⟨cap, b', k, e1, hinv, by rw [seg_snoc _ h1]; exact e2, e3⟩

end Verif.Model.Gen
