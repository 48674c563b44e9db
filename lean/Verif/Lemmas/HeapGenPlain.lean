import Verif.Lemmas.HeapGenRow
import Verif.Lemmas.HeapMult
import Mathlib.Data.List.Perm.Basic

/-! # The heap row algorithms without a mask -/

namespace Verif.Model.Gen

open Heap (HP Ent HOk St Pend IsHeap Next Skip EOk)
open Bin (nprod)
open HeapMult (noMask)

variable {V : Type} {mul add : V → V → V} {A B M : CSR V} {row : Nat}

/-! ## Arrays of entries in any order -/

theorem isHeap_of_sorted {l : List Ent} (h : l.Pairwise (·.key ≤ ·.key)) : IsHeap 0 l := by
  intro i h0 hi _
  rw [List.pairwise_iff_getElem] at h
  have := h ((i - 1) / 2) i (by omega) hi (by omega)
  simp only [List.getD_eq_getElem?_getD]
  rw [List.getElem?_eq_getElem (by omega), List.getElem?_eq_getElem hi]
  exact this

/-- The entries in the order of their keys -/
def srt (l : List Ent) : List Ent := l.mergeSort fun a b => decide (a.key ≤ b.key)

theorem srt_perm (l : List Ent) : (srt l).Perm l := List.mergeSort_perm _ _

theorem srt_sorted (l : List Ent) : (srt l).Pairwise (·.key ≤ ·.key) := by
  have := List.pairwise_mergeSort (le := fun a b : Ent => decide (a.key ≤ b.key))
    (fun a b c h1 h2 => by simp at *; omega) (fun a b => by simp; omega) l
  exact this.imp (by simp)

theorem srt_heap (l : List Ent) : IsHeap 0 (srt l) := isHeap_of_sorted (srt_sorted l)

theorem cons_heap {e : Ent} {l : List Ent} (h : ∀ x ∈ l, e.key ≤ x.key) : IsHeap 0 (e :: srt l) :=
  isHeap_of_sorted (List.pairwise_cons.2 ⟨fun x hx => h x ((srt_perm l).mem_iff.1 hx), srt_sorted l⟩)

theorem St.of_perm {L : List Nat} {all Q : List (Nat × V)} {es es' : List Ent} {prev : Option Nat} {out : List (Nat × V)}
    (st : St mul add A B row L all Q es prev out) (hp : es'.Perm es) (hh : IsHeap 0 es') : St mul add A B row L all Q es' prev out where
  heap := hh
  ok := fun x hx => st.ok x (hp.mem_iff.1 hx)
  perm := fun c hc => ((Heap.pick_perm (Heap.Pend_perm hp) c).append_left _).trans (st.perm c hc)
  mem := st.mem
  le := fun p hq x hx => st.le p hq x (hp.mem_iff.1 hx)
  prev := st.prev
  out := st.out

/-! ## The next entry -/

theorem maxElem_ok : ∀ (es pre : List Ent) (at_ best : Nat), (h : at_ < pre.length) → (pre[at_]).key = best →
    (∀ x ∈ pre, best ≤ x.key) → ∃ e, (pre ++ es)[maxElem es pre.length at_ best]? = some e ∧ ∀ x ∈ pre ++ es, e.key ≤ x.key := by
  intro es
  induction es with
  | nil =>
    intro pre at_ best h h1 h2
    refine ⟨pre[at_], ?_, ?_⟩
    · simp [maxElem, h]
    · intro x hx
      rw [h1]; exact h2 x (by simpa using hx)
  | cons e es ih =>
    intro pre at_ best h h1 h2
    unfold maxElem
    split
    · rename_i hlt
      have := ih (pre ++ [e]) pre.length e.key (by simp) (by simp) (by
        intro x hx
        rcases List.mem_append.1 hx with hx | hx
        · exact Nat.le_of_lt (Nat.lt_of_lt_of_le hlt (h2 x hx))
        · simp at hx; subst hx; exact Nat.le_refl _)
      simpa using this
    · rename_i hge
      have := ih (pre ++ [e]) at_ best (by simp; omega) (by rw [List.getElem_append_left h]; exact h1) (by
        intro x hx
        rcases List.mem_append.1 hx with hx | hx
        · exact h2 x hx
        · simp at hx; subst hx; omega)
      simpa using this

theorem nextIdx_ok {T : Nat} {es : List Ent} (hne : es ≠ []) (hh : T < es.length → IsHeap 0 es) :
    ∃ e, es[nextIdx T es]? = some e ∧ (∀ x ∈ es, e.key ≤ x.key) ∧ (T < es.length → nextIdx T es = 0) := by
  cases es with
  | nil => exact absurd rfl hne
  | cons e es =>
    unfold nextIdx
    split
    · rename_i hl
      refine ⟨e, rfl, ?_, fun _ => rfl⟩
      intro x hx
      rcases List.mem_cons.1 hx with rfl | hx
      · exact Nat.le_refl _
      · exact (hh hl).top x hx
    · rename_i hl
      obtain ⟨e', h1, h2⟩ := maxElem_ok es [e] 0 e.key (by simp) rfl (by simp)
      exact ⟨e', h1, h2, fun h => absurd h hl⟩

theorem swap_perm {es : List Ent} {idx : Nat} (h : idx < es.length) (x : Ent) : ∃ last, rd (es.set idx x) ((es.set idx x).length - 1) = .ok last ∧
    wr (es.set idx x) idx last = .ok ((es.set idx x).set idx last) ∧ ((es.set idx x).set idx last).dropLast.Perm (es.eraseIdx idx) := by
  rcases List.eq_nil_or_concat es with rfl | ⟨l, z, rfl⟩
  · cases h
  · rw [List.concat_eq_append] at *
    rw [List.length_append, List.length_singleton] at h
    by_cases hi : idx < l.length
    · refine ⟨z, ?_, ?_, ?_⟩
      · apply rd_of_getElem?
        rw [List.length_set, List.getElem?_set_ne (by simp; omega)]
        simp
      · exact wr_of_lt (by simp; omega)
      · rw [List.set_set, List.set_append_left _ _ hi, List.dropLast_concat, List.eraseIdx_append_of_lt_length hi]
        exact (List.set_perm_cons_eraseIdx hi z).trans (List.perm_append_singleton z _).symm
    · have hi : idx = l.length := by omega
      subst hi
      refine ⟨x, ?_, ?_, ?_⟩
      · apply rd_of_getElem?
        simp
      · exact wr_of_lt (by simp)
      · rw [List.set_set, List.eraseIdx_eq_dropLast (by simp)]
        simp

theorem linNext_ok (h : HOk A B M row) {T cap idx : Nat} {es : List Ent} {e : Ent} (L : List Nat) (he : es[idx]? = some e)
    (hok : ∀ x ∈ es, EOk A B row x) (hmin : ∀ x ∈ es, e.key ≤ x.key) (hh : T < es.length → IsHeap 0 es) (h0 : T < es.length → idx = 0) :
    ∃ es', linNext T A B ⟨cap, es⟩ idx e = .ok ⟨cap, es'⟩ ∧ (T < es'.length → IsHeap 0 es') ∧
      Next mul A B row L e (srt (es.eraseIdx idx)) (srt es') := by
  obtain ⟨hi, hget⟩ := List.getElem?_eq_some_iff.1 he
  have hmem : e ∈ es := hget ▸ List.getElem_mem hi
  have hee := hok e hmem
  have hcons : IsHeap 0 (e :: srt (es.eraseIdx idx)) := cons_heap fun x hx => hmin x (List.mem_of_mem_eraseIdx hx)
  have hok' : ∀ x ∈ e :: srt (es.eraseIdx idx), EOk A B row x := by
    intro x hx
    rcases List.mem_cons.1 hx with rfl | hx
    · exact hee
    · exact hok x (List.mem_of_mem_eraseIdx ((srt_perm _).mem_iff.1 hx))
  have hin := h.inner_lt hee.hi
  have hr1 := CSR.rd_ptr h.wfB (i := Heap.col A e.runr + 1) hin
  unfold linNext
  simp only [ok_bind, Heap.rd_col h.wfA (h.a_lt hee.hi), hr1]
  by_cases hl : e.loc + 1 < B.ptr (Heap.col A e.runr + 1)
  · rw [if_pos hl, h.rdB hee.hi hl, ok_bind, wr_of_lt hi, ok_bind]
    have hsk : Skip A B L e.runr (e.loc + 1) (some (Heap.col B (e.loc + 1), e.loc + 1)) :=
      ⟨Nat.le_refl _, hl, rfl, fun k h1 h2 => by omega⟩
    by_cases hT : T < es.length
    · rw [if_pos hT]
      have := h0 hT
      subst this
      cases es with
      | nil => cases hi
      | cons e1 r =>
        obtain ⟨a, k1, k2, k3⟩ := Heap.sink_ok cap ((hh hT).replace ⟨Heap.col B (e.loc + 1), e.runr, e.loc + 1⟩)
        refine ⟨a, k1, fun _ => k3, ?_⟩
        refine Next.sink h hcons hok' hsk (srt_heap a) ?_
        exact (srt_perm a).trans (k2.trans ((srt_perm r).symm.cons _))
    · rw [if_neg hT]
      refine ⟨_, rfl, fun hc => absurd (by simpa using hc) hT, ?_⟩
      refine Next.sink h hcons hok' hsk (srt_heap _) ?_
      exact (srt_perm _).trans ((List.set_perm_cons_eraseIdx hi _).trans ((srt_perm _).symm.cons _))
  · rw [if_neg hl, wr_of_lt hi, ok_bind]
    have hsk : Skip A B L e.runr (e.loc + 1) none := by
      intro k hk1 hk2
      simp only [Heap.bend] at hk2
      omega
    by_cases hT : T < es.length
    · rw [if_pos hT]
      have := h0 hT
      subst this
      cases es with
      | nil => cases hi
      | cons e1 r =>
        obtain ⟨a, k1, k2, k3⟩ := Heap.pop_ok cap ((hh hT).replace ⟨e.key, e.runr, e.loc + 1⟩)
        refine ⟨a, k1, fun _ => k3, ?_⟩
        refine Next.pop h hcons hok' hsk (srt_heap a) ?_
        exact (srt_perm a).trans (k2.trans (srt_perm r).symm)
    · rw [if_neg hT]
      obtain ⟨last, k1, k2, k3⟩ := swap_perm hi ⟨e.key, e.runr, e.loc + 1⟩
      rw [k1, ok_bind, k2, ok_bind]
      refine ⟨_, rfl, fun hc => ?_, ?_⟩
      · simp at hc; omega
      · refine Next.pop h hcons hok' hsk (srt_heap _) ?_
        exact (srt_perm _).trans (k3.trans (srt_perm _).symm)

/-! ## The loop -/

theorem filterMap_length_le {f g : Nat → Option (Nat × V)} (h : ∀ j, (f j).isSome → (g j).isSome) (l : List Nat) :
    (l.filterMap f).length ≤ (l.filterMap g).length := by
  induction l with
  | nil => simp
  | cons a l ih =>
    rw [List.filterMap_cons, List.filterMap_cons]
    have := h a
    cases hf : f a with
    | none => cases hg : g a <;> simp <;> omega
    | some x =>
      rw [hf] at this
      obtain ⟨y, hy⟩ := Option.isSome_iff_exists.1 (this rfl)
      rw [hy]; simpa using ih

theorem St.out_le {L : List Nat} {all Q : List (Nat × V)} {es : List Ent} {prev : Option Nat} {out : List (Nat × V)}
    (st : St mul add A B row L all Q es prev out) :
    out.length ≤ (L.filterMap fun j => (Spec.sum1 add (pick all j)).map fun v => (j, v)).length := by
  have hsub : ∀ j ∈ L, pick Q j ≠ [] → pick all j ≠ [] := by
    intro j hj hq ha
    have := st.perm j hj
    rw [ha] at this
    exact hq (List.append_eq_nil_iff.1 this.eq_nil).1
  have hsome : ∀ (op : V → V → V) (l : List V) , (Spec.sum1 op l).isSome ↔ l ≠ [] := by
    intro op l
    cases l <;> simp [Spec.sum1]
  have e1 : out = L.filterMap fun j => if j ∈ L then (Spec.sum1 (Heap.flip' add) (pick Q j)).map fun v => (j, v) else none := by
    refine st.out.trans (Heap.filterMap_congr_mem fun j hj => ?_)
    rw [if_pos hj]
  rw [e1]
  apply filterMap_length_le
  intro j hj
  split at hj
  · rename_i hm
    rw [Option.isSome_map, hsome] at hj ⊢
    exact hsub j hm hj
  · cases hj

theorem plainLoop_ok (hadd : Spec.AssocComm add) (h : HOk A B (noMask A.rows B.cols) row) {T cap L : Nat} {all pre : List (Nat × V)}
    (hr : pre.length + ((List.range B.cols).filterMap fun j => (Spec.sum1 add (pick all j)).map fun v => (j, v)).length ≤ L) :
    ∀ (fuel : Nat) (es : List Ent) (Q out : List (Nat × V)) (b : Buf V),
      (T < es.length → IsHeap 0 es) → (Pend mul A B es).length < fuel →
      St mul add A B row (List.range B.cols) all Q (srt es) (out.getLast?.map Prod.fst) out → Holds b (pre ++ out) L →
      ∃ b', plainLoop T mul add A B fuel ⟨cap, es⟩ out.length b =
          .ok (b', ((List.range B.cols).filterMap fun j => (Spec.sum1 add (pick all j)).map fun v => (j, v)).length) ∧
        Holds b' (pre ++ (List.range B.cols).filterMap fun j => (Spec.sum1 add (pick all j)).map fun v => (j, v)) L := by
  intro fuel
  induction fuel with
  | zero => intro es Q out b _ h1; omega
  | succ fuel ih =>
    intro es Q out b hh hf st hb
    unfold plainLoop
    by_cases hes : es = []
    · subst hes
      simp only [List.isEmpty_nil, if_true]
      have := st.done hadd (by intro c _; simp [srt, Pend, pick])
      rw [← this]
      exact ⟨b, rfl, hb⟩
    · have hemp : es.isEmpty = false := by simpa using hes
      simp only [hemp, Bool.false_eq_true, if_false]
      obtain ⟨e, k1, k2, k3⟩ := nextIdx_ok (T := T) hes hh
      obtain ⟨hi, hget⟩ := List.getElem?_eq_some_iff.1 k1
      have hok : ∀ x ∈ es, EOk A B row x := fun x hx => st.ok x ((srt_perm es).mem_iff.2 hx)
      have he := hok e (hget ▸ List.getElem_mem hi)
      obtain ⟨es', n1, n2, nx⟩ := linNext_ok (mul := mul) h (cap := cap) (List.range B.cols) k1 hok k2 hh k3
      obtain ⟨x, y, hx, hy, -⟩ := Heap.pendAt_cons (mul := mul) h he.hi he.bhi
      have hpm : (e :: srt (es.eraseIdx (nextIdx T es))).Perm (srt es) := by
        refine List.Perm.trans ((srt_perm _).cons e) (List.Perm.trans ?_ (srt_perm es).symm)
        rw [← hget]
        exact List.getElem_cons_eraseIdx_perm hi
      have st' := St.of_perm st hpm (cons_heap fun x hx => k2 x (List.mem_of_mem_eraseIdx hx))
      have hin : e.key ∈ List.range B.cols := by
        rw [List.mem_range, he.key]
        exact h.col_lt he.hi he.bhi
      obtain ⟨prev', out', q1, q2⟩ := st'.hit h List.pairwise_lt_range hin nx hx hy
      obtain ⟨b', s1, s2, s3⟩ := store_ok hb q1 (by have := St.out_le q2; omega)
      subst s3
      have hlen : (Pend mul A B es').length + 1 ≤ (Pend mul A B es).length := by
        have h1 := nx.len
        rw [(Heap.Pend_perm (srt_perm es')).length_eq, (Heap.Pend_perm (hpm.trans (srt_perm es))).length_eq] at h1
        exact h1
      obtain ⟨b2, e1, e2⟩ := ih es' _ out' b' n2 (by omega) q2 s2
      refine ⟨b2, ?_, e2⟩
      rw [rd_of_getElem? k1, ok_bind]
      simp only [hx, hy, ok_bind, s1, n1, e1]

/-! ## A row -/

/-- The row of the product, by increasing column -/
def prodRow (mul add : V → V → V) (A B : CSR V) (i : Nat) : List (Nat × V) :=
  (List.range B.cols).filterMap fun j => (Spec.dot mul add A B i j).map fun v => (j, v)

theorem prodRow_len (hB : B.WF) (i : Nat) : (prodRow mul add A B i).length ≤ nprod A B i := by
  have h1 : prodRow mul add A B i = complRow true mul add A B (noMask A.rows B.cols) i := by
    rw [Heap.complRow_eq_outside hB]
    unfold prodRow Heap.outside
    rw [HeapMult.noMask_row]
    simp
  rw [h1]
  exact complRow_bound

theorem hok_plain (hA : A.WF) (hB : B.WF) (hAB : A.cols = B.rows) (sB : B.SortedRows) (hi : row < A.rows) :
    HOk A B (noMask A.rows B.cols) row where
  wfA := hA
  wfB := hB
  wfM := HeapMult.noMask_wf _ _
  sh := ⟨hAB, rfl, rfl⟩
  nodup := by rw [HeapMult.noMask_row]; exact List.nodup_nil
  lt := hi
  sB := sB
  sM := by rw [HeapMult.noMask_row]; exact List.Pairwise.nil

theorem plainRow_ok (hadd : Spec.AssocComm add) (h : HOk A B (noMask A.rows B.cols) row) (T : Nat) {cap L : Nat}
    (hcap : (A.row row).length ≤ cap) {b : Buf V} {pre : List (Nat × V)} (hb : Holds b pre L)
    (hr : pre.length + (prodRow mul add A B row).length ≤ L) :
    ∃ b', plainRow T mul add A B row cap b = .ok (cap, b', some (prodRow mul add A B row).length) ∧
      Holds b' (pre ++ prodRow mul add A B row) L := by
  have hm : prodRow mul add A B row =
      (List.range B.cols).filterMap fun j => (Spec.sum1 add (pick (prods mul A B row) j)).map fun v => (j, v) := by
    unfold prodRow
    simp only [dot_eq]
  rw [hm] at hr ⊢
  unfold plainRow initEntries
  rw [CSR.rd_ptr h.wfA (Nat.le_of_lt h.lt), CSR.rd_ptr h.wfA (i := row + 1) h.lt]
  simp only [ok_bind]
  obtain ⟨es, h1, h2, h3, h4⟩ := Heap.fill_ok (mul := mul) h (L := List.range B.cols) hcap
    (fun j s _ hj2 => Heap.initStepC_ok h (List.range B.cols) (s := s) hj2)
  rw [h1, ok_bind]
  have hst : ∀ es', es'.Perm es → St mul add A B row (List.range B.cols) (prods mul A B row) [] (srt es') none [] := by
    intro es' hp
    have hp' := (srt_perm es').trans hp
    exact ⟨srt_heap _, fun x hx => h2 x (hp'.mem_iff.1 hx),
      fun c hc => by simpa [← h3 c hc] using Heap.pick_perm (Heap.Pend_perm hp') c,
      by simp, by simp, ⟨fun _ => rfl, by simp⟩, by
        symm; apply Heap.filterMap_eq_nil_of; intro j _; rfl⟩
  obtain ⟨es', k1, k2, k3⟩ : ∃ es', order T ⟨cap, es⟩ = .ok ⟨cap, es'⟩ ∧
      es'.Perm es ∧ (T < es'.length → IsHeap 0 es') := by
    unfold order
    split
    · obtain ⟨a, q1, q2, q3⟩ := Heap.makeHeap_ok es
      exact ⟨a, by simp [HP.make, q1], q2, fun _ => q3⟩
    · rename_i hT
      exact ⟨es, rfl, .refl _, fun hc => absurd hc hT⟩
  rw [k1, ok_bind, Heap.turns_eq (mul := mul)]
  obtain ⟨b', e1, e2⟩ := plainLoop_ok hadd h (T := T) (cap := cap) hr ((prods mul A B row).length + 1) es' [] [] b k3
    (by rw [(Heap.Pend_perm k2).length_eq]; omega) (hst es' k2) (by simpa using hb)
  rw [List.length_nil] at e1
  rw [e1]
  exact ⟨b', rfl, e2⟩

theorem contract_plain (hadd : Spec.AssocComm add) (hA : A.WF) (hB : B.WF) (hAB : A.cols = B.rows) (sB : B.SortedRows) (T : Nat) (M : CSR V) :
    Contract (plain T) mul add A B M (prodRow mul add A B) (nprod A B) (fun lo hi cap => ∀ i, lo ≤ i → i < hi → (A.row i).length ≤ cap) where
  size lo hi h1 h2 := plainSize_ok h1 h2
  aux lo hi h1 h2 := longest_ok hA h1 h2
  row lo hi i cap b h1 h2 h3 hinv hb := by
    obtain ⟨b', e1, e2⟩ := plainRow_ok hadd (hok_plain hA hB hAB sB (by omega)) T (hinv i h1 h2) hb (room (fun i _ => prodRow_len hB i) h1 h2)
    exact ⟨cap, b', _, e1, hinv, by rw [seg_snoc _ h1]; exact e2, Or.inl rfl⟩

end Verif.Model.Gen
