import Verif.Model.MatEq
import Verif.Lemmas.MatObj
import Verif.Lemmas.Base1
import Mathlib.Data.List.Forall2

/-! # Comparison of matrices -/

namespace Verif.MatObj
open Spec (Mat WFAny SameUpTo logical)

variable {V : Type}

theorem stdEqual_aux {α β : Type} (cmp : α → β → Bool) (a : List α) (b : List β) : ∀ n i, a.length = i + n →
    b.length = i + n → ∃ r, stdEqual cmp a b n i = .ok r ∧
      (r = true ↔ List.Forall₂ (fun x y => cmp x y = true) (a.drop i) (b.drop i)) := by
  intro n
  induction n with
  | zero =>
    intro i ha hb
    refine ⟨true, rfl, ?_⟩
    rw [List.drop_of_length_le (by omega), List.drop_of_length_le (by omega)]
    simp
  | succ n ih =>
    intro i ha hb
    unfold stdEqual
    rw [rd_of_lt (by omega), ok_bind, rd_of_lt (by omega), ok_bind,
      List.drop_eq_getElem_cons (by omega : i < a.length), List.drop_eq_getElem_cons (by omega : i < b.length)]
    by_cases hc : cmp a[i] b[i] = true
    · rw [if_pos hc]
      obtain ⟨r, e, h⟩ := ih (i + 1) (by omega) (by omega)
      refine ⟨r, e, ?_⟩
      rw [h, List.forall₂_cons]
      simp [hc]
    · rw [if_neg hc]
      refine ⟨false, rfl, ?_⟩
      rw [List.forall₂_cons]
      simp [hc]

theorem stdEqual_ok {α β : Type} (cmp : α → β → Bool) {a : List α} {b : List β} {n : Nat} (ha : a.length = n)
    (hb : b.length = n) : ∃ r, stdEqual cmp a b n 0 = .ok r ∧
      (r = true ↔ List.Forall₂ (fun x y => cmp x y = true) a b) := by
  obtain ⟨r, e, h⟩ := stdEqual_aux cmp a b n 0 (by omega) (by omega)
  exact ⟨r, e, by simpa using h⟩

theorem stdEqual_eq {a b : List Nat} {n : Nat} (ha : a.length = n) (hb : b.length = n) :
    ∃ r, stdEqual (fun (x y : Nat) => decide (x = y)) a b n 0 = .ok r ∧ (r = true ↔ a = b) := by
  obtain ⟨r, e, h⟩ := stdEqual_ok (fun (x y : Nat) => decide (x = y)) ha hb
  refine ⟨r, e, ?_⟩
  rw [h]
  simp only [decide_eq_true_eq]
  exact List.forall₂_eq_eq_eq ▸ Iff.rfl

/-- the comparison of a lowered array with another one -/
theorem stdEqual_lower {a b : List Nat} {n : Nat} (ha : a.length = n) (hb : b.length = n) :
    ∃ t, lower a n = .ok t ∧ ∃ r, stdEqual (fun (x : Int) (y : Nat) => decide (x = y)) t b n 0 = .ok r ∧
      (r = true ↔ a = b.map (· + 1)) := by
  refine ⟨_, by unfold lower; rw [if_neg (by omega)], ?_⟩
  obtain ⟨r, e, h⟩ := stdEqual_ok (fun (x : Int) (y : Nat) => decide (x = y))
    (a := (a.take n).map fun (x : Nat) => (x : Int) - 1) (b := b) (n := n) (by simp [ha]) hb
  refine ⟨r, e, ?_⟩
  rw [h, List.take_of_length_le (by omega), List.forall₂_map_left_iff]
  rw [← List.forall₂_eq_eq_eq, List.forall₂_map_right_iff]
  constructor <;> intro H <;> refine H.imp ?_ <;> intro x y hxy
  · simp only [decide_eq_true_eq] at hxy
    omega
  · simp only [decide_eq_true_eq]
    omega

theorem Holds.arr_ids {h : Heap V} {o : Obj} {m : Mat V} (H : Holds h o m) : arr h o.ids o.nnz = .ok m.ids := by
  unfold arr
  have := H.nnz
  have hl := H.idsLen
  by_cases h0 : o.nnz = 0
  · rw [if_pos h0]
    have : m.ids = [] := List.eq_nil_of_length_eq_zero (by omega)
    rw [this]
  · rw [if_neg h0]
    obtain ⟨p, e, hp⟩ := H.ids (by omega)
    rw [e, ints_of hp]

theorem Holds.arr_vals {h : Heap V} {o : Obj} {m : Mat V} (H : Holds h o m) : arrV h o.vals o.nnz = .ok m.vals := by
  unfold arrV
  have := H.nnz
  have hl := H.valsLen
  by_cases h0 : o.nnz = 0
  · rw [if_pos h0]
    have : m.vals = [] := List.eq_nil_of_length_eq_zero (by omega)
    rw [this]
  · rw [if_neg h0]
    obtain ⟨p, e, hp⟩ := H.vals (by omega)
    rw [e, vals_of hp]

theorem Holds.arr_ptr {h : Heap V} {o : Obj} {m : Mat V} (H : Holds h o m) (hm : 0 < m.maj) :
    arr h o.ptr (o.maj + 1) = .ok m.ptr := by
  obtain ⟨p, e, hp⟩ := H.ptr hm
  simp [arr, e, ints_of hp]

/-- The comparison of arrays the operator makes. -/
def SameArrays (close : V → V → Bool) (m m' : Mat V) : Prop :=
  m.maj = m'.maj ∧ m.min = m'.min ∧ m.nnz = m'.nnz ∧
  (if m.zb = m'.zb then m.ptr = m'.ptr ∧ m.ids = m'.ids
   else if m.zb = false then m.ptr = m'.ptr.map (· + 1) ∧ m.ids = m'.ids.map (· + 1)
   else m'.ptr = m.ptr.map (· + 1) ∧ m'.ids = m.ids.map (· + 1)) ∧
  List.Forall₂ (fun x y => close x y = true) m.vals m'.vals

theorem eqOp_ok {k : Kind} {close : V → V → Bool} {h : Heap V} {o r : Obj} {m m' : Mat V} (H : Holds h o m)
    (H' : Holds h r m') (hm : 0 < m.maj) (hm' : 0 < m'.maj) (hk : k = .csc → m.zb = m'.zb) :
    ∃ b, eqOp k close h o r = .ok b ∧ (b = true ↔ SameArrays close m m') := by
  unfold eqOp
  by_cases hd : o.nnz ≠ r.nnz ∨ o.maj ≠ r.maj ∨ o.min ≠ r.min
  · rw [if_pos hd]
    refine ⟨false, rfl, ?_⟩
    simp only [Bool.false_eq_true, false_iff]
    rintro ⟨h1, h2, h3, -⟩
    rw [H.nnz, H'.nnz, H.maj, H'.maj, H.min, H'.min] at hd
    omega
  · rw [if_neg hd]
    have d1 : o.nnz = r.nnz := by omega
    have d2 : o.maj = r.maj := by omega
    have d3 : o.min = r.min := by omega
    have e1 := H.nnz
    have e2 := H'.nnz
    have e3 := H.maj
    have e4 := H'.maj
    have e5 := H.min
    have e6 := H'.min
    have l1 := H.ptrLen
    have l2 := H'.ptrLen
    rw [if_neg (by omega)] at l1 l2
    have l3 := H.idsLen
    have l4 := H'.idsLen
    have l5 := H.valsLen
    have l6 := H'.valsLen
    have z1 := H.zb
    have z2 := H'.zb
    have A : SameArrays close m m' ↔ ((if m.zb = m'.zb then m.ptr = m'.ptr ∧ m.ids = m'.ids
        else if m.zb = false then m.ptr = m'.ptr.map (· + 1) ∧ m.ids = m'.ids.map (· + 1)
        else m'.ptr = m.ptr.map (· + 1) ∧ m'.ids = m.ids.map (· + 1)) ∧
        List.Forall₂ (fun x y => close x y = true) m.vals m'.vals) := by
      unfold SameArrays
      constructor
      · rintro ⟨-, -, -, h⟩; exact h
      · intro h; exact ⟨by omega, by omega, by omega, h⟩
    rw [A]
    obtain ⟨bv, ev, hv⟩ := stdEqual_ok close (a := m.vals) (b := m'.vals) (n := o.nnz) (by omega) (by omega)
    have fin : ∀ (X : Res Bool) (P : Prop), (∃ b, X = .ok b ∧ (b = true ↔ P)) → ∃ b, (do
        let same ← X
        if same then do
          let v ← arrV h o.vals o.nnz
          let w ← arrV h r.vals o.nnz
          stdEqual close v w o.nnz 0
        else .ok false) = .ok b ∧ (b = true ↔ (P ∧ List.Forall₂ (fun x y => close x y = true) m.vals m'.vals)) := by
      rintro X P ⟨b, rfl, hb⟩
      rw [ok_bind]
      cases b with
      | false =>
        refine ⟨false, rfl, ?_⟩
        simp only [Bool.false_eq_true, false_iff] at hb ⊢
        tauto
      | true =>
        rw [if_pos rfl]
        have := H'.arr_vals
        rw [← d1] at this
        rw [H.arr_vals, ok_bind, this, ok_bind]
        exact ⟨bv, ev, by rw [hv]; simp at hb; tauto⟩
    refine fin _ _ ?_
    have p' := H'.arr_ptr hm'
    have i' := H'.arr_ids
    rw [← d2] at p'
    rw [← d1] at i'
    unfold sameIndex
    rw [H.arr_ptr hm, ok_bind, p', ok_bind, H.arr_ids, ok_bind, i', ok_bind]
    have two : ∀ {α : Type} (cmp : α → Nat → Bool) (p : List α) (q : List Nat) (n : Nat) (i : List α) (j : List Nat)
        (nnz : Nat) (P Q : Prop), (∃ b, stdEqual cmp p q n 0 = .ok b ∧ (b = true ↔ P)) →
        (∃ b, stdEqual cmp i j nnz 0 = .ok b ∧ (b = true ↔ Q)) →
        ∃ b, sameArrays cmp p q n i j nnz = .ok b ∧ (b = true ↔ (P ∧ Q)) := by
      rintro α cmp p q n i j nnz P Q ⟨b, e1, hb⟩ ⟨c, e2, hc⟩
      unfold sameArrays
      rw [e1, ok_bind]
      cases b with
      | false => exact ⟨false, rfl, by simp at hb ⊢; tauto⟩
      | true => exact ⟨c, by rw [if_pos rfl]; exact e2, by simp at hb ⊢; rw [hc]; tauto⟩
    by_cases hz : m.zb = m'.zb
    · rw [if_pos hz, if_neg (by rw [z1, z2]; simp [hz])]
      exact two _ _ _ _ _ _ _ _ _ (stdEqual_eq (by omega) (by omega)) (stdEqual_eq (by omega) (by omega))
    · rw [if_neg hz]
      have hk' : k = .csr := by
        cases k with
        | csr => rfl
        | csc => exact absurd (hk rfl) hz
      rw [if_pos ⟨hk', by rw [z1, z2]; exact hz⟩]
      rcases hzb : m.zb with _ | _
      · rw [z1, hzb]
        simp only [Bool.not_false, if_true]
        obtain ⟨tp, et, bt⟩ := stdEqual_lower (a := m.ptr) (b := m'.ptr) (n := o.maj + 1) (by omega) (by omega)
        obtain ⟨ti, ei, bi⟩ := stdEqual_lower (a := m.ids) (b := m'.ids) (n := o.nnz) (by omega) (by omega)
        rw [et, ok_bind, ei, ok_bind]
        exact two _ _ _ _ _ _ _ _ _ bt bi
      · rw [z1, hzb]
        simp only [Bool.not_true, Bool.false_eq_true, if_false, Bool.true_eq_false]
        obtain ⟨tp, et, bt⟩ := stdEqual_lower (a := m'.ptr) (b := m.ptr) (n := o.maj + 1) (by omega) (by omega)
        obtain ⟨ti, ei, bi⟩ := stdEqual_lower (a := m'.ids) (b := m.ids) (n := o.nnz) (by omega) (by omega)
        rw [et, ok_bind, ei, ok_bind]
        exact two _ _ _ _ _ _ _ _ _ bt bi

/-! ## Arrays and entries -/

theorem forall₂_triples {close : V → V → Bool} : ∀ (T T' : List (Nat × Nat × V)),
    List.Forall₂ (fun x y => x.1 = y.1 ∧ x.2.1 = y.2.1 ∧ close x.2.2 y.2.2 = true) T T' ↔
      T.map (·.1) = T'.map (·.1) ∧ T.map (·.2.1) = T'.map (·.2.1) ∧
        List.Forall₂ (fun x y => close x y = true) (T.map (·.2.2)) (T'.map (·.2.2)) := by
  intro T
  induction T with
  | nil =>
    intro T'
    cases T' <;> simp
  | cons x T ih =>
    intro T'
    cases T' with
    | nil => simp
    | cons y T' =>
      simp only [List.forall₂_cons, ih T', List.map_cons, List.cons.injEq]
      tauto

theorem triples_snd {A : CSR V} (h : A.WF) :
    (Spec.triples A).map (·.2.1) = A.colids ∧ (Spec.triples A).map (·.2.2) = A.values := by
  have key : (Spec.triples A).map (·.2) = A.colids.zip A.values := by
    unfold Spec.triples
    rw [List.map_flatMap]
    have : (fun i => ((A.row i).map fun x => (i, x.1, x.2)).map (·.2)) =
        fun i => slice (A.colids.zip A.values) (A.ptr i) (A.ptr (i + 1)) := by
      funext i
      rw [List.map_map]
      unfold CSR.row
      exact List.map_id' _
    rw [this, Conv.flatMap_slice _ A.ptr h.ptrFirst A.rows h.ptrMono (by rw [CSR.zip_length h, h.ptrLast]),
      h.ptrLast, List.take_of_length_le (by rw [CSR.zip_length h])]
  have hl : A.colids.length = A.values.length := by rw [h.colLen, h.valLen]
  constructor
  · have := congrArg (List.map Prod.fst) key
    rw [List.map_map, List.map_fst_zip (by omega)] at this
    exact this
  · have := congrArg (List.map Prod.snd) key
    rw [List.map_map, List.map_snd_zip (by omega)] at this
    exact this

theorem triples_fst {A : CSR V} (h : A.WF) :
    (Spec.triples A).map (·.1) = (List.range A.rows).flatMap fun i => List.replicate (A.ptr (i + 1) - A.ptr i) i := by
  unfold Spec.triples
  rw [List.map_flatMap]
  apply Conv.flatMap_congr_mem
  intro i hi
  rw [List.map_map]
  have hi : i < A.rows := by simpa using hi
  rw [← CSR.row_length h hi]
  exact List.map_const' ..

theorem count_blocks (c : Nat → Nat) (i : Nat) : ∀ n,
    ((List.range n).flatMap fun k => List.replicate (c k) k).count i = if i < n then c i else 0 := by
  intro n
  induction n with
  | zero => simp
  | succ n ih =>
    rw [List.range_succ, List.flatMap_append, List.count_append, ih]
    simp only [List.flatMap_cons, List.flatMap_nil, List.append_nil, List.count_replicate]
    by_cases h1 : i < n
    · have : ¬ n = i := by omega
      simp [h1, this, show i < n + 1 by omega]
    · by_cases h2 : n = i
      · subst h2; simp
      · simp [h1, h2, show ¬ i < n + 1 by omega]

theorem ptr_of_triples {A B : CSR V} (hA : A.WF) (hB : B.WF) (hr : A.rows = B.rows)
    (h : (Spec.triples A).map (·.1) = (Spec.triples B).map (·.1)) : A.rowptr = B.rowptr := by
  rw [triples_fst hA, triples_fst hB] at h
  have hd : ∀ i < A.rows, A.ptr (i + 1) - A.ptr i = B.ptr (i + 1) - B.ptr i := by
    intro i hi
    have := congrArg (List.count i) h
    rwa [count_blocks (fun k => A.ptr (k + 1) - A.ptr k), count_blocks (fun k => B.ptr (k + 1) - B.ptr k), if_pos hi,
      if_pos (hr ▸ hi)] at this
  have hp : ∀ i ≤ A.rows, A.ptr i = B.ptr i := by
    intro i
    induction i with
    | zero => intro _; rw [hA.ptrFirst, hB.ptrFirst]
    | succ i ih =>
      intro hi
      have h1 := ih (by omega)
      have h2 := hd i (by omega)
      have h3 := hA.ptrMono i (by omega)
      have h4 := hB.ptrMono i (by omega)
      omega
  apply List.ext_getElem?
  intro i
  by_cases hi : i ≤ A.rows
  · have l1 : i < A.rowptr.length := by rw [hA.ptrLen]; omega
    have l2 : i < B.rowptr.length := by rw [hB.ptrLen]; omega
    have := hp i hi
    unfold CSR.ptr at this
    simp only [List.getD_eq_getElem?_getD, List.getElem?_eq_getElem l1, List.getElem?_eq_getElem l2,
      Option.getD_some] at this
    rw [List.getElem?_eq_getElem l1, List.getElem?_eq_getElem l2, this]
  · rw [List.getElem?_eq_none (by rw [hA.ptrLen]; omega), List.getElem?_eq_none (by rw [hB.ptrLen]; omega)]

/-- Equal arrays and equal entries. -/
theorem arrays_iff {close : V → V → Bool} {A B : CSR V} (hA : A.WF) (hB : B.WF) (hr : A.rows = B.rows) :
    List.Forall₂ (fun x y => x.1 = y.1 ∧ x.2.1 = y.2.1 ∧ close x.2.2 y.2.2 = true) (Spec.triples A) (Spec.triples B) ↔
      A.rowptr = B.rowptr ∧ A.colids = B.colids ∧ List.Forall₂ (fun x y => close x y = true) A.values B.values := by
  rw [forall₂_triples, (triples_snd hA).1, (triples_snd hA).2, (triples_snd hB).1, (triples_snd hB).2]
  constructor
  · rintro ⟨h1, h2, h3⟩; exact ⟨ptr_of_triples hA hB hr h1, h2, h3⟩
  · rintro ⟨h1, h2, h3⟩
    refine ⟨?_, h2, h3⟩
    rw [triples_fst hA, triples_fst hB, hr]
    unfold CSR.ptr
    rw [h1]

theorem nnz_of_arrays {A B : CSR V} (hA : A.WF) (hB : B.WF) (h : A.colids = B.colids) : A.nnz = B.nnz := by
  rw [← hA.colLen, ← hB.colLen, h]

theorem map_succ_inj {a b : List Nat} : a.map (· + 1) = b.map (· + 1) ↔ a = b := by
  constructor
  · intro h
    exact List.map_injective_iff.2 (fun x y hxy => by simpa using hxy) h
  · rintro rfl; rfl

theorem logical_any {A A0 : CSR V} (h : A0.WF) (e : A = A0 ∨ A = Conv.oneBased A0) : logical A = Spec.triples A0 := by
  rcases e with rfl | rfl
  · exact Conv.logical_wf h
  · rw [Conv.logical_one h, Conv.logical_wf h]

theorem sameArrays_iff {close : V → V → Bool} {m m' : Mat V} (h : WFAny m.toCSR) (h' : WFAny m'.toCSR) :
    SameArrays close m m' ↔ SameUpTo close m.toCSR m'.toCSR := by
  obtain ⟨A, hA, eA⟩ := h
  obtain ⟨B, hB, eB⟩ := h'
  unfold SameUpTo
  rw [logical_any hA eA, logical_any hB eB]
  have zA := hA.zero
  have zB := hB.zero
  rcases m with ⟨maj, min, nnz, ptr, ids, vals, zb⟩
  rcases m' with ⟨maj', min', nnz', ptr', ids', vals', zb'⟩
  unfold SameArrays
  unfold Mat.toCSR at *
  simp only at *
  rcases A with ⟨ar, ac, an, ap, ai, av, az⟩
  rcases B with ⟨br, bc, bn, bp, bi, bv, bz⟩
  simp only at zA zB
  subst zA zB
  have key := fun hr => arrays_iff (close := close) hA hB hr
  have hn := nnz_of_arrays hA hB
  simp only at key hn
  rcases eA with eA | eA <;> rcases eB with eB | eB <;>
    simp only [CSR.mk.injEq] at eA eB <;>
    obtain ⟨rfl, rfl, rfl, rfl, rfl, rfl, rfl⟩ := eA <;>
    obtain ⟨rfl, rfl, rfl, rfl, rfl, rfl, rfl⟩ := eB <;>
    simp only [if_true, Bool.true_eq_false, Bool.false_eq_true, if_false, map_succ_inj]
  all_goals
    constructor
    · rintro ⟨h1, h2, h3, ⟨h4, h5⟩, h6⟩
      exact ⟨h1, h2, (key h1).2 ⟨by simp [h4], by simp [h5], h6⟩⟩
    · rintro ⟨h1, h2, h3⟩
      obtain ⟨h4, h5, h6⟩ := (key h1).1 h3
      exact ⟨h1, h2, hn h5, ⟨by simp [h4], by simp [h5]⟩, h6⟩

/-! ## Sorted matrices with exact comparison -/

theorem triples_sorted {A : CSR V} (h : A.WF) (hs : A.SortedRows) :
    (Spec.triples A).Pairwise fun a b => a.1 < b.1 ∨ a.1 = b.1 ∧ a.2.1 < b.2.1 := by
  unfold Spec.triples
  rw [List.pairwise_flatMap]
  refine ⟨fun i hi => ?_, ?_⟩
  · rw [List.pairwise_map]
    have := hs i (by simpa using hi)
    rw [← CSR.row_map_fst h, List.pairwise_map] at this
    exact this.imp fun hab => Or.inr ⟨rfl, hab⟩
  · refine List.pairwise_lt_range.imp ?_
    intro i j hij x hx y hy
    rw [List.mem_map] at hx hy
    obtain ⟨_, _, rfl⟩ := hx
    obtain ⟨_, _, rfl⟩ := hy
    exact Or.inl hij

theorem triples_eq_iff {A B : CSR V} (hA : A.WF) (hB : B.WF) (sA : A.SortedRows) (sB : B.SortedRows) :
    Spec.triples A = Spec.triples B ↔ ∀ t, t ∈ Spec.triples A ↔ t ∈ Spec.triples B := by
  constructor
  · intro h t; rw [h]
  · intro h
    have pA := triples_sorted hA sA
    have pB := triples_sorted hB sB
    have nd : ∀ {l : List (Nat × Nat × V)}, l.Pairwise (fun a b => a.1 < b.1 ∨ a.1 = b.1 ∧ a.2.1 < b.2.1) → l.Nodup := by
      intro l hl
      refine hl.imp ?_
      rintro a b hab rfl
      omega
    exact List.Perm.eq_of_pairwise (fun a b _ _ h1 h2 => by omega) pA pB
      ((List.perm_ext_iff_of_nodup (nd pA) (nd pB)).2 h)

end Verif.MatObj
