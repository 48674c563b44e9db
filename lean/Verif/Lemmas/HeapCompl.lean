import Verif.Lemmas.HeapNum

/-! # The rows computed by the complemented heap algorithm, and the contracts -/

namespace Verif.Model.Heap

open Msa (Ok Inputs)
open Mca (Inc)
open List (Perm)

variable {V : Type} {mul add : V → V → V} {A B M : CSR V} {row : Nat}

/-- The columns outside the mask row. -/
def outside (B M : CSR V) (row : Nat) : List Nat := (List.range B.cols).filter fun c => c ∉ M.rowCols row

theorem outside_sorted (B M : CSR V) (row : Nat) : (outside B M row).Pairwise (· < ·) :=
  List.Pairwise.filter _ List.pairwise_lt_range

theorem mem_outside {c : Nat} : c ∈ outside B M row ↔ c < B.cols ∧ c ∉ M.rowCols row := by
  simp [outside]

theorem HOk.col_lt (h : HOk A B M row) {j k : Nat} (hj : j < A.ptr (row + 1)) (hk : k < bend A B j) :
    col B k < B.cols := by
  have : k < B.colids.length := by rw [h.wfB.colLen]; exact Nat.lt_of_lt_of_le hk (h.bend_le hj)
  apply h.wfB.inBounds
  simp [col, this]

/-- All entries have keys after the whole mask row. -/
def Past (M : CSR V) (row : Nat) (es : List Ent) : Prop :=
  ∀ m', M.ptr row ≤ m' → m' < M.ptr (row + 1) → ∀ x ∈ es, col M m' < x.key

theorem numLoop1_ok (h : HOk A B M row) {cap : Nat} {all : List (Nat × V)} :
    ∀ (fuel : Nat) (es : List Ent) (m : Nat) (Q : List (Nat × V)) (prev : Option Nat) (out : List (Nat × V)),
      (Pend mul A B es).length < fuel → St mul add A B row (outside B M row) all Q es prev out →
      M.ptr row ≤ m → m ≤ M.ptr (row + 1) → (∀ m', M.ptr row ≤ m' → m' < m → ∀ x ∈ es, col M m' < x.key) →
      ∃ es' Q' prev' out', numLoop1 mul add A B M (M.ptr (row + 1)) fuel ⟨cap, es⟩ m prev out =
        .ok (⟨cap, es'⟩, prev', out') ∧ St mul add A B row (outside B M row) all Q' es' prev' out' ∧
        Past M row es' ∧ (Pend mul A B es').length ≤ (Pend mul A B es).length := by
  intro fuel
  induction fuel with
  | zero => intro es m Q prev out h1; omega
  | succ fuel ih =>
    intro es m Q prev out hf st hm0 hm1 hlow
    unfold numLoop1
    cases es with
    | nil =>
      simp only [List.isEmpty_nil, if_true]
      exact ⟨[], Q, prev, out, rfl, st, by intro _ _ _ x hx; simp at hx, Nat.le_refl _⟩
    | cons e rest =>
      have hrd : rd (e :: rest) 0 = .ok e := rfl
      simp only [List.isEmpty_cons, Bool.false_eq_true, if_false, hrd, ok_bind]
      have he := st.ok e (by simp)
      obtain ⟨r, hr1, hr2, hr3, hr4, hr5⟩ := advMask_ok h e.key (M.ptr (row + 1) - m) m hm0 hm1 (Nat.le_refl _)
        (fun m' k1 k2 => hlow m' k1 k2 e (by simp))
      rw [hr1, ok_bind]
      by_cases hend : M.ptr (row + 1) ≤ r
      · rw [if_pos hend]
        refine ⟨_, Q, prev, out, rfl, st, ?_, Nat.le_refl _⟩
        intro m' k1 k2 x hx
        have h1 := hr4 m' k1 (by omega)
        rcases List.mem_cons.1 hx with rfl | hx
        · exact h1
        · exact Nat.lt_of_lt_of_le h1 (st.heap.top x hx)
      · rw [if_neg hend, h.rdM (by omega), ok_bind]
        obtain ⟨es', hn1, nx⟩ := insertNextC_ok (mul := mul) h (cap := cap) (outside B M row) st.heap st.ok
        have hlow' : ∀ m', M.ptr row ≤ m' → m' < r → ∀ x ∈ es', col M m' < x.key := by
          intro m' k1 k2 x hx
          exact Nat.lt_of_lt_of_le (hr4 m' k1 k2) (nx.key x hx)
        have hlen := nx.len
        have hnot : e.key ≠ col M r → e.key ∈ outside B M row := by
          intro hk
          rw [mem_outside]
          refine ⟨by rw [he.key]; exact h.col_lt he.hi he.bhi, ?_⟩
          intro hmem
          obtain ⟨m', k1, k2, k3⟩ := h.mem_mask.1 hmem
          rcases Nat.lt_or_ge m' r with h' | h'
          · have := hr4 m' k1 h'; omega
          · have h1 := h.incM.le hr2 h' k2
            have h2 := hr5 (by omega)
            omega
        by_cases hk : e.key ≠ col M r
        · rw [if_pos hk]
          obtain ⟨a, b, ha, hb, -⟩ := pendAt_cons (mul := mul) h he.hi he.bhi
          obtain ⟨prev', out', k1, k2⟩ := st.hit h (outside_sorted B M row) (hnot hk) nx ha hb
          simp only [ha, ok_bind, hb, k1, hn1]
          obtain ⟨es2, Q2, p2, o2, q1, q2, q3, q4⟩ := ih es' r _ prev' out' (by omega) k2 hr2 hr3 hlow'
          exact ⟨es2, Q2, p2, o2, q1, q2, q3, by omega⟩
        · rw [if_neg hk]
          simp only [ok_bind, hn1]
          obtain ⟨es2, Q2, p2, o2, q1, q2, q3, q4⟩ := ih es' r Q prev out (by omega) (st.miss h (by
            rw [mem_outside]
            rintro ⟨-, hh⟩
            exact hh (h.mem_mask.2 ⟨r, hr2, by omega, (Decidable.not_not.1 hk).symm⟩)) nx) hr2 hr3 hlow'
          exact ⟨es2, Q2, p2, o2, q1, q2, q3, by omega⟩

theorem numLoop2_ok (hadd : Spec.AssocComm add) (h : HOk A B M row) {cap : Nat} {all : List (Nat × V)} :
    ∀ (fuel : Nat) (es : List Ent) (Q : List (Nat × V)) (prev : Option Nat) (out : List (Nat × V)),
      (Pend mul A B es).length < fuel → St mul add A B row (outside B M row) all Q es prev out → Past M row es →
      numLoop2 mul add A B fuel ⟨cap, es⟩ prev out = .ok (⟨cap, []⟩,
        (outside B M row).filterMap fun j => (Spec.sum1 add (pick all j)).map fun v => (j, v)) := by
  intro fuel
  induction fuel with
  | zero => intro es Q prev out h1; omega
  | succ fuel ih =>
    intro es Q prev out hf st hlow
    unfold numLoop2
    cases es with
    | nil =>
      simp only [List.isEmpty_nil, if_true]
      rw [st.done hadd (by intro c _; rfl)]
    | cons e rest =>
      have hrd : rd (e :: rest) 0 = .ok e := rfl
      simp only [List.isEmpty_cons, Bool.false_eq_true, if_false, hrd, ok_bind]
      have he := st.ok e (by simp)
      obtain ⟨es', hn1, nx⟩ := insertNextC_ok (mul := mul) h (cap := cap) (outside B M row) st.heap st.ok
      obtain ⟨a, b, ha, hb, -⟩ := pendAt_cons (mul := mul) h he.hi he.bhi
      have hin : e.key ∈ outside B M row := by
        rw [mem_outside]
        refine ⟨by rw [he.key]; exact h.col_lt he.hi he.bhi, ?_⟩
        intro hmem
        obtain ⟨m', k1, k2, k3⟩ := h.mem_mask.1 hmem
        have := hlow m' k1 k2 e (by simp)
        omega
      obtain ⟨prev', out', k1, k2⟩ := st.hit h (outside_sorted B M row) hin nx ha hb
      have hlen := nx.len
      simp only [ha, ok_bind, hb, k1, hn1]
      refine ih es' _ prev' out' (by omega) k2 ?_
      intro m' q1 q2 x hx
      exact Nat.lt_of_lt_of_le (hlow m' q1 q2 e (by simp)) (nx.key x hx)

/-! ## The sorted complement row -/

theorem sorted_ext : ∀ {l l' : List Nat}, l.Pairwise (· < ·) → l'.Pairwise (· < ·) → (∀ x, x ∈ l ↔ x ∈ l') → l = l' := by
  intro l
  induction l with
  | nil =>
    intro l' _ _ h
    cases l' with
    | nil => rfl
    | cons a l' => exact absurd ((h a).2 (by simp)) (by simp)
  | cons a l ih =>
    intro l' h1 h2 h
    cases l' with
    | nil => exact absurd ((h a).1 (by simp)) (by simp)
    | cons b l' =>
      rw [List.pairwise_cons] at h1 h2
      have hab : a = b := by
        rcases List.mem_cons.1 ((h a).1 (by simp)) with e | e
        · exact e
        · have := h2.1 a e
          rcases List.mem_cons.1 ((h b).2 (by simp)) with e' | e'
          · exact e'.symm
          · have := h1.1 b e'; omega
      subst hab
      congr 1
      apply ih h1.2 h2.2
      intro x
      constructor
      · intro hx
        have := h1.1 x hx
        rcases List.mem_cons.1 ((h x).1 (by simp [hx])) with e | e
        · omega
        · exact e
      · intro hx
        have := h2.1 x hx
        rcases List.mem_cons.1 ((h x).2 (by simp [hx])) with e | e
        · omega
        · exact e

theorem filterMap_filter_isSome {α β : Type} (f : α → Option β) (l : List α) :
    (l.filter fun x => (f x).isSome).filterMap f = l.filterMap f := by
  induction l with
  | nil => rfl
  | cons a l ih =>
    rw [List.filter_cons, List.filterMap_cons]
    cases h : f a with
    | none => simpa using ih
    | some b => simp [h, ih]

theorem complRow_eq_outside (h : B.WF) (mul add : V → V → V) (A M : CSR V) (row : Nat) :
    complRow true mul add A B M row =
      (outside B M row).filterMap fun j => (Spec.dot mul add A B row j).map fun v => (j, v) := by
  rw [← filterMap_filter_isSome _ (outside B M row)]
  unfold complRow
  simp only [if_true]
  congr 1
  apply sorted_ext
  · have h1 : ((complCols A B M row).mergeSort (· ≤ ·)).Pairwise (· ≤ ·) := by
      have := List.pairwise_mergeSort (le := fun a b : Nat => decide (a ≤ b))
        (fun a b c => by simp; omega) (fun a b => by simp; omega) (complCols A B M row)
      exact this.imp (by simp)
    have h2 := sortedCols_nodup true A B M row
    simp only [if_true] at h2
    exact (h1.and h2).imp (by rintro a b ⟨h, h'⟩; omega)
  · exact List.Pairwise.filter _ (outside_sorted B M row)
  · intro x
    rw [List.mem_filter, mem_outside]
    have h1 : x ∈ (complCols A B M row).mergeSort (· ≤ ·) ↔ x ∈ (visits A B row).map (·.1) ∧ x ∉ M.rowCols row := by
      rw [List.mem_mergeSort]
      unfold complCols; rw [mem_firsts, List.mem_filter]; simp
    rw [h1]
    constructor
    · rintro ⟨hv, hm⟩
      obtain ⟨v, hd⟩ := mem_visits_dot mul add hv
      exact ⟨⟨dot_lt h hd, hm⟩, by simp [hd]⟩
    · rintro ⟨⟨-, hm⟩, hd⟩
      simp only [Option.isSome_map] at hd
      obtain ⟨v, hv⟩ := Option.isSome_iff_exists.1 hd
      exact ⟨dot_mem_visits hv, hm⟩

theorem numericRowC_eq (hadd : Spec.AssocComm add) (h : HOk A B M row) {ndebug : Bool} {cap : Nat}
    (hne : ndebug = true ∨ M.rowCols row ≠ []) (hcap : (A.row row).length ≤ cap) :
    numericRowC ndebug mul add A B M row ⟨cap, []⟩ = .ok (⟨cap, []⟩, complRow true mul add A B M row) := by
  have hle : M.ptr row ≤ M.ptr (row + 1) := h.wfM.ptrMono row h.ltM
  have hchk : (ndebug || M.ptr row != M.ptr (row + 1)) = true := by
    rcases hne with rfl | hne
    · rfl
    · have := CSR.rowCols_length h.wfM h.ltM
      have := List.length_pos_iff.2 hne
      simp; right; omega
  unfold numericRowC
  rw [CSR.rd_ptr h.wfM (Nat.le_of_lt h.ltM), CSR.rd_ptr h.wfM (i := row + 1) h.ltM]
  simp only [ok_bind]
  rw [check_of hchk, ok_bind]
  obtain ⟨es, h1, h2⟩ := initHeapC_ok (mul := mul) h hcap (outside B M row)
  rw [h1, ok_bind, turns_eq (mul := mul)]
  obtain ⟨es', Q', prev', out', k1, k2, k3, k4⟩ := numLoop1_ok (mul := mul) (add := add) h (cap := cap) (all := prods mul A B row)
    ((prods mul A B row).length + 1) es (M.ptr row) [] none [] (by have := h2.len; omega)
    ⟨h2.heap, h2.ok, by simpa using h2.pend, by simp, by simp, ⟨fun _ => rfl, by simp⟩, by
      symm; apply filterMap_eq_nil_of; intro j _; rfl⟩ (Nat.le_refl _) hle
    (fun m' k1 k2 => by omega)
  rw [k1, ok_bind]
  simp only
  rw [numLoop2_ok hadd h ((prods mul A B row).length + 1) es' Q' prev' out' (Nat.lt_succ_of_le (Nat.le_trans k4 h2.len)) k2 k3, complRow_eq_outside h.wfB]
  simp only [dot_eq]

/-! ## Symbolic, complemented -/

theorem symLoop1_of_num {maskEnd : Nat} : ∀ (fuel : Nat) (s : HP) (m : Nat) (prev : Option Nat)
    (out : List (Nat × V)) (s' : HP) (prev' : Option Nat) (out' : List (Nat × V)),
    numLoop1 mul add A B M maskEnd fuel s m prev out = .ok (s', prev', out') →
    symLoop1 A B M maskEnd fuel s m prev out.length = .ok (s', prev', out'.length) := by
  intro fuel
  induction fuel with
  | zero => intro s m prev out s' prev' out' h; cases h
  | succ fuel ih =>
    intro s m prev out s' prev' out' h
    unfold numLoop1 at h
    unfold symLoop1
    by_cases he : s.es.isEmpty = true
    · rw [if_pos he] at h ⊢
      cases h; rfl
    · rw [if_neg he] at h ⊢
      obtain ⟨e, h1, h⟩ := bind_ok h
      obtain ⟨r, h2, h⟩ := bind_ok h
      rw [h1, ok_bind, h2, ok_bind]
      by_cases hend : maskEnd ≤ r
      · rw [if_pos hend] at h ⊢
        cases h; rfl
      · rw [if_neg hend] at h ⊢
        obtain ⟨mc, h3, h⟩ := bind_ok h
        rw [h3, ok_bind]
        by_cases hk : e.key ≠ mc
        · rw [if_pos hk] at h
          obtain ⟨a, ha, h⟩ := bind_ok h
          obtain ⟨b, hb, h⟩ := bind_ok h
          obtain ⟨⟨prev', out''⟩, h4, h⟩ := bind_ok h
          obtain ⟨s2, h5, h⟩ := bind_ok h
          obtain ⟨k1, k2⟩ := emit_length h4
          simp only at k1 k2
          rw [h5, ok_bind]
          have := ih _ _ _ _ _ _ _ h
          rw [k2] at this
          by_cases hp : prev = some e.key
          · rw [if_pos hp] at this
            have e1 : (e.key != mc && prev != some e.key) = false := by simp [hp]
            rw [e1]
            simp only [Bool.false_eq_true, if_false]
            rw [hp, ← k1]; exact this
          · rw [if_neg hp] at this
            have e1 : (e.key != mc && prev != some e.key) = true := by simp [hk, hp]
            rw [e1]
            simp only [if_true]
            rw [← k1]; exact this
        · rw [if_neg hk] at h
          simp only [ok_bind] at h
          obtain ⟨s2, h5, h⟩ := bind_ok h
          rw [h5, ok_bind]
          have e1 : (e.key != mc && prev != some e.key) = false := by
            have := Decidable.not_not.1 hk
            simp [this]
          rw [e1]
          simp only [Bool.false_eq_true, if_false]
          exact ih _ _ _ _ _ _ _ h

theorem symLoop2_of_num : ∀ (fuel : Nat) (s : HP) (prev : Option Nat)
    (out : List (Nat × V)) (s' : HP) (out' : List (Nat × V)),
    numLoop2 mul add A B fuel s prev out = .ok (s', out') →
    symLoop2 A B fuel s prev out.length = .ok (s', out'.length) := by
  intro fuel
  induction fuel with
  | zero => intro s prev out s' out' h; cases h
  | succ fuel ih =>
    intro s prev out s' out' h
    unfold numLoop2 at h
    unfold symLoop2
    by_cases he : s.es.isEmpty = true
    · rw [if_pos he] at h ⊢
      cases h; rfl
    · rw [if_neg he] at h ⊢
      obtain ⟨e, h1, h⟩ := bind_ok h
      obtain ⟨a, ha, h⟩ := bind_ok h
      obtain ⟨b, hb, h⟩ := bind_ok h
      obtain ⟨⟨prev', out''⟩, h4, h⟩ := bind_ok h
      obtain ⟨s2, h5, h⟩ := bind_ok h
      obtain ⟨k1, k2⟩ := emit_length h4
      simp only at k1 k2
      rw [h1, ok_bind, h5, ok_bind]
      have := ih _ _ _ _ _ h
      rw [k2] at this
      by_cases hp : prev = some e.key
      · rw [if_pos hp] at this
        have e1 : (prev != some e.key) = false := by simp [hp]
        rw [e1]
        simp only [Bool.false_eq_true, if_false]
        rw [hp, ← k1]; exact this
      · rw [if_neg hp] at this
        have e1 : (prev != some e.key) = true := by simp [hp]
        rw [e1]
        simp only [if_true]
        rw [← k1]; exact this

theorem symbolicRowC_of_num {ndebug : Bool} {s s' : HP} {out : List (Nat × V)}
    (h : numericRowC ndebug mul add A B M row s = .ok (s', out)) :
    symbolicRowC ndebug A B M row s = .ok (s', out.length) := by
  unfold numericRowC at h
  unfold symbolicRowC
  obtain ⟨a, h1, h⟩ := bind_ok h
  obtain ⟨b, h2, h⟩ := bind_ok h
  obtain ⟨u, h3, h⟩ := bind_ok h
  obtain ⟨t, h4, h⟩ := bind_ok h
  obtain ⟨⟨s2, prev', out'⟩, h5, h⟩ := bind_ok h
  have h6 := symLoop1_of_num _ _ _ _ [] _ _ _ h5
  rw [List.length_nil] at h6
  rw [h1, ok_bind, h2, ok_bind, h3, ok_bind, h4, ok_bind, h6, ok_bind]
  exact symLoop2_of_num _ _ _ _ _ _ h

/-! ## Contracts -/

theorem hok (h : Inputs A B M) (sB : B.SortedRows) (sM : M.SortedRows) {i : Nat} (hi : i < A.rows) : HOk A B M i :=
  { h.ok hi with sB := sB, sM := sM i (h.sh.ma ▸ hi) }

theorem contract (hadd : Spec.AssocComm add) (h : Inputs A B M) (sB : B.SortedRows) (sM : M.SortedRows) {insp : Nat}
    (hd : DepthOk insp M) : Contract (heap insp) mul add A B M (maskedRow mul add A B M) where
  bound := fun i hi => maskedRow_bound h.wfM (h.nodup i (h.sh.ma ▸ hi))
  num := fun sz => ⟨(· = ⟨sz.maxA, []⟩), rfl, by
    rintro i hi hcov hf f - acc rfl
    exact ⟨_, numericRow_eq hadd (hok h sB sM hi) hd (Mca.mask_ne_nil hf) (hcov.a rfl), rfl⟩⟩
  sym := fun sz => ⟨(· = ⟨sz.maxA, []⟩), rfl, by
    rintro i hi hcov hf acc rfl
    exact ⟨_, symbolicRow_of_num (numericRow_eq hadd (hok h sB sM hi) hd (Mca.mask_ne_nil hf) (hcov.a rfl)), rfl⟩⟩

theorem contractC (hadd : Spec.AssocComm add) (h : Inputs A B M) (sB : B.SortedRows) (sM : M.SortedRows) {ndebug : Bool}
    (hne : ndebug = true ∨ ∀ i < A.rows, flopsOf true A B M i ≠ 0 → M.rowCols i ≠ []) :
    Contract (heapC ndebug) mul add A B M (complRow true mul add A B M) where
  bound := fun i _ => complRow_bound
  num := fun sz => ⟨(· = ⟨sz.maxA, []⟩), rfl, by
    rintro i hi hcov hf f - acc rfl
    exact ⟨_, numericRowC_eq hadd (hok h sB sM hi) (hne.imp id fun h => h i hi hf) (hcov.a rfl), rfl⟩⟩
  sym := fun sz => ⟨(· = ⟨sz.maxA, []⟩), rfl, by
    rintro i hi hcov hf acc rfl
    exact ⟨_, symbolicRowC_of_num (numericRowC_eq hadd (hok h sB sM hi) (hne.imp id fun h => h i hi hf)
      (hcov.a rfl)), rfl⟩⟩

end Verif.Model.Heap
