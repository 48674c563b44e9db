import Verif.Lemmas.Common

/-! # A matrix assembled from its rows -/

namespace Verif.Model

variable {V α : Type}

/-- Row lengths. -/
def lens (exp : Nat → List α) (i : Nat) : Nat := (exp i).length

/-- Rows `b, ..., e-1` one after the other. -/
def seg (exp : Nat → List α) (b e : Nat) : List α := (List.range' b (e - b)).flatMap exp

/-- The CSR matrix with the given rows. -/
def ofRows (rows cols : Nat) (zb : Bool) (exp : Nat → List (Nat × V)) : CSR V :=
  { rows := rows, cols := cols, nnz := psum (lens exp) rows,
    rowptr := tab (rows + 1) (psum (lens exp)),
    colids := (seg exp 0 rows).map Prod.fst,
    values := (seg exp 0 rows).map Prod.snd,
    zerobased := zb }

theorem seg_self (exp : Nat → List α) (b : Nat) : seg exp b b = [] := by simp [seg]

theorem seg_snoc (exp : Nat → List α) {b e : Nat} (h : b ≤ e) :
    seg exp b (e + 1) = seg exp b e ++ exp e := by
  unfold seg
  have : e + 1 - b = (e - b) + 1 := by omega
  rw [this, List.range'_concat, List.flatMap_append]
  have h2 : b + (e - b) = e := by omega
  simp [h2]

theorem seg_length (exp : Nat → List α) {b e : Nat} (h : b ≤ e) :
    (seg exp b e).length = psum (lens exp) e - psum (lens exp) b := by
  induction e with
  | zero => have : b = 0 := by omega
            subst this; simp [seg_self]
  | succ e ih =>
    rcases Nat.lt_or_ge b (e + 1) with h1 | h1
    · have hb : b ≤ e := by omega
      rw [seg_snoc exp hb, List.length_append, ih hb]
      have := psum_mono (f := lens exp) hb
      simp only [psum, lens] at *; omega
    · have : b = e + 1 := by omega
      subst this; simp [seg_self]

theorem seg_append (exp : Nat → List α) {a b e : Nat} (h1 : a ≤ b) (h2 : b ≤ e) :
    seg exp a b ++ seg exp b e = seg exp a e := by
  induction e with
  | zero => have : b = 0 := by omega
            have h3 : a = 0 := by omega
            subst this; subst h3; simp [seg_self]
  | succ e ih =>
    rcases Nat.lt_or_ge b (e + 1) with h | h
    · have hb : b ≤ e := by omega
      rw [seg_snoc exp hb, ← List.append_assoc, ih hb, seg_snoc exp (by omega)]
    · have : b = e + 1 := by omega
      subst this; simp [seg_self]

/-- Position `P b + k` of the whole list is position `k` of the segment starting at `b`. -/
theorem seg_getElem? (exp : Nat → List α) {b e rows k : Nat} (h1 : b ≤ e) (h2 : e ≤ rows)
    (hk : k < (seg exp b e).length) :
    (seg exp 0 rows)[psum (lens exp) b + k]? = (seg exp b e)[k]? := by
  rw [← seg_append exp (Nat.zero_le b) (by omega : b ≤ rows), ← seg_append exp h1 h2]
  have hl : (seg exp 0 b).length = psum (lens exp) b := by
    rw [seg_length exp (Nat.zero_le b)]; simp [psum]
  rw [List.getElem?_append_right (by omega), hl]
  rw [List.getElem?_append_left (by omega)]
  congr 1; omega

theorem exp_eq_seg (exp : Nat → List α) (i : Nat) : seg exp i (i + 1) = exp i := by
  rw [seg_snoc exp (Nat.le_refl i), seg_self]; rfl

theorem seg_take_drop (exp : Nat → List α) {i rows : Nat} (hi : i < rows) :
    slice (seg exp 0 rows) (psum (lens exp) i) (psum (lens exp) (i + 1)) = exp i := by
  rw [← seg_append exp (Nat.zero_le i) (by omega : i ≤ rows), ← seg_append exp (by omega : i ≤ i + 1) hi,
    exp_eq_seg]
  have hl : (seg exp 0 i).length = psum (lens exp) i := by
    rw [seg_length exp (Nat.zero_le i)]; simp [psum]
  unfold slice
  rw [← hl, List.drop_left]
  have : psum (lens exp) (i + 1) - (seg exp 0 i).length = (exp i).length := by
    rw [hl]; simp [psum, lens]
  rw [this, List.take_left]

section
variable (rows cols : Nat) (zb : Bool) (exp : Nat → List (Nat × V))

theorem ofRows_ptr {i : Nat} (hi : i ≤ rows) : (ofRows rows cols zb exp).ptr i = psum (lens exp) i := by
  unfold CSR.ptr ofRows
  simp only [List.getD_eq_getElem?_getD]
  rw [tab_getElem? (by omega)]; rfl

theorem ofRows_row {i : Nat} (hi : i < rows) : (ofRows rows cols zb exp).row i = exp i := by
  unfold CSR.row
  rw [ofRows_ptr _ _ _ _ (by omega), ofRows_ptr _ _ _ _ hi]
  have : (ofRows rows cols zb exp).colids.zip (ofRows rows cols zb exp).values = seg exp 0 rows := by
    unfold ofRows
    simp only
    rw [← List.unzip_fst, ← List.unzip_snd, List.zip_unzip]
  rw [this, seg_take_drop exp hi]

theorem ofRows_rowCols {i : Nat} (hi : i < rows) :
    (ofRows rows cols zb exp).rowCols i = (exp i).map Prod.fst := by
  unfold CSR.rowCols
  rw [ofRows_ptr _ _ _ _ (by omega), ofRows_ptr _ _ _ _ hi]
  unfold ofRows
  simp only
  rw [← slice_map, seg_take_drop exp hi]

theorem ofRows_wf (hzb : zb = true) (hc : ∀ i < rows, ∀ x ∈ exp i, x.1 < cols) :
    (ofRows rows cols zb exp).WF where
  zero := hzb
  ptrLen := by simp [ofRows]
  ptrFirst := by rw [ofRows_ptr _ _ _ _ (Nat.zero_le _)]; rfl
  ptrMono := by
    intro i hi
    have hi' : i < rows := hi
    rw [ofRows_ptr _ _ _ _ (by omega), ofRows_ptr _ _ _ _ hi']
    exact psum_mono (by omega)
  ptrLast := by
    show (ofRows rows cols zb exp).ptr rows = _
    rw [ofRows_ptr _ _ _ _ (Nat.le_refl _)]; rfl
  colLen := by simp [ofRows, seg_length exp (Nat.zero_le rows), psum]
  valLen := by simp [ofRows, seg_length exp (Nat.zero_le rows), psum]
  inBounds := by
    intro c hc'
    simp only [ofRows, List.mem_map] at hc'
    obtain ⟨x, hx, rfl⟩ := hc'
    unfold seg at hx
    rw [List.mem_flatMap] at hx
    obtain ⟨i, hi, hx⟩ := hx
    rw [List.mem_range'_1] at hi
    exact hc i (by omega) x hx
end

/-- Cell `i` holds the value of the list `L`. -/
def At {α : Type} (l : List (Option α)) (L : List α) (i : Nat) : Prop :=
  ∃ x, L[i]? = some x ∧ l[i]? = some (some x)

theorem At.set {α : Type} {l : List (Option α)} {L : List α} {i : Nat} (h : At l L i) {j : Nat} {x : α}
    (hx : L[j]? = some x) : At (l.set j (some x)) L i := by
  obtain ⟨y, h1, h2⟩ := h
  refine ⟨y, h1, ?_⟩
  rw [List.getElem?_set]
  by_cases hj : j = i
  · subst hj
    rw [hx] at h1
    have hl : j < l.length := by
      rcases Nat.lt_or_ge j l.length with h' | h'
      · exact h'
      · rw [List.getElem?_eq_none h'] at h2; simp at h2
    simp [hl]; simpa using h1
  · simp [hj, h2]

theorem At.set_self {α : Type} {l : List (Option α)} {L : List α} {j : Nat} {x : α}
    (hx : L[j]? = some x) (hj : j < l.length) : At (l.set j (some x)) L j :=
  ⟨x, hx, by simp [hj]⟩

theorem eq_map_of_at {α : Type} {l : List (Option α)} {L : List α} (hl : l.length = L.length)
    (h : ∀ i < L.length, At l L i) : l = L.map some := by
  apply List.ext_getElem?
  intro i
  by_cases hi : i < L.length
  · obtain ⟨x, h1, h2⟩ := h i hi
    rw [h2]; simp [h1]
  · rw [List.getElem?_eq_none (by omega), List.getElem?_eq_none (by simp; omega)]

theorem mapM_use {α : Type} (L : List α) : (L.map some).mapM use = .ok L := by
  induction L with
  | nil => rfl
  | cons a L ih => simp [List.mapM_cons, ih]

theorem cover_of {Q : Nat → Nat} (h0 : Q 0 = 0) : ∀ (n p : Nat), p < Q n → ∃ t, t < n ∧ Q t ≤ p ∧ p < Q (t + 1) := by
  intro n
  induction n with
  | zero => intro p hp; omega
  | succ n ih =>
    intro p hp
    by_cases h : p < Q n
    · obtain ⟨t, h1, h2⟩ := ih p h
      exact ⟨t, by omega, h2⟩
    · exact ⟨n, by omega, by omega, hp⟩

theorem mapM_ok {α β : Type} {f : α → Res β} {g : α → β} {l : List α} (h : ∀ a ∈ l, f a = .ok (g a)) :
    l.mapM f = .ok (l.map g) := by
  induction l with
  | nil => rfl
  | cons a l ih =>
    simp [List.mapM_cons, h a (by simp), ih (fun b hb => h b (by simp [hb]))]

end Verif.Model
