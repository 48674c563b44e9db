import Verif.Lemmas.Tuples

/-! # C61: merging duplicate entries; C62: removing duplicate triples; C63: splitting a matrix into pieces -/

namespace Verif.Props
open Verif Tuples
open _root_.Verif.Spec (InPiece PosLt IsDedup SortsTriples pos triplesC)

variable {V : Type}

/-- C61 is violated for every matrix with a column: `MergeDuplicates` accesses elements of vectors that have none, in whatever order
the iterations run. -/
theorem C61_violated {A : CSC V} (h : A.WF) (hc : A.cols ≠ 0) (dflt : V) (add : V → V → V) {order order2 : List Nat}
    (ho : order.Perm (List.range A.cols)) (ho2 : order2.Perm (List.range A.cols)) :
    mergeDuplicates dflt add order order2 A = .error .oob :=
  mergeDuplicates_err h hc dflt add ho ho2

/-- C61 for matrices without columns: nothing changes. What is missing are all other matrices, see `C61_violated`. -/
theorem C61_partial {A : CSC V} (h : A.WF) (hc : A.cols = 0) (dflt : V) (add : V → V → V) :
    mergeDuplicates dflt add [] [] A = .ok A := by
  obtain ⟨rows, cols, nnz, colptr, rowids, values, zb⟩ := A
  have hl := h.ptrLast
  have h0 := h.ptrFirst
  have h1 := h.ptrLen
  have h2 := h.rowLen
  have h3 := h.valLen
  simp only at hc hl h0 h1 h2 h3
  subst hc
  match colptr, h1 with
  | [x], _ =>
    have hx : x = 0 := h0
    have hn : nnz = 0 := by rw [← hl, h0]
    subst hx hn
    rw [List.length_eq_zero_iff] at h2 h3
    subst h2 h3
    rfl

example : (⟨2, 1, 2, [0, 2], [1, 1], [3, 4], true⟩ : CSC Int).WF ∧
    mergeDuplicates 0 (· + ·) [0] [0] (⟨2, 1, 2, [0, 2], [1, 1], [3, 4], true⟩ : CSC Int) = .error .oob :=
  ⟨⟨rfl, rfl, rfl, by decide, rfl, rfl, rfl, by decide⟩, by decide +kernel⟩

/-- C62: for at least one triple, the first `d` triples of the array afterwards, where `d` is the return value, are the given triples
without duplicates. What is missing are empty arrays, see `C62_violated`. -/
theorem C62_partial {sortf : List (Nat × Nat × V) → List (Nat × Nat × V)} (hs : SortsTriples sortf)
    (T : List (Nat × Nat × V)) (hT : T ≠ []) :
    ∃ a d, removeDuplicates sortf T = .ok (a, d) ∧ a.length = T.length ∧ d ≤ T.length ∧ IsDedup T (a.take d) :=
  removeDuplicates_ok hs T hT

/-- C62, random triples: all within the given ranges, no position twice, at least one. -/
theorem C62_random_partial {sortf : List (Nat × Nat × V) → List (Nat × Nat × V)} (hs : SortsTriples sortf) (one : V)
    {numRows numCols numValues : Nat} (hn : numValues ≠ 0) {rndRow rndCol : Nat → Nat} (hr : ∀ i, rndRow i < numRows)
    (hc : ∀ i, rndCol i < numCols) :
    ∃ a d, randomTriples sortf one rndRow rndCol numValues = .ok (a, d) ∧ 0 < d ∧ d ≤ numValues ∧ d ≤ a.length ∧
      (a.take d).Pairwise PosLt ∧ ∀ t ∈ a.take d, t.1 < numRows ∧ t.2.1 < numCols ∧ t.2.2 = one := by
  have hT : (tab numValues fun i => (rndRow i, rndCol i, one)) ≠ [] := by
    intro h0
    have := congrArg List.length h0
    simp at this
    exact hn this
  obtain ⟨a, d, e, h1, h2, h3⟩ := removeDuplicates_ok hs _ hT
  rw [tab_length] at h1 h2
  refine ⟨a, d, e, ?_, h2, by omega, h3.sorted, fun t ht => ?_⟩
  · obtain ⟨t, ht⟩ := List.exists_mem_of_ne_nil _ hT
    obtain ⟨t', ht', _⟩ := h3.cover t ht
    apply Nat.pos_of_ne_zero
    rintro rfl
    simp at ht'
  · have := h3.sub t ht
    simp only [tab, List.mem_map] at this
    obtain ⟨i, _, rfl⟩ := this
    exact ⟨hr i, hc i, rfl⟩

/-- C62 is violated for empty arrays: the return value is 1. -/
theorem C62_violated {sortf : List (Nat × Nat × V) → List (Nat × Nat × V)} (hs : SortsTriples sortf) :
    removeDuplicates sortf ([] : List (Nat × Nat × V)) = .ok ([], 1) := by
  have : sortf [] = [] := List.perm_nil.1 (hs.perm [])
  unfold removeDuplicates
  rw [this]
  rfl

/-- The insertion sort by position is a sorting function for triples. -/
def insPos (x : Nat × Nat × V) : List (Nat × Nat × V) → List (Nat × Nat × V)
  | [] => [x]
  | y :: l => if y.1 < x.1 ∨ y.1 = x.1 ∧ y.2.1 < x.2.1 then y :: insPos x l else x :: y :: l

def sortPos (l : List (Nat × Nat × V)) : List (Nat × Nat × V) := l.foldr insPos []

theorem sortPos_sorts : SortsTriples (sortPos (V := V)) := by
  have hp : ∀ x (l : List (Nat × Nat × V)), (insPos x l).Perm (x :: l) := by
    intro x l
    induction l with
    | nil => exact List.Perm.refl _
    | cons y l ih =>
      unfold insPos
      split
      · exact (List.Perm.cons y ih).trans (List.Perm.swap x y l)
      · exact List.Perm.refl _
  have hsrt : ∀ x (l : List (Nat × Nat × V)), l.Pairwise (fun a b => ¬ PosLt b a) →
      (insPos x l).Pairwise (fun a b => ¬ PosLt b a) := by
    intro x l h
    induction l with
    | nil => exact List.pairwise_singleton _ _
    | cons y l ih =>
      rw [List.pairwise_cons] at h
      unfold insPos
      split
      · rename_i hc
        rw [List.pairwise_cons]
        refine ⟨fun z hz => ?_, ih h.2⟩
        rcases List.mem_cons.1 ((hp x l).mem_iff.1 hz) with rfl | hz
        · unfold PosLt; omega
        · exact h.1 z hz
      · rename_i hc
        rw [List.pairwise_cons]
        refine ⟨fun z hz => ?_, List.pairwise_cons.2 h⟩
        rcases List.mem_cons.1 hz with rfl | hz
        · unfold PosLt; omega
        · have := h.1 z hz
          unfold PosLt at *
          omega
  refine ⟨fun l => ?_, fun l => ?_⟩
  · induction l with
    | nil => exact List.Perm.refl _
    | cons x l ih => exact (hp x _).trans (List.Perm.cons x ih)
  · induction l with
    | nil => exact List.Pairwise.nil
    | cons x l ih => exact hsrt x _ ih

example : removeDuplicates sortPos [(1, 0, 7), (0, 2, 7), (1, 0, 7), (0, 2, 7), (0, 1, 7)] =
    .ok ([(0, 1, 7), (0, 2, 7), (1, 0, 7), (1, 0, 7), (1, 0, 7)], 3) := by decide +kernel

example := C62_partial (V := Nat) sortPos_sorts [(1, 0, 7), (0, 2, 7), (1, 0, 7)] (by decide)

/-- C63 for matrices stored by columns with at least as many rows as pieces: piece `o` has exactly the entries in its rows, in storage
order, and together the pieces are the matrix. What is missing: see the theorems with `violated`. -/
theorem C63_columns_partial {A : CSC V} (h : A.WF) {splits : Nat} (hn : splits ≠ 0) (hr : splits ≤ A.rows) :
    ∃ S, splitCsc A splits = .ok S ∧ S.length = splits ∧ S.flatten.Perm (triplesC A) ∧
      ∀ o l, S[o]? = some l → l = (triplesC A).filter fun t => decide (InPiece (A.rows / splits) splits o t.1) := by
  have hs : A.rows / splits ≠ 0 := by
    have := Nat.div_pos hr (Nat.pos_of_ne_zero hn)
    omega
  refine ⟨_, splitCsc_ok h hn hr, tab_length _ _, pieces_perm hs hn (fun t : Nat × Nat × V => t.1) _, fun o l ho => ?_⟩
  have hlt : o < splits := by
    have := (List.getElem?_eq_some_iff.1 ho).1
    rw [tab_length] at this
    exact this
  rw [tab_getElem? hlt] at ho
  exact (Option.some.inj ho).symm

/-- C63 is violated if there are more pieces than rows: division by zero as soon as there is an entry. -/
theorem C63_violated_divzero {A : CSC V} (h : A.WF) {splits : Nat} (hr : A.rows < splits) (hz : A.nnz ≠ 0) :
    splitCsc A splits = .error .divzero := by
  unfold splitCsc div
  rw [if_neg (by omega), ok_bind, Nat.div_eq_of_lt hr]
  have hex : ∃ i < A.cols, A.ptr i < A.ptr (i + 1) := by
    apply Classical.byContradiction
    intro hno
    have : ∀ n ≤ A.cols, A.ptr n = 0 := by
      intro n
      induction n with
      | zero => intro _; exact h.ptrFirst
      | succ n ih =>
        intro hn
        have h1 := ih (by omega)
        by_cases h2 : A.ptr n < A.ptr (n + 1)
        · exact absurd ⟨n, by omega, h2⟩ hno
        · omega
    have := this A.cols (Nat.le_refl _)
    rw [h.ptrLast] at this
    omega
  have hstep : ∀ i < A.cols, ∀ S : List (List (Nat × Nat × V)),
      (A.ptr i = A.ptr (i + 1) → splitCol A splits 0 i S = .ok S) ∧
      (A.ptr i < A.ptr (i + 1) → splitCol A splits 0 i S = .error .divzero) := by
    intro i hi S
    unfold splitCol
    rw [Model.Inner.rd_cptr h (by omega), ok_bind, Model.Inner.rd_cptr h (by omega), ok_bind]
    constructor
    · intro e
      rw [forRange_of_le (by omega)]
    · intro hlt
      have := Model.Inner.cptr_le_nnz h (j := i + 1) hi
      rw [forRange_step hlt, rd_of_lt (by rw [h.rowLen]; omega), ok_bind]
      rfl
  unfold forRange
  apply SubRef.foldlM_err (fun _ => True)
  · intro i hi S _
    have hi : i < A.cols := by simpa using hi
    rcases Nat.eq_or_lt_of_le (h.ptrMono i hi) with h1 | h1
    · exact Or.inl ⟨S, (hstep i hi S).1 h1, trivial⟩
    · exact Or.inr ((hstep i hi S).2 h1)
  · obtain ⟨i, hi, hlt⟩ := hex
    exact ⟨i, by simpa using hi, fun S _ => (hstep i hi S).2 hlt⟩
  · trivial

/-- C63 for matrices stored by rows: each row goes into one piece, where its number is the remainder by the piece size. The piece size
comes from the number of columns. What is missing: the rows can be told apart only if they are at most `splits` times the piece size,
see `C63_violated_rows`. -/
theorem C63_rows_partial {A : CSR V} (h : A.WF) {splits : Nat} (hn : splits ≠ 0) (hr : splits ≤ A.cols) :
    ∃ S, splitCsr A splits = .ok S ∧ S.length = splits ∧
      (∀ o l, S[o]? = some l → l = ((Spec.triples A).filter fun t => decide (InPiece (A.cols / splits) splits o t.1)).map
        fun t => (t.1 % (A.cols / splits), t.2)) ∧
      (A.rows ≤ A.cols / splits * splits → ∀ o l, S[o]? = some l →
        l.map (fun t => (o * (A.cols / splits) + t.1, t.2)) =
          (Spec.triples A).filter fun t => decide (InPiece (A.cols / splits) splits o t.1)) := by
  have hs : 0 < A.cols / splits := Nat.div_pos hr (Nat.pos_of_ne_zero hn)
  have hpiece : ∀ o l, (tab splits fun o =>
      ((Spec.triples A).filter fun t => decide (InPiece (A.cols / splits) splits o t.1)).map
        fun t => (t.1 % (A.cols / splits), t.2))[o]? = some l → o < splits ∧
      l = ((Spec.triples A).filter fun t => decide (InPiece (A.cols / splits) splits o t.1)).map
        fun t => (t.1 % (A.cols / splits), t.2) := by
    intro o l ho
    have hlt : o < splits := by
      have := (List.getElem?_eq_some_iff.1 ho).1
      rw [tab_length] at this
      exact this
    rw [tab_getElem? hlt] at ho
    exact ⟨hlt, (Option.some.inj ho).symm⟩
  refine ⟨_, splitCsr_ok h hn hr, tab_length _ _, fun o l ho => (hpiece o l ho).2, fun hfit o l ho => ?_⟩
  obtain ⟨hlt, rfl⟩ := hpiece o l ho
  rw [List.map_map]
  refine (List.map_congr_left (g := id) fun t ht => ?_).trans (List.map_id _)
  rw [List.mem_filter, decide_eq_true_eq] at ht
  obtain ⟨hm, h1, h2⟩ := ht
  have hrow : t.1 < A.rows := by
    unfold Spec.triples at hm
    rw [List.mem_flatMap] at hm
    obtain ⟨i, hi, hm⟩ := hm
    rw [List.mem_map] at hm
    obtain ⟨x, _, rfl⟩ := hm
    exact List.mem_range.1 hi
  have h3 : t.1 < (o + 1) * (A.cols / splits) := by
    rcases h2 with h2 | h2
    · exact h2
    · rw [h2, Nat.mul_comm]; omega
  have hd : t.1 / (A.cols / splits) = o := by
    rw [Nat.div_eq_iff hs]
    constructor
    · exact h1
    · rw [Nat.add_mul] at h3; omega
  have := Nat.div_add_mod t.1 (A.cols / splits)
  rw [hd, Nat.mul_comm] at this
  simp only [Function.comp, id]
  rw [this]

/-- C63 is violated for matrices stored by rows whenever there are more rows than `splits` times the piece size, for example if the number
of rows and columns is not a multiple of the number of pieces: different matrices give the same pieces. -/
theorem C63_violated_rows {rows cols splits : Nat} (hn : splits ≠ 0) (hc : splits ≤ cols) (hr : cols / splits * splits < rows)
    (v : V) :
    ∃ A A' : CSR V, A.WF ∧ A'.WF ∧ A.rows = rows ∧ A'.rows = rows ∧ A.cols = cols ∧ A'.cols = cols ∧ A.nnz = A'.nnz ∧
      Spec.triples A ≠ Spec.triples A' ∧ ∃ S, splitCsr A splits = .ok S ∧ splitCsr A' splits = .ok S := by
  have hs : 0 < cols / splits := Nat.div_pos hc (Nat.pos_of_ne_zero hn)
  have hle := Nat.div_le_self cols splits
  let M : Nat → CSR V := fun x => Model.ofRows rows cols true (fun i => if i = x then [(0, v)] else [])
  have hwf : ∀ x, (M x).WF := by
    intro x
    apply Model.ofRows_wf _ _ _ _ rfl
    intro i _ y hy
    split at hy
    · rw [List.mem_singleton] at hy
      subst hy
      simp only
      omega
    · cases hy
  have htr : ∀ x < rows, Spec.triples (M x) = [(x, 0, v)] := by
    intro x hx
    have h1 : ∀ n ≤ rows, ((List.range n).flatMap fun i => ((M x).row i).map fun y => (i, y.1, y.2)) =
        if x < n then [(x, 0, v)] else [] := by
      intro n
      induction n with
      | zero => intro _; simp
      | succ n ih =>
        intro hn
        rw [List.range_succ, List.flatMap_append, ih (by omega), List.flatMap_singleton]
        have : (M x).row n = if n = x then [(0, v)] else [] := Model.ofRows_row rows cols true _ (by omega)
        rw [this]
        by_cases h : n = x
        · subst h; simp
        · by_cases h2 : x < n
          · rw [if_pos h2, if_neg h, if_pos (by omega)]; rfl
          · rw [if_neg h2, if_neg h, if_neg (by omega)]; rfl
    have := h1 rows (Nat.le_refl _)
    rw [if_pos hx] at this
    exact this
  have hnnz : ∀ x < rows, (M x).nnz = 1 := by
    intro x hx
    show Model.psum (Model.lens fun i => if i = x then [(0, v)] else []) rows = 1
    have : ∀ n, Model.psum (Model.lens fun i => if i = x then [(0, v)] else []) n = if x < n then 1 else 0 := by
      intro n
      induction n with
      | zero => simp [Model.psum]
      | succ n ih =>
        simp only [Model.psum, Model.lens] at ih ⊢
        rw [ih]
        by_cases h : n = x
        · subst h; simp
        · by_cases h2 : x < n
          · rw [if_pos h2, if_neg h, if_pos (by omega)]; rfl
          · rw [if_neg h2, if_neg h, if_neg (by omega)]; rfl
    rw [this, if_pos hx]
  have hlo : (splits - 1) * (cols / splits) < rows := by
    have : (splits - 1) * (cols / splits) ≤ splits * (cols / splits) := Nat.mul_le_mul_right _ (by omega)
    rw [Nat.mul_comm splits] at this
    omega
  refine ⟨M ((splits - 1) * (cols / splits)), M (cols / splits * splits), hwf _, hwf _, rfl, rfl, rfl, rfl,
    by rw [hnnz _ hlo, hnnz _ hr], ?_, _, splitCsr_ok (hwf _) hn hc, ?_⟩
  · rw [htr _ hlo, htr _ hr]
    intro he
    have h1 : (splits - 1) * (cols / splits) = cols / splits * splits := congrArg Prod.fst (List.cons.inj he).1
    rw [Nat.mul_comm (cols / splits)] at h1
    have h2 := Nat.eq_of_mul_eq_mul_right hs h1
    omega
  · rw [splitCsr_ok (hwf _) hn hc]
    congr 1
    apply tab_ext
    intro o ho
    rw [htr _ hlo, htr _ hr]
    symm
    show List.map _ (List.filter (fun t : Nat × Nat × V => decide (InPiece (cols / splits) splits o t.1)) _) =
      List.map _ (List.filter (fun t : Nat × Nat × V => decide (InPiece (cols / splits) splits o t.1)) _)
    have hin : ∀ x, (splits - 1) * (cols / splits) ≤ x → (InPiece (cols / splits) splits o x ↔ o = splits - 1) := by
      intro x hx
      obtain ⟨o', _, ho', hp⟩ := owner_ok (r := x) (size := cols / splits) (splits := splits) (by omega) hn
      rw [hp o ho]
      have := (hp (splits - 1) (by omega)).1 ⟨hx, Or.inr (by omega)⟩
      rw [this]
    have hup : (splits - 1) * (cols / splits) ≤ cols / splits * splits := by
      rw [Nat.mul_comm (cols / splits)]
      exact Nat.mul_le_mul_right _ (by omega)
    by_cases ho' : o = splits - 1
    · rw [List.filter_cons_of_pos (by simpa using (hin _ (Nat.le_refl _)).2 ho'),
        List.filter_cons_of_pos (by simpa using (hin _ hup).2 ho')]
      show [_] = [_]
      have e1 : ((splits - 1) * (cols / splits)) % (cols / splits) = 0 := Nat.mul_mod_left _ _
      have e2 : (cols / splits * splits) % (cols / splits) = 0 := Nat.mul_mod_right _ _
      show [(((splits - 1) * (cols / splits)) % (cols / splits), 0, v)] = [((cols / splits * splits) % (cols / splits), 0, v)]
      rw [e1, e2]
    · rw [List.filter_cons_of_neg (by simpa using fun hc => ho' ((hin _ (Nat.le_refl _)).1 hc)),
        List.filter_cons_of_neg (by simpa using fun hc => ho' ((hin _ hup).1 hc))]
      rfl

/-- 5 rows in 2 pieces: rows 0-1 and rows 2-4 -/
example : splitCsc (⟨5, 2, 4, [0, 3, 4], [0, 1, 4, 2], [10, 11, 12, 13], true⟩ : CSC Int) 2 =
    .ok [[(0, 0, 10), (1, 0, 11)], [(4, 0, 12), (2, 1, 13)]] := by decide +kernel

example : (⟨5, 2, 4, [0, 3, 4], [0, 1, 4, 2], [10, 11, 12, 13], true⟩ : CSC Int).WF :=
  ⟨rfl, rfl, rfl, by decide, rfl, rfl, rfl, by decide⟩

/-- a square matrix of size 3 in 2 pieces meets the condition of `C63_violated_rows` -/
example := C63_violated_rows (V := Int) (rows := 3) (cols := 3) (splits := 2) (by decide) (by decide) (by decide) 1

end Verif.Props
