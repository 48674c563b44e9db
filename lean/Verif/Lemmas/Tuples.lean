import Verif.Model.Tuples
import Verif.SpecTuples
import Verif.Lemmas.SubRef

/-! # Lemmas on lists of triples -/

namespace Verif.Tuples
open Verif Model
open _root_.Verif.Spec (InPiece PosLt IsDedup SortsTriples pos triplesC)

variable {V σ : Type}

theorem owner_ok {r size splits : Nat} (hs : size ≠ 0) (hn : splits ≠ 0) :
    ∃ o, owner r size splits = .ok o ∧ o < splits ∧ ∀ o' < splits, InPiece size splits o' r ↔ o' = o := by
  refine ⟨min (r / size) (splits - 1), ?_, by omega, ?_⟩
  · unfold owner div
    rw [if_neg hs, ok_bind]
  · intro o' ho'
    have hpos : 0 < size := Nat.pos_of_ne_zero hs
    have h1 : o' * size ≤ r ↔ o' ≤ r / size := by rw [Nat.le_div_iff_mul_le hpos]
    have h2 : r < (o' + 1) * size ↔ r / size < o' + 1 := by rw [Nat.div_lt_iff_lt_mul hpos]
    unfold InPiece
    rw [h1, h2]
    omega

/-- the state after distributing `T` -/
theorem push_ok {size splits : Nat} (T : List (Nat × (Nat × Nat × V))) {o : Nat} (r : Nat) (x : Nat × Nat × V) (ho : o < splits)
    (hp : ∀ o' < splits, InPiece size splits o' r ↔ o' = o) :
    pushAt (tab splits fun o => (T.filter fun t => decide (InPiece size splits o t.1)).map Prod.snd) o x =
      .ok (tab splits fun o => ((T ++ [(r, x)]).filter fun t => decide (InPiece size splits o t.1)).map Prod.snd) := by
  unfold pushAt
  rw [rd_tab ho, ok_bind, wr_tab ho]
  congr 1
  apply tab_ext
  intro i hi
  rw [List.filter_append, List.map_append]
  unfold upd
  by_cases h : i = o
  · subst h
    rw [if_pos rfl, List.filter_cons_of_pos (by simpa using (hp i hi).2 rfl)]
    rfl
  · rw [if_neg h, List.filter_cons_of_neg (by simpa using fun hc => h ((hp i hi).1 hc))]
    simp

/-- a loop that distributes the elements of `l` -/
theorem push_fold {α : Type} {size splits : Nat} (hs : size ≠ 0) (hn : splits ≠ 0) (T : List (Nat × (Nat × Nat × V)))
    (f : α → Nat × (Nat × Nat × V)) (l : List α) :
    l.foldlM (fun S a => do
        let o ← owner (f a).1 size splits
        pushAt S o (f a).2) (tab splits fun o => (T.filter fun t => decide (InPiece size splits o t.1)).map Prod.snd) =
      .ok (tab splits fun o => ((T ++ l.map f).filter fun t => decide (InPiece size splits o t.1)).map Prod.snd) := by
  induction l generalizing T with
  | nil => simp [pure, Except.pure]
  | cons a l ih =>
    obtain ⟨o, e, ho, hp⟩ := owner_ok (r := (f a).1) hs hn
    rw [List.foldlM_cons, e, ok_bind, push_ok T (f a).1 (f a).2 ho hp, ok_bind, ih]
    simp

theorem splitCsc_ok {A : CSC V} (h : A.WF) {splits : Nat} (hn : splits ≠ 0) (hr : splits ≤ A.rows) :
    splitCsc A splits = .ok (tab splits fun o => (triplesC A).filter fun t => decide (InPiece (A.rows / splits) splits o t.1)) := by
  have hs : A.rows / splits ≠ 0 := by
    have := Nat.div_pos hr (Nat.pos_of_ne_zero hn)
    omega
  unfold splitCsc div
  rw [if_neg hn, ok_bind]
  obtain ⟨S, e, rfl⟩ := forRange_inv (body := splitCol A splits (A.rows / splits))
    (fun i S => S = tab splits fun o => (((List.range i).flatMap fun j => (A.col j).map fun x => (x.1, (x.1, j, x.2))).filter
      fun t => decide (InPiece (A.rows / splits) splits o t.1)).map Prod.snd) 0 A.cols (Nat.zero_le _)
    (List.replicate splits []) (by rw [Conv.replicate_eq_tab]; rfl)
    (by
      rintro i S _ hi rfl
      refine ⟨_, ?_, rfl⟩
      unfold splitCol
      rw [Inner.rd_cptr h (by omega), ok_bind, Inner.rd_cptr h (by omega), ok_bind,
        forRange_eq_slice (L := A.rowids.zip A.values) (g := fun S (x : Nat × V) => do
          let o ← owner x.1 (A.rows / splits) splits
          pushAt S o (x.1, i, x.2)) (by rw [Inner.czip_length h]; exact Inner.cptr_le_nnz h hi)]
      · have := push_fold hs hn ((List.range i).flatMap fun j => (A.col j).map fun x => (x.1, (x.1, j, x.2)))
          (fun x : Nat × V => (x.1, (x.1, i, x.2))) (A.col i)
        refine Eq.trans this ?_
        rw [List.range_succ, List.flatMap_append, List.flatMap_singleton]
      · intro j hj _ _ S
        have hz := Inner.czip_length h
        rw [rd_of_lt (by rw [h.rowLen]; omega), ok_bind]
        simp only [List.getElem_zip]
        congr 1
        funext o
        rw [rd_of_lt (by rw [h.valLen]; omega), ok_bind])
  rw [e]
  congr 1
  apply tab_ext
  intro o ho
  unfold triplesC
  rw [List.filter_flatMap, List.map_flatMap, List.filter_flatMap]
  apply Conv.flatMap_congr_mem
  intro j _
  rw [List.filter_map, List.filter_map, List.map_map]
  rfl

theorem splitCsr_ok {A : CSR V} (h : A.WF) {splits : Nat} (hn : splits ≠ 0) (hr : splits ≤ A.cols) :
    splitCsr A splits = .ok (tab splits fun o =>
      ((Spec.triples A).filter fun t => decide (InPiece (A.cols / splits) splits o t.1)).map
        fun t => (t.1 % (A.cols / splits), t.2)) := by
  have hs : A.cols / splits ≠ 0 := by
    have := Nat.div_pos hr (Nat.pos_of_ne_zero hn)
    omega
  unfold splitCsr div
  rw [if_neg hn, ok_bind]
  obtain ⟨S, e, rfl⟩ := forRange_inv (body := splitRow A splits (A.cols / splits))
    (fun i S => S = tab splits fun o => (((List.range i).flatMap fun j => (A.row j).map fun x =>
      (j, (j % (A.cols / splits), x.1, x.2))).filter
      fun t => decide (InPiece (A.cols / splits) splits o t.1)).map Prod.snd) 0 A.rows (Nat.zero_le _)
    (List.replicate splits []) (by rw [Conv.replicate_eq_tab]; rfl)
    (by
      rintro i S _ hi rfl
      refine ⟨_, ?_, rfl⟩
      obtain ⟨o, eo, _, _⟩ := owner_ok (r := i) hs hn
      unfold splitRow
      rw [eo, ok_bind, CSR.rd_ptr h (by omega), ok_bind, CSR.rd_ptr h (by omega), ok_bind,
        forRange_eq_slice (L := A.colids.zip A.values) (g := fun S (x : Nat × V) => do
          let o ← owner i (A.cols / splits) splits
          pushAt S o (i % (A.cols / splits), x.1, x.2)) (by rw [CSR.zip_length h]; exact CSR.ptr_le_nnz h hi)]
      · have := push_fold hs hn ((List.range i).flatMap fun j => (A.row j).map fun x => (j, (j % (A.cols / splits), x.1, x.2)))
          (fun x : Nat × V => (i, (i % (A.cols / splits), x.1, x.2))) (A.row i)
        refine Eq.trans this ?_
        rw [List.range_succ, List.flatMap_append, List.flatMap_singleton]
      · intro j hj _ _ S
        have hz := CSR.zip_length h
        rw [rd_of_lt (by rw [h.colLen]; omega), ok_bind, rd_of_lt (by rw [h.valLen]; omega), ok_bind, eo, ok_bind]
        simp only [List.getElem_zip])
  rw [e]
  congr 1
  apply tab_ext
  intro o ho
  unfold Spec.triples
  rw [List.filter_flatMap, List.map_flatMap, List.filter_flatMap, List.map_flatMap]
  apply Conv.flatMap_congr_mem
  intro j _
  rw [List.filter_map, List.filter_map, List.map_map, List.map_map]
  rfl

/-- The pieces together are the whole. -/
theorem pieces_perm {α : Type} {size splits : Nat} (hs : size ≠ 0) (hn : splits ≠ 0) (f : α → Nat) (T : List α) :
    (tab splits fun o => T.filter fun t => decide (InPiece size splits o (f t))).flatten.Perm T := by
  induction T with
  | nil =>
    have : (tab splits fun o => ([] : List α).filter fun t => decide (InPiece size splits o (f t))).flatten = [] := by
      rw [List.flatten_eq_nil_iff]
      intro l hl
      simp only [tab, List.mem_map, List.filter_nil] at hl
      obtain ⟨_, _, e⟩ := hl
      exact e.symm
    rw [this]
  | cons t T ih =>
    obtain ⟨o, _, ho, hp⟩ := owner_ok (r := f t) hs hn
    refine List.Perm.trans ?_ (List.Perm.cons t ih)
    have key : ∀ n, (if o < n then
        (tab n fun o => (t :: T).filter fun t => decide (InPiece size splits o (f t))).flatten.Perm
          (t :: (tab n fun o => T.filter fun t => decide (InPiece size splits o (f t))).flatten)
        else n ≤ splits → (tab n fun o => (t :: T).filter fun t => decide (InPiece size splits o (f t))).flatten =
          (tab n fun o => T.filter fun t => decide (InPiece size splits o (f t))).flatten) ∨ splits < n := by
      intro n
      induction n with
      | zero => left; rw [if_neg (Nat.not_lt_zero o)]; intro _; rfl
      | succ n ihn =>
        by_cases hle : splits < n + 1
        · right; exact hle
        · left
          have ts : ∀ (g : Nat → List α), (tab (n + 1) g).flatten = (tab n g).flatten ++ g n := by
            intro g; simp [tab, List.range_succ]
          rw [ts, ts]
          have ihn := ihn.resolve_right (by omega)
          rcases Nat.lt_trichotomy o n with h1 | h1 | h1
          · rw [if_pos (by omega)]
            rw [if_pos h1] at ihn
            rw [List.filter_cons_of_neg (by simpa using fun hc => absurd ((hp n (by omega)).1 hc) (by omega))]
            exact ihn.append_right _
          · subst h1
            rw [if_pos (by omega)]
            rw [if_neg (by omega)] at ihn
            rw [List.filter_cons_of_pos (by simpa using (hp o (by omega)).2 rfl), ihn (by omega)]
            exact List.perm_middle
          · rw [if_neg (by omega)]
            rw [if_neg (by omega)] at ihn
            intro _
            rw [List.filter_cons_of_neg (by simpa using fun hc => absurd ((hp n (by omega)).1 hc) (by omega)), ihn (by omega)]
    have := (key splits).resolve_right (Nat.lt_irrefl _)
    rw [if_pos ho] at this
    exact this

theorem keepStep_neg {a : List (Nat × Nat × V)} {d src : Nat} {x y : Nat × Nat × V} (hx : a[src]? = some x)
    (hy : a[src - 1]? = some y) (h : pos x = pos y) : keepStep src (a, d) = .ok (a, d) := by
  unfold keepStep
  simp only
  rw [rd_of_getElem? hx, ok_bind, rd_of_getElem? hy, ok_bind, if_neg]
  have := Prod.mk.inj h
  rintro (h1 | h1)
  · exact h1 this.1
  · exact h1 this.2

theorem keepStep_pos {a : List (Nat × Nat × V)} {d src : Nat} {x y : Nat × Nat × V} (hx : a[src]? = some x)
    (hy : a[src - 1]? = some y) (h : pos x ≠ pos y) (hd : d < a.length) :
    keepStep src (a, d) = .ok (a.set d x, d + 1) := by
  unfold keepStep
  simp only
  rw [rd_of_getElem? hx, ok_bind, rd_of_getElem? hy, ok_bind, if_pos, wr_of_lt hd, ok_bind]
  by_cases h1 : x.1 = y.1
  · right
    intro h2
    exact h (Prod.ext h1 h2)
  · left; exact h1

theorem posLt_trans {a b c : Nat × Nat × V} (h1 : PosLt a b) (h2 : PosLt b c) : PosLt a c := by
  unfold PosLt at *; omega

theorem posLt_of {a b : Nat × Nat × V} (h1 : ¬ PosLt b a) (h2 : pos b ≠ pos a) : PosLt a b := by
  unfold PosLt at *
  by_cases h : a.1 = b.1
  · by_cases h' : a.2.1 = b.2.1
    · exact absurd (show pos b = pos a by unfold Spec.pos; rw [h, h']) h2
    · omega
  · omega

theorem removeDuplicates_ok {sortf : List (Nat × Nat × V) → List (Nat × Nat × V)} (hs : SortsTriples sortf)
    (T : List (Nat × Nat × V)) (hT : T ≠ []) :
    ∃ a d, removeDuplicates sortf T = .ok (a, d) ∧ a.length = T.length ∧ d ≤ T.length ∧ IsDedup T (a.take d) := by
  have hlen := (hs.perm T).length_eq
  have h0 : 0 < T.length := List.length_pos_iff.2 hT
  have hsrt := hs.sorted T
  unfold removeDuplicates
  generalize hS : sortf T = S at hlen hsrt
  have hperm : S.Perm T := by rw [← hS]; exact hs.perm T
  obtain ⟨⟨a, d⟩, e, h1, h2, h3, h4, h5, h6, h7⟩ := forRange_inv (body := keepStep)
    (fun src (s : List (Nat × Nat × V) × Nat) => s.1.length = T.length ∧ s.2 ≤ src ∧ 0 < s.2 ∧
      (∀ k, src - 1 ≤ k → s.1[k]? = S[k]?) ∧ (s.1.take s.2).Pairwise PosLt ∧
      (∀ t, t ∈ s.1.take s.2 → t ∈ S.take src) ∧
      (∀ t ∈ S.take src, ∃ t' ∈ s.1.take s.2, pos t' = pos t)) 1 T.length h0 (S, 1)
    ⟨hlen, Nat.le_refl _, Nat.one_pos, fun _ _ => rfl, by
      match S with
      | [] => simp
      | x :: _ => simp, fun t ht => ht, fun t ht => ⟨t, ht, rfl⟩⟩
    (by
      rintro src ⟨a, d⟩ hlo hhi ⟨h1, h2, h3, h4, h5, h6, h7⟩
      simp only at h1 h2 h3 h4 h5 h6 h7
      have hsl : src < S.length := by omega
      have hx : a[src]? = some S[src] := by rw [h4 src (by omega), List.getElem?_eq_getElem hsl]
      have hy : a[src - 1]? = some (S[src - 1]'(by omega)) := by
        rw [h4 (src - 1) (by omega), List.getElem?_eq_getElem (by omega)]
      have htk : S.take (src + 1) = S.take src ++ [S[src]] := List.take_succ_eq_append_getElem hsl
      have hym : S[src - 1]'(by omega) ∈ S.take src :=
        List.mem_of_getElem? (i := src - 1)
          (by rw [List.getElem?_take_of_lt (by omega), List.getElem?_eq_getElem (by omega)])
      by_cases hp : pos S[src] = pos (S[src - 1]'(by omega))
      · refine ⟨(a, d), keepStep_neg hx hy hp, h1, by simp only; omega, h3, fun k hk => h4 k (by omega), h5, ?_, ?_⟩
        · intro t ht
          rw [htk, List.mem_append]
          exact Or.inl (h6 t ht)
        · intro t ht
          rw [htk, List.mem_append, List.mem_singleton] at ht
          rcases ht with ht | rfl
          · exact h7 t ht
          · obtain ⟨t', ht', e⟩ := h7 _ hym
            exact ⟨t', ht', e.trans hp.symm⟩
      · have hdl : d < a.length := by omega
        have hta : (a.set d S[src]).take (d + 1) = a.take d ++ [S[src]] := by
          rw [List.take_succ_eq_append_getElem (by rw [List.length_set]; exact hdl), List.getElem_set_self,
            List.take_set_of_le (Nat.le_refl _)]
        refine ⟨(a.set d S[src], d + 1), keepStep_pos hx hy hp hdl, by simp only [List.length_set]; exact h1,
          by simp only; omega, by simp only; omega, ?_, ?_, ?_, ?_⟩
        · intro k hk
          simp only
          by_cases hkd : k = d
          · have : k = src := by omega
            rw [hkd, List.getElem?_set_self hdl, ← hkd, this, List.getElem?_eq_getElem hsl]
          · rw [List.getElem?_set_ne (by omega)]
            exact h4 k (by omega)
        · simp only
          rw [hta, List.pairwise_append]
          refine ⟨h5, List.pairwise_singleton _ _, ?_⟩
          intro t ht u hu
          rw [List.mem_singleton] at hu
          subst hu
          -- t is before or at position src - 1
          have htS := h6 t ht
          obtain ⟨k, hk, rfl⟩ := List.getElem_of_mem htS
          rw [List.length_take] at hk
          rw [List.getElem_take]
          have hlt : PosLt (S[src - 1]'(by omega)) S[src] :=
            posLt_of (List.pairwise_iff_getElem.1 hsrt (src - 1) src (by omega) hsl (by omega)) hp
          by_cases hks : k = src - 1
          · subst hks; exact hlt
          · have := List.pairwise_iff_getElem.1 hsrt k (src - 1) (by omega) (by omega) (by omega)
            unfold PosLt at *
            omega
        · intro t ht
          simp only at ht
          rw [hta, List.mem_append, List.mem_singleton] at ht
          rw [htk, List.mem_append, List.mem_singleton]
          exact ht.imp (h6 t) id
        · intro t ht
          simp only
          rw [hta]
          rw [htk, List.mem_append, List.mem_singleton] at ht
          rcases ht with ht | rfl
          · obtain ⟨t', ht', e⟩ := h7 t ht
            exact ⟨t', List.mem_append_left _ ht', e⟩
          · exact ⟨_, List.mem_append_right _ (List.mem_singleton_self _), rfl⟩)
  simp only at h1 h2 h3 h4 h5 h6 h7
  rw [← hlen, List.take_length] at h6 h7
  exact ⟨a, d, e, h1, h2, h5, fun t ht => hperm.mem_iff.1 (h6 t ht), fun t ht => h7 t (hperm.mem_iff.2 ht)⟩

theorem pushAt_nil {α : Type} (i : Nat) (x : α) : pushAt [] i x = .error .oob := rfl

theorem mergeStep_err {A : CSC V} (h : A.WF) (add : V → V → V) {i : Nat} (hi : i < A.cols) (s : MergeSt V) (hs : s.ids = []) :
    (A.ptr i = A.ptr (i + 1) → mergeStep A add s i = .ok s) ∧
    (A.ptr i < A.ptr (i + 1) → mergeStep A add s i = .error .oob) := by
  unfold mergeStep
  rw [Inner.rd_cptr h (by omega), ok_bind, Inner.rd_cptr h (by omega), ok_bind]
  constructor
  · intro e
    unfold mergeCol
    rw [if_neg (by omega)]
  · intro hlt
    have := Inner.cptr_le_nnz h (j := i + 1) hi
    unfold mergeCol
    rw [if_pos hlt, rd_of_lt (by rw [h.rowLen]; omega), ok_bind, hs, pushAt_nil]
    rfl

theorem mergeDuplicates_err {A : CSC V} (h : A.WF) (hc : A.cols ≠ 0) (dflt : V) (add : V → V → V) {order order2 : List Nat}
    (ho : order.Perm (List.range A.cols)) (ho2 : order2.Perm (List.range A.cols)) :
    mergeDuplicates dflt add order order2 A = .error .oob := by
  have hm : ∀ i, i ∈ order ↔ i < A.cols := fun i => by rw [ho.mem_iff, List.mem_range]
  unfold mergeDuplicates
  obtain ⟨diff, e, rfl⟩ := forRange_inv (body := fun i diff => do
      let e ← rd A.colptr (i + 1)
      if i = 0 then wr diff i e
      else do
        let b ← rd A.colptr i
        wr diff i (e - b))
    (fun i diff => diff = tab A.cols (fun t => if t < i then A.ptr (t + 1) - A.ptr t else 0)) 0 A.cols (Nat.zero_le _)
    (List.replicate A.cols 0) (by rw [Conv.replicate_eq_tab]; rfl)
    (by
      rintro i s _ hi rfl
      refine ⟨_, ?_, rfl⟩
      have ht : ∀ x, x = A.ptr (i + 1) - A.ptr i →
          tab A.cols (upd (fun t => if t < i then A.ptr (t + 1) - A.ptr t else 0) i x) =
          tab A.cols (fun t => if t < i + 1 then A.ptr (t + 1) - A.ptr t else 0) := by
        rintro x rfl
        apply tab_ext
        intro t _
        simp only [upd]
        by_cases h1 : t = i
        · rw [if_pos h1, if_pos (by omega), h1]
        · rw [if_neg h1]
          by_cases h2 : t < i
          · rw [if_pos h2, if_pos (by omega)]
          · rw [if_neg h2, if_neg (by omega)]
      rw [Inner.rd_cptr h (by omega), ok_bind]
      split
      · rename_i h0
        rw [wr_tab hi, ht]
        rw [h0, h.ptrFirst, Nat.sub_zero]
      · rw [Inner.rd_cptr h (by omega), ok_bind, wr_tab hi, ht _ rfl])
  rw [e, ok_bind]
  unfold mergeAll
  split
  · rename_i hnz
    -- some column has entries
    have hex : ∃ i < A.cols, A.ptr i < A.ptr (i + 1) := by
      apply Classical.byContradiction
      intro hno
      have : ∀ n ≤ A.cols, A.ptr n = 0 := by
        intro n
        induction n with
        | zero => intro _; exact h.ptrFirst
        | succ n ih =>
          intro hn
          have h1 := ih (by omega)
          by_cases h2 : A.ptr n < A.ptr (n + 1)
          · exact absurd ⟨n, by omega, h2⟩ hno
          · omega
      have := this A.cols (Nat.le_refl _)
      rw [h.ptrLast] at this
      omega
    rw [SubRef.foldlM_err (e0 := .oob) (fun s : MergeSt V => s.ids = [])]
    · rfl
    · intro i hi s hs
      have hi := (hm i).1 hi
      rcases Nat.eq_or_lt_of_le (h.ptrMono i hi) with h1 | h1
      · exact Or.inl ⟨s, (mergeStep_err h add hi s hs).1 h1, hs⟩
      · exact Or.inr ((mergeStep_err h add hi s hs).2 h1)
    · obtain ⟨i, hi, hlt⟩ := hex
      exact ⟨i, (hm i).2 hi, fun s hs => (mergeStep_err h add hi s hs).2 hlt⟩
    · rfl
  · simp only [ok_bind]
    rw [Conv.cumulativeSum_eq, ok_bind]
    simp only
    rw [wr_of_lt (by rw [h.ptrLen]; omega), ok_bind]
    obtain ⟨ptr, e, hp⟩ := forRange_inv (body := fun i (dst : List Nat) => do
        wr dst i (← rd (tab A.cols (psum fun t => if t < A.cols then A.ptr (t + 1) - A.ptr t else 0)) i))
      (fun _ dst => dst.length = A.cols + 1) 0 A.cols (Nat.zero_le _)
      (A.colptr.set A.cols (psum (fun t => if t < A.cols then A.ptr (t + 1) - A.ptr t else 0) A.cols))
      (by rw [List.length_set, h.ptrLen])
      (by
        intro i dst _ hi hd
        rw [rd_tab hi, ok_bind, wr_of_lt (by omega)]
        exact ⟨_, rfl, by rw [List.length_set, hd]⟩)
    unfold Conv.copyN
    rw [e, ok_bind, rd_of_lt (by omega), ok_bind]
    cases hq : order2 with
    | nil =>
      have := ho2.length_eq
      rw [hq] at this
      simp at this
      exact absurd this.symm hc
    | cons i rest =>
      rw [List.foldlM_cons]
      rfl

end Verif.Tuples
