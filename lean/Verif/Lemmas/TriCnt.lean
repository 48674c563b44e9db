import Verif.Model.TriCnt
import Verif.SpecTri
import Verif.Lemmas.Tuples
import Verif.Lemmas.Relabel
import Verif.Lemmas.Outer
import Verif.Props.C21
import Verif.Props.C29

/-! # Lemmas for triangle counting without GraphBLAS -/

namespace Verif.Model.TriCnt

open Verif.Spec

variable {V : Type}

theorem countRows_ok {A : CSC V} (h : A.WF) : ∃ f : Nat → Nat, countRows A = .ok (tab A.rows fun i => (f i, i)) := by
  unfold countRows
  obtain ⟨c, e, f, rfl⟩ := forRange_inv (body := fun i (c : List (Nat × Nat)) => do
      let r ← rd A.rowids i
      let x ← rd c r
      wr c r (x.1 + 1, x.2))
    (P := fun _ c => ∃ f : Nat → Nat, c = tab A.rows fun i => (f i, i)) 0 A.nnz (Nat.zero_le _) _ ⟨fun _ => 0, rfl⟩ (by
      rintro k c - hk ⟨f, rfl⟩
      have hk' : k < A.rowids.length := by rw [h.rowLen]; exact hk
      have hr : A.rowids[k] < A.rows := h.inBounds _ (List.getElem_mem hk')
      refine ⟨_, by rw [rd_of_lt hk', ok_bind, rd_tab hr, ok_bind, wr_tab hr], upd f A.rowids[k] (f A.rowids[k] + 1), ?_⟩
      apply tab_ext
      intro i _
      by_cases hi : i = A.rowids[k]
      · subst hi; simp [upd]
      · simp [upd, hi])
  exact ⟨f, e⟩

/-- What one entry becomes, with the new numbers `p` -/
def low (one : V) (p : Nat → Nat) (j r : Nat) : Option (Nat × Nat × V) :=
  if p j < p r then some (p r, p j, one) else if p r < p j then some (p j, p r, one) else none

/-- The array after the triples `ts` have been stored -/
def st (z : Nat × Nat × V) (N : Nat) (ts : List (Nat × Nat × V)) : List (Nat × Nat × V) × Nat :=
  (ts ++ List.replicate (N - ts.length) z, ts.length)

theorem push_ok (z : Nat × Nat × V) {N : Nat} {ts : List (Nat × Nat × V)} (h : ts.length < N) (t : Nat × Nat × V) :
    push t (st z N ts) = .ok (st z N (ts ++ [t])) := by
  unfold push st
  obtain ⟨m, hm⟩ : ∃ m, N - ts.length = m + 1 := ⟨N - ts.length - 1, by omega⟩
  rw [wr_of_lt (by simp; omega), ok_bind]
  have : N - (ts ++ [t]).length = m := by simp; omega
  rw [this, hm, List.set_append_right _ _ (Nat.le_refl _), Nat.sub_self, List.replicate_succ]
  simp

theorem lowerStep_ok (one : V) {cnts : List (Nat × Nat)} {A : CSC V} (h : A.WF) {p : Nat → Nat}
    (hp : ∀ i < A.rows, (cnts[i]?).map Prod.snd = some (p i)) {i j : Nat} (hi : i < A.rows) (hj : j < A.nnz)
    (z : Nat × Nat × V) {N : Nat} {ts : List (Nat × Nat × V)} (hN : ts.length < N) :
    lowerStep one cnts A i j (st z N ts) =
      .ok (st z N (ts ++ (low one p i (A.rowids[j]'(by rw [h.rowLen]; exact hj))).toList)) := by
  have hj' : j < A.rowids.length := by rw [h.rowLen]; exact hj
  have hr : A.rowids[j] < A.rows := h.inBounds _ (List.getElem_mem hj')
  have get : ∀ i < A.rows, ∃ a, cnts[i]? = some (a, p i) := by
    intro i hi
    obtain ⟨⟨a, b⟩, h1, h2⟩ := Option.map_eq_some_iff.1 (hp i hi)
    exact ⟨a, by rw [h1, ← h2]⟩
  obtain ⟨a, ha⟩ := get i hi
  obtain ⟨b, hb⟩ := get _ hr
  unfold lowerStep low
  rw [rd_of_getElem? ha, ok_bind, rd_of_lt hj', ok_bind, rd_of_getElem? hb, ok_bind]
  simp only
  split
  · rw [push_ok z hN]; rfl
  · split
    · rw [push_ok z hN]; rfl
    · simp

/-- All triples that are stored -/
def lows (one : V) (p : Nat → Nat) (A : CSC V) (n : Nat) : List (Nat × Nat × V) :=
  (List.range n).flatMap fun j => (A.colRows j).filterMap (low one p j)

theorem lowerCol_ok (one : V) {cnts : List (Nat × Nat)} {A : CSC V} (h : A.WF) {p : Nat → Nat}
    (hp : ∀ i < A.rows, (cnts[i]?).map Prod.snd = some (p i)) {i : Nat} (hi : i < A.rows) (hi' : i < A.cols)
    (z : Nat × Nat × V) {ts : List (Nat × Nat × V)} (hN : ts.length ≤ A.ptr i) :
    lowerCol one cnts A i (st z A.nnz ts) = .ok (st z A.nnz (ts ++ (A.colRows i).filterMap (low one p i))) := by
  unfold lowerCol
  rw [Inner.rd_cptr h (by omega), ok_bind, Inner.rd_cptr h (by omega), ok_bind]
  have hm := h.ptrMono i hi'
  have hle := Inner.cptr_le_nnz h (j := i + 1) hi'
  obtain ⟨s, e, rfl⟩ := forRange_inv (body := lowerStep one cnts A i)
    (P := fun k s => s = st z A.nnz (ts ++ (slice A.rowids (A.ptr i) k).filterMap (low one p i)))
    (A.ptr i) (A.ptr (i + 1)) hm (st z A.nnz ts) (by simp [slice_empty]) (by
      rintro k s hk1 hk2 rfl
      have hk' : k < A.rowids.length := by rw [h.rowLen]; omega
      have hlen : (ts ++ (slice A.rowids (A.ptr i) k).filterMap (low one p i)).length < A.nnz := by
        have h1 := List.length_filterMap_le (low one p i) (slice A.rowids (A.ptr i) k)
        rw [slice_length (by rw [h.rowLen]; omega)] at h1
        rw [List.length_append]
        omega
      refine ⟨_, lowerStep_ok one h hp hi (by omega) z hlen, ?_⟩
      rw [Outer.slice_push (by omega) hk', List.filterMap_append, ← List.append_assoc]
      congr 2)
  exact e

theorem lows_length (one : V) (p : Nat → Nat) {A : CSC V} (h : A.WF) : ∀ n ≤ A.cols, (lows one p A n).length ≤ A.ptr n
  | 0, _ => by simp [lows]
  | n + 1, hn => by
    have ih := lows_length one p h n (by omega)
    have hm := h.ptrMono n (by omega)
    have hle := Inner.cptr_le_nnz h (j := n + 1) hn
    unfold lows at *
    rw [List.range_succ, List.flatMap_append, List.length_append]
    have h1 := List.length_filterMap_le (low one p n) (A.colRows n)
    have h2 : (A.colRows n).length = A.ptr (n + 1) - A.ptr n := by
      unfold CSC.colRows
      rw [slice_length (by rw [h.rowLen]; omega)]
    simp only [List.flatMap_cons, List.flatMap_nil, List.append_nil]
    omega

theorem lowerLoop_ok (one : V) {cnts : List (Nat × Nat)} {A : CSC V} (h : A.WF) (hsq : A.cols ≤ A.rows) {p : Nat → Nat}
    (hp : ∀ i < A.rows, (cnts[i]?).map Prod.snd = some (p i)) (z : Nat × Nat × V) :
    forRange 0 A.cols (List.replicate A.nnz z, 0) (lowerCol one cnts A) = .ok (st z A.nnz (lows one p A A.cols)) := by
  obtain ⟨s, e, rfl⟩ := forRange_inv (body := lowerCol one cnts A) (P := fun k s => s = st z A.nnz (lows one p A k))
    0 A.cols (Nat.zero_le _) (List.replicate A.nnz z, 0) (by simp [st, lows]) (by
      rintro k s - hk rfl
      refine ⟨_, lowerCol_ok one h hp (by omega) hk z (lows_length one p h k (by omega)), ?_⟩
      unfold lows
      rw [List.range_succ, List.flatMap_append]
      simp)
  exact e

/-! ## Removing duplicates -/

theorem dedup_ok (S rest : List (Nat × Nat × V)) (h0 : S ≠ []) (hsrt : S.Pairwise (fun a b => ¬ PosLt a b)) :
    ∃ a d, forRange 1 S.length (S ++ rest, 1) Tuples.keepStep = .ok (a, d) ∧ a.length = S.length + rest.length ∧ d ≤ a.length ∧
      (a.take d).Pairwise (fun a b => PosLt b a) ∧ (∀ t ∈ a.take d, t ∈ S) ∧ (∀ t ∈ S, ∃ t' ∈ a.take d, pos t' = pos t) := by
  have hpos : 0 < S.length := List.length_pos_iff.2 h0
  obtain ⟨⟨a, d⟩, e, h1, h2, h3, h4, h5, h6, h7⟩ := forRange_inv (body := Tuples.keepStep)
    (fun src (s : List (Nat × Nat × V) × Nat) => s.1.length = S.length + rest.length ∧ s.2 ≤ src ∧ 0 < s.2 ∧
      (∀ k, src - 1 ≤ k → s.1[k]? = (S ++ rest)[k]?) ∧ (s.1.take s.2).Pairwise (fun a b => PosLt b a) ∧
      (∀ t, t ∈ s.1.take s.2 → t ∈ S.take src) ∧
      (∀ t ∈ S.take src, ∃ t' ∈ s.1.take s.2, pos t' = pos t)) 1 S.length hpos (S ++ rest, 1)
    (by
      match S with
      | [] => exact absurd rfl h0
      | x :: _ => exact ⟨by simp; omega, Nat.le_refl _, Nat.one_pos, fun _ _ => rfl, by simp, by simp, by simp⟩)
    (by
      rintro src ⟨a, d⟩ hlo hhi ⟨h1, h2, h3, h4, h5, h6, h7⟩
      simp only at h1 h2 h3 h4 h5 h6 h7
      have hx : a[src]? = some S[src] := by
        rw [h4 src (by omega), List.getElem?_append_left hhi, List.getElem?_eq_getElem hhi]
      have hy : a[src - 1]? = some (S[src - 1]'(by omega)) := by
        rw [h4 (src - 1) (by omega), List.getElem?_append_left (by omega), List.getElem?_eq_getElem (by omega)]
      have htk : S.take (src + 1) = S.take src ++ [S[src]] := List.take_succ_eq_append_getElem hhi
      have hym : S[src - 1]'(by omega) ∈ S.take src :=
        List.mem_of_getElem? (i := src - 1)
          (by rw [List.getElem?_take_of_lt (by omega), List.getElem?_eq_getElem (by omega)])
      by_cases hp : pos S[src] = pos (S[src - 1]'(by omega))
      · refine ⟨(a, d), Tuples.keepStep_neg hx hy hp, h1, by simp only; omega, h3, fun k hk => h4 k (by omega), h5, ?_, ?_⟩
        · intro t ht
          rw [htk, List.mem_append]
          exact Or.inl (h6 t ht)
        · intro t ht
          rw [htk, List.mem_append, List.mem_singleton] at ht
          rcases ht with ht | rfl
          · exact h7 t ht
          · obtain ⟨t', ht', e⟩ := h7 _ hym
            exact ⟨t', ht', e.trans hp.symm⟩
      · have hdl : d < a.length := by omega
        have hta : (a.set d S[src]).take (d + 1) = a.take d ++ [S[src]] := by
          rw [List.take_succ_eq_append_getElem (by rw [List.length_set]; exact hdl), List.getElem_set_self,
            List.take_set_of_le (Nat.le_refl _)]
        refine ⟨(a.set d S[src], d + 1), Tuples.keepStep_pos hx hy hp hdl, by simp only [List.length_set]; exact h1,
          by simp only; omega, by simp only; omega, ?_, ?_, ?_, ?_⟩
        · intro k hk
          simp only
          by_cases hkd : k = d
          · have : k = src := by omega
            rw [hkd, List.getElem?_set_self hdl, ← hkd, this, List.getElem?_append_left hhi, List.getElem?_eq_getElem hhi]
          · rw [List.getElem?_set_ne (by omega)]
            exact h4 k (by omega)
        · simp only
          rw [hta, List.pairwise_append]
          refine ⟨h5, List.pairwise_singleton _ _, ?_⟩
          intro t ht u hu
          rw [List.mem_singleton] at hu
          subst hu
          have htS := h6 t ht
          obtain ⟨k, hk, rfl⟩ := List.getElem_of_mem htS
          rw [List.length_take] at hk
          rw [List.getElem_take]
          have hlt : PosLt S[src] (S[src - 1]'(by omega)) :=
            Tuples.posLt_of (List.pairwise_iff_getElem.1 hsrt (src - 1) src (by omega) hhi (by omega)) (fun e => hp e.symm)
          by_cases hks : k = src - 1
          · subst hks; exact hlt
          · have := List.pairwise_iff_getElem.1 hsrt k (src - 1) (by omega) (by omega) (by omega)
            unfold PosLt at *
            omega
        · intro t ht
          simp only at ht
          rw [hta, List.mem_append, List.mem_singleton] at ht
          rw [htk, List.mem_append, List.mem_singleton]
          exact ht.imp (h6 t) id
        · intro t ht
          simp only
          rw [hta]
          rw [htk, List.mem_append, List.mem_singleton] at ht
          rcases ht with ht | rfl
          · obtain ⟨t', ht', e⟩ := h7 t ht
            exact ⟨t', List.mem_append_left _ ht', e⟩
          · exact ⟨_, List.mem_append_right _ (List.mem_singleton_self _), rfl⟩)
  simp only at h1 h2 h3 h4 h5 h6 h7
  rw [List.take_length] at h6 h7
  exact ⟨a, d, e, h1, by omega, h5, h6, h7⟩

/-! ## The preprocessed matrix -/

theorem posLt_pos {a b : Nat × Nat × V} (h : PosLt b a) : (a.1, a.2.1) ≠ (b.1, b.2.1) := by
  unfold PosLt at h
  intro e
  rw [Prod.mk.injEq] at e
  omega

theorem low_eq {one : V} {p : Nat → Nat} {j r : Nat} {t : Nat × Nat × V} : low one p j r = some t ↔
    t.2.2 = one ∧ t.2.1 < t.1 ∧ (t.1 = p r ∧ t.2.1 = p j ∨ t.1 = p j ∧ t.2.1 = p r) := by
  obtain ⟨a, b, c⟩ := t
  unfold low
  split
  · simp only [Option.some.injEq, Prod.mk.injEq]
    constructor
    · rintro ⟨rfl, rfl, rfl⟩; exact ⟨rfl, by omega, Or.inl ⟨rfl, rfl⟩⟩
    · rintro ⟨rfl, h, ⟨rfl, rfl⟩ | ⟨rfl, rfl⟩⟩
      · exact ⟨rfl, rfl, rfl⟩
      · omega
  · split
    · simp only [Option.some.injEq, Prod.mk.injEq]
      constructor
      · rintro ⟨rfl, rfl, rfl⟩; exact ⟨rfl, by omega, Or.inr ⟨rfl, rfl⟩⟩
      · rintro ⟨rfl, h, ⟨rfl, rfl⟩ | ⟨rfl, rfl⟩⟩
        · omega
        · exact ⟨rfl, rfl, rfl⟩
    · simp only [reduceCtorEq, false_iff]
      rintro ⟨-, h, ⟨rfl, rfl⟩ | ⟨rfl, rfl⟩⟩ <;> omega

theorem mem_lows {one : V} {p : Nat → Nat} {A : CSC V} {n : Nat} {t : Nat × Nat × V} : t ∈ lows one p A n ↔
    ∃ j < n, ∃ r ∈ A.colRows j, t.2.2 = one ∧ t.2.1 < t.1 ∧ (t.1 = p r ∧ t.2.1 = p j ∨ t.1 = p j ∧ t.2.1 = p r) := by
  simp only [lows, List.mem_flatMap, List.mem_range, List.mem_filterMap, low_eq]

/-- The new numbers are a permutation, and the matrix has the stored triples once each, or only the entry `(0, 0, dflt)` if there are none. -/
theorem preprocess_ok {A : CSC V} (h : A.WF) {n : Nat} (hr : A.rows = n) (hc : A.cols = n) (hnz : 0 < A.nnz)
    {sortP : List (Nat × Nat) → List (Nat × Nat)} (hP : SortsGreater sortP)
    {sortT : List (Nat × Nat × V) → List (Nat × Nat × V)} (hT : SortsDown sortT)
    {sortf : List (Nat × V) → List (Nat × V)} (hs : SortsBy Prod.fst sortf) {order : List Nat} (ho : order.Perm (List.range n))
    (dflt one : V) : ∃ (L : CSC V) (σ : Equiv.Perm (Fin n)) (p : Nat → Nat), (∀ u : Fin n, p u = σ u) ∧
      preprocess sortP sortT sortf order dflt one A = .ok L ∧ L.WF ∧ L.rows = n ∧ L.cols = n ∧ L.nnz ≤ A.nnz ∧ L.SortedCols ∧
      ((lows one p A n = [] ∧ ∀ t, t ∈ triplesC L ↔ t = (0, 0, dflt)) ∨ ∀ t, t ∈ triplesC L ↔ t ∈ lows one p A n) := by
  obtain ⟨f, hf⟩ := countRows_ok h
  have hn : 0 < n := by
    have : 0 < A.rowids.length := by rw [h.rowLen]; exact hnz
    have := h.inBounds _ (List.getElem_mem this)
    omega
  have hperm : ((sortP (tab A.rows fun i => (f i, i))).map Prod.snd).Perm (List.range n) := by
    refine ((hP.perm _).map _).trans ?_
    rw [hr]
    have : (tab n fun i => (f i, i)).map Prod.snd = List.range n := by
      unfold tab
      rw [List.map_map]
      exact List.map_id _
    rw [this]
  generalize hcn : sortP (tab A.rows fun i => (f i, i)) = cnts at hperm
  have hlen : cnts.length = n := by simpa using hperm.length_eq
  have hnd : (cnts.map Prod.snd).Nodup := hperm.nodup_iff.2 List.nodup_range
  let p : Nat → Nat := fun i => ((cnts.map Prod.snd)[i]?).getD 0
  have hp : ∀ i < A.rows, (cnts[i]?).map Prod.snd = some (p i) := by
    intro i hi
    have hi' : i < cnts.length := by omega
    simp [p, hi']
  have hpl : ∀ i (hi : i < n), p i = (cnts.map Prod.snd)[i]'(by rw [List.length_map]; omega) := by
    intro i hi
    have hi' : i < cnts.length := by omega
    simp [p, hi']
  have hlt : ∀ i < n, p i < n := by
    intro i hi
    rw [hpl i hi]
    exact List.mem_range.1 (hperm.mem_iff.1 (List.getElem_mem _))
  have hinj : Function.Injective fun i : Fin n => (⟨p i, hlt i i.2⟩ : Fin n) := by
    intro i j e
    have e : p i = p j := congrArg Fin.val e
    rw [hpl i i.2, hpl j j.2] at e
    exact Fin.ext ((List.Nodup.getElem_inj_iff hnd).1 e)
  let σ : Equiv.Perm (Fin n) := Equiv.ofBijective _ (Finite.injective_iff_bijective.1 hinj)
  have hloop := lowerLoop_ok one h (by omega : A.cols ≤ A.rows) hp (0, 0, dflt)
  have hll := lows_length one p h A.cols (Nat.le_refl _)
  rw [h.ptrLast] at hll
  unfold preprocess
  rw [hf, ok_bind, hcn, hloop, ok_bind]
  have hsort : Conv.sortRange sortT (st (0, 0, dflt) A.nnz (lows one p A A.cols)).1 0 (st (0, 0, dflt) A.nnz (lows one p A A.cols)).2 =
      .ok (sortT (lows one p A A.cols) ++ List.replicate (A.nnz - (lows one p A A.cols).length) (0, 0, dflt)) := by
    unfold Conv.sortRange st
    rw [if_pos ⟨Nat.zero_le _, by simp⟩]
    simp [slice]
  rw [hsort, ok_bind]
  rw [hc] at hll ⊢
  rw [hr]
  change ∃ (L : CSC V) (σ : Equiv.Perm (Fin n)) (p' : Nat → Nat), (∀ u : Fin n, p' u = σ u) ∧
    (forRange 1 (lows one p A n).length _ _ >>= _) = _ ∧ _
  have hσ : ∀ u : Fin n, p u = σ u := fun u => rfl
  by_cases h0 : lows one p A n = []
  · have hs0 : sortT (lows one p A n) = [] := by
      rw [h0]; exact List.length_eq_zero_iff.1 (hT.perm []).length_eq
    rw [hs0, h0, forRange_of_le (by simp), ok_bind]
    obtain ⟨m, hm⟩ : ∃ m, A.nnz = m + 1 := ⟨A.nnz - 1, by omega⟩
    have hpre : prefixOf ([] ++ List.replicate (A.nnz - ([] : List (Nat × Nat × V)).length) (0, 0, dflt)) 1 = .ok [(0, 0, dflt)] := by
      unfold prefixOf
      rw [hm]
      simp
    rw [hpre, ok_bind]
    obtain ⟨L, e, h1, h2, h3, h4, h5, -, h6⟩ := Props.C47_triples hs dflt [(0, 0, dflt)] n n order ho (by simpa using hn)
    refine ⟨L, σ, p, hσ, e, h1, h2, h3, by rw [h4]; exact hnz, h6 (by simp), Or.inl ⟨h0, fun t => ?_⟩⟩
    rw [h5.mem_iff, List.mem_singleton]
  · have hpm := hT.perm (lows one p A n)
    have hne : sortT (lows one p A n) ≠ [] := fun e => h0 (List.length_eq_zero_iff.1 (by rw [← hpm.length_eq, e]; rfl))
    obtain ⟨a, d, e, hal, h1, h2, h3, h4⟩ := dedup_ok (sortT (lows one p A n))
      (List.replicate (A.nnz - (lows one p A n).length) (0, 0, dflt)) hne (hT.sorted _)
    rw [hpm.length_eq] at e
    rw [e, ok_bind]
    have hpre : prefixOf a d = .ok (a.take d) := by unfold prefixOf; rw [if_pos h1]
    rw [hpre, ok_bind]
    have hmem : ∀ t, t ∈ a.take d ↔ t ∈ lows one p A n := by
      intro t
      constructor
      · exact fun ht => hpm.mem_iff.1 (h3 t ht)
      · intro ht
        obtain ⟨t', ht', e⟩ := h4 t (hpm.mem_iff.2 ht)
        have v1 := (mem_lows.1 ht)
        have v2 := (mem_lows.1 (hpm.mem_iff.1 (h3 t' ht')))
        obtain ⟨_, _, _, _, v1, _⟩ := v1
        obtain ⟨_, _, _, _, v2, _⟩ := v2
        have : t' = t := by
          obtain ⟨a, b, c⟩ := t
          obtain ⟨a', b', c'⟩ := t'
          simp only [pos, Prod.mk.injEq] at e v1 v2 ⊢
          exact ⟨e.1, e.2, v2.trans v1.symm⟩
        exact this ▸ ht'
    have hb : ∀ t ∈ a.take d, t.1 < n ∧ t.2.1 < n := by
      intro t ht
      obtain ⟨j, hj, r, hr', -, -, h'⟩ := mem_lows.1 ((hmem t).1 ht)
      have hrn : r < n := hr ▸ h.inBounds r (mem_slice hr')
      have := hlt j hj
      have := hlt r hrn
      omega
    obtain ⟨L, e', g1, g2, g3, g4, g5, -, g6⟩ := Props.C47_triples hs dflt (a.take d) n n order ho hb
    refine ⟨L, σ, p, hσ, e', g1, g2, g3, ?_, g6 (h2.imp posLt_pos), Or.inr fun t => ?_⟩
    · rw [g4]
      rw [hpm.length_eq, List.length_replicate] at hal
      rw [List.length_take]; omega
    · rw [g5.mem_iff, hmem]

/-! ## The product -/

section product
variable {R : Type} [Semiring R]

theorem ofRows_congr {rows cols : Nat} {zb : Bool} {F G : Nat → List (Nat × V)} (h : ∀ i < rows, F i = G i) :
    ofRows rows cols zb F = ofRows rows cols zb G := by
  have h1 : seg F 0 rows = seg G 0 rows := Conv.seg_congr fun i _ hi => h i hi
  have h2 : ∀ i ≤ rows, psum (lens F) i = psum (lens G) i := fun i hi => psum_congr fun k hk => by
    unfold lens; rw [h k (by omega)]
  unfold ofRows
  rw [h1, h2 rows (Nat.le_refl _), tab_ext (fun i hi => h2 i (by omega))]

theorem maskedMat_congr {mul mul' add : V → V → V} {X : CSR V}
    (h : ∀ i j, i < X.rows → contribs mul X X i j = contribs mul' X X i j) :
    maskedMat mul add X X X true = maskedMat mul' add X X X true := by
  unfold maskedMat
  apply ofRows_congr
  intro i hi
  unfold maskedRow dot
  simp only [h i _ hi]

/-- If all values are 1, the products are 1. -/
theorem maskedMat_ones {X : CSR R} (h : X.WF) (hrc : X.cols = X.rows) (h1 : ∀ t ∈ triples X, t.2.2 = 1) :
    maskedMat (fun x y => x * y) (fun x y => x + y) X X X true = Graph.sq X := by
  refine maskedMat_congr fun i j hi => ?_
  unfold contribs
  refine Conv.flatMap_congr_mem _ _ _ fun ka hka => ?_
  have hk : ka.1 < X.rows := hrc ▸ CSR.row_lt h hka
  have v1 := h1 (i, ka.1, ka.2) (Graph.mem_triples.2 ⟨hi, hka⟩)
  refine List.filterMap_congr fun jb hjb => ?_
  have v2 := h1 (ka.1, jb.1, jb.2) (Graph.mem_triples.2 ⟨hk, hjb⟩)
  simp only at v1 v2
  simp only [v1, v2, mul_one]

theorem foldl_zero {l : List R} (h : ∀ x ∈ l, x = 0) (x : R) : l.foldl (fun x y => x + y) x = x := by
  induction l generalizing x with
  | nil => rfl
  | cons y l ih =>
    rw [List.foldl_cons, h y (by simp), add_zero]
    exact ih (fun z hz => h z (by simp [hz])) x

theorem reduce_zero {X : CSR R} (h : X.WF) (h0 : ∀ t ∈ triples X, t.2.2 = 0) :
    Graph.reduce (maskedMat (fun x y => x * y) (fun x y => x + y) X X X true) = 0 := by
  rw [Graph.reduce_eq (maskedMat_wf h)]
  refine List.sum_eq_zero fun s hs => ?_
  obtain ⟨i, hi, rfl⟩ := List.mem_map.1 hs
  have hi : i < X.rows := List.mem_range.1 hi
  refine List.sum_eq_zero fun v hv => ?_
  obtain ⟨⟨j, v⟩, hx, rfl⟩ := List.mem_map.1 hv
  unfold maskedMat at hx
  rw [ofRows_row _ _ _ _ hi] at hx
  unfold maskedRow dot at hx
  obtain ⟨j', -, hx⟩ := List.mem_filterMap.1 hx
  obtain ⟨v', hv', e⟩ := Option.map_eq_some_iff.1 hx
  obtain ⟨rfl, rfl⟩ := Prod.mk.inj e
  have hall : ∀ x ∈ contribs (fun x y => x * y) X X i j', x = 0 := by
    intro x hx
    unfold contribs at hx
    obtain ⟨ka, hka, hx⟩ := List.mem_flatMap.1 hx
    obtain ⟨jb, -, hx⟩ := List.mem_filterMap.1 hx
    have v1 := h0 (i, ka.1, ka.2) (Graph.mem_triples.2 ⟨hi, hka⟩)
    simp only at v1
    split at hx
    · rw [← Option.some.inj hx]
      simp only [v1, zero_mul]
    · cases hx
  cases hc : contribs (fun x y => x * y) X X i j' with
  | nil => rw [hc] at hv'; cases hv'
  | cons y l =>
    rw [hc] at hv' hall
    rw [sum1, Option.some.injEq, foldl_zero (fun x hx => hall x (by simp [hx])), hall y (by simp)] at hv'
    exact hv'.symm

theorem req_square' {a : Algo} {X : CSR V} {L : CSC V} {add : V → V → V} (hadd : AssocComm add) (hs : X.SortedRows)
    (hL : L.WF) (hLs : L.SortedCols) (hm : SameMat X L) (ha : Graph.Usable a X.nnz) : a.Req add X X L X := by
  have hn := Graph.nodup_of_sorted hs
  obtain ⟨hc, hd⟩ := ha
  match a with
  | .gen .msa1 | .gen .msa2 | .gen .hash => exact hn
  | .gen .mca => exact ⟨hs, hs⟩
  | .gen (.heap d) => exact ⟨hadd, hs, hs, hd d rfl⟩
  | .inner => exact ⟨hs, hn, hL, hLs, hm, hn⟩
  | .gen (.msa1C _) | .gen (.msa2C _) | .gen (.hashC _) | .gen (.heapC _) => simp [Algo.compl, Kind.compl] at hc

end product

end Verif.Model.TriCnt
