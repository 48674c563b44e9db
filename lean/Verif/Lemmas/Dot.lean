import Verif.Model.Dot
import Verif.Lemmas.BlocksOwn
import Verif.Lemmas.Bin
import Verif.Lemmas.Inner
import Verif.Lemmas.HashMult
import Verif.Lemmas.Alias

/-! # The older inner-product kernel -/

namespace Verif.Model.Dot

open Inner (common Inc)
open Spec (contribsC dotC ValidC)

variable {V : Type}

/-! ## One entry -/

/-- What the loop over a row of `A` and a column of `B` computes: the sum starts with `zero`. -/
def dotZ (mul add : V → V → V) (zero : V) (A : CSR V) (B : CSC V) (i j : Nat) : Option V :=
  if contribsC mul A B i j = [] then none else some ((contribsC mul A B i j).foldl add zero)

theorem merge_eq {mul add : V → V → V} {A : CSR V} {B : CSC V} {i c ae be : Nat}
    (hA : A.colids.length = A.values.length) (hB : B.rowids.length = B.values.length)
    (hra : rd A.rowptr (i + 1) = .ok ae) (hrb : rd B.colptr (c + 1) = .ok be)
    (hae : ae ≤ A.colids.length) (hbe : be ≤ B.rowids.length) :
    ∀ (fuel p q : Nat) (v : V) (act : Bool), (ae - p) + (be - q) < fuel →
      Inc (slice (A.colids.zip A.values) p ae) → Inc (slice (B.rowids.zip B.values) q be) →
      merge mul add A B i c fuel p q v act =
        .ok ((common mul (slice (A.colids.zip A.values) p ae) (slice (B.rowids.zip B.values) q be)).foldl add v,
          act || !(common mul (slice (A.colids.zip A.values) p ae) (slice (B.rowids.zip B.values) q be)).isEmpty) := by
  intro fuel
  induction fuel with
  | zero => intro p q v act h3; omega
  | succ fuel ih =>
    intro p q v act h3 iA iB
    unfold merge
    rw [hra, ok_bind]
    by_cases h1 : p < ae
    case neg =>
      rw [if_neg h1, slice_empty (l := A.colids.zip A.values) (lo := p) (by omega)]
      simp [common]
    rw [if_pos h1, hrb, ok_bind]
    by_cases h2 : q < be
    case neg =>
      rw [if_neg h2, slice_empty (l := B.rowids.zip B.values) (lo := q) (by omega), Inner.common_nil_right]
      simp
    rw [if_pos h2]
    have ha : p < (A.colids.zip A.values).length := by simp; omega
    have hb : q < (B.rowids.zip B.values).length := by simp; omega
    have ha1 : p < A.colids.length := by omega
    have ha2 : p < A.values.length := by omega
    have hb1 : q < B.rowids.length := by omega
    have hb2 : q < B.values.length := by omega
    have eA := slice_succ h1 ha
    have eB := slice_succ h2 hb
    rw [eA] at iA
    rw [eB] at iB
    have gA := iA.head
    have gB := iB.head
    have tA := iA.tail
    have tB := iB.tail
    rw [List.getElem_zip] at eA gA
    rw [List.getElem_zip] at eB gB
    rw [rd_of_lt ha1, rd_of_lt hb1]
    simp only [ok_bind]
    by_cases c1 : A.colids[p] < B.rowids[q]
    · rw [if_pos c1, ih (p + 1) q v act (by omega) tA (by rw [slice_succ h2 hb]; exact iB)]
      have hs : common mul (slice (A.colids.zip A.values) p ae) (slice (B.rowids.zip B.values) q be) =
          common mul (slice (A.colids.zip A.values) (p + 1) ae) (slice (B.rowids.zip B.values) q be) := by
        rw [eA]
        apply Inner.common_skip_left
        rw [eB]
        intro y hy
        rcases List.mem_cons.1 hy with rfl | hy
        · simp only; omega
        · have := gB y hy; simp only at this ⊢; omega
      rw [hs]
    · rw [if_neg c1]
      by_cases c2 : B.rowids[q] < A.colids[p]
      · rw [if_pos c2, ih p (q + 1) v act (by omega) (by rw [slice_succ h1 ha]; exact iA) tB]
        have hs : common mul (slice (A.colids.zip A.values) p ae) (slice (B.rowids.zip B.values) q be) =
            common mul (slice (A.colids.zip A.values) p ae) (slice (B.rowids.zip B.values) (q + 1) be) := by
          rw [eB]
          apply Inner.common_skip_right
          rw [eA]
          intro y hy
          rcases List.mem_cons.1 hy with rfl | hy
          · simp only; omega
          · have := gA y hy; simp only at this ⊢; omega
        rw [hs]
      · rw [if_neg c2]
        have he : B.rowids[q] = A.colids[p] := by omega
        rw [rd_of_lt ha2, rd_of_lt hb2]
        simp only [ok_bind]
        rw [ih (p + 1) (q + 1) _ _ (by omega) tA tB, eA, eB, Inner.common_hit he gA gB]
        simp

/-! ## One row -/

/-- The row to be produced. -/
def expRow (mul add : V → V → V) (zero : V) (A : CSR V) (B : CSC V) (M : CSR V) (i : Nat) : List (Nat × V) :=
  (M.rowCols i).filterMap fun j => (dotZ mul add zero A B i j).map fun v => (j, v)

section
variable {mul add : V → V → V} {zero : V} {A : CSR V} {B : CSC V} {M : CSR V}

theorem expRow_length_le (h : ValidC A B M) {i : Nat} (hi : i < A.rows) :
    (expRow mul add zero A B M i).length ≤ M.ptr (i + 1) - M.ptr i := by
  rw [← CSR.rowCols_length h.wfM (h.ma ▸ hi)]
  exact List.length_filterMap_le _ _

/-- Overwrite a part of a list. -/
def put {α : Type} (X : List α) (off : Nat) (xs : List α) : List α := X.take off ++ xs ++ X.drop (off + xs.length)

theorem put_length {α : Type} {X : List α} {off : Nat} {xs : List α} (h : off + xs.length ≤ X.length) :
    (put X off xs).length = X.length := by
  unfold put; simp; omega

theorem put_lt {α : Type} {X : List α} {off : Nat} {xs : List α} {k : Nat} (hk : k < off) (h : off ≤ X.length) :
    (put X off xs)[k]? = X[k]? := by
  unfold put
  rw [List.append_assoc, List.getElem?_append_left (by simp; omega), List.getElem?_take, if_pos hk]

theorem put_mid {α : Type} {X : List α} {off : Nat} {xs : List α} {k : Nat} (hk : k < xs.length) (h : off ≤ X.length) :
    (put X off xs)[off + k]? = xs[k]? := by
  unfold put
  have hl : (X.take off).length = off := by simp; omega
  rw [List.append_assoc, List.getElem?_append_right (by omega), List.getElem?_append_left (by omega), hl]
  congr 1; omega

theorem put_ge {α : Type} {X : List α} {off : Nat} {xs : List α} {k : Nat} (hk : off + xs.length ≤ k) (h : off ≤ X.length) :
    (put X off xs)[k]? = X[k]? := by
  unfold put
  have hl : (X.take off ++ xs).length = off + xs.length := by simp; omega
  rw [List.getElem?_append_right (by omega), hl, List.getElem?_drop]
  congr 1; omega

theorem rowBody_eq (h : ValidC A B M) {i t start q : Nat} (hi : i < A.rows) (hs : start ≤ i)
    (X : List (Nat × V)) (hX : X.length = M.nnz) {th rn : List Nat} (ht : th[t]? = some q) (hr : rn[i]? = some 0)
    (hq : M.ptr start + q ≤ M.ptr i) :
    rowBody mul add zero A B M t start i ⟨X.map (·.1), X.map (·.2), th, rn⟩ =
      .ok ⟨(put X (M.ptr start + q) (expRow mul add zero A B M i)).map (·.1),
        (put X (M.ptr start + q) (expRow mul add zero A B M i)).map (·.2),
        th.set t (q + (expRow mul add zero A B M i).length), rn.set i (expRow mul add zero A B M i).length⟩ := by
  have hiM : i < M.rows := h.ma ▸ hi
  have htl : t < th.length := (List.getElem?_eq_some_iff.1 ht).1
  have hrl : i < rn.length := (List.getElem?_eq_some_iff.1 hr).1
  have hth : th.set t q = th := by
    obtain ⟨_, e⟩ := List.getElem?_eq_some_iff.1 ht
    rw [← e, List.set_getElem_self]
  have hrn : rn.set i 0 = rn := by
    obtain ⟨_, e⟩ := List.getElem?_eq_some_iff.1 hr
    rw [← e, List.set_getElem_self]
  unfold rowBody
  rw [CSR.rd_ptr h.wfM (Nat.le_of_lt hiM), CSR.rd_ptr h.wfM hiM]
  simp only [ok_bind]
  rw [forRange_eq_slice (L := M.colids) (g := fun g c => match dotZ mul add zero A B i c with
      | none => .ok g
      | some v => do
        let base ← rd M.rowptr start
        let k ← rd g.thNnz t
        let colids ← wr g.colids (base + k) c
        let values ← wr g.values (base + k) v
        let thNnz ← wr g.thNnz t (k + 1)
        let r ← rd g.rowNnz i
        let rowNnz ← wr g.rowNnz i (r + 1)
        .ok { colids := colids, values := values, thNnz := thNnz, rowNnz := rowNnz })
    (by rw [h.wfM.colLen]; exact CSR.ptr_le_nnz h.wfM hiM)]
  · show (M.rowCols i).foldlM _ _ = _
    unfold expRow
    have := (foldlM_desc (f := fun (g : Shared V) c => (match dotZ mul add zero A B i c with
      | none => .ok g
      | some v => do
        let base ← rd M.rowptr start
        let k ← rd g.thNnz t
        let colids ← wr g.colids (base + k) c
        let values ← wr g.values (base + k) v
        let thNnz ← wr g.thNnz t (k + 1)
        let r ← rd g.rowNnz i
        let rowNnz ← wr g.rowNnz i (r + 1)
        .ok { colids := colids, values := values, thNnz := thNnz, rowNnz := rowNnz } : Res (Shared V)))
      (fun pre =>
        let xs := pre.filterMap fun j => (dotZ mul add zero A B i j).map fun v => (j, v)
        (⟨(put X (M.ptr start + q) xs).map (·.1), (put X (M.ptr start + q) xs).map (·.2), th.set t (q + xs.length),
          rn.set i xs.length⟩ : Shared V)) (M.rowCols i) (by
      intro pre a post hl
      have hlen : (pre.filterMap fun j => (dotZ mul add zero A B i j).map fun v => (j, v)).length < M.ptr (i + 1) - M.ptr i := by
        rw [← CSR.rowCols_length h.wfM hiM, hl]
        have := List.length_filterMap_le (fun j => (dotZ mul add zero A B i j).map fun v => (j, v)) pre
        simp; omega
      simp only [List.filterMap_append]
      cases hd : dotZ mul add zero A B i a with
      | none => simp [hd]
      | some v =>
        generalize hxs : (pre.filterMap fun j => (dotZ mul add zero A B i j).map fun v => (j, v)) = xs at hlen
        have hle := CSR.ptr_le_nnz h.wfM (i := i + 1) hiM
        have hb : M.ptr start + q + xs.length < X.length := by omega
        have hpl := put_length (X := X) (off := M.ptr start + q) (xs := xs) (by omega)
        simp only []
        rw [CSR.rd_ptr h.wfM (by omega), ok_bind, rd_of_lt (by rw [List.length_set]; exact htl), List.getElem_set_self, ok_bind,
          ← Nat.add_assoc, wr_of_lt (by rw [List.length_map, hpl]; exact hb), ok_bind,
          wr_of_lt (by rw [List.length_map, hpl]; exact hb), ok_bind,
          wr_of_lt (by rw [List.length_set]; exact htl), ok_bind, rd_of_lt (by rw [List.length_set]; exact hrl),
          List.getElem_set_self, ok_bind, wr_of_lt (by rw [List.length_set]; exact hrl), ok_bind]
        have e1 : ∀ (x : Nat × V), (put X (M.ptr start + q) xs).set (M.ptr start + q + xs.length) x =
            put X (M.ptr start + q) (xs ++ [x]) := fun x => HashMult.set_mid X xs x _ hb
        have e2 : ((put X (M.ptr start + q) xs).map (·.1)).set (M.ptr start + q + xs.length) a =
            (put X (M.ptr start + q) (xs ++ [(a, v)])).map (·.1) := by
          rw [← e1, List.map_set]
        have e3 : ((put X (M.ptr start + q) xs).map (·.2)).set (M.ptr start + q + xs.length) v =
            (put X (M.ptr start + q) (xs ++ [(a, v)])).map (·.2) := by
          rw [← e1, List.map_set]
        rw [e2, e3, List.set_set, List.set_set]
        simp [hd, Nat.add_assoc]))
    have e0 : (⟨(put X (M.ptr start + q) ([] : List (Nat × V))).map (·.1), (put X (M.ptr start + q) ([] : List (Nat × V))).map (·.2),
        th.set t (q + 0), rn.set i 0⟩ : Shared V) = ⟨X.map (·.1), X.map (·.2), th, rn⟩ := by
      rw [Nat.add_zero, hth, hrn]
      unfold put; simp
    rw [← e0]
    exact this
  · intro k hk k1 k2 g
    have hc : M.colids[k] < B.cols := by
      rw [← h.mb]; exact h.wfM.inBounds _ (List.getElem_mem hk)
    rw [rd_of_lt hk]
    simp only [ok_bind]
    rw [CSR.rd_ptr h.wfA (Nat.le_of_lt hi), ok_bind, Inner.rd_cptr h.wfB (Nat.le_of_lt hc), ok_bind]
    have hpa := CSR.ptr_le_nnz h.wfA (i := i + 1) hi
    have hpb := Inner.cptr_le_nnz h.wfB (j := M.colids[k] + 1) hc
    have hmA := h.wfA.ptrMono i hi
    rw [merge_eq (by rw [h.wfA.colLen, h.wfA.valLen]) (by rw [h.wfB.rowLen, h.wfB.valLen]) (CSR.rd_ptr h.wfA (i := i + 1) hi)
      (Inner.rd_cptr h.wfB hc) (by rw [h.wfA.colLen]; exact hpa) (by rw [h.wfB.rowLen]; exact hpb) _ _ _ _ _
      (by rw [h.wfA.colLen, h.wfB.rowLen]; omega) (Inner.incA h hi) (Inner.incB h hc)]
    have e : common mul (slice (A.colids.zip A.values) (A.ptr i) (A.ptr (i + 1)))
        (slice (B.rowids.zip B.values) (B.ptr M.colids[k]) (B.ptr (M.colids[k] + 1))) =
        contribsC mul A B i M.colids[k] := rfl
    rw [e]
    unfold dotZ
    cases hd : contribsC mul A B i M.colids[k] <;> simp

/-! ## The region -/

/-- The first row of thread `t` -/
def first (rows n t : Nat) : Nat := min (chunk rows n * t) rows

theorem first_bounds (rows : Nat) {n : Nat} (hn : 0 < n) : Bounds n rows (first rows n) where
  first := by simp [first]
  last := by
    unfold first chunk
    have h1 := Nat.div_add_mod (rows + n - 1) n
    have h2 := Nat.mod_lt (rows + n - 1) hn
    rw [Nat.mul_comm] at h1
    omega
  mono := by
    intro t _
    unfold first
    have : chunk rows n * t ≤ chunk rows n * (t + 1) := Nat.mul_le_mul_left _ (by omega)
    omega

/-- The cells from position `p` on hold `xs`. -/
def Holds {α : Type} (X : List α) (p : Nat) (xs : List α) : Prop := ∀ k < xs.length, X[p + k]? = xs[k]?

theorem Holds.append {α : Type} {X : List α} {p : Nat} {xs ys : List α} (h1 : Holds X p xs) (h2 : Holds X (p + xs.length) ys) :
    Holds X p (xs ++ ys) := by
  intro k hk
  rw [List.length_append] at hk
  by_cases h : k < xs.length
  · rw [List.getElem?_append_left h]; exact h1 k h
  · rw [List.getElem?_append_right (by omega), ← h2 (k - xs.length) (by omega)]
    congr 1; omega

theorem Holds.map {α β : Type} {X : List α} {p : Nat} {xs : List α} (h : Holds X p xs) (f : α → β) :
    Holds (X.map f) p (xs.map f) := by
  intro k hk
  rw [List.length_map] at hk
  rw [List.getElem?_map, List.getElem?_map, h k hk]

theorem holds_put {α : Type} {X : List α} {p : Nat} {xs : List α} (h : p ≤ X.length) : Holds (put X p xs) p xs :=
  fun _ hk => put_mid hk h

theorem psum_le_ptr (h : ValidC A B M) {a b : Nat} (hab : a ≤ b) (hb : b ≤ A.rows) :
    psum (lens (expRow mul add zero A B M)) b + M.ptr a ≤ psum (lens (expRow mul add zero A B M)) a + M.ptr b := by
  induction b with
  | zero => have : a = 0 := by omega
            subst this; exact Nat.le_refl _
  | succ b ih =>
    rcases Nat.lt_or_ge a (b + 1) with h1 | h1
    · have h2 := ih (by omega) (by omega)
      have h3 := expRow_length_le (mul := mul) (add := add) (zero := zero) h (i := b) (by omega)
      have h4 := h.wfM.ptrMono b (by rw [h.ma]; omega)
      show psum _ b + lens _ b + _ ≤ _
      unfold lens at *
      omega
    · have : a = b + 1 := by omega
      subst this; exact Nat.le_refl _

/-- The shared state with the cells `X`. -/
def mk (X : List (Nat × V)) (th rn : List Nat) : Shared V := ⟨X.map (·.1), X.map (·.2), th, rn⟩

/-- What thread `t` knows before row `i`. -/
structure Knows (exp : Nat → List (Nat × V)) (M : CSR V) (o : Nat → Nat) (t i : Nat) (X : List (Nat × V)) (th rn : List Nat) :
    Prop where
  cnt : th[t]? = some (psum (lens exp) i - psum (lens exp) (o t))
  cells : Holds X (M.ptr (o t)) (seg exp (o t) i)
  done : ∀ j, o t ≤ j → j < i → rn[j]? = some (exp j).length
  todo : ∀ j, i ≤ j → j < o (t + 1) → rn[j]? = some 0

theorem region_ok (h : ValidC A B M) {n : Nat} (hn : 0 < n) (X0 : List (Nat × V)) (hX0 : X0.length = M.nnz) (sched : List Nat) :
    let row := fun i g (a : Nat × Nat) => do
        let g ← rowBody mul add zero A B M a.1 a.2 i g
        (.ok (g, a) : Res (Shared V × (Nat × Nat)))
    (blocks n (starts M.rows n) (fun t lo _ => .ok (t, lo)) row sched (mk X0 (List.replicate n 0) (List.replicate M.rows 0)) =
        .ok none ∧ ∃ t < n, sched.count t ≤ M.rows + 1) ∨
    ∃ X as, blocks n (starts M.rows n) (fun t lo _ => .ok (t, lo)) row sched
        (mk X0 (List.replicate n 0) (List.replicate M.rows 0)) =
        .ok (some (mk X (tab n fun t => psum (lens (expRow mul add zero A B M)) (first M.rows n (t + 1)) -
          psum (lens (expRow mul add zero A B M)) (first M.rows n t)) (tab M.rows (lens (expRow mul add zero A B M))), as)) ∧
      ∀ t < n, Holds X (M.ptr (first M.rows n t)) (seg (expRow mul add zero A B M) (first M.rows n t) (first M.rows n (t + 1))) := by
  intro row
  have hb := first_bounds M.rows hn
  have hoff : ∀ t ≤ n, (starts M.rows n)[t]? = some (first M.rows n t) := fun t ht => by
    unfold starts; rw [tab_getElem? (by omega)]; rfl
  have hle : ∀ t ≤ n, first M.rows n t ≤ A.rows := fun t ht => h.ma ▸ hb.le ht
  have hps := fun {a b : Nat} => psum_le_ptr (mul := mul) (add := add) (zero := zero) h (a := a) (b := b)
  have hrb := fun {i t start q : Nat} => rowBody_eq (mul := mul) (add := add) (zero := zero) h (i := i) (t := t) (start := start)
    (q := q)
  generalize hexp : expRow mul add zero A B M = exp at *
  generalize ho : first M.rows n = o at *
  have := blocks_own hb hoff (init := fun t lo _ => .ok (t, lo)) (row := row)
    (fun t i g => ∃ X th rn, g = mk X th rn ∧ Knows exp M o t i X th rn)
    (fun g => ∃ X th rn, g = mk X th rn ∧ X.length = M.nnz ∧ th.length = n ∧ rn.length = M.rows)
    (fun t a => a = (t, o t)) (fun t _ => ⟨_, rfl, rfl⟩) (by
      rintro t ht i a g h1 h2 ⟨X, th, rn, rfl, hX, hth, hrn⟩ ⟨X', th', rn', e, hk⟩ rfl
      have hinj : X' = X ∧ th' = th ∧ rn' = rn := by
        unfold mk at e
        injection e with e1 e2 e3 e4
        refine ⟨?_, e3.symm, e4.symm⟩
        have : (X'.map (·.1)).zip (X'.map (·.2)) = (X.map (·.1)).zip (X.map (·.2)) := by rw [e1, e2]
        rw [← List.unzip_fst, ← List.unzip_snd, ← List.unzip_fst, ← List.unzip_snd, List.zip_unzip, List.zip_unzip] at this
        exact this
      obtain ⟨rfl, rfl, rfl⟩ := hinj
      have hma := h.ma
      have hiA : i < A.rows := by have := hle (t + 1) (by omega); omega
      have hp := hps (a := o t) (b := i) h1 (by omega)
      have hpm := psum_mono (f := lens exp) h1
      have hp1 := hps (a := o t) (b := i + 1) (by omega) (by omega)
      have hpm1 := psum_mono (f := lens exp) (i := i) (j := i + 1) (by omega)
      have hl1 : psum (lens exp) (i + 1) = psum (lens exp) i + (exp i).length := rfl
      have hnnz := CSR.ptr_le_nnz h.wfM (i := i + 1) (by rw [h.ma]; omega)
      have hmono := CSR.ptr_le_ptr h.wfM (i := o t) (j := i) h1 (by rw [h.ma]; omega)
      have hsl := seg_length exp h1
      have hcnt := hk.cnt
      generalize hq : psum (lens exp) i - psum (lens exp) (o t) = q at *
      have e1 := hrb (i := i) (t := t) (start := o t) (q := q) hiA h1 X' hX hcnt (hk.todo i (Nat.le_refl _) h2) (by omega)
      have hpl := put_length (X := X') (off := M.ptr (o t) + q) (xs := exp i) (by omega)
      refine ⟨mk (put X' (M.ptr (o t) + q) (exp i)) (th'.set t (q + (exp i).length)) (rn'.set i (exp i).length), (t, o t),
        ?_, ⟨_, _, _, rfl, by rw [hpl]; exact hX, by simpa using hth, by simpa using hrn⟩, ⟨_, _, _, rfl, ?_⟩, rfl, ?_⟩
      · show (do
          let g ← rowBody mul add zero A B M t (o t) i (mk X' th' rn')
          (.ok (g, (t, o t)) : Res (Shared V × (Nat × Nat)))) = _
        unfold mk
        rw [e1]
        rfl
      · constructor
        · rw [List.getElem?_set, if_pos rfl, if_pos (by omega)]
          congr 1; omega
        · rw [seg_snoc exp h1]
          apply Holds.append
          · intro k hk'
            rw [put_lt (by omega) (by omega)]
            exact hk.cells k hk'
          · rw [hsl]
            exact holds_put (by omega)
        · intro j hj1 hj2
          rw [List.getElem?_set]
          by_cases hji : i = j
          · subst hji
            rw [if_pos rfl, if_pos (by omega)]
          · rw [if_neg hji]
            exact hk.done j hj1 (by omega)
        · intro j hj1 hj2
          rw [List.getElem?_set, if_neg (by omega)]
          exact hk.todo j (by omega) hj2
      · rintro u hu hut j hj1 hj2 ⟨X'', th'', rn'', e, hku⟩
        have hinj : X'' = X' ∧ th'' = th' ∧ rn'' = rn' := by
          unfold mk at e
          injection e with e1 e2 e3 e4
          refine ⟨?_, e3.symm, e4.symm⟩
          have : (X''.map (·.1)).zip (X''.map (·.2)) = (X'.map (·.1)).zip (X'.map (·.2)) := by rw [e1, e2]
          rw [← List.unzip_fst, ← List.unzip_snd, ← List.unzip_fst, ← List.unzip_snd, List.zip_unzip, List.zip_unzip] at this
          exact this
        obtain ⟨rfl, rfl, rfl⟩ := hinj
        refine ⟨_, _, _, rfl, ?_⟩
        have hij : ∀ j', o u ≤ j' → j' < o (u + 1) → i ≠ j' := by
          rintro j' k1 k2 rfl
          exact hut (hb.disj hu ht k1 k2 h1 h2)
        have hjA : j ≤ A.rows := by have := hle (u + 1) (by omega); omega
        have hpu := hps (a := o u) (b := j) hj1 hjA
        have hsu := seg_length exp hj1
        have hpmu := psum_mono (f := lens exp) hj1
        constructor
        · rw [List.getElem?_set, if_neg (fun h => hut h.symm)]
          exact hku.cnt
        · intro k hk'
          have := hku.cells k hk'
          rw [hsu] at hk'
          rcases Nat.lt_trichotomy u t with hlt | heq | hgt
          · have k1 := hb.mono' (s := u + 1) (t := t) (by omega) (by omega)
            have k2 := CSR.ptr_le_ptr h.wfM (i := j) (j := o t) (by omega) (by rw [h.ma]; exact hle t (by omega))
            rw [put_lt (by omega) (by omega)]
            exact this
          · exact absurd heq hut
          · have k1 := hb.mono' (s := t + 1) (t := u) (by omega) (by omega)
            have k2 := CSR.ptr_le_ptr h.wfM (i := i + 1) (j := o u) (by omega) (by rw [h.ma]; exact hle u (by omega))
            rw [put_ge (by omega) (by omega)]
            exact this
        · intro j' k1 k2
          rw [List.getElem?_set, if_neg (hij j' k1 (by omega))]
          exact hku.done j' k1 k2
        · intro j' k1 k2
          rw [List.getElem?_set, if_neg (hij j' (by omega) k2)]
          exact hku.todo j' k1 k2)
    sched (mk X0 (List.replicate n 0) (List.replicate M.rows 0)) ⟨_, _, _, rfl, hX0, by simp, by simp⟩ (by
      intro t ht
      refine ⟨_, _, _, rfl, ?_⟩
      constructor
      · rw [Nat.sub_self]; simp [ht]
      · rw [seg_self]; intro k hk; cases hk
      · intro j k1 k2; omega
      · intro j k1 k2
        have := hle (t + 1) (by omega)
        have := h.ma
        rw [List.getElem?_replicate, if_pos (by omega)])
  rcases this with h' | ⟨g, as, e, ⟨X, th, rn, rfl, hX, hth, hrn⟩, hJ⟩
  · exact Or.inl h'
  · right
    have hall : ∀ t < n, Knows exp M o t (o (t + 1)) X th rn := by
      intro t ht
      obtain ⟨X', th', rn', e, hk⟩ := hJ t ht
      unfold mk at e
      injection e with e1 e2 e3 e4
      have : (X'.map (·.1)).zip (X'.map (·.2)) = (X.map (·.1)).zip (X.map (·.2)) := by rw [e1, e2]
      rw [← List.unzip_fst, ← List.unzip_snd, ← List.unzip_fst, ← List.unzip_snd, List.zip_unzip, List.zip_unzip] at this
      subst this e3 e4
      exact hk
    have e1 : th = tab n fun t => psum (lens exp) (o (t + 1)) - psum (lens exp) (o t) := by
      apply List.ext_getElem?
      intro t
      by_cases ht : t < n
      · rw [(hall t ht).cnt, tab_getElem? ht]
      · rw [List.getElem?_eq_none (by omega), List.getElem?_eq_none (by simp; omega)]
    have e2 : rn = tab M.rows (lens exp) := by
      apply List.ext_getElem?
      intro j
      by_cases hj : j < M.rows
      · obtain ⟨t, ht, k1, k2⟩ := hb.cover hj
        rw [(hall t ht).done j k1 k2, tab_getElem? hj]; rfl
      · rw [List.getElem?_eq_none (by omega), List.getElem?_eq_none (by simp; omega)]
    refine ⟨X, as, by rw [e, e1, e2], fun t ht => (hall t ht).cells⟩

/-! ## The compaction -/

theorem memcpy_eq {α : Type} {dst src xs : List α} {d s len : Nat} (hl : xs.length = len) (hs : Holds src s xs)
    (hd : d + xs.length ≤ dst.length) : memcpy dst d src s len = .ok (put dst d xs) := by
  subst hl
  unfold memcpy
  obtain ⟨r, e1, e2⟩ := forRange_inv (body := fun k dst => do
      let x ← rd src (s + k)
      wr dst (d + k) x)
    (fun k r => r = put dst d (xs.take k)) 0 xs.length (by omega) dst (by unfold put; simp) (by
      rintro k r _ hk rfl
      have hx := hs k hk
      rw [List.getElem?_eq_getElem hk] at hx
      have htl : (xs.take k).length = k := by simp; omega
      have hpl := put_length (X := dst) (off := d) (xs := xs.take k) (by omega)
      refine ⟨_, by rw [rd_of_getElem? hx, ok_bind, wr_of_lt (by omega)], ?_⟩
      apply List.ext_getElem?
      intro j
      have ht1 : (xs.take (k + 1)).length = k + 1 := by simp; omega
      rw [List.getElem?_set]
      by_cases h1 : d + k = j
      · subst h1
        rw [if_pos rfl, if_pos (by omega), put_mid (by omega) (by omega), List.getElem?_take, if_pos (by omega),
          List.getElem?_eq_getElem hk]
      · rw [if_neg h1]
        by_cases h2 : j < d
        · rw [put_lt h2 (by omega), put_lt h2 (by omega)]
        · by_cases h3 : j < d + k
          · obtain ⟨m, rfl⟩ : ∃ m, j = d + m := ⟨j - d, by omega⟩
            rw [put_mid (by omega) (by omega), put_mid (by omega) (by omega), List.getElem?_take, List.getElem?_take,
              if_pos (by omega), if_pos (by omega)]
          · rw [put_ge (by omega) (by omega), put_ge (by omega) (by omega)])
  rw [e1, e2, List.take_length]

theorem put_end {α : Type} {xs ys rest : List α} {d : Nat} (h : d = xs.length) :
    put (xs ++ rest) d ys = xs ++ ys ++ rest.drop ys.length := by
  subst h
  unfold put
  simp

/-- The output of a call with the rows `exp`: the arrays are longer than needed by the old number of entries. -/
def outOf (rows cols nnz0 : Nat) (zero : V) (exp : Nat → List (Nat × V)) : CSR V :=
  { ofRows rows cols true exp with
    nnz := nnz0 + psum (lens exp) rows
    colids := (seg exp 0 rows).map (·.1) ++ List.replicate nnz0 0
    values := (seg exp 0 rows).map (·.2) ++ List.replicate nnz0 zero }

theorem shrink_eq (hM : M.WF) (hrows : A.rows = M.rows) {n : Nat} (hn : 0 < n) (nnz0 : Nat) {exp : Nat → List (Nat × V)}
    {X : List (Nat × V)} (hX : ∀ t < n, Holds X (M.ptr (first M.rows n t)) (seg exp (first M.rows n t) (first M.rows n (t + 1)))) :
    shrink zero A M n nnz0 (mk X (tab n fun t => psum (lens exp) (first M.rows n (t + 1)) - psum (lens exp) (first M.rows n t))
      (tab M.rows (lens exp))) = .ok (outOf M.rows M.cols nnz0 zero exp) := by
  have hb := first_bounds M.rows hn
  have hfirst : ∀ t, min (t * chunk M.rows n) A.rows = first M.rows n t := fun t => by
    unfold first; rw [hrows, Nat.mul_comm]
  generalize ho : first M.rows n = o at *
  unfold shrink mk
  simp only []
  obtain ⟨nnz, e1, e2⟩ := forRange_inv (body := fun i nnz => do
      let r ← rd (tab M.rows (lens exp)) i
      .ok (nnz + r)) (fun k nnz => nnz = nnz0 + psum (lens exp) k) 0 M.rows (by omega) nnz0 rfl (by
      rintro k s _ hk rfl
      exact ⟨_, by rw [rd_tab hk]; rfl, by rw [Nat.add_assoc]; rfl⟩)
  rw [e1, ok_bind, rd_tab hn, ok_bind]
  subst e2
  have hsl : ∀ t < n, (seg exp (o t) (o (t + 1))).length = psum (lens exp) (o (t + 1)) - psum (lens exp) (o t) :=
    fun t ht => seg_length exp (hb.mono t ht)
  have hpm : ∀ t ≤ n, psum (lens exp) (o t) ≤ psum (lens exp) M.rows := fun t ht => psum_mono (hb.le ht)
  have hs0 : ∀ t ≤ n, (seg exp 0 (o t)).length = psum (lens exp) (o t) := fun t ht => by
    rw [seg_length exp (Nat.zero_le _)]; rfl
  have hX0 := hX 0 hn
  rw [hb.first, hM.ptrFirst] at hX0
  have hl0 := hsl 0 hn
  have hz : psum (lens exp) 0 = 0 := rfl
  rw [hb.first] at hl0
  have hp1 := hpm 1 (by omega)
  rw [hb.first, memcpy_eq (xs := (seg exp 0 (o 1)).map (·.1)) (by rw [List.length_map]; exact hl0) (hX0.map _)
    (by simp only [List.length_map, List.length_replicate, hs0 1 (by omega)]; omega), ok_bind,
    memcpy_eq (xs := (seg exp 0 (o 1)).map (·.2)) (by rw [List.length_map]; exact hl0) (hX0.map _)
    (by simp only [List.length_map, List.length_replicate, hs0 1 (by omega)]; omega), ok_bind]
  obtain ⟨s, e3, e4⟩ := forRange_inv (body := fun t (x : List Nat × List V × Nat) => do
      let p ← rd (tab n fun t => psum (lens exp) (o (t + 1)) - psum (lens exp) (o t)) (t - 1)
      let dest := x.2.2 + p
      let s ← rd M.rowptr (min (t * chunk M.rows n) A.rows)
      let k ← rd (tab n fun t => psum (lens exp) (o (t + 1)) - psum (lens exp) (o t)) t
      let colids ← memcpy x.1 dest (X.map (·.1)) s k
      let values ← memcpy x.2.1 dest (X.map (·.2)) s k
      .ok (colids, values, dest))
    (fun t x => x = ((seg exp 0 (o t)).map (·.1) ++ List.replicate (nnz0 + psum (lens exp) M.rows - psum (lens exp) (o t)) 0,
      (seg exp 0 (o t)).map (·.2) ++ List.replicate (nnz0 + psum (lens exp) M.rows - psum (lens exp) (o t)) zero,
      psum (lens exp) (o (t - 1)))) 1 n hn
    (put (List.replicate (nnz0 + psum (lens exp) M.rows) 0) 0 ((seg exp 0 (o 1)).map (·.1)),
      put (List.replicate (nnz0 + psum (lens exp) M.rows) zero) 0 ((seg exp 0 (o 1)).map (·.2)), 0)
    (by
      rw [show 1 - 1 = 0 from rfl, hb.first, hz]
      unfold put
      simp [hs0 1 (by omega)])
    (by
      rintro t s h1 h2 rfl
      have k1 := psum_mono (f := lens exp) (hb.mono (t - 1) (by omega))
      rw [show t - 1 + 1 = t by omega] at k1
      have k2 := psum_mono (f := lens exp) (hb.mono t h2)
      have k3 := hpm (t + 1) (by omega)
      have k4 := hs0 t (by omega)
      have hd : psum (lens exp) (o (t - 1)) + (psum (lens exp) (o (t - 1 + 1)) - psum (lens exp) (o (t - 1))) =
          psum (lens exp) (o t) := by rw [show t - 1 + 1 = t by omega]; omega
      have hseg := seg_append exp (Nat.zero_le (o t)) (hb.mono t h2)
      refine ⟨_, by
        simp only []
        rw [rd_tab (by omega), ok_bind, hfirst t, CSR.rd_ptr hM (hb.le (by omega)), ok_bind, rd_tab h2, ok_bind, hd,
          memcpy_eq (xs := (seg exp (o t) (o (t + 1))).map (·.1)) (by rw [List.length_map]; exact hsl t h2) ((hX t h2).map _)
            (by simp only [List.length_map, List.length_append, List.length_replicate, k4, hsl t h2]; omega), ok_bind,
          memcpy_eq (xs := (seg exp (o t) (o (t + 1))).map (·.2)) (by rw [List.length_map]; exact hsl t h2) ((hX t h2).map _)
            (by simp only [List.length_map, List.length_append, List.length_replicate, k4, hsl t h2]; omega), ok_bind], ?_⟩
      rw [put_end (by rw [List.length_map, k4]), put_end (by rw [List.length_map, k4]), ← List.map_append, ← List.map_append,
        hseg]
      simp only [List.length_map, hsl t h2, List.drop_replicate, Nat.add_sub_cancel]
      rw [show nnz0 + psum (lens exp) M.rows - psum (lens exp) (o t) -
        (psum (lens exp) (o (t + 1)) - psum (lens exp) (o t)) = nnz0 + psum (lens exp) M.rows - psum (lens exp) (o (t + 1)) by omega])
  refine Eq.trans (congrArg (· >>= _) e3) ?_
  subst e4
  rw [ok_bind]
  simp only []
  rw [wr_of_lt (by simp), ok_bind]
  obtain ⟨r, e5, e6⟩ := forRange_inv (body := fun i rowptr => do
      let x ← rd rowptr (i - 1)
      let y ← rd (tab M.rows (lens exp)) (i - 1)
      wr rowptr i (x + y))
    (fun k r => r = tab (M.rows + 1) fun j => if j < k then psum (lens exp) j else 0) 1 (M.rows + 1) (by omega)
    ((List.replicate (M.rows + 1) 0).set 0 0) (by
      rw [Conv.replicate_eq_tab, tab_set]
      apply tab_ext
      intro j hj
      by_cases h0 : j = 0
      · subst h0; rw [upd_same]; rfl
      · rw [upd_ne _ _ h0, if_neg (by omega)])
    (by
      rintro k r h1 h2 rfl
      refine ⟨_, by rw [rd_tab (by omega), ok_bind, rd_tab (by omega), ok_bind, wr_tab h2], ?_⟩
      apply tab_ext
      intro j hj
      by_cases h0 : j = k
      · subst h0
        rw [upd_same, if_pos (by omega), if_pos (by omega)]
        obtain ⟨m, rfl⟩ : ∃ m, j = m + 1 := ⟨j - 1, by omega⟩
        rfl
      · rw [upd_ne _ _ h0]
        by_cases h3 : j < k
        · rw [if_pos h3, if_pos (by omega)]
        · rw [if_neg h3, if_neg (by omega)])
  rw [e5, ok_bind, hb.last]
  have : r = tab (M.rows + 1) (psum (lens exp)) := by
    rw [e6]; apply tab_ext; intro j hj; rw [if_pos hj]
  rw [this, Nat.add_sub_cancel]
  rfl

/-! ## The call -/

/-- The iterations of the loops of the partition are complete. -/
def Sched.Adm (rows n : Nat) (sch : Sched) : Prop := Bin.Adm rows n sch.bin

theorem asRows_wf (h : B.WF) : (asRows B).WF :=
  ⟨rfl, h.ptrLen, h.ptrFirst, h.ptrMono, h.ptrLast, h.rowLen, h.valLen, h.inBounds⟩

theorem innerNohash_ok (h : ValidC A B M) (hcols : ∀ c ∈ A.colids, c < B.cols) (hsmall : A.rows + 1 < 2 ^ 17) {n : Nat}
    (hn : 0 < n) (nd nnz0 : Nat) {sch : Sched} (hadm : sch.Adm A.rows n) :
    (innerNohash mul add zero A B M n nd nnz0 sch = .ok none ∧ ∃ t < n, sch.main.count t ≤ M.rows + 1) ∨
      innerNohash mul add zero A B M n nd nnz0 sch =
        .ok (some (outOf M.rows M.cols nnz0 zero (expRow mul add zero A B M))) := by
  have hA' : ({ A with cols := B.cols } : CSR V).WF :=
    ⟨h.wfA.zero, h.wfA.ptrLen, h.wfA.ptrFirst, h.wfA.ptrMono, h.wfA.ptrLast, h.wfA.colLen, h.wfA.valLen, hcols⟩
  obtain ⟨p, e1, _⟩ := Bin.setMaxBin_ok (A := { A with cols := B.cols }) (B := asRows B) hA' (asRows_wf h.wfB) rfl h.rowsPos
    hsmall (cols := M.cols) (min := 8) (by omega) hn nd hadm
  have e1' : Bin.setMaxBin A (asRows B) A.rows M.cols 8 n nd sch.bin = .ok (some p) := e1
  unfold innerNohash
  have e0 : (List.range M.nnz).mapM (rd M.colids) = .ok M.colids := by
    rw [mapM_ok (g := fun i => M.colids.getD i 0)]
    · congr 1
      rw [← h.wfM.colLen]
      exact (eq_tab M.colids 0).symm
    · intro i hi
      have : i < M.colids.length := by rw [h.wfM.colLen]; simpa using hi
      rw [rd_of_lt this]
      simp [List.getD_eq_getElem?_getD, this]
  rw [e0, ok_bind, e1', ok_bind]
  simp only []
  have hX0 : (M.colids.zip (List.replicate M.nnz zero)).length = M.nnz := by simp [h.wfM.colLen]
  have hmk : (⟨M.colids, List.replicate M.nnz zero, List.replicate n 0, List.replicate M.rows 0⟩ : Shared V) =
      mk (M.colids.zip (List.replicate M.nnz zero)) (List.replicate n 0) (List.replicate M.rows 0) := by
    unfold mk
    congr 1
    · exact (List.map_fst_zip (by simp [h.wfM.colLen])).symm
    · exact (List.map_snd_zip (by simp [h.wfM.colLen])).symm
  rw [hmk]
  rcases region_ok (mul := mul) (add := add) (zero := zero) h hn _ hX0 sch.main with ⟨e2, t, ht, hc⟩ | ⟨X, as, e2, hX⟩
  · left
    rw [e2]
    exact ⟨rfl, t, ht, hc⟩
  · right
    rw [e2, ok_bind]
    simp only []
    rw [shrink_eq h.wfM h.ma.symm hn nnz0 hX]
    rfl
end

end Verif.Model.Dot

namespace Verif.Model.Dot

open Spec (contribsC dotC ValidC)

variable {V : Type}

/-- If `zero` can be dropped in front of a product, the sums that start with `zero` are the sums of the specification. -/
theorem dotZ_eq {mul add : V → V → V} {zero : V} (hz : ∀ x y, add zero (mul x y) = mul x y) (A : CSR V) (B : CSC V) (i j : Nat) :
    dotZ mul add zero A B i j = dotC mul add A B i j := by
  have hmem : ∀ p ∈ contribsC mul A B i j, add zero p = p := by
    intro p hp
    unfold contribsC at hp
    rw [List.mem_flatMap] at hp
    obtain ⟨ka, _, hp⟩ := hp
    rw [List.mem_filterMap] at hp
    obtain ⟨kb, _, hp⟩ := hp
    split at hp
    · injection hp with hp
      rw [← hp]; exact hz _ _
    · cases hp
  unfold dotZ dotC
  generalize contribsC mul A B i j = l at hmem
  cases l with
  | nil => rfl
  | cons p l =>
    rw [if_neg (by simp), List.foldl_cons, hmem p (by simp)]
    rfl

theorem foldlM_fails {α σ : Type} {f : σ → α → Res σ} {l : List α} (h : ∃ a ∈ l, ∀ s, ∃ e, f s a = .error e) (s : σ) :
    ∃ e, l.foldlM f s = .error e := by
  induction l generalizing s with
  | nil => obtain ⟨a, ha, _⟩ := h; cases ha
  | cons x l ih =>
    rw [List.foldlM_cons]
    cases hx : f s x with
    | error e => exact ⟨e, rfl⟩
    | ok s' =>
      obtain ⟨a, ha, hf⟩ := h
      rcases List.mem_cons.1 ha with rfl | ha
      · obtain ⟨e, he⟩ := hf s
        rw [hx] at he; cases he
      · exact ih ⟨a, ha, hf⟩ s'

/-- The partition fails if `A` has an entry in a column beyond the last column of `B`. -/
theorem setMaxBin_fails {A : CSR V} {B : CSC V} (hA : A.WF) (hB : B.WF) {c : Nat} (hc : c ∈ A.colids) (hcB : B.cols ≤ c)
    {cols min n nd : Nat} {sch : Bin.Sched} (ho : sch.intprod.Perm (List.range A.rows)) (r : Option Bin.Part) :
    Bin.setMaxBin A (asRows B) A.rows cols min n nd sch ≠ .ok r := by
  intro h
  unfold Bin.setMaxBin at h
  obtain ⟨_, _, h⟩ := Alias.bind_ok' h
  obtain ⟨x, h1, _⟩ := Alias.bind_ok' h
  obtain ⟨k, hk, rfl⟩ := List.mem_iff_getElem.1 hc
  obtain ⟨i, hi, k1, k2⟩ := cover_of (Q := A.ptr) hA.ptrFirst A.rows k (by rw [hA.ptrLast, ← hA.colLen]; exact hk)
  have hrow : ∃ e, Bin.intprodRow A (asRows B) i = .error e := by
    unfold Bin.intprodRow
    rw [CSR.rd_ptr hA (Nat.le_of_lt hi), ok_bind, CSR.rd_ptr hA (i := i + 1) hi, ok_bind]
    apply foldlM_fails
    refine ⟨k, by rw [List.mem_range'_1]; omega, ?_⟩
    intro s
    refine ⟨.oob, ?_⟩
    show (rd A.colids k >>= _) = _
    rw [rd_of_lt hk, ok_bind, rd_oob (by show B.colptr.length ≤ _; rw [hB.ptrLen]; omega)]
    rfl
  obtain ⟨e, he⟩ := hrow
  have : ∃ e, Bin.setIntprodNum A (asRows B) sch.intprod (List.replicate A.rows 0) = .error e := by
    apply foldlM_fails
    refine ⟨i, ho.mem_iff.2 (by simpa using hi), ?_⟩
    intro s
    exact ⟨e, by simp only [he]; rfl⟩
  obtain ⟨e, he⟩ := this
  rw [he] at h1; cases h1

end Verif.Model.Dot
