import Verif.Model.Driver
import Verif.Lemmas.OfRows
import Verif.Lemmas.Threads

/-! # The drivers compute the matrix of the expected rows -/

namespace Verif.Model

open Scan (rdu exclusiveScan)

variable {V : Type}

/-- What a driver needs from a row algorithm on given inputs: `exp` are the rows to
be produced, and an invariant of the accumulators is kept from row to row. -/
structure Contract1 (alg : RowAlg V) (mul add : V → V → V) (A B M : CSR V) (exp : Nat → List (Nat × V)) :
    Prop where
  bound : ∀ i < A.rows, (exp i).length ≤ boundOf alg.compl A B M i
  num : ∀ sz, ∃ Inv : alg.N → Prop, Inv (alg.initN B.cols sz) ∧
    ∀ i < A.rows, Covers alg.compl alg.calcA alg.calcM alg.calcF A B M sz i → flopsOf alg.compl A B M i ≠ 0 →
    ∀ f, (f = flopsOf alg.compl A B M i ∨ f = (exp i).length ∧ f ≠ 0) → ∀ acc, Inv acc →
    ∃ acc', alg.numRow mul add A B M i f acc = .ok (acc', exp i) ∧ Inv acc'

/-- ... and of the symbolic phase. -/
structure Contract (alg : RowAlg V) (mul add : V → V → V) (A B M : CSR V) (exp : Nat → List (Nat × V)) : Prop
    extends Contract1 alg mul add A B M exp where
  sym : ∀ sz, ∃ Inv : alg.S → Prop, Inv (alg.initS B.cols sz) ∧
    ∀ i < A.rows, Covers alg.compl alg.calcA alg.calcM alg.calcF A B M sz i → flopsOf alg.compl A B M i ≠ 0 →
    ∀ acc, Inv acc →
    ∃ acc', alg.symRow A B M i (flopsOf alg.compl A B M i) acc = .ok (acc', (exp i).length) ∧ Inv acc'

theorem boundOf_le (compl : Bool) (A B M : CSR V) (i : Nat) : boundOf compl A B M i ≤ flopsOf compl A B M i := by
  unfold boundOf; split <;> omega

/-! ## Ranges -/

/-- Entries produced by thread `t` when its rows start at `b t` and end before `b (t+1)`. -/
def tnv (exp : Nat → List (Nat × V)) (b : Nat → Nat) (t : Nat) : Nat :=
  psum (lens exp) (b (t + 1)) - psum (lens exp) (b t)

theorem psum_tnv {exp : Nat → List (Nat × V)} {b : Nat → Nat} {n : Nat} (h0 : b 0 = 0)
    (hb : ∀ t < n, b t ≤ b (t + 1)) : ∀ t ≤ n, psum (tnv exp b) t = psum (lens exp) (b t) := by
  intro t
  induction t with
  | zero => intro _; rw [h0]; rfl
  | succ t ih =>
    intro ht
    have h1 := ih (by omega)
    have h2 := psum_mono (f := lens exp) (hb t (by omega))
    simp only [psum, h1, tnv]
    omega

/-- Split of the rows among the threads. -/
structure Split (b : Nat → Nat) (rows n : Nat) : Prop where
  zero : b 0 = 0
  last : b n = rows
  mono : ∀ t < n, b t ≤ b (t + 1)
  le : ∀ t, b t ≤ rows

theorem split_bnd (P : Nat → Nat) (total rows : Nat) {n : Nat} (hn : 0 < n) :
    Split (bnd P total rows n) rows n where
  zero := rfl
  last := bnd_last P total rows hn
  mono := fun _ h => bnd_mono P total rows h
  le := bnd_le P total rows n

theorem Split.row_cover {b : Nat → Nat} {rows n i : Nat} (h : Split b rows n) (hi : i < rows) :
    ∃ t, t < n ∧ b t ≤ i ∧ i < b (t + 1) :=
  cover_of h.zero n i (by rw [h.last]; exact hi)

theorem Split.pos_cover {b : Nat → Nat} {rows n p : Nat} {exp : Nat → List (Nat × V)} (h : Split b rows n)
    (hp : p < psum (lens exp) rows) :
    ∃ t, t < n ∧ psum (lens exp) (b t) ≤ p ∧ p < psum (lens exp) (b (t + 1)) :=
  cover_of (Q := fun t => psum (lens exp) (b t)) (by simp [h.zero, psum]) n p (by rw [h.last]; exact hp)

/-- Both arrays of the result at once. -/
def colL (exp : Nat → List (Nat × V)) (rows : Nat) : List Nat := (seg exp 0 rows).map Prod.fst
def valL (exp : Nat → List (Nat × V)) (rows : Nat) : List V := (seg exp 0 rows).map Prod.snd

theorem colL_length (exp : Nat → List (Nat × V)) (rows : Nat) : (colL exp rows).length = psum (lens exp) rows := by
  simp [colL, seg_length exp (Nat.zero_le rows), psum]

theorem valL_length (exp : Nat → List (Nat × V)) (rows : Nat) : (valL exp rows).length = psum (lens exp) rows := by
  simp [valL, seg_length exp (Nat.zero_le rows), psum]

theorem colL_get {exp : Nat → List (Nat × V)} {rows b e k : Nat} {x : Nat × V} (h1 : b ≤ e) (h2 : e ≤ rows)
    (hx : (seg exp b e)[k]? = some x) : (colL exp rows)[psum (lens exp) b + k]? = some x.1 := by
  have hk : k < (seg exp b e).length := by
    rcases Nat.lt_or_ge k (seg exp b e).length with h | h
    · exact h
    · rw [List.getElem?_eq_none h] at hx; simp at hx
  unfold colL
  rw [List.getElem?_map, seg_getElem? exp h1 h2 hk, hx]; rfl

theorem valL_get {exp : Nat → List (Nat × V)} {rows b e k : Nat} {x : Nat × V} (h1 : b ≤ e) (h2 : e ≤ rows)
    (hx : (seg exp b e)[k]? = some x) : (valL exp rows)[psum (lens exp) b + k]? = some x.2 := by
  have hk : k < (seg exp b e).length := by
    rcases Nat.lt_or_ge k (seg exp b e).length with h | h
    · exact h
    · rw [List.getElem?_eq_none h] at hx; simp at hx
  unfold valL
  rw [List.getElem?_map, seg_getElem? exp h1 h2 hk, hx]; rfl

/-! ## First part of the one-phase driver -/

section Phase1
variable {alg : RowAlg V} {mul add : V → V → V} {A B M : CSR V} {exp : Nat → List (Nat × V)}
  {fpr : List (Option Nat)} {b : Nat → Nat} {n : Nat}

/-- Assertion of thread `t` in the first part. -/
structure I1 (alg : RowAlg V) (A B M : CSR V) (exp : Nat → List (Nat × V)) (b : Nat → Nat) (n : Nat)
    (Inv : Nat → alg.N → Prop) (t : Nat) (g : Sh V) (l : L1 alg.N V) : Prop where
  rnLen : g.rowNvals.length = A.rows
  tnLen : g.threadsNvals.length = n
  stop : l.stop = b (t + 1)
  cap : l.cap = psum (boundOf alg.compl A B M) (b (t + 1)) - psum (boundOf alg.compl A B M) (b t)
  lo : b t ≤ l.row
  hi : l.row ≤ b (t + 1)
  inv : Inv t l.acc
  out : l.out = seg exp (b t) l.row
  has : ∀ i, b t ≤ i → i < l.row → Has g.rowNvals (lens exp) i
  fin : l.done = true → l.row = b (t + 1) ∧ Has g.threadsNvals (tnv exp b) t

theorem seg_length_le_bound (hbound : ∀ i < A.rows, (exp i).length ≤ boundOf alg.compl A B M i)
    {x y : Nat} (hxy : x ≤ y) (hy : y ≤ A.rows) :
    psum (lens exp) y - psum (lens exp) x ≤
      psum (boundOf alg.compl A B M) y - psum (boundOf alg.compl A B M) x := by
  induction y with
  | zero => simp [psum]
  | succ y ih =>
    rcases Nat.lt_or_ge x (y + 1) with h | h
    · have h1 := ih (by omega) (by omega)
      have h2 := hbound y (by omega)
      have h3 := psum_mono (f := lens exp) (show x ≤ y by omega)
      have h4 := psum_mono (f := boundOf alg.compl A B M) (show x ≤ y by omega)
      have h5 : lens exp y = (exp y).length := rfl
      simp only [psum]
      omega
    · have : x = y + 1 := by omega
      subst this; omega

theorem step1_ok (hc : Contract1 alg mul add A B M exp) (hs : Split b A.rows n)
    (hf : ∀ i < A.rows, Has fpr (flopsOf alg.compl A B M) i)
    {Inv : Nat → alg.N → Prop}
    (hInv : ∀ t < n, ∀ i, b t ≤ i → i < b (t + 1) → flopsOf alg.compl A B M i ≠ 0 → ∀ acc, Inv t acc →
      ∃ acc', alg.numRow mul add A B M i (flopsOf alg.compl A B M i) acc = .ok (acc', exp i) ∧ Inv t acc') :
    ∀ t g x, t < n → I1 alg A B M exp b n Inv t g x → x.done = false →
      ∃ g' x', step1 alg mul add A B M fpr t g x = .ok (g', x') ∧ I1 alg A B M exp b n Inv t g' x' ∧
      (x'.done = true ∨ b (t + 1) + 1 - x'.row < b (t + 1) + 1 - x.row) ∧
      ∀ u y, u < n → u ≠ t → I1 alg A B M exp b n Inv u g y → I1 alg A B M exp b n Inv u g' y := by
  intro t g x ht hI hfin
  unfold step1
  by_cases hrow : x.row < x.stop
  · rw [if_pos hrow]
    have hr1 : x.row < b (t + 1) := hI.stop ▸ hrow
    have hrA : x.row < A.rows := Nat.lt_of_lt_of_le hr1 (hs.le _)
    rw [(hf _ hrA).rdu]
    simp only [ok_bind]
    have other : ∀ u y, u < n → u ≠ t → I1 alg A B M exp b n Inv u g y →
        I1 alg A B M exp b n Inv u { g with rowNvals := g.rowNvals.set x.row (some (lens exp x.row)) } y := by
      intro u y _ _ hy
      refine { hy with rnLen := by simpa using hy.rnLen, has := ?_ }
      intro i h1 h2
      exact (hy.has i h1 h2).set _
    have hasNew : ∀ i, b t ≤ i → i < x.row + 1 →
        Has (g.rowNvals.set x.row (some (lens exp x.row))) (lens exp) i := by
      intro i h1 h2
      by_cases hi : i = x.row
      · subst hi; exact Has.set_self (by rw [hI.rnLen]; exact hrA)
      · exact (hI.has i h1 (by omega)).set _
    have hwr : wr g.rowNvals x.row (some (lens exp x.row)) = .ok (g.rowNvals.set x.row (some (lens exp x.row))) :=
      wr_of_lt (by rw [hI.rnLen]; exact hrA)
    by_cases hz : flopsOf alg.compl A B M x.row = 0
    · have hlen : lens exp x.row = 0 := by
        have h1 := hc.bound x.row hrA
        have h2 := boundOf_le alg.compl A B M x.row
        unfold lens; omega
      have hnil : exp x.row = [] := List.length_eq_zero_iff.1 hlen
      simp only [hz, ne_eq, not_true_eq_false, if_false]
      rw [← hlen, hwr]
      refine ⟨_, _, rfl, ?_, ?_, other⟩
      · exact { rnLen := by simpa using hI.rnLen, tnLen := hI.tnLen, stop := hI.stop, cap := hI.cap,
                lo := Nat.le_succ_of_le hI.lo, hi := hr1, inv := hI.inv,
                out := by show x.out = _; rw [seg_snoc exp hI.lo, hI.out, hnil, List.append_nil],
                has := hasNew, fin := fun h => by simp [hfin] at h }
      · right; show b (t + 1) + 1 - (x.row + 1) < _; omega
    · simp only [ne_eq, hz, not_false_eq_true, if_true]
      obtain ⟨acc', e1, e2⟩ := hInv t ht x.row hI.lo hr1 hz x.acc hI.inv
      rw [e1]
      simp only [ok_bind]
      have hout : x.out ++ exp x.row = seg exp (b t) (x.row + 1) := by
        rw [seg_snoc exp hI.lo, hI.out]
      have hcap : x.out.length + (exp x.row).length ≤ x.cap := by
        rw [← List.length_append, hout, seg_length exp (show b t ≤ x.row + 1 from Nat.le_succ_of_le hI.lo), hI.cap]
        have h1 := seg_length_le_bound (alg := alg) (B := B) (M := M) hc.bound
          (show b t ≤ x.row + 1 from Nat.le_succ_of_le hI.lo) (show x.row + 1 ≤ A.rows from hrA)
        have h2 := psum_mono (f := boundOf alg.compl A B M) (show x.row + 1 ≤ b (t + 1) from hr1)
        omega
      rw [if_pos hcap]
      have hwr' : wr g.rowNvals x.row (some (exp x.row).length) = _ := hwr
      rw [hwr']
      refine ⟨_, _, rfl, ?_, ?_, other⟩
      · exact { rnLen := by simpa using hI.rnLen, tnLen := hI.tnLen, stop := hI.stop, cap := hI.cap,
                lo := Nat.le_succ_of_le hI.lo, hi := hr1, inv := e2, out := hout,
                has := hasNew, fin := fun h => by simp [hfin] at h }
      · right; show b (t + 1) + 1 - (x.row + 1) < _; omega
  · rw [if_neg hrow]
    have hre : x.row = b (t + 1) := by have := hI.hi; have := hI.stop; omega
    have hlen : x.out.length = tnv exp b t := by
      rw [hI.out, seg_length exp hI.lo, hre]; rfl
    rw [wr_of_lt (by rw [hI.tnLen]; exact ht), hlen]
    refine ⟨_, _, rfl, ?_, Or.inl rfl, ?_⟩
    · exact { hI with tnLen := by simpa using hI.tnLen,
                      fin := fun _ => ⟨hre, Has.set_self (by rw [hI.tnLen]; exact ht)⟩ }
    · intro u y _ _ hy
      exact { hy with tnLen := by simpa using hy.tnLen,
                      fin := fun h => ⟨(hy.fin h).1, (hy.fin h).2.set _⟩ }

end Phase1

/-! ## Row offsets: common part of both drivers -/

/-- The shared state while the result is filled in. -/
structure Base (exp : Nat → List (Nat × V)) (b : Nat → Nat) (rows n : Nat) (g : Sh V) : Prop where
  rp : g.rowptr.length = rows + 1
  cl : g.colids.length = psum (lens exp) rows
  vl : g.values.length = psum (lens exp) rows
  rn : ∀ i < rows, Has g.rowNvals (lens exp) i
  tn : ∀ t < n, Has g.threadsNvals (tnv exp b) t

theorem initC_ok {exp : Nat → List (Nat × V)} {b : Nat → Nat} {rows n : Nat} (hs : Split b rows n) {g : Sh V}
    (rn : ∀ i < rows, Has g.rowNvals (lens exp) i) (tn : ∀ t < n, Has g.threadsNvals (tnv exp b) t) :
    ∃ g', initC rows n g = .ok g' ∧ Base exp b rows n g' := by
  unfold initC
  rw [accumulate_eq tn, psum_tnv hs.zero hs.mono n (Nat.le_refl _), hs.last]
  exact ⟨_, rfl, ⟨by simp, by simp, by simp, rn, tn⟩⟩

theorem Base.setRp {exp : Nat → List (Nat × V)} {b : Nat → Nat} {rows n : Nat} {g : Sh V} (h : Base exp b rows n g)
    (i : Nat) (x : Option Nat) : Base exp b rows n { g with rowptr := g.rowptr.set i x } :=
  { h with rp := by simpa using h.rp }

theorem Base.setCl {exp : Nat → List (Nat × V)} {b : Nat → Nat} {rows n : Nat} {g : Sh V} (h : Base exp b rows n g)
    (i : Nat) (x : Option Nat) : Base exp b rows n { g with colids := g.colids.set i x } :=
  { h with cl := by simpa using h.cl }

theorem Base.setVl {exp : Nat → List (Nat × V)} {b : Nat → Nat} {rows n : Nat} {g : Sh V} (h : Base exp b rows n g)
    (i : Nat) (x : Option V) : Base exp b rows n { g with values := g.values.set i x } :=
  { h with vl := by simpa using h.vl }

/-- The row pointers of thread `t` are written. -/
def RowsDone (exp : Nat → List (Nat × V)) (b : Nat → Nat) (t i : Nat) (g : Sh V) : Prop :=
  ∀ k, b t ≤ k → k < i → Has g.rowptr (psum (lens exp)) k

/-- ... including the last one if `t` is the last thread. -/
def PtrDone (exp : Nat → List (Nat × V)) (b : Nat → Nat) (rows n t : Nat) (g : Sh V) : Prop :=
  RowsDone exp b t (b (t + 1)) g ∧ (t = n - 1 → Has g.rowptr (psum (lens exp)) rows)

def ColDone (exp : Nat → List (Nat × V)) (rows lo hi : Nat) (g : Sh V) : Prop :=
  ∀ p, lo ≤ p → p < hi → At g.colids (colL exp rows) p

def ValDone (exp : Nat → List (Nat × V)) (rows lo hi : Nat) (g : Sh V) : Prop :=
  ∀ p, lo ≤ p → p < hi → At g.values (valL exp rows) p

/-- `g'` keeps everything that was already written in `g`. -/
structure Keeps (exp : Nat → List (Nat × V)) (b : Nat → Nat) (rows n : Nat) (g g' : Sh V) : Prop where
  base : Base exp b rows n g'
  ptr : ∀ k, Has g.rowptr (psum (lens exp)) k → Has g'.rowptr (psum (lens exp)) k
  col : ∀ p, At g.colids (colL exp rows) p → At g'.colids (colL exp rows) p
  val : ∀ p, At g.values (valL exp rows) p → At g'.values (valL exp rows) p

section Keeps
variable {exp : Nat → List (Nat × V)} {b : Nat → Nat} {rows n : Nat} {g g' : Sh V}

theorem Keeps.refl (h : Base exp b rows n g) : Keeps exp b rows n g g :=
  ⟨h, fun _ h => h, fun _ h => h, fun _ h => h⟩

theorem Keeps.setRp (h : Base exp b rows n g) (i : Nat) :
    Keeps exp b rows n g { g with rowptr := g.rowptr.set i (some (psum (lens exp) i)) } :=
  ⟨h.setRp _ _, fun _ h => h.set _, fun _ h => h, fun _ h => h⟩

theorem Keeps.setCl (h : Base exp b rows n g) {i x : Nat} (hx : (colL exp rows)[i]? = some x) :
    Keeps exp b rows n g { g with colids := g.colids.set i (some x) } :=
  ⟨h.setCl _ _, fun _ h => h, fun _ h => h.set hx, fun _ h => h⟩

theorem Keeps.setVl (h : Base exp b rows n g) {i : Nat} {x : V} (hx : (valL exp rows)[i]? = some x) :
    Keeps exp b rows n g { g with values := g.values.set i (some x) } :=
  ⟨h.setVl _ _, fun _ h => h, fun _ h => h, fun _ h => h.set hx⟩

theorem RowsDone.keeps {t i : Nat} (h : RowsDone exp b t i g) (k : Keeps exp b rows n g g') :
    RowsDone exp b t i g' := fun j h1 h2 => k.ptr _ (h j h1 h2)

theorem PtrDone.keeps {t : Nat} (h : PtrDone exp b rows n t g) (k : Keeps exp b rows n g g') :
    PtrDone exp b rows n t g' := ⟨h.1.keeps k, fun ht => k.ptr _ (h.2 ht)⟩

theorem ColDone.keeps {lo hi : Nat} (h : ColDone exp rows lo hi g) (k : Keeps exp b rows n g g') :
    ColDone exp rows lo hi g' := fun p h1 h2 => k.col _ (h p h1 h2)

theorem ValDone.keeps {lo hi : Nat} (h : ValDone exp rows lo hi g) (k : Keeps exp b rows n g g') :
    ValDone exp rows lo hi g' := fun p h1 h2 => k.val _ (h p h1 h2)

theorem lt_of_getElem? {α : Type} {l : List α} {i : Nat} {x : α} (h : l[i]? = some x) : i < l.length := by
  rcases Nat.lt_or_ge i l.length with h' | h'
  · exact h'
  · rw [List.getElem?_eq_none h'] at h; simp at h

/-- When every thread is done the object is the expected matrix. -/
theorem freeze_ok (hs : Split b rows n) (hn : 0 < n) (cols : Nat) (zb : Bool) (hb : Base exp b rows n g)
    (hp : ∀ t < n, PtrDone exp b rows n t g)
    (hcol : ∀ t < n, ColDone exp rows (psum (lens exp) (b t)) (psum (lens exp) (b (t + 1))) g)
    (hval : ∀ t < n, ValDone exp rows (psum (lens exp) (b t)) (psum (lens exp) (b (t + 1))) g) :
    freeze rows cols zb g = .ok (ofRows rows cols zb exp) := by
  have h1 : g.rowptr = (tab (rows + 1) (psum (lens exp))).map some := by
    rw [eq_tab_of_has (X := psum (lens exp)) hb.rp (by
      intro i hi
      by_cases h : i = rows
      · subst h; exact (hp (n - 1) (by omega)).2 rfl
      · obtain ⟨t, ht, h2, h3⟩ := hs.row_cover (show i < rows by omega)
        exact (hp t ht).1 i h2 h3)]
    simp [tab]
  have h2 : g.colids = (colL exp rows).map some := by
    apply eq_map_of_at
    · rw [hb.cl, colL_length]
    · intro p hp'
      rw [colL_length] at hp'
      obtain ⟨t, ht, h2, h3⟩ := hs.pos_cover hp'
      exact hcol t ht p h2 h3
  have h3 : g.values = (valL exp rows).map some := by
    apply eq_map_of_at
    · rw [hb.vl, valL_length]
    · intro p hp'
      rw [valL_length] at hp'
      obtain ⟨t, ht, h2, h3⟩ := hs.pos_cover hp'
      exact hval t ht p h2 h3
  unfold freeze
  rw [h1, h2, h3, mapM_use, mapM_use, mapM_use]
  simp only [ok_bind, List.length_map, colL_length]
  rfl

end Keeps

/-! ## Second part of the one-phase driver -/

section Phase3
variable {exp : Nat → List (Nat × V)} {b : Nat → Nat} {rows n : Nat}

/-- Assertion of thread `t` in the second part of the one-phase driver. -/
def J3 (exp : Nat → List (Nat × V)) (b : Nat → Nat) (rows n t : Nat) (g : Sh V) : Ctl3 → Prop
  | .start => True
  | .offs i off => b t ≤ i ∧ i ≤ b (t + 1) ∧ off = psum (lens exp) i ∧ RowsDone exp b t i g
  | .last off => off = psum (lens exp) (b (t + 1)) ∧ RowsDone exp b t (b (t + 1)) g
  | .baseC => PtrDone exp b rows n t g
  | .copyC base k => PtrDone exp b rows n t g ∧ (b t < b (t + 1) → base = some (psum (lens exp) (b t))) ∧
      k ≤ tnv exp b t ∧ ColDone exp rows (psum (lens exp) (b t)) (psum (lens exp) (b t) + k) g
  | .baseV => PtrDone exp b rows n t g ∧
      ColDone exp rows (psum (lens exp) (b t)) (psum (lens exp) (b (t + 1))) g
  | .copyV base k => PtrDone exp b rows n t g ∧
      ColDone exp rows (psum (lens exp) (b t)) (psum (lens exp) (b (t + 1))) g ∧
      (b t < b (t + 1) → base = some (psum (lens exp) (b t))) ∧
      k ≤ tnv exp b t ∧ ValDone exp rows (psum (lens exp) (b t)) (psum (lens exp) (b t) + k) g
  | .done => PtrDone exp b rows n t g ∧
      ColDone exp rows (psum (lens exp) (b t)) (psum (lens exp) (b (t + 1))) g ∧
      ValDone exp rows (psum (lens exp) (b t)) (psum (lens exp) (b (t + 1))) g

theorem J3.keeps {t : Nat} {g g' : Sh V} {c : Ctl3} (h : J3 exp b rows n t g c) (k : Keeps exp b rows n g g') :
    J3 exp b rows n t g' c := by
  cases c with
  | start => trivial
  | offs i off => exact ⟨h.1, h.2.1, h.2.2.1, h.2.2.2.keeps k⟩
  | last off => exact ⟨h.1, h.2.keeps k⟩
  | baseC => exact PtrDone.keeps h k
  | copyC base j => exact ⟨h.1.keeps k, h.2.1, h.2.2.1, h.2.2.2.keeps k⟩
  | baseV => exact ⟨h.1.keeps k, h.2.keeps k⟩
  | copyV base j => exact ⟨h.1.keeps k, h.2.1.keeps k, h.2.2.1, h.2.2.2.1, h.2.2.2.2.keeps k⟩
  | done => exact ⟨h.1.keeps k, h.2.1.keeps k, h.2.2.keeps k⟩

def I3 (exp : Nat → List (Nat × V)) (b : Nat → Nat) (rows n t : Nat) (g : Sh V) (c : Ctl3) : Prop :=
  Base exp b rows n g ∧ J3 exp b rows n t g c

/-- Steps that remain. -/
def ticks3 (exp : Nat → List (Nat × V)) (b : Nat → Nat) (t : Nat) : Ctl3 → Nat
  | .start => 2 * tnv exp b t + 20 + b (t + 1)
  | .offs i _ => 2 * tnv exp b t + 10 + (b (t + 1) - i)
  | .last _ => 2 * tnv exp b t + 8
  | .baseC => 2 * tnv exp b t + 7
  | .copyC _ k => 2 * tnv exp b t + 6 - k
  | .baseV => tnv exp b t + 4
  | .copyV _ k => tnv exp b t + 3 - k
  | .done => 0

theorem tnv_pos_lt {t : Nat} {k : Nat} (hk : k < tnv exp b t) (hb : b t ≤ b (t + 1)) : b t < b (t + 1) := by
  rcases Nat.lt_or_ge (b t) (b (t + 1)) with h | h
  · exact h
  · have : b t = b (t + 1) := by omega
    unfold tnv at hk; rw [this] at hk; omega

theorem step3_ok (hs : Split b rows n) {rng : Nat → Nat × Nat} {outs : Nat → List (Nat × V)}
    (hr : ∀ t < n, rng t = (b t, b (t + 1))) (ho : ∀ t < n, outs t = seg exp (b t) (b (t + 1))) :
    ∀ t g x, t < n → I3 exp b rows n t g x → (x == .done) = false →
      ∃ g' x', step3 rows n rng outs t g x = .ok (g', x') ∧ I3 exp b rows n t g' x' ∧
      ((x' == .done) = true ∨ ticks3 exp b t x' < ticks3 exp b t x) ∧
      ∀ u y, u < n → u ≠ t → I3 exp b rows n u g y → I3 exp b rows n u g' y := by
  intro t g x ht hI hfin
  obtain ⟨hB, hJ⟩ := hI
  have hbt := hs.mono t ht
  have hlt := hs.le (t + 1)
  -- it suffices to find a step that keeps what was written
  suffices H : ∃ g' x', step3 rows n rng outs t g x = .ok (g', x') ∧ Keeps exp b rows n g g' ∧
      J3 exp b rows n t g' x' ∧ ((x' == .done) = true ∨ ticks3 exp b t x' < ticks3 exp b t x) by
    obtain ⟨g', x', e1, e2, e3, e4⟩ := H
    exact ⟨g', x', e1, ⟨e2.base, e3⟩, e4, fun u y _ _ h => ⟨e2.base, h.2.keeps e2⟩⟩
  have htn : tnv exp b t = psum (lens exp) (b (t + 1)) - psum (lens exp) (b t) := rfl
  have hpm := psum_mono (f := lens exp) hbt
  unfold step3
  cases x with
  | start =>
    simp only [accumulate_eq (fun i (hi : i < t) => hB.tn i (by omega)), ok_bind,
      psum_tnv hs.zero hs.mono t (Nat.le_of_lt ht), hr t ht]
    refine ⟨_, _, rfl, Keeps.refl hB, ⟨Nat.le_refl _, hbt, rfl, fun k h1 h2 => by omega⟩, Or.inr ?_⟩
    simp only [ticks3]; omega
  | offs i off =>
    obtain ⟨h1, h2, h3, h4⟩ := hJ
    simp only [hr t ht]
    by_cases hi : i < b (t + 1)
    · have hi' : i < rows := by omega
      simp only [if_pos hi, h3, wr_of_lt (show i < g.rowptr.length by rw [hB.rp]; omega), ok_bind,
        (hB.rn i hi').rdu]
      have hk := Keeps.setRp hB i
      refine ⟨_, _, rfl, hk, ⟨by omega, by omega, rfl, ?_⟩, Or.inr ?_⟩
      · intro k k1 k2
        by_cases hki : k = i
        · subst hki; exact Has.set_self (by rw [hB.rp]; omega)
        · exact hk.ptr _ (h4 k k1 (by omega))
      · simp only [ticks3]; omega
    · have : i = b (t + 1) := by omega
      subst this
      simp only [if_neg hi]
      refine ⟨_, _, rfl, Keeps.refl hB, ⟨h3, h4⟩, Or.inr ?_⟩
      simp only [ticks3]; omega
  | last off =>
    obtain ⟨h1, h2⟩ := hJ
    by_cases hl : t = n - 1
    · have hbn : b (t + 1) = rows := by
        have : t + 1 = n := by omega
        rw [this, hs.last]
      simp only [if_pos hl, h1, hbn, wr_of_lt (show rows < g.rowptr.length by rw [hB.rp]; omega), ok_bind]
      have hk := Keeps.setRp hB rows
      refine ⟨_, _, rfl, hk, ⟨RowsDone.keeps h2 hk, fun _ => Has.set_self (by rw [hB.rp]; omega)⟩, Or.inr ?_⟩
      simp only [ticks3]; omega
    · simp only [if_neg hl]
      refine ⟨_, _, rfl, Keeps.refl hB, ⟨h2, fun h => absurd h hl⟩, Or.inr ?_⟩
      simp only [ticks3]; omega
  | baseC =>
    have hlen : b t < g.rowptr.length := by rw [hB.rp]; omega
    simp only [hr t ht, rd_of_lt hlen, ok_bind]
    refine ⟨_, _, rfl, Keeps.refl hB, ⟨hJ, ?_, by omega, fun p p1 p2 => by omega⟩, Or.inr ?_⟩
    · intro hlt'
      have h := (hJ.1 (b t) (Nat.le_refl _) hlt').rd
      rw [rd_of_lt hlen] at h
      exact Except.ok.inj h
    · simp only [ticks3]; omega
  | copyC base k =>
    obtain ⟨h1, h2, h3, h4⟩ := hJ
    simp only [(hB.tn t ht).rdu, ok_bind]
    by_cases hk : k < tnv exp b t
    · rw [if_pos hk]
      have hlt' := tnv_pos_lt hk hbt
      rw [h2 hlt', ho t ht]
      have hks : k < (seg exp (b t) (b (t + 1))).length := by rw [seg_length exp hbt]; exact hk
      have hcol := colL_get hbt hlt (List.getElem?_eq_getElem hks)
      have hpos : psum (lens exp) (b t) + k < g.colids.length := by
        rw [hB.cl, ← colL_length exp rows]; exact lt_of_getElem? hcol
      simp only [use_some, ok_bind, rd_of_lt hks, wr_of_lt hpos]
      have hkeep := Keeps.setCl hB hcol
      refine ⟨_, _, rfl, hkeep, ⟨h1.keeps hkeep, fun _ => rfl, hk, ?_⟩, Or.inr ?_⟩
      · intro p p1 p2
        by_cases hp : p = psum (lens exp) (b t) + k
        · subst hp; exact At.set_self hcol hpos
        · exact hkeep.col _ (h4 p p1 (by omega))
      · simp only [ticks3]; omega
    · rw [if_neg hk]
      have : psum (lens exp) (b t) + k = psum (lens exp) (b (t + 1)) := by omega
      refine ⟨_, _, rfl, Keeps.refl hB, ⟨h1, this ▸ h4⟩, Or.inr ?_⟩
      simp only [ticks3]; omega
  | baseV =>
    obtain ⟨hP, hC⟩ := hJ
    have hlen : b t < g.rowptr.length := by rw [hB.rp]; omega
    simp only [hr t ht, rd_of_lt hlen, ok_bind]
    refine ⟨_, _, rfl, Keeps.refl hB, ⟨hP, hC, ?_, by omega, fun p p1 p2 => by omega⟩, Or.inr ?_⟩
    · intro hlt'
      have h := (hP.1 (b t) (Nat.le_refl _) hlt').rd
      rw [rd_of_lt hlen] at h
      exact Except.ok.inj h
    · simp only [ticks3]; omega
  | copyV base k =>
    obtain ⟨h1, hC, h2, h3, h4⟩ := hJ
    simp only [(hB.tn t ht).rdu, ok_bind]
    by_cases hk : k < tnv exp b t
    · rw [if_pos hk]
      have hlt' := tnv_pos_lt hk hbt
      rw [h2 hlt', ho t ht]
      have hks : k < (seg exp (b t) (b (t + 1))).length := by rw [seg_length exp hbt]; exact hk
      have hval := valL_get hbt hlt (List.getElem?_eq_getElem hks)
      have hpos : psum (lens exp) (b t) + k < g.values.length := by
        rw [hB.vl, ← valL_length exp rows]; exact lt_of_getElem? hval
      simp only [use_some, ok_bind, rd_of_lt hks, wr_of_lt hpos]
      have hkeep := Keeps.setVl hB hval
      refine ⟨_, _, rfl, hkeep, ⟨h1.keeps hkeep, hC.keeps hkeep, fun _ => rfl, hk, ?_⟩, Or.inr ?_⟩
      · intro p p1 p2
        by_cases hp : p = psum (lens exp) (b t) + k
        · subst hp; exact At.set_self hval hpos
        · exact hkeep.val _ (h4 p p1 (by omega))
      · simp only [ticks3]; omega
    · rw [if_neg hk]
      have : psum (lens exp) (b t) + k = psum (lens exp) (b (t + 1)) := by omega
      refine ⟨_, _, rfl, Keeps.refl hB, ⟨h1, hC, this ▸ h4⟩, Or.inl rfl⟩
  | done => simp at hfin

end Phase3

/-! ## Symbolic part of the two-phase driver -/

section Phase2
variable {alg : RowAlg V} {mul add : V → V → V} {A B M : CSR V} {exp : Nat → List (Nat × V)}
  {fpr : List (Option Nat)} {b : Nat → Nat} {n : Nat}

/-- Assertion of thread `t` in the symbolic part. -/
structure I2 (alg : RowAlg V) (A : CSR V) (exp : Nat → List (Nat × V)) (b : Nat → Nat) (n : Nat)
    (Inv : Nat → alg.S → Prop) (t : Nat) (g : Sh V) (l : L2 alg.S) : Prop where
  rnLen : g.rowNvals.length = A.rows
  tnLen : g.threadsNvals.length = n
  stop : l.stop = b (t + 1)
  lo : b t ≤ l.row
  hi : l.row ≤ b (t + 1)
  inv : Inv t l.acc
  out : l.nvals = psum (lens exp) l.row - psum (lens exp) (b t)
  has : ∀ i, b t ≤ i → i < l.row → Has g.rowNvals (lens exp) i
  fin : l.done = true → l.row = b (t + 1) ∧ Has g.threadsNvals (tnv exp b) t

theorem step2_ok (hc : Contract alg mul add A B M exp) (hs : Split b A.rows n)
    (hf : ∀ i < A.rows, Has fpr (flopsOf alg.compl A B M) i)
    {Inv : Nat → alg.S → Prop}
    (hInv : ∀ t < n, ∀ i, b t ≤ i → i < b (t + 1) → flopsOf alg.compl A B M i ≠ 0 → ∀ acc, Inv t acc →
      ∃ acc', alg.symRow A B M i (flopsOf alg.compl A B M i) acc = .ok (acc', (exp i).length) ∧ Inv t acc') :
    ∀ t g x, t < n → I2 alg A exp b n Inv t g x → x.done = false →
      ∃ g' x', step2 alg A B M fpr t g x = .ok (g', x') ∧ I2 alg A exp b n Inv t g' x' ∧
      (x'.done = true ∨ b (t + 1) + 1 - x'.row < b (t + 1) + 1 - x.row) ∧
      ∀ u y, u < n → u ≠ t → I2 alg A exp b n Inv u g y → I2 alg A exp b n Inv u g' y := by
  intro t g x ht hI hfin
  unfold step2
  by_cases hrow : x.row < x.stop
  · rw [if_pos hrow]
    have hr1 : x.row < b (t + 1) := hI.stop ▸ hrow
    have hrA : x.row < A.rows := Nat.lt_of_lt_of_le hr1 (hs.le _)
    rw [(hf _ hrA).rdu]
    simp only [ok_bind]
    have other : ∀ u y, u < n → u ≠ t → I2 alg A exp b n Inv u g y →
        I2 alg A exp b n Inv u { g with rowNvals := g.rowNvals.set x.row (some (lens exp x.row)) } y := by
      intro u y _ _ hy
      refine { hy with rnLen := by simpa using hy.rnLen, has := ?_ }
      intro i h1 h2
      exact (hy.has i h1 h2).set _
    have hasNew : ∀ i, b t ≤ i → i < x.row + 1 →
        Has (g.rowNvals.set x.row (some (lens exp x.row))) (lens exp) i := by
      intro i h1 h2
      by_cases hi : i = x.row
      · subst hi; exact Has.set_self (by rw [hI.rnLen]; exact hrA)
      · exact (hI.has i h1 (by omega)).set _
    have hwr : wr g.rowNvals x.row (some (lens exp x.row)) = .ok (g.rowNvals.set x.row (some (lens exp x.row))) :=
      wr_of_lt (by rw [hI.rnLen]; exact hrA)
    have hrd : rdu (g.rowNvals.set x.row (some (lens exp x.row))) x.row = .ok (lens exp x.row) :=
      (hasNew x.row hI.lo (by omega)).rdu
    have hout : x.nvals + lens exp x.row = psum (lens exp) (x.row + 1) - psum (lens exp) (b t) := by
      have h1 := hI.out
      have h2 := psum_mono (f := lens exp) hI.lo
      simp only [psum]; omega
    by_cases hz : flopsOf alg.compl A B M x.row = 0
    · have hlen : lens exp x.row = 0 := by
        have h1 := hc.bound x.row hrA
        have h2 := boundOf_le alg.compl A B M x.row
        unfold lens; omega
      simp only [hz, ne_eq, not_true_eq_false, if_false]
      rw [← hlen, hwr]
      simp only [ok_bind, hrd]
      refine ⟨_, _, rfl, ?_, ?_, other⟩
      · exact { rnLen := by simpa using hI.rnLen, tnLen := hI.tnLen, stop := hI.stop,
                lo := Nat.le_succ_of_le hI.lo, hi := hr1, inv := hI.inv, out := hout,
                has := hasNew, fin := fun h => by simp [hfin] at h }
      · right; show b (t + 1) + 1 - (x.row + 1) < _; omega
    · simp only [ne_eq, hz, not_false_eq_true, if_true]
      obtain ⟨acc', e1, e2⟩ := hInv t ht x.row hI.lo hr1 hz x.acc hI.inv
      rw [e1]
      simp only [ok_bind]
      have hwr' : wr g.rowNvals x.row (some (exp x.row).length) = _ := hwr
      rw [hwr']
      simp only [ok_bind, hrd]
      refine ⟨_, _, rfl, ?_, ?_, other⟩
      · exact { rnLen := by simpa using hI.rnLen, tnLen := hI.tnLen, stop := hI.stop,
                lo := Nat.le_succ_of_le hI.lo, hi := hr1, inv := e2, out := hout,
                has := hasNew, fin := fun h => by simp [hfin] at h }
      · right; show b (t + 1) + 1 - (x.row + 1) < _; omega
  · rw [if_neg hrow]
    have hre : x.row = b (t + 1) := by have := hI.hi; have := hI.stop; omega
    have hlen : x.nvals = tnv exp b t := by rw [hI.out, hre]; rfl
    rw [wr_of_lt (by rw [hI.tnLen]; exact ht), hlen]
    refine ⟨_, _, rfl, ?_, Or.inl rfl, ?_⟩
    · exact { hI with tnLen := by simpa using hI.tnLen,
                      out := by rw [← hlen]; exact hI.out,
                      fin := fun _ => ⟨hre, Has.set_self (by rw [hI.tnLen]; exact ht)⟩ }
    · intro u y _ _ hy
      exact { hy with tnLen := by simpa using hy.tnLen,
                      fin := fun h => ⟨(hy.fin h).1, (hy.fin h).2.set _⟩ }

end Phase2

/-! ## Numeric part of the two-phase driver -/

section Phase4
variable {alg : RowAlg V} {mul add : V → V → V} {A B M : CSR V} {exp : Nat → List (Nat × V)}
  {b : Nat → Nat} {n : Nat}

/-- Assertion of thread `t` in the numeric part, control part. -/
def J4 (exp : Nat → List (Nat × V)) (b : Nat → Nat) (rows n t : Nat) (g : Sh V) : Ctl4 V → Prop
  | .start => True
  | .offs i off => b t ≤ i ∧ i ≤ b (t + 1) ∧ off = psum (lens exp) i ∧ RowsDone exp b t i g
  | .last off => off = psum (lens exp) (b (t + 1)) ∧ RowsDone exp b t (b (t + 1)) g
  | .base => PtrDone exp b rows n t g
  | .row r cur => PtrDone exp b rows n t g ∧ b t ≤ r ∧ r ≤ b (t + 1) ∧
      (b t < b (t + 1) → cur = some (psum (lens exp) r)) ∧
      ColDone exp rows (psum (lens exp) (b t)) (psum (lens exp) r) g ∧
      ValDone exp rows (psum (lens exp) (b t)) (psum (lens exp) r) g
  | .flushC r em cur => PtrDone exp b rows n t g ∧ b t ≤ r ∧ r < b (t + 1) ∧ ∃ k, k ≤ lens exp r ∧
      em = (exp r).drop k ∧ cur = some (psum (lens exp) r + k) ∧
      ColDone exp rows (psum (lens exp) (b t)) (psum (lens exp) r + k) g ∧
      ValDone exp rows (psum (lens exp) (b t)) (psum (lens exp) r + k) g
  | .flushV r v em cur => PtrDone exp b rows n t g ∧ b t ≤ r ∧ r < b (t + 1) ∧ ∃ k c, (exp r)[k]? = some (c, v) ∧
      em = (exp r).drop (k + 1) ∧ cur = some (psum (lens exp) r + k) ∧
      ColDone exp rows (psum (lens exp) (b t)) (psum (lens exp) r + (k + 1)) g ∧
      ValDone exp rows (psum (lens exp) (b t)) (psum (lens exp) r + k) g
  | .done => PtrDone exp b rows n t g ∧
      ColDone exp rows (psum (lens exp) (b t)) (psum (lens exp) (b (t + 1))) g ∧
      ValDone exp rows (psum (lens exp) (b t)) (psum (lens exp) (b (t + 1))) g

theorem J4.keeps {rows t : Nat} {g g' : Sh V} {c : Ctl4 V} (h : J4 exp b rows n t g c)
    (k : Keeps exp b rows n g g') : J4 exp b rows n t g' c := by
  cases c with
  | start => trivial
  | offs i off => exact ⟨h.1, h.2.1, h.2.2.1, h.2.2.2.keeps k⟩
  | last off => exact ⟨h.1, h.2.keeps k⟩
  | base => exact PtrDone.keeps h k
  | row r cur =>
    obtain ⟨h1, h2, h3, h4, h5, h6⟩ := h
    exact ⟨h1.keeps k, h2, h3, h4, h5.keeps k, h6.keeps k⟩
  | flushC r em cur =>
    obtain ⟨h1, h2, h3, j, h4, h5, h6, h7, h8⟩ := h
    exact ⟨h1.keeps k, h2, h3, j, h4, h5, h6, h7.keeps k, h8.keeps k⟩
  | flushV r v em cur =>
    obtain ⟨h1, h2, h3, j, c, h4, h5, h6, h7, h8⟩ := h
    exact ⟨h1.keeps k, h2, h3, j, c, h4, h5, h6, h7.keeps k, h8.keeps k⟩
  | done => exact ⟨h.1.keeps k, h.2.1.keeps k, h.2.2.keeps k⟩

def I4 (alg : RowAlg V) (exp : Nat → List (Nat × V)) (b : Nat → Nat) (rows n : Nat) (Inv : Nat → alg.N → Prop)
    (t : Nat) (g : Sh V) (l : L4 alg.N V) : Prop :=
  Base exp b rows n g ∧ Inv t l.acc ∧ J4 exp b rows n t g l.ctl

/-- Work left before row `r`. -/
def work4 (exp : Nat → List (Nat × V)) (b : Nat → Nat) (t r : Nat) : Nat :=
  (2 * psum (lens exp) (b (t + 1)) + 4 * b (t + 1)) - (2 * psum (lens exp) r + 4 * r)

/-- Steps that remain. -/
def ticks4 (exp : Nat → List (Nat × V)) (b : Nat → Nat) (t : Nat) : Ctl4 V → Nat
  | .start => work4 exp b t (b t) + 20 + b (t + 1)
  | .offs i _ => work4 exp b t (b t) + 10 + (b (t + 1) - i)
  | .last _ => work4 exp b t (b t) + 8
  | .base => work4 exp b t (b t) + 7
  | .row r _ => work4 exp b t r + 1
  | .flushC r em _ => work4 exp b t (r + 1) + 2 * em.length + 2
  | .flushV r _ em _ => work4 exp b t (r + 1) + 2 * em.length + 3
  | .done => 0

theorem step4_ok (hc : Contract alg mul add A B M exp) (hs : Split b A.rows n) {rng : Nat → Nat × Nat}
    (hr : ∀ t < n, rng t = (b t, b (t + 1)))
    {Inv : Nat → alg.N → Prop}
    (hInv : ∀ t < n, ∀ i, b t ≤ i → i < b (t + 1) → flopsOf alg.compl A B M i ≠ 0 → lens exp i ≠ 0 →
      ∀ acc, Inv t acc → ∃ acc', alg.numRow mul add A B M i (lens exp i) acc = .ok (acc', exp i) ∧ Inv t acc') :
    ∀ t g x, t < n → I4 alg exp b A.rows n Inv t g x → x.fin = false →
      ∃ g' x', step4 alg mul add A B M n rng t g x = .ok (g', x') ∧ I4 alg exp b A.rows n Inv t g' x' ∧
      (x'.fin = true ∨ ticks4 exp b t x'.ctl < ticks4 exp b t x.ctl) ∧
      ∀ u y, u < n → u ≠ t → I4 alg exp b A.rows n Inv u g y → I4 alg exp b A.rows n Inv u g' y := by
  intro t g x ht hI hfin
  obtain ⟨hB, hA, hJ⟩ := hI
  have hbt := hs.mono t ht
  have hlt := hs.le (t + 1)
  suffices H : ∃ g' x', step4 alg mul add A B M n rng t g x = .ok (g', x') ∧ Keeps exp b A.rows n g g' ∧
      Inv t x'.acc ∧ J4 exp b A.rows n t g' x'.ctl ∧
      (x'.fin = true ∨ ticks4 exp b t x'.ctl < ticks4 exp b t x.ctl) by
    obtain ⟨g', x', e1, e2, e3, e4, e5⟩ := H
    exact ⟨g', x', e1, ⟨e2.base, e3, e4⟩, e5, fun u y _ _ h => ⟨e2.base, h.2.1, h.2.2.keeps e2⟩⟩
  have hpm := psum_mono (f := lens exp) hbt
  obtain ⟨ctl, acc⟩ := x
  unfold step4
  cases ctl with
  | start =>
    simp only [accumulate_eq (fun i (hi : i < t) => hB.tn i (by omega)), ok_bind,
      psum_tnv hs.zero hs.mono t (Nat.le_of_lt ht), hr t ht]
    refine ⟨_, _, rfl, Keeps.refl hB, hA, ⟨Nat.le_refl _, hbt, rfl, fun k h1 h2 => by omega⟩, Or.inr ?_⟩
    simp only [ticks4]; omega
  | offs i off =>
    obtain ⟨h1, h2, h3, h4⟩ := hJ
    simp only [hr t ht]
    by_cases hi : i < b (t + 1)
    · have hi' : i < A.rows := by omega
      simp only [if_pos hi, h3, wr_of_lt (show i < g.rowptr.length by rw [hB.rp]; omega), ok_bind,
        (hB.rn i hi').rdu]
      have hk := Keeps.setRp hB i
      refine ⟨_, _, rfl, hk, hA, ⟨by omega, by omega, rfl, ?_⟩, Or.inr ?_⟩
      · intro k k1 k2
        by_cases hki : k = i
        · subst hki; exact Has.set_self (by rw [hB.rp]; omega)
        · exact hk.ptr _ (h4 k k1 (by omega))
      · simp only [ticks4]; omega
    · have : i = b (t + 1) := by omega
      subst this
      simp only [if_neg hi]
      refine ⟨_, _, rfl, Keeps.refl hB, hA, ⟨h3, h4⟩, Or.inr ?_⟩
      simp only [ticks4]; omega
  | last off =>
    obtain ⟨h1, h2⟩ := hJ
    by_cases hl : t = n - 1
    · have hbn : b (t + 1) = A.rows := by
        have : t + 1 = n := by omega
        rw [this, hs.last]
      simp only [if_pos hl, h1, hbn, wr_of_lt (show A.rows < g.rowptr.length by rw [hB.rp]; omega), ok_bind]
      have hk := Keeps.setRp hB A.rows
      refine ⟨_, _, rfl, hk, hA, ⟨RowsDone.keeps h2 hk, fun _ => Has.set_self (by rw [hB.rp]; omega)⟩, Or.inr ?_⟩
      simp only [ticks4]; omega
    · simp only [if_neg hl]
      refine ⟨_, _, rfl, Keeps.refl hB, hA, ⟨h2, fun h => absurd h hl⟩, Or.inr ?_⟩
      simp only [ticks4]; omega
  | base =>
    have hlen : b t < g.rowptr.length := by rw [hB.rp]; omega
    simp only [hr t ht, rd_of_lt hlen, ok_bind]
    refine ⟨_, _, rfl, Keeps.refl hB, hA, ⟨hJ, Nat.le_refl _, hbt, ?_, fun p p1 p2 => by omega,
      fun p p1 p2 => by omega⟩, Or.inr ?_⟩
    · intro hlt'
      have h := (hJ.1 (b t) (Nat.le_refl _) hlt').rd
      rw [rd_of_lt hlen] at h
      exact Except.ok.inj h
    · simp only [ticks4]; omega
  | row r cur =>
    obtain ⟨h1, h2, h3, h4, h5, h6⟩ := hJ
    simp only [hr t ht]
    by_cases hrow : r < b (t + 1)
    · have hrA : r < A.rows := by omega
      simp only [if_pos hrow, (hB.rn r hrA).rdu, ok_bind]
      have hw : work4 exp b t (r + 1) + 2 * lens exp r + 4 = work4 exp b t r := by
        have := psum_mono (f := lens exp) (show r + 1 ≤ b (t + 1) from hrow)
        simp only [work4, psum] at *; omega
      by_cases hz : lens exp r = 0
      · rw [if_pos hz]
        have hp : psum (lens exp) (r + 1) = psum (lens exp) r := by simp [psum, hz]
        refine ⟨_, _, rfl, Keeps.refl hB, hA, ⟨h1, by omega, hrow, ?_, ?_, ?_⟩, Or.inr ?_⟩
        · rw [hp]; exact h4
        · rw [hp]; exact h5
        · rw [hp]; exact h6
        · simp only [ticks4]; omega
      · rw [if_neg hz]
        have hfl : flopsOf alg.compl A B M r ≠ 0 := by
          have e1 := hc.bound r hrA
          have e2 := boundOf_le alg.compl A B M r
          have e3 : lens exp r = (exp r).length := rfl
          omega
        obtain ⟨acc', e1, e2⟩ := hInv t ht r h2 hrow hfl hz acc hA
        rw [e1]
        simp only [ok_bind]
        refine ⟨_, _, rfl, Keeps.refl hB, e2, ⟨h1, h2, hrow, 0, by omega, rfl, h4 (by omega), h5, h6⟩, Or.inr ?_⟩
        have e3 : lens exp r = (exp r).length := rfl
        simp only [ticks4]; omega
    · have : r = b (t + 1) := by omega
      subst this
      simp only [if_neg hrow]
      exact ⟨_, _, rfl, Keeps.refl hB, hA, ⟨h1, h5, h6⟩, Or.inl rfl⟩
  | flushC r em cur =>
    obtain ⟨h1, h2, h3, k, h4, h5, h6, h7, h8⟩ := hJ
    have hlr : lens exp r = (exp r).length := rfl
    cases em with
    | nil =>
      have hk : k = lens exp r := by
        have := congrArg List.length h5
        simp at this; omega
      have hp : psum (lens exp) r + k = psum (lens exp) (r + 1) := by rw [hk]; rfl
      rw [hp] at h6 h7 h8
      refine ⟨_, _, rfl, Keeps.refl hB, hA, ⟨h1, by omega, h3, fun _ => h6, h7, h8⟩, Or.inr ?_⟩
      simp only [ticks4, List.length_nil]; omega
    | cons x em =>
      obtain ⟨c, v⟩ := x
      have hk : k < (exp r).length := by
        have := congrArg List.length h5
        simp at this; omega
      have hget : (exp r)[k]? = some (c, v) := by
        have := congrArg (fun l => l[0]?) h5
        simpa using this.symm
      have hem : em = (exp r).drop (k + 1) := by
        have := congrArg List.tail h5
        simpa using this
      have hcol : (colL exp A.rows)[psum (lens exp) r + k]? = some c :=
        colL_get (rows := A.rows) (b := r) (e := r + 1) (by omega) (by omega) (by rw [exp_eq_seg]; exact hget)
      have hpos : psum (lens exp) r + k < g.colids.length := by
        rw [hB.cl, ← colL_length exp A.rows]; exact lt_of_getElem? hcol
      simp only [h6, use_some, ok_bind, wr_of_lt hpos]
      have hkeep := Keeps.setCl hB hcol
      refine ⟨_, _, rfl, hkeep, hA, ⟨h1.keeps hkeep, h2, h3, k, c, hget, hem, rfl, ?_, h8.keeps hkeep⟩, Or.inr ?_⟩
      · intro p p1 p2
        by_cases hp : p = psum (lens exp) r + k
        · subst hp; exact At.set_self hcol hpos
        · exact hkeep.col _ (h7 p p1 (by omega))
      · simp only [ticks4, List.length_cons]; omega
  | flushV r v em cur =>
    obtain ⟨h1, h2, h3, k, c, h4, h5, h6, h7, h8⟩ := hJ
    have hlr : lens exp r = (exp r).length := rfl
    have hk := lt_of_getElem? h4
    have hval : (valL exp A.rows)[psum (lens exp) r + k]? = some v :=
      valL_get (rows := A.rows) (b := r) (e := r + 1) (by omega) (by omega) (by rw [exp_eq_seg]; exact h4)
    have hpos : psum (lens exp) r + k < g.values.length := by
      rw [hB.vl, ← valL_length exp A.rows]; exact lt_of_getElem? hval
    simp only [h6, use_some, ok_bind, wr_of_lt hpos]
    have hkeep := Keeps.setVl hB hval
    refine ⟨_, _, rfl, hkeep, hA, ⟨h1.keeps hkeep, h2, h3, k + 1, by omega, h5, rfl, h7.keeps hkeep, ?_⟩, Or.inr ?_⟩
    · intro p p1 p2
      by_cases hp : p = psum (lens exp) r + k
      · subst hp; exact At.set_self hval hpos
      · exact hkeep.val _ (h8 p p1 (by omega))
    · simp only [ticks4]; omega
  | done => simp [L4.fin] at hfin

end Phase4

/-! ## The drivers -/

section Main
variable {alg : RowAlg V} {mul add : V → V → V} {A B M : CSR V} {exp : Nat → List (Nat × V)}

/-- Some thread gets fewer than `K` steps in some part of the schedule. -/
def Starved (n K : Nat) (sch : Scheds) : Prop :=
  ∃ t < n, sch.scan1.count t < K ∨ sch.scan2.count t < K ∨ sch.first.count t < K ∨ sch.second.count t < K

theorem prepare_ok (hA : A.WF) (hB : B.WF) (hM : M.WF) (sh : Spec.Shapes A B M) (compl : Bool) {n : Nat}
    (hn : 0 < n) (hrows : 0 < A.rows) (sch : Scheds) (ho : sch.flops.Perm (List.range A.rows)) :
    (prepare compl A B M n sch = .ok none ∧ Starved n (A.rows + 3) sch) ∨
    prepare compl A B M n sch = .ok (some (tab A.rows (fun i => some (flopsOf compl A B M i)),
      psum (flopsOf compl A B M) A.rows, tab A.rows (fun i => some (psum (flopsOf compl A B M) i)))) := by
  unfold prepare
  rw [verifyInputs_ok sh, calculateFlops_eq hA hB hM sh compl ho]
  simp only [ok_bind]
  rcases Scan.exclusiveScan_spec (f := flopsOf compl A B M) (dst := List.replicate A.rows none)
    (src := tab A.rows (fun i => some (flopsOf compl A B M i))) hn hrows
    (fun i hi => has_tab hi) (by simp) sch.scan1 sch.scan2 with ⟨h, t, ht, hc⟩ | h
  · left
    rw [h]
    refine ⟨rfl, t, ht, ?_⟩
    rcases hc with hc | hc
    · left; omega
    · right; left; omega
  · right
    rw [h]; rfl

theorem list_getD_map_range {α : Type} {n t : Nat} (f : Nat → α) (d : α) (ht : t < n) :
    ((List.range n).map f).getD t d = f t := by
  simp [ht]

/-- A uniform bound for the numbers of steps. -/
def stepBound (exp : Nat → List (Nat × V)) (rows : Nat) : Nat :=
  2 * psum (lens exp) rows + 5 * rows + 30

/-- State of a thread at the beginning of the one-phase region. -/
def l1init (alg : RowAlg V) (B : CSR V) (b : Nat → Nat) (sz : Nat → Sizes) (t : Nat) : L1 alg.N V :=
  { row := b t, acc := alg.initN B.cols (sz t), out := [], cap := (sz t).sizeC, stop := b (t + 1) }

theorem spgemm1p_spec (hA : A.WF) (hB : B.WF) (hM : M.WF) (sh : Spec.Shapes A B M)
    (hc : Contract1 alg mul add A B M exp) (hrows : 0 < A.rows) (zb : Bool) {nt dflt : Nat}
    (hn : 0 < setNumThreads nt dflt) (sch : Scheds) (ho : sch.flops.Perm (List.range A.rows)) :
    (spgemm1p alg mul add A B M zb nt dflt sch = .ok none ∧
      Starved (setNumThreads nt dflt) (stepBound exp A.rows) sch) ∨
    spgemm1p alg mul add A B M zb nt dflt sch = .ok (some (ofRows A.rows B.cols zb exp)) := by
  unfold spgemm1p
  generalize hnn : setNumThreads nt dflt = n at hn
  simp only
  rcases prepare_ok hA hB hM sh alg.compl hn hrows sch ho with ⟨h, t, ht, hcn⟩ | h
  · left
    rw [h]
    refine ⟨rfl, t, ht, ?_⟩
    unfold stepBound
    rcases hcn with h | h | h | h
    · left; omega
    · right; left; omega
    · right; right; left; omega
    · right; right; right; omega
  rw [h]
  simp only [ok_bind]
  generalize hP : psum (flopsOf alg.compl A B M) = P
  generalize hb : bnd P (P A.rows) A.rows n = b
  have hs : Split b A.rows n := hb ▸ split_bnd P (P A.rows) A.rows hn
  have hf : ∀ i < A.rows, Has (tab A.rows fun i => some (flopsOf alg.compl A B M i)) (flopsOf alg.compl A B M) i :=
    fun i hi => has_tab hi
  have hcum : ∀ i < A.rows, Has (tab A.rows fun i => some (P i)) P i := fun i hi => has_tab hi
  have hPm : ∀ i j, i ≤ j → j < A.rows → P i ≤ P j := fun i j h _ => by rw [← hP]; exact psum_mono h
  have hdw : ∀ t < n, distributeWork (P A.rows) (tab A.rows fun i => some (P i)) A.rows n t =
      .ok (b t, b (t + 1)) := fun t ht => by rw [distributeWork_eq _ ht hcum hPm, hb]
  -- sizes found by scanInputs
  have hsz : ∀ t, ∃ sz, t < n → scanInputs alg.compl true alg.calcA alg.calcM alg.calcF (b t) (b (t + 1))
      (tab A.rows fun i => some (flopsOf alg.compl A B M i)) A M = .ok sz ∧
      sz.sizeC = psum (boundOf alg.compl A B M) (b (t + 1)) - psum (boundOf alg.compl A B M) (b t) ∧
      ∀ i, b t ≤ i → i < b (t + 1) → Covers alg.compl alg.calcA alg.calcM alg.calcF A B M sz i := by
    intro t
    by_cases ht : t < n
    · obtain ⟨sz, h1, h2, h3⟩ := scanInputs_ok hA hM sh.ma alg.compl true alg.calcA alg.calcM alg.calcF
        (hs.mono t ht) (hs.le (t + 1)) hf
      exact ⟨sz, fun _ => ⟨h1, h2 rfl, h3⟩⟩
    · exact ⟨{}, fun h => absurd h ht⟩
  obtain ⟨sz, hsz⟩ := Classical.axiomOfChoice hsz
  have hls : setup n (init1 alg A B M n (tab A.rows fun i => some (flopsOf alg.compl A B M i)) (P A.rows)
      (tab A.rows fun i => some (P i))) = .ok ((List.range n).map fun t =>
        l1init alg B b sz t) := by
    apply mapM_ok
    intro t ht
    have ht' : t < n := by simpa using ht
    unfold init1
    rw [hdw t ht']
    simp only [ok_bind]
    rw [(hsz t ht').1]; rfl
  have hrg : setup n (distributeWork (P A.rows) (tab A.rows fun i => some (P i)) A.rows n) =
      .ok ((List.range n).map fun t => (b t, b (t + 1))) := by
    apply mapM_ok
    intro t ht
    exact hdw t (by simpa using ht)
  rw [hls, hrg]
  simp only [ok_bind]
  obtain ⟨m, rfl⟩ : ∃ m, n = m + 1 := ⟨n - 1, by omega⟩
  generalize hl0 : (List.range (m + 1)).map (fun t => l1init alg B b sz t) = ls0
  cases ls0 with
  | nil => simp [List.range_succ] at hl0
  | cons l0 ls1 =>
  simp only
  have hget : ∀ t < m + 1, (l0 :: ls1).getD t l0 = l1init alg B b sz t := by
    intro t ht
    rw [← hl0, list_getD_map_range _ _ ht]
  obtain ⟨Inv, hInv⟩ := Classical.axiomOfChoice (fun t => hc.num (sz t))
  rcases phase_inv (I1 alg A B M exp b (m + 1) Inv) (fun t x => b (t + 1) + 1 - x.row)
    (step1_ok hc hs hf (fun t ht i h1 h2 hz acc hacc =>
      (hInv t).2 i (Nat.lt_of_lt_of_le h2 (hs.le _)) ((hsz t ht).2.2 i h1 h2) hz _ (Or.inl rfl) acc hacc))
    sch.first { rowNvals := List.replicate A.rows none, threadsNvals := List.replicate (m + 1) none }
    (fun t => (l0 :: ls1).getD t l0)
    (by
      intro t ht
      rw [hget t ht]
      exact { rnLen := by simp, tnLen := by simp, stop := rfl, cap := (hsz t ht).2.1,
              lo := Nat.le_refl _, hi := hs.mono t ht, inv := (hInv t).1, out := (seg_self _ _).symm,
              has := fun i h1 h2 => by simp only [l1init] at h2; omega, fin := fun h => by simp [l1init] at h })
    with ⟨h1, t, ht, h2⟩ | ⟨g1, ls', h1, h2⟩
  · left
    rw [h1]
    refine ⟨rfl, t, ht, ?_⟩
    rw [hget t ht] at h2
    have := hs.le (t + 1)
    right; right; left
    unfold stepBound
    simp only [l1init] at h2
    omega
  rw [h1]
  simp only [ok_bind]
  obtain ⟨g2, e1, e2⟩ := initC_ok (exp := exp) (g := g1) hs
    (by
      intro i hi
      obtain ⟨t, ht, h3, h4⟩ := hs.row_cover hi
      obtain ⟨hf1, hI⟩ := h2 t ht
      exact hI.has i h3 (by rw [(hI.fin hf1).1]; exact h4))
    (by
      intro t ht
      obtain ⟨hf1, hI⟩ := h2 t ht
      exact (hI.fin hf1).2)
  rw [e1]
  simp only [ok_bind]
  rcases phase_inv (I3 exp b A.rows (m + 1)) (ticks3 exp b)
    (step3_ok hs (rng := fun t => ((List.range (m + 1)).map fun t => (b t, b (t + 1))).getD t (0, 0))
      (outs := fun t => (ls' t).out)
      (by intro t ht; exact list_getD_map_range _ _ ht)
      (by
        intro t ht
        obtain ⟨hf1, hI⟩ := h2 t ht
        show (ls' t).out = _
        rw [hI.out, (hI.fin hf1).1]))
    sch.second g2 (fun _ => .start) (fun t ht => ⟨e2, trivial⟩) with ⟨h3, t, ht, h4⟩ | ⟨g3, ls3, h3, h4⟩
  · left
    rw [h3]
    refine ⟨rfl, t, ht, ?_⟩
    right; right; right
    have k1 := hs.le (t + 1)
    have k2 : tnv exp b t ≤ psum (lens exp) A.rows := by
      have := psum_mono (f := lens exp) k1
      unfold tnv; omega
    unfold stepBound
    simp only [ticks3] at h4
    omega
  right
  rw [h3]
  simp only [ok_bind]
  have hdone : ∀ t < m + 1, J3 exp b A.rows (m + 1) t g3 .done := by
    intro t ht
    obtain ⟨hf1, hI⟩ := h4 t ht
    have : ls3 t = .done := by simpa using hf1
    rw [← this]; exact hI.2
  rw [freeze_ok hs hn B.cols zb (h4 0 (by omega)).2.1 (fun t ht => (hdone t ht).1)
    (fun t ht => (hdone t ht).2.1) (fun t ht => (hdone t ht).2.2)]
  rfl

theorem spgemm2p_spec (hA : A.WF) (hB : B.WF) (hM : M.WF) (sh : Spec.Shapes A B M)
    (hc : Contract alg mul add A B M exp) (hrows : 0 < A.rows) (zb : Bool) {nt dflt : Nat}
    (hn : 0 < setNumThreads nt dflt) (sch : Scheds) (ho : sch.flops.Perm (List.range A.rows)) :
    (spgemm2p alg mul add A B M zb nt dflt sch = .ok none ∧
      Starved (setNumThreads nt dflt) (stepBound exp A.rows) sch) ∨
    spgemm2p alg mul add A B M zb nt dflt sch = .ok (some (ofRows A.rows B.cols zb exp)) := by
  unfold spgemm2p
  generalize hnn : setNumThreads nt dflt = n at hn
  simp only
  rcases prepare_ok hA hB hM sh alg.compl hn hrows sch ho with ⟨h, t, ht, hcn⟩ | h
  · left
    rw [h]
    refine ⟨rfl, t, ht, ?_⟩
    unfold stepBound
    rcases hcn with h | h | h | h
    · left; omega
    · right; left; omega
    · right; right; left; omega
    · right; right; right; omega
  rw [h]
  simp only [ok_bind]
  generalize hP : psum (flopsOf alg.compl A B M) = P
  generalize hb : bnd P (P A.rows) A.rows n = b
  have hs : Split b A.rows n := hb ▸ split_bnd P (P A.rows) A.rows hn
  have hf : ∀ i < A.rows, Has (tab A.rows fun i => some (flopsOf alg.compl A B M i)) (flopsOf alg.compl A B M) i :=
    fun i hi => has_tab hi
  have hcum : ∀ i < A.rows, Has (tab A.rows fun i => some (P i)) P i := fun i hi => has_tab hi
  have hPm : ∀ i j, i ≤ j → j < A.rows → P i ≤ P j := fun i j h _ => by rw [← hP]; exact psum_mono h
  have hdw : ∀ t < n, distributeWork (P A.rows) (tab A.rows fun i => some (P i)) A.rows n t =
      .ok (b t, b (t + 1)) := fun t ht => by rw [distributeWork_eq _ ht hcum hPm, hb]
  have hsz : ∀ t, ∃ sz, t < n → scanInputs alg.compl false alg.calcA alg.calcM alg.calcF (b t) (b (t + 1))
      (tab A.rows fun i => some (flopsOf alg.compl A B M i)) A M = .ok sz ∧
      ∀ i, b t ≤ i → i < b (t + 1) → Covers alg.compl alg.calcA alg.calcM alg.calcF A B M sz i := by
    intro t
    by_cases ht : t < n
    · obtain ⟨sz, h1, h2, h3⟩ := scanInputs_ok hA hM sh.ma alg.compl false alg.calcA alg.calcM alg.calcF
        (hs.mono t ht) (hs.le (t + 1)) hf
      exact ⟨sz, fun _ => ⟨h1, h3⟩⟩
    · exact ⟨{}, fun h => absurd h ht⟩
  obtain ⟨sz, hsz⟩ := Classical.axiomOfChoice hsz
  have hls : setup n (init2 alg A B M n (tab A.rows fun i => some (flopsOf alg.compl A B M i)) (P A.rows)
      (tab A.rows fun i => some (P i))) = .ok ((List.range n).map fun t =>
        ({ row := b t, acc := alg.initS B.cols (sz t), nvals := 0, stop := b (t + 1) },
          alg.initN B.cols (sz t))) := by
    apply mapM_ok
    intro t ht
    have ht' : t < n := by simpa using ht
    unfold init2
    rw [hdw t ht']
    simp only [ok_bind]
    rw [(hsz t ht').1]; rfl
  have hrg : setup n (distributeWork (P A.rows) (tab A.rows fun i => some (P i)) A.rows n) =
      .ok ((List.range n).map fun t => (b t, b (t + 1))) := by
    apply mapM_ok
    intro t ht
    exact hdw t (by simpa using ht)
  rw [hls, hrg]
  simp only [ok_bind]
  obtain ⟨m, rfl⟩ : ∃ m, n = m + 1 := ⟨n - 1, by omega⟩
  generalize hl0 : (List.range (m + 1)).map (fun t =>
        (({ row := b t, acc := alg.initS B.cols (sz t), nvals := 0, stop := b (t + 1) } : L2 alg.S),
          alg.initN B.cols (sz t))) = ls0
  cases ls0 with
  | nil => simp [List.range_succ] at hl0
  | cons l0 ls1 =>
  simp only
  have hget : ∀ t < m + 1, (l0 :: ls1).getD t l0 =
      ({ row := b t, acc := alg.initS B.cols (sz t), nvals := 0, stop := b (t + 1) }, alg.initN B.cols (sz t)) := by
    intro t ht
    rw [← hl0, list_getD_map_range _ _ ht]
  obtain ⟨InvN, hInvN⟩ := Classical.axiomOfChoice (fun t => hc.num (sz t))
  obtain ⟨InvS, hInvS⟩ := Classical.axiomOfChoice (fun t => hc.sym (sz t))
  rcases phase_inv (I2 alg A exp b (m + 1) InvS) (fun t x => b (t + 1) + 1 - x.row)
    (step2_ok hc hs hf (fun t ht i h1 h2 hz acc hacc =>
      (hInvS t).2 i (Nat.lt_of_lt_of_le h2 (hs.le _)) ((hsz t ht).2 i h1 h2) hz acc hacc))
    sch.first { rowNvals := List.replicate A.rows none, threadsNvals := List.replicate (m + 1) none }
    (fun t => ((l0 :: ls1).getD t l0).1)
    (by
      intro t ht
      rw [hget t ht]
      exact { rnLen := by simp, tnLen := by simp, stop := rfl,
              lo := Nat.le_refl _, hi := hs.mono t ht, inv := (hInvS t).1, out := by simp,
              has := fun i h1 h2 => by simp only at h2; omega, fin := fun h => by simp at h })
    with ⟨h1, t, ht, h2⟩ | ⟨g1, ls', h1, h2⟩
  · left
    rw [h1]
    refine ⟨rfl, t, ht, ?_⟩
    rw [hget t ht] at h2
    have := hs.le (t + 1)
    right; right; left
    unfold stepBound
    simp only at h2
    omega
  rw [h1]
  simp only [ok_bind]
  obtain ⟨g2, e1, e2⟩ := initC_ok (exp := exp) (g := g1) hs
    (by
      intro i hi
      obtain ⟨t, ht, h3, h4⟩ := hs.row_cover hi
      obtain ⟨hf1, hI⟩ := h2 t ht
      exact hI.has i h3 (by rw [(hI.fin hf1).1]; exact h4))
    (by
      intro t ht
      obtain ⟨hf1, hI⟩ := h2 t ht
      exact (hI.fin hf1).2)
  rw [e1]
  simp only [ok_bind]
  rcases phase_inv (I4 alg exp b A.rows (m + 1) InvN) (fun t x => ticks4 exp b t x.ctl)
    (step4_ok hc hs (rng := fun t => ((List.range (m + 1)).map fun t => (b t, b (t + 1))).getD t (0, 0))
      (by intro t ht; exact list_getD_map_range _ _ ht)
      (fun t ht i h1 h2 hz hl acc hacc =>
      (hInvN t).2 i (Nat.lt_of_lt_of_le h2 (hs.le _)) ((hsz t ht).2 i h1 h2) hz _ (Or.inr ⟨rfl, hl⟩) acc hacc))
    sch.second g2 (fun t => { ctl := .start, acc := ((l0 :: ls1).getD t l0).2 })
    (fun t ht => ⟨e2, by rw [hget t ht]; exact (hInvN t).1, trivial⟩) with ⟨h3, t, ht, h4⟩ | ⟨g3, ls3, h3, h4⟩
  · left
    rw [h3]
    refine ⟨rfl, t, ht, ?_⟩
    right; right; right
    have k1 := hs.le (t + 1)
    have k2 := psum_mono (f := lens exp) k1
    unfold stepBound
    simp only [ticks4, work4] at h4
    omega
  right
  rw [h3]
  simp only [ok_bind]
  have hdone : ∀ t < m + 1, J4 exp b A.rows (m + 1) t g3 .done := by
    intro t ht
    obtain ⟨hf1, hI⟩ := h4 t ht
    have : (ls3 t).ctl = .done := by
      unfold L4.fin at hf1
      split at hf1
      · assumption
      · simp at hf1
    rw [← this]; exact hI.2.2
  rw [freeze_ok hs hn B.cols zb (h4 0 (by omega)).2.1 (fun t ht => (hdone t ht).1)
    (fun t ht => (hdone t ht).2.1) (fun t ht => (hdone t ht).2.2)]
  rfl

end Main

end Verif.Model
