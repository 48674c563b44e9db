import Verif.Lemmas.Inner
import Verif.Lemmas.Driver
import Verif.Lemmas.Run

/-! # The inner-product drivers compute the matrix of the expected rows -/

namespace Verif.Model

open Scan (rdu exclusiveScan)

variable {V : Type}

theorem Split.mono' {b : Nat → Nat} {rows n : Nat} (h : Split b rows n) {s t : Nat} (hst : s ≤ t) (ht : t ≤ n) :
    b s ≤ b t := by
  induction t with
  | zero => have : s = 0 := by omega
            subst this; exact Nat.le_refl _
  | succ t ih =>
    rcases Nat.lt_or_ge s (t + 1) with h1 | h1
    · have := ih (by omega) (by omega)
      have := h.mono t (by omega)
      omega
    · have : s = t + 1 := by omega
      subst this; exact Nat.le_refl _

theorem seg_getElem_row {exp : Nat → List (Nat × V)} {b e r k : Nat} {x : Nat × V} (h1 : b ≤ r) (h2 : r < e)
    (hx : (exp r)[k]? = some x) :
    (seg exp b e)[psum (lens exp) r - psum (lens exp) b + k]? = some x := by
  have hk := lt_of_getElem? hx
  rw [← seg_append exp h1 (Nat.le_of_lt h2), ← seg_append exp (show r ≤ r + 1 by omega) (show r + 1 ≤ e from h2),
    exp_eq_seg, ← seg_length exp h1, List.getElem?_append_right (by omega), Nat.add_sub_cancel_left,
    List.getElem?_append_left hk, hx]

theorem mapM_range_eq {α : Type} {l : List α} {f : Nat → Res α} (h : ∀ k x, l[k]? = some x → f k = .ok x) :
    (List.range l.length).mapM f = .ok l := by
  cases l with
  | nil => rfl
  | cons d l =>
    rw [mapM_ok (g := fun k => (d :: l).getD k d)]
    · congr 1
      apply List.ext_getElem?
      intro i
      by_cases hi : i < (d :: l).length
      · rw [List.getElem?_map, List.getElem?_range hi]
        simp [List.getElem?_eq_getElem hi]
      · rw [List.getElem?_eq_none (by simp at hi ⊢; omega), List.getElem?_eq_none (by simp at hi ⊢; omega)]
    · intro k hk
      have hk' : k < (d :: l).length := by simpa using hk
      apply h
      simp [List.getElem?_eq_getElem hk']

theorem Base.setRn {exp : Nat → List (Nat × V)} {b : Nat → Nat} {rows n : Nat} {g : Sh V} (h : Base exp b rows n g)
    (i : Nat) : Base exp b rows n { g with rowNvals := g.rowNvals.set i (some (lens exp i)) } :=
  { h with rn := fun k hk => (h.rn k hk).set _ }

theorem Keeps.setRn {exp : Nat → List (Nat × V)} {b : Nat → Nat} {rows n : Nat} {g : Sh V} (h : Base exp b rows n g)
    (i : Nat) : Keeps exp b rows n g { g with rowNvals := g.rowNvals.set i (some (lens exp i)) } :=
  ⟨h.setRn _, fun _ h => h, fun _ h => h, fun _ h => h⟩

namespace Inner

open Spec (contribsC dotC ValidC)

/-- What the one-phase driver uses about the rows. -/
structure Rows1 (mul add : V → V → V) (A : CSR V) (B : CSC V) (M : CSR V) (exp : Nat → List (Nat × V)) : Prop where
  num : ∀ i < A.rows, numericRow mul add A B M i = .ok (exp i)
  len : ∀ i < A.rows, lens exp i ≤ M.ptr (i + 1) - M.ptr i

/-- What the two-phase driver uses about the rows when it finds the work `w`. -/
structure Rows (mul add : V → V → V) (A : CSR V) (B : CSC V) (M : CSR V) (w : Nat → Nat)
    (exp : Nat → List (Nat × V)) : Prop where
  num : ∀ i < A.rows, w i ≠ 0 → numericRow mul add A B M i = .ok (exp i)
  sym : ∀ i < A.rows, w i ≠ 0 → symbolicRow A B M i = .ok (lens exp i)
  nil : ∀ i, w i = 0 → lens exp i = 0

theorem rows1_ok (mul add : V → V → V) {A : CSR V} {B : CSC V} {M : CSR V} (h : ValidC A B M) :
    Rows1 mul add A B M (innerRow mul add A B M) where
  num := fun _ hi => numericRow_eq mul add h hi
  len := fun _ hi => innerRow_length_le mul add h hi

theorem rows_ok (mul add : V → V → V) {A : CSR V} {B : CSC V} {M : CSR V} (h : ValidC A B M) :
    Rows mul add A B M (workOf A B M) (innerRow mul add A B M) where
  num := fun _ hi _ => numericRow_eq mul add h hi
  sym := fun _ hi _ => symbolicRow_eq mul add h hi
  nil := fun i hi => by unfold lens; rw [innerRow_nil mul add hi]; rfl

/-! ## First part of the one-phase driver -/

section Phase1
variable {mul add : V → V → V} {A : CSR V} {B : CSC V} {M : CSR V} {exp : Nat → List (Nat × V)}
  {wpr : List (Option Nat)} {w : Nat → Nat} {b : Nat → Nat} {n : Nat}

/-- The first `k` cells of thread `t` are written. -/
def TC (M : CSR V) (exp : Nat → List (Nat × V)) (b : Nat → Nat) (t k : Nat) (g : Sh1 V) : Prop :=
  ∀ j < k, ∃ x, (seg exp (b t) (b (t + 1)))[j]? = some x ∧ g.tmpC[M.ptr (b t) + j]? = some (some x.1)

def TV (M : CSR V) (exp : Nat → List (Nat × V)) (b : Nat → Nat) (t k : Nat) (g : Sh1 V) : Prop :=
  ∀ j < k, ∃ x, (seg exp (b t) (b (t + 1)))[j]? = some x ∧ g.tmpV[M.ptr (b t) + j]? = some (some x.2)

/-- Position of row `r` in the buffers of thread `t`. -/
def off (exp : Nat → List (Nat × V)) (b : Nat → Nat) (t r : Nat) : Nat := psum (lens exp) r - psum (lens exp) (b t)

/-- Assertion of a thread, control part. -/
def J1 (M : CSR V) (exp : Nat → List (Nat × V)) (b : Nat → Nat) (t : Nat) (g : Sh1 V) (l : L1 V) : Prop :=
  match l.ctl with
  | .row => l.cur = M.ptr (b t) + off exp b t l.row ∧ TC M exp b t (off exp b t l.row) g ∧
      TV M exp b t (off exp b t l.row) g
  | .num => l.row < b (t + 1) ∧ l.cur = M.ptr (b t) + off exp b t l.row ∧ TC M exp b t (off exp b t l.row) g ∧
      TV M exp b t (off exp b t l.row) g
  | .flushC em => l.row < b (t + 1) ∧ l.beg = M.ptr (b t) + off exp b t l.row ∧ ∃ k, k ≤ lens exp l.row ∧
      em = (exp l.row).drop k ∧ l.cur = M.ptr (b t) + (off exp b t l.row + k) ∧
      TC M exp b t (off exp b t l.row + k) g ∧ TV M exp b t (off exp b t l.row + k) g
  | .flushV v em => l.row < b (t + 1) ∧ l.beg = M.ptr (b t) + off exp b t l.row ∧ ∃ k c,
      (exp l.row)[k]? = some (c, v) ∧ em = (exp l.row).drop (k + 1) ∧
      l.cur = M.ptr (b t) + (off exp b t l.row + k) ∧
      TC M exp b t (off exp b t l.row + (k + 1)) g ∧ TV M exp b t (off exp b t l.row + k) g
  | .done => l.row = b (t + 1) ∧ Has g.threadsNvals (tnv exp b) t ∧ TC M exp b t (tnv exp b t) g ∧
      TV M exp b t (tnv exp b t) g

/-- Assertion of thread `t`. -/
structure I1 (M : CSR V) (exp : Nat → List (Nat × V)) (b : Nat → Nat) (n : Nat) (t : Nat) (g : Sh1 V) (l : L1 V) :
    Prop where
  rnLen : g.rowNvals.length = M.rows
  tnLen : g.threadsNvals.length = n
  tcLen : g.tmpC.length = M.nnz
  tvLen : g.tmpV.length = M.nnz
  stop : l.stop = b (t + 1)
  base : l.base = M.ptr (b t)
  lo : b t ≤ l.row
  hi : l.row ≤ b (t + 1)
  has : ∀ i, b t ≤ i → i < l.row → Has g.rowNvals (lens exp) i
  ctl : J1 M exp b t g l

/-- What a step of thread `t` may change. -/
structure Fr (M : CSR V) (exp : Nat → List (Nat × V)) (b : Nat → Nat) (t : Nat) (g g' : Sh1 V) : Prop where
  rnLen : g'.rowNvals.length = g.rowNvals.length
  tnLen : g'.threadsNvals.length = g.threadsNvals.length
  tcLen : g'.tmpC.length = g.tmpC.length
  tvLen : g'.tmpV.length = g.tmpV.length
  rn : ∀ i, i < b t ∨ b (t + 1) ≤ i → Has g.rowNvals (lens exp) i → Has g'.rowNvals (lens exp) i
  tn : ∀ i, Has g.threadsNvals (tnv exp b) i → Has g'.threadsNvals (tnv exp b) i
  tc : ∀ p, p < M.ptr (b t) ∨ M.ptr (b (t + 1)) ≤ p → g'.tmpC[p]? = g.tmpC[p]?
  tv : ∀ p, p < M.ptr (b t) ∨ M.ptr (b (t + 1)) ≤ p → g'.tmpV[p]? = g.tmpV[p]?

theorem Fr.refl (t : Nat) (g : Sh1 V) : Fr M exp b t g g :=
  ⟨rfl, rfl, rfl, rfl, fun _ _ h => h, fun _ h => h, fun _ _ => rfl, fun _ _ => rfl⟩

theorem Has.set_off {α : Type} {l : List (Option α)} {X : Nat → α} {i j : Nat} (h : Has l X i) (hij : j ≠ i)
    (x : Option α) : Has (l.set j x) X i := by
  unfold Has at *
  rw [List.getElem?_set_ne hij, h]

theorem Fr.setRn (t : Nat) (g : Sh1 V) {i : Nat} (x : Option Nat) (h1 : b t ≤ i) (h2 : i < b (t + 1)) :
    Fr M exp b t g { g with rowNvals := g.rowNvals.set i x } :=
  ⟨by simp, rfl, rfl, rfl, fun k hk h => Has.set_off h (by omega) _, fun _ h => h, fun _ _ => rfl, fun _ _ => rfl⟩

theorem Fr.setTn (t : Nat) (g : Sh1 V) (i : Nat) :
    Fr M exp b t g { g with threadsNvals := g.threadsNvals.set i (some (tnv exp b i)) } :=
  ⟨rfl, by simp, rfl, rfl, fun _ _ h => h, fun _ h => h.set _, fun _ _ => rfl, fun _ _ => rfl⟩

theorem Fr.setTc (t : Nat) (g : Sh1 V) {p : Nat} (x : Option Nat) (h1 : M.ptr (b t) ≤ p) (h2 : p < M.ptr (b (t + 1))) :
    Fr M exp b t g { g with tmpC := g.tmpC.set p x } :=
  ⟨rfl, rfl, by simp, rfl, fun _ _ h => h, fun _ h => h,
    fun q hq => by simp only; rw [List.getElem?_set_ne (by omega)], fun _ _ => rfl⟩

theorem Fr.setTv (t : Nat) (g : Sh1 V) {p : Nat} (x : Option V) (h1 : M.ptr (b t) ≤ p) (h2 : p < M.ptr (b (t + 1))) :
    Fr M exp b t g { g with tmpV := g.tmpV.set p x } :=
  ⟨rfl, rfl, rfl, by simp, fun _ _ h => h, fun _ h => h, fun _ _ => rfl,
    fun q hq => by simp only; rw [List.getElem?_set_ne (by omega)]⟩

section Lens
variable (hM : M.WF) (hs : Split b M.rows n) (hlen : ∀ i < M.rows, lens exp i ≤ M.ptr (i + 1) - M.ptr i)
include hM hs hlen

omit hs in
/-- The buffers of a thread are large enough. -/
theorem room {x y : Nat} (hxy : x ≤ y) (hy : y ≤ M.rows) :
    psum (lens exp) y - psum (lens exp) x ≤ M.ptr y - M.ptr x := by
  induction y with
  | zero => simp [psum]
  | succ y ih =>
    rcases Nat.lt_or_ge x (y + 1) with h | h
    · have h1 := ih (by omega) (by omega)
      have h2 := hlen y (by omega)
      have h3 := psum_mono (f := lens exp) (show x ≤ y by omega)
      have h4 := CSR.ptr_le_ptr hM (show x ≤ y by omega) (by omega)
      have h5 := hM.ptrMono y (by omega)
      simp only [psum]
      omega
    · have : x = y + 1 := by omega
      subst this; omega

theorem seg_room {t j : Nat} (ht : t < n) {x : Nat × V} (hx : (seg exp (b t) (b (t + 1)))[j]? = some x) :
    M.ptr (b t) + j < M.ptr (b (t + 1)) := by
  have h1 := lt_of_getElem? hx
  rw [seg_length exp (hs.mono t ht)] at h1
  have h2 := room hM hlen (hs.mono t ht) (hs.le (t + 1))
  omega

theorem apart {t u j : Nat} (ht : t < n) (hu : u < n) (hut : u ≠ t) {x : Nat × V}
    (hx : (seg exp (b u) (b (u + 1)))[j]? = some x) :
    M.ptr (b u) + j < M.ptr (b t) ∨ M.ptr (b (t + 1)) ≤ M.ptr (b u) + j := by
  have h1 := seg_room hM hs hlen hu hx
  rcases Nat.lt_or_ge u t with h | h
  · left
    have h2 := hs.mono' (show u + 1 ≤ t from h) (by omega)
    have h3 := CSR.ptr_le_ptr hM h2 (hs.le t)
    omega
  · right
    have h2 := hs.mono' (show t + 1 ≤ u by omega) (by omega)
    have h3 := CSR.ptr_le_ptr hM h2 (hs.le u)
    omega

theorem TC.fr {t u k : Nat} (ht : t < n) (hu : u < n) (hut : u ≠ t) {g g' : Sh1 V} (h : TC M exp b u k g)
    (f : Fr M exp b t g g') : TC M exp b u k g' := by
  intro j hj
  obtain ⟨x, h1, h2⟩ := h j hj
  exact ⟨x, h1, by rw [f.tc _ (apart hM hs hlen ht hu hut h1), h2]⟩

theorem TV.fr {t u k : Nat} (ht : t < n) (hu : u < n) (hut : u ≠ t) {g g' : Sh1 V} (h : TV M exp b u k g)
    (f : Fr M exp b t g g') : TV M exp b u k g' := by
  intro j hj
  obtain ⟨x, h1, h2⟩ := h j hj
  exact ⟨x, h1, by rw [f.tv _ (apart hM hs hlen ht hu hut h1), h2]⟩

theorem I1.fr {t u : Nat} (ht : t < n) (hu : u < n) (hut : u ≠ t) {g g' : Sh1 V} {l : L1 V}
    (h : I1 M exp b n u g l) (f : Fr M exp b t g g') : I1 M exp b n u g' l := by
  refine { rnLen := by rw [f.rnLen, h.rnLen], tnLen := by rw [f.tnLen, h.tnLen], tcLen := by rw [f.tcLen, h.tcLen],
           tvLen := by rw [f.tvLen, h.tvLen], stop := h.stop, base := h.base, lo := h.lo, hi := h.hi,
           has := fun i h1 h2 => f.rn _ (by
             have h3 := h.hi
             rcases Nat.lt_or_ge u t with h4 | h4
             · have := hs.mono' (show u + 1 ≤ t from h4) (by omega); omega
             · have := hs.mono' (show t + 1 ≤ u by omega) (by omega); omega) (h.has i h1 h2), ctl := ?_ }
  have hJ := h.ctl
  unfold J1 at *
  have kc : ∀ k, TC M exp b u k g → TC M exp b u k g' := fun k hk => TC.fr hM hs hlen ht hu hut hk f
  have kv : ∀ k, TV M exp b u k g → TV M exp b u k g' := fun k hk => TV.fr hM hs hlen ht hu hut hk f
  cases hc : l.ctl with
  | row => rw [hc] at hJ; exact ⟨hJ.1, kc _ hJ.2.1, kv _ hJ.2.2⟩
  | num => rw [hc] at hJ; exact ⟨hJ.1, hJ.2.1, kc _ hJ.2.2.1, kv _ hJ.2.2.2⟩
  | flushC em =>
    rw [hc] at hJ
    obtain ⟨a1, a2, k, a3, a4, a5, a6, a7⟩ := hJ
    exact ⟨a1, a2, k, a3, a4, a5, kc _ a6, kv _ a7⟩
  | flushV v em =>
    rw [hc] at hJ
    obtain ⟨a1, a2, k, c, a3, a4, a5, a6, a7⟩ := hJ
    exact ⟨a1, a2, k, c, a3, a4, a5, kc _ a6, kv _ a7⟩
  | done => rw [hc] at hJ; exact ⟨hJ.1, f.tn _ hJ.2.1, kc _ hJ.2.2.1, kv _ hJ.2.2.2⟩

end Lens

/-- Steps that remain. -/
def ticks1 (exp : Nat → List (Nat × V)) (b : Nat → Nat) (t : Nat) (l : L1 V) : Nat :=
  match l.ctl with
  | .row => work4 exp b t l.row + 1
  | .num => work4 exp b t l.row
  | .flushC em => work4 exp b t (l.row + 1) + 2 * em.length + 2
  | .flushV _ em => work4 exp b t (l.row + 1) + 2 * em.length + 3
  | .done => 0

theorem work4_succ {t r : Nat} (h : r < b (t + 1)) :
    work4 exp b t (r + 1) + 2 * lens exp r + 4 = work4 exp b t r := by
  have := psum_mono (f := lens exp) (show r + 1 ≤ b (t + 1) from h)
  simp only [work4, psum] at *; omega

theorem step1_ok (hM : M.WF) (hMA : M.rows = A.rows) (hR : Rows1 mul add A B M exp) (hs : Split b M.rows n)
    (hf : ∀ i < M.rows, Has wpr w i) :
    ∀ t g x, t < n → I1 M exp b n t g x → x.fin = false →
      ∃ g' x', step1 mul add A B M wpr t g x = .ok (g', x') ∧ I1 M exp b n t g' x' ∧
      (x'.fin = true ∨ ticks1 exp b t x' < ticks1 exp b t x) ∧
      ∀ u y, u < n → u ≠ t → I1 M exp b n u g y → I1 M exp b n u g' y := by
  intro t g x ht hI hfin
  have hlen : ∀ i < M.rows, lens exp i ≤ M.ptr (i + 1) - M.ptr i := fun i hi => hR.len i (hMA ▸ hi)
  suffices H : ∃ g' x', step1 mul add A B M wpr t g x = .ok (g', x') ∧ Fr M exp b t g g' ∧ I1 M exp b n t g' x' ∧
      (x'.fin = true ∨ ticks1 exp b t x' < ticks1 exp b t x) by
    obtain ⟨g', x', e1, e2, e3, e4⟩ := H
    exact ⟨g', x', e1, e3, e4, fun u y hu hut h => I1.fr hM hs hlen ht hu hut h e2⟩
  have hlr : lens exp x.row = (exp x.row).length := rfl
  have hpm := psum_mono (f := lens exp) hI.lo
  have hJ := hI.ctl
  unfold J1 at hJ
  obtain ⟨row, stop, base, cur, beg, ctl⟩ := x
  simp only at hlr hpm
  cases ctl with
  | row =>
    simp only at hJ
    obtain ⟨j1, j2, j3⟩ := hJ
    unfold step1
    simp only
    have hst : stop = b (t + 1) := hI.stop
    have hlo : b t ≤ row := hI.lo
    have hhi : row ≤ b (t + 1) := hI.hi
    by_cases hrow : row < stop
    · rw [if_pos hrow]
      have hrM : row < M.rows := Nat.lt_of_lt_of_le (hst ▸ hrow) (hs.le _)
      rw [(hf _ hrM).rdu]
      simp only [ok_bind]
      by_cases hz : w row = 0
      · rw [if_pos hz, wr_of_lt (by rw [hI.rnLen]; exact hrM)]
        have hfr := Fr.setRn (M := M) (exp := exp) (b := b) t g (some 0) hlo (hst ▸ hrow)
        refine ⟨_, _, rfl, hfr, ?_, Or.inr ?_⟩
        · exact { hI with rnLen := by simpa using hI.rnLen,
                          has := fun i h1 h2 => Has.set_off (hI.has i h1 h2) (by simp only at h2; omega) _,
                          ctl := ⟨hst ▸ hrow, j1, j2, j3⟩ }
        · simp only [ticks1]; omega
      · rw [if_neg hz]
        refine ⟨_, _, rfl, Fr.refl t g, ?_, Or.inr ?_⟩
        · exact { hI with ctl := ⟨hst ▸ hrow, j1, j2, j3⟩ }
        · simp only [ticks1]; omega
    · rw [if_neg hrow]
      have hre : row = b (t + 1) := by omega
      have hb : base = M.ptr (b t) := hI.base
      have hcnt : cur - base = tnv exp b t := by rw [j1, hb, Nat.add_sub_cancel_left, hre]; rfl
      rw [hcnt, wr_of_lt (by rw [hI.tnLen]; exact ht)]
      have ho : off exp b t row = tnv exp b t := by rw [hre]; rfl
      rw [ho] at j2 j3
      refine ⟨_, _, rfl, Fr.setTn t g t, ?_, Or.inl rfl⟩
      exact { hI with tnLen := by simpa using hI.tnLen,
                      ctl := ⟨hre, Has.set_self (by rw [hI.tnLen]; exact ht), j2, j3⟩ }
  | num =>
    simp only at hJ
    obtain ⟨j0, j1, j2, j3⟩ := hJ
    unfold step1
    simp only
    have hrA : row < A.rows := hMA ▸ Nat.lt_of_lt_of_le j0 (hs.le _)
    rw [hR.num row hrA]
    simp only [ok_bind]
    refine ⟨_, _, rfl, Fr.refl t g, ?_, Or.inr ?_⟩
    · exact { hI with ctl := ⟨j0, j1, 0, Nat.zero_le _, rfl, j1, j2, j3⟩ }
    · have := work4_succ (exp := exp) j0
      simp only [ticks1]; omega
  | flushC em =>
    simp only at hJ
    obtain ⟨j0, jb, k, j1, j2, j3, j4, j5⟩ := hJ
    have hrM : row < M.rows := Nat.lt_of_lt_of_le j0 (hs.le _)
    cases em with
    | nil =>
      have hk : k = lens exp row := by
        have := congrArg List.length j2
        simp at this; omega
      unfold step1
      simp only
      have hcnt : cur - beg = lens exp row := by omega
      rw [hcnt, wr_of_lt (by rw [hI.rnLen]; exact hrM)]
      have hlo : b t ≤ row := hI.lo
      have ho : off exp b t (row + 1) = off exp b t row + k := by
        unfold off; simp only [psum]; omega
      refine ⟨_, _, rfl, Fr.setRn t g _ hlo j0, ?_, Or.inr ?_⟩
      · refine { hI with rnLen := by simpa using hI.rnLen, lo := by show b t ≤ row + 1; omega, hi := j0,
                         has := ?_, ctl := ⟨?_, ?_, ?_⟩ }
        · intro i h1 h2
          by_cases hi : i = row
          · subst hi; exact Has.set_self (by rw [hI.rnLen]; exact hrM)
          · exact (hI.has i h1 (by show i < row; simp only at h2; omega)).set _
        · show cur = M.ptr (b t) + off exp b t (row + 1); rw [ho]; exact j3
        · show TC M exp b t (off exp b t (row + 1)) _; rw [ho]; exact j4
        · show TV M exp b t (off exp b t (row + 1)) _; rw [ho]; exact j5
      · simp only [ticks1, List.length_nil]; omega
    | cons y em =>
      obtain ⟨c, v⟩ := y
      have hget : (exp row)[k]? = some (c, v) := by
        have := congrArg (fun l => l[0]?) j2
        simpa using this.symm
      have hem : em = (exp row).drop (k + 1) := by
        have := congrArg List.tail j2
        simpa using this
      have hseg := seg_getElem_row (e := b (t + 1)) hI.lo j0 hget
      have hrm := seg_room hM hs hlen ht hseg
      have hnnz := CSR.ptr_le_nnz hM (hs.le (t + 1))
      unfold step1
      simp only
      have hcur : cur < g.tmpC.length := by
        rw [hI.tcLen, j3]; unfold off; simp only at hrm; omega
      rw [wr_of_lt hcur]
      have hc2 : cur < M.ptr (b (t + 1)) := by rw [j3]; unfold off; simp only at hrm; omega
      refine ⟨_, _, rfl, Fr.setTc t g _ (by omega) hc2, ?_, Or.inr ?_⟩
      · refine { hI with tcLen := by simpa using hI.tcLen, ctl := ⟨j0, jb, k, c, hget, hem, j3, ?_, j5⟩ }
        intro j hj
        by_cases hjj : j = off exp b t row + k
        · subst hjj
          refine ⟨(c, v), hseg, ?_⟩
          show (g.tmpC.set cur (some c))[M.ptr (b t) + (off exp b t row + k)]? = _
          rw [← j3, List.getElem?_set_self hcur]
        · obtain ⟨x, h1, h2⟩ := j4 j (by simp only at hj; omega)
          refine ⟨x, h1, ?_⟩
          show (g.tmpC.set cur (some c))[M.ptr (b t) + j]? = _
          rw [List.getElem?_set_ne (by omega)]; exact h2
      · simp only [ticks1, List.length_cons]; omega
  | flushV v em =>
    simp only at hJ
    obtain ⟨j0, jb, k, c, j1, j2, j3, j4, j5⟩ := hJ
    have hseg := seg_getElem_row (e := b (t + 1)) hI.lo j0 j1
    have hrm := seg_room hM hs hlen ht hseg
    have hnnz := CSR.ptr_le_nnz hM (hs.le (t + 1))
    have hk := lt_of_getElem? j1
    unfold step1
    simp only
    have hcur : cur < g.tmpV.length := by
      rw [hI.tvLen, j3]; unfold off; simp only at hrm; omega
    rw [wr_of_lt hcur]
    have hc2 : cur < M.ptr (b (t + 1)) := by rw [j3]; unfold off; simp only at hrm; omega
    refine ⟨_, _, rfl, Fr.setTv t g _ (by omega) hc2, ?_, Or.inr ?_⟩
    · refine { hI with tvLen := by simpa using hI.tvLen, ctl := ⟨j0, jb, k + 1, ?_, j2, ?_, j4, ?_⟩ }
      · simp only; omega
      · simp only; omega
      · intro j hj
        by_cases hjj : j = off exp b t row + k
        · subst hjj
          refine ⟨(c, v), hseg, ?_⟩
          show (g.tmpV.set cur (some v))[M.ptr (b t) + (off exp b t row + k)]? = _
          rw [← j3, List.getElem?_set_self hcur]
        · obtain ⟨x, h1, h2⟩ := j5 j (by simp only at hj; omega)
          refine ⟨x, h1, ?_⟩
          show (g.tmpV.set cur (some v))[M.ptr (b t) + j]? = _
          rw [List.getElem?_set_ne (by omega)]; exact h2
    · simp only [ticks1]; omega
  | done => simp [L1.fin] at hfin

theorem readTmp_ok {t : Nat} {g : Sh1 V} (hbt : b t ≤ b (t + 1)) (hn : Has g.threadsNvals (tnv exp b) t)
    (hc : TC M exp b t (tnv exp b t) g) (hv : TV M exp b t (tnv exp b t) g) :
    readTmp g (M.ptr (b t)) t = .ok (seg exp (b t) (b (t + 1))) := by
  unfold readTmp
  rw [hn.rdu]
  simp only [ok_bind]
  have hl : tnv exp b t = (seg exp (b t) (b (t + 1))).length := by rw [seg_length exp hbt]; rfl
  rw [hl]
  apply mapM_range_eq
  intro k x hx
  have hk := lt_of_getElem? hx
  obtain ⟨y, h1, h2⟩ := hc k (by omega)
  obtain ⟨z, h3, h4⟩ := hv k (by omega)
  have e1 : y = x := by rw [hx] at h1; exact (Option.some.inj h1).symm
  have e2 : z = x := by rw [hx] at h3; exact (Option.some.inj h3).symm
  subst e1; subst e2
  have r1 : rdu g.tmpC (M.ptr (b t) + k) = .ok z.1 := by unfold rdu rd; rw [h2]; rfl
  have r2 : rdu g.tmpV (M.ptr (b t) + k) = .ok z.2 := by unfold rdu rd; rw [h4]; rfl
  rw [r1, r2]; rfl

end Phase1

/-! ## Symbolic part of the two-phase driver -/

section Phase2
variable {mul add : V → V → V} {A : CSR V} {B : CSC V} {M : CSR V} {exp : Nat → List (Nat × V)}
  {wpr : List (Option Nat)} {w : Nat → Nat} {b : Nat → Nat} {n : Nat}

/-- Assertion of thread `t` in the symbolic part. -/
structure I2 (M : CSR V) (exp : Nat → List (Nat × V)) (b : Nat → Nat) (n : Nat) (t : Nat) (g : Sh V) (l : L2) :
    Prop where
  rnLen : g.rowNvals.length = M.rows
  tnLen : g.threadsNvals.length = n
  stop : l.stop = b (t + 1)
  lo : b t ≤ l.row
  hi : l.row ≤ b (t + 1)
  out : l.nvals = psum (lens exp) l.row - psum (lens exp) (b t)
  has : ∀ i, b t ≤ i → i < l.row → Has g.rowNvals (lens exp) i
  fin : l.done = true → l.row = b (t + 1) ∧ Has g.threadsNvals (tnv exp b) t

theorem step2_ok (hMA : M.rows = A.rows) (hR : Rows mul add A B M w exp) (hs : Split b M.rows n)
    (hf : ∀ i < M.rows, Has wpr w i) :
    ∀ t g x, t < n → I2 M exp b n t g x → x.done = false →
      ∃ g' x', step2 A B M wpr t g x = .ok (g', x') ∧ I2 M exp b n t g' x' ∧
      (x'.done = true ∨ b (t + 1) + 1 - x'.row < b (t + 1) + 1 - x.row) ∧
      ∀ u y, u < n → u ≠ t → I2 M exp b n u g y → I2 M exp b n u g' y := by
  intro t g x ht hI hfin
  unfold step2
  by_cases hrow : x.row < x.stop
  · rw [if_pos hrow]
    have hr1 : x.row < b (t + 1) := hI.stop ▸ hrow
    have hrM : x.row < M.rows := Nat.lt_of_lt_of_le hr1 (hs.le _)
    rw [(hf _ hrM).rdu]
    simp only [ok_bind]
    have other : ∀ u y, u < n → u ≠ t → I2 M exp b n u g y →
        I2 M exp b n u { g with rowNvals := g.rowNvals.set x.row (some (lens exp x.row)) } y := by
      intro u y _ _ hy
      refine { hy with rnLen := by simpa using hy.rnLen, has := ?_ }
      intro i h1 h2
      exact (hy.has i h1 h2).set _
    have hasNew : ∀ i, b t ≤ i → i < x.row + 1 →
        Has (g.rowNvals.set x.row (some (lens exp x.row))) (lens exp) i := by
      intro i h1 h2
      by_cases hi : i = x.row
      · subst hi; exact Has.set_self (by rw [hI.rnLen]; exact hrM)
      · exact (hI.has i h1 (by omega)).set _
    have hwr : wr g.rowNvals x.row (some (lens exp x.row)) = .ok (g.rowNvals.set x.row (some (lens exp x.row))) :=
      wr_of_lt (by rw [hI.rnLen]; exact hrM)
    have hrd : rdu (g.rowNvals.set x.row (some (lens exp x.row))) x.row = .ok (lens exp x.row) :=
      (hasNew x.row hI.lo (by omega)).rdu
    have hout : x.nvals + lens exp x.row = psum (lens exp) (x.row + 1) - psum (lens exp) (b t) := by
      have h1 := hI.out
      have h2 := psum_mono (f := lens exp) hI.lo
      simp only [psum]; omega
    by_cases hz : w x.row = 0
    · have hlen : lens exp x.row = 0 := hR.nil _ hz
      rw [if_pos hz, ← hlen, hwr]
      refine ⟨_, _, rfl, ?_, ?_, other⟩
      · exact { rnLen := by simpa using hI.rnLen, tnLen := hI.tnLen, stop := hI.stop,
                lo := Nat.le_succ_of_le hI.lo, hi := hr1, out := by show x.nvals = _; rw [← hout, hlen]; rfl,
                has := hasNew, fin := fun h => by simp [hfin] at h }
      · right; show b (t + 1) + 1 - (x.row + 1) < _; omega
    · rw [if_neg hz, hR.sym _ (hMA ▸ hrM) hz]
      simp only [ok_bind, hwr, hrd]
      refine ⟨_, _, rfl, ?_, ?_, other⟩
      · exact { rnLen := by simpa using hI.rnLen, tnLen := hI.tnLen, stop := hI.stop,
                lo := Nat.le_succ_of_le hI.lo, hi := hr1, out := hout,
                has := hasNew, fin := fun h => by simp [hfin] at h }
      · right; show b (t + 1) + 1 - (x.row + 1) < _; omega
  · rw [if_neg hrow]
    have hre : x.row = b (t + 1) := by have := hI.hi; have := hI.stop; omega
    have hlen : x.nvals = tnv exp b t := by rw [hI.out, hre]; rfl
    rw [wr_of_lt (by rw [hI.tnLen]; exact ht), hlen]
    refine ⟨_, _, rfl, ?_, Or.inl rfl, ?_⟩
    · exact { hI with tnLen := by simpa using hI.tnLen,
                      out := by rw [← hlen]; exact hI.out,
                      fin := fun _ => ⟨hre, Has.set_self (by rw [hI.tnLen]; exact ht)⟩ }
    · intro u y _ _ hy
      exact { hy with tnLen := by simpa using hy.tnLen,
                      fin := fun h => ⟨(hy.fin h).1, (hy.fin h).2.set _⟩ }

end Phase2

/-! ## Numeric part of the two-phase driver -/

section Phase4
variable {mul add : V → V → V} {A : CSR V} {B : CSC V} {M : CSR V} {exp : Nat → List (Nat × V)}
  {wpr : List (Option Nat)} {w : Nat → Nat} {b : Nat → Nat} {n : Nat}

/-- Assertion of thread `t` in the numeric part, control part. -/
def J4 (exp : Nat → List (Nat × V)) (b : Nat → Nat) (rows n t : Nat) (g : Sh V) : Ctl4 V → Prop
  | .start => True
  | .offs i off => b t ≤ i ∧ i ≤ b (t + 1) ∧ off = psum (lens exp) i ∧ RowsDone exp b t i g
  | .last off => off = psum (lens exp) (b (t + 1)) ∧ RowsDone exp b t (b (t + 1)) g
  | .base => PtrDone exp b rows n t g
  | .row r cur => PtrDone exp b rows n t g ∧ b t ≤ r ∧ r ≤ b (t + 1) ∧
      (b t < b (t + 1) → cur = some (psum (lens exp) r)) ∧
      ColDone exp rows (psum (lens exp) (b t)) (psum (lens exp) r) g ∧
      ValDone exp rows (psum (lens exp) (b t)) (psum (lens exp) r) g
  | .flushC r em beg cur => PtrDone exp b rows n t g ∧ b t ≤ r ∧ r < b (t + 1) ∧ beg = some (psum (lens exp) r) ∧
      ∃ k, k ≤ lens exp r ∧ em = (exp r).drop k ∧ cur = some (psum (lens exp) r + k) ∧
      ColDone exp rows (psum (lens exp) (b t)) (psum (lens exp) r + k) g ∧
      ValDone exp rows (psum (lens exp) (b t)) (psum (lens exp) r + k) g
  | .flushV r v em beg cur => PtrDone exp b rows n t g ∧ b t ≤ r ∧ r < b (t + 1) ∧ beg = some (psum (lens exp) r) ∧
      ∃ k c, (exp r)[k]? = some (c, v) ∧ em = (exp r).drop (k + 1) ∧ cur = some (psum (lens exp) r + k) ∧
      ColDone exp rows (psum (lens exp) (b t)) (psum (lens exp) r + (k + 1)) g ∧
      ValDone exp rows (psum (lens exp) (b t)) (psum (lens exp) r + k) g
  | .done => PtrDone exp b rows n t g ∧
      ColDone exp rows (psum (lens exp) (b t)) (psum (lens exp) (b (t + 1))) g ∧
      ValDone exp rows (psum (lens exp) (b t)) (psum (lens exp) (b (t + 1))) g

theorem J4.keeps {rows t : Nat} {g g' : Sh V} {c : Ctl4 V} (h : J4 exp b rows n t g c)
    (k : Keeps exp b rows n g g') : J4 exp b rows n t g' c := by
  cases c with
  | start => trivial
  | offs i off => exact ⟨h.1, h.2.1, h.2.2.1, h.2.2.2.keeps k⟩
  | last off => exact ⟨h.1, h.2.keeps k⟩
  | base => exact PtrDone.keeps h k
  | row r cur =>
    obtain ⟨h1, h2, h3, h4, h5, h6⟩ := h
    exact ⟨h1.keeps k, h2, h3, h4, h5.keeps k, h6.keeps k⟩
  | flushC r em beg cur =>
    obtain ⟨h1, h2, h3, hb, j, h4, h5, h6, h7, h8⟩ := h
    exact ⟨h1.keeps k, h2, h3, hb, j, h4, h5, h6, h7.keeps k, h8.keeps k⟩
  | flushV r v em beg cur =>
    obtain ⟨h1, h2, h3, hb, j, c, h4, h5, h6, h7, h8⟩ := h
    exact ⟨h1.keeps k, h2, h3, hb, j, c, h4, h5, h6, h7.keeps k, h8.keeps k⟩
  | done => exact ⟨h.1.keeps k, h.2.1.keeps k, h.2.2.keeps k⟩

/-- Steps that remain. -/
def ticks4 (exp : Nat → List (Nat × V)) (b : Nat → Nat) (t : Nat) : Ctl4 V → Nat
  | .start => work4 exp b t (b t) + 20 + b (t + 1)
  | .offs i _ => work4 exp b t (b t) + 10 + (b (t + 1) - i)
  | .last _ => work4 exp b t (b t) + 8
  | .base => work4 exp b t (b t) + 7
  | .row r _ => work4 exp b t r + 1
  | .flushC r em _ _ => work4 exp b t (r + 1) + 2 * em.length + 2
  | .flushV r _ em _ _ => work4 exp b t (r + 1) + 2 * em.length + 3
  | .done => 0

def I4 (exp : Nat → List (Nat × V)) (b : Nat → Nat) (rows n t : Nat) (g : Sh V) (l : Ctl4 V) : Prop :=
  Base exp b rows n g ∧ g.rowNvals.length = rows ∧ J4 exp b rows n t g l

theorem step4_ok (hR : Rows mul add A B M w exp) (hs : Split b A.rows n)
    (hf : ∀ i < A.rows, Has wpr w i) {rng : Nat → Nat × Nat}
    (hr : ∀ t < n, rng t = (b t, b (t + 1))) :
    ∀ t g x, t < n → I4 exp b A.rows n t g x → x.fin = false →
      ∃ g' x', step4 mul add A B M wpr n rng t g x = .ok (g', x') ∧ I4 exp b A.rows n t g' x' ∧
      (x'.fin = true ∨ ticks4 exp b t x' < ticks4 exp b t x) ∧
      ∀ u y, u < n → u ≠ t → I4 exp b A.rows n u g y → I4 exp b A.rows n u g' y := by
  intro t g x ht hI hfin
  obtain ⟨hB, hrn, hJ⟩ := hI
  have hbt := hs.mono t ht
  have hlt := hs.le (t + 1)
  suffices H : ∃ g' x', step4 mul add A B M wpr n rng t g x = .ok (g', x') ∧ Keeps exp b A.rows n g g' ∧
      g'.rowNvals.length = A.rows ∧ J4 exp b A.rows n t g' x' ∧
      (x'.fin = true ∨ ticks4 exp b t x' < ticks4 exp b t x) by
    obtain ⟨g', x', e1, e2, e3, e4, e5⟩ := H
    exact ⟨g', x', e1, ⟨e2.base, e3, e4⟩, e5, fun u y _ _ h => ⟨e2.base, e3, h.2.2.keeps e2⟩⟩
  have hpm := psum_mono (f := lens exp) hbt
  cases x with
  | start =>
    unfold step4
    simp only [accumulate_eq (fun i (hi : i < t) => hB.tn i (by omega)), ok_bind,
      psum_tnv hs.zero hs.mono t (Nat.le_of_lt ht), hr t ht]
    refine ⟨_, _, rfl, Keeps.refl hB, hrn, ⟨Nat.le_refl _, hbt, rfl, fun k h1 h2 => by omega⟩, Or.inr ?_⟩
    simp only [ticks4]; omega
  | offs i off =>
    unfold step4
    obtain ⟨h1, h2, h3, h4⟩ := hJ
    simp only [hr t ht]
    by_cases hi : i < b (t + 1)
    · have hi' : i < A.rows := by omega
      simp only [if_pos hi, h3, wr_of_lt (show i < g.rowptr.length by rw [hB.rp]; omega), ok_bind,
        (hB.rn i hi').rdu]
      have hk := Keeps.setRp hB i
      refine ⟨_, _, rfl, hk, hrn, ⟨by omega, by omega, rfl, ?_⟩, Or.inr ?_⟩
      · intro k k1 k2
        by_cases hki : k = i
        · subst hki; exact Has.set_self (by rw [hB.rp]; omega)
        · exact hk.ptr _ (h4 k k1 (by omega))
      · simp only [ticks4]; omega
    · have : i = b (t + 1) := by omega
      subst this
      simp only [if_neg hi]
      refine ⟨_, _, rfl, Keeps.refl hB, hrn, ⟨h3, h4⟩, Or.inr ?_⟩
      simp only [ticks4]; omega
  | last off =>
    unfold step4
    obtain ⟨h1, h2⟩ := hJ
    by_cases hl : t = n - 1
    · have hbn : b (t + 1) = A.rows := by
        have : t + 1 = n := by omega
        rw [this, hs.last]
      simp only [if_pos hl, h1, hbn, wr_of_lt (show A.rows < g.rowptr.length by rw [hB.rp]; omega), ok_bind]
      have hk := Keeps.setRp hB A.rows
      refine ⟨_, _, rfl, hk, hrn, ⟨RowsDone.keeps h2 hk, fun _ => Has.set_self (by rw [hB.rp]; omega)⟩, Or.inr ?_⟩
      simp only [ticks4]; omega
    · simp only [if_neg hl]
      refine ⟨_, _, rfl, Keeps.refl hB, hrn, ⟨h2, fun h => absurd h hl⟩, Or.inr ?_⟩
      simp only [ticks4]; omega
  | base =>
    unfold step4
    have hlen : b t < g.rowptr.length := by rw [hB.rp]; omega
    simp only [hr t ht, rd_of_lt hlen, ok_bind]
    refine ⟨_, _, rfl, Keeps.refl hB, hrn, ⟨hJ, Nat.le_refl _, hbt, ?_, fun p p1 p2 => by omega,
      fun p p1 p2 => by omega⟩, Or.inr ?_⟩
    · intro hlt'
      have h := (hJ.1 (b t) (Nat.le_refl _) hlt').rd
      rw [rd_of_lt hlen] at h
      exact Except.ok.inj h
    · simp only [ticks4]; omega
  | row r cur =>
    unfold step4
    obtain ⟨h1, h2, h3, h4, h5, h6⟩ := hJ
    simp only [hr t ht]
    by_cases hrow : r < b (t + 1)
    · have hrA : r < A.rows := by omega
      simp only [if_pos hrow, (hf r hrA).rdu, ok_bind]
      have hw := work4_succ (exp := exp) hrow
      by_cases hz : w r = 0
      · have hl := hR.nil r hz
        rw [if_pos hz, ← hl, wr_of_lt (by rw [hrn]; exact hrA)]
        have hp : psum (lens exp) (r + 1) = psum (lens exp) r := by simp [psum, hl]
        have hk := Keeps.setRn hB r
        refine ⟨_, _, rfl, hk, by simpa using hrn, ⟨h1.keeps hk, by omega, hrow, ?_, ?_, ?_⟩, Or.inr ?_⟩
        · rw [hp]; exact h4
        · rw [hp]; exact h5.keeps hk
        · rw [hp]; exact h6.keeps hk
        · simp only [ticks4]; omega
      · rw [if_neg hz, hR.num r hrA hz]
        simp only [ok_bind]
        refine ⟨_, _, rfl, Keeps.refl hB, hrn, ⟨h1, h2, hrow, h4 (by omega), 0, by omega, rfl, h4 (by omega), h5, h6⟩,
          Or.inr ?_⟩
        have e3 : lens exp r = (exp r).length := rfl
        simp only [ticks4]; omega
    · have : r = b (t + 1) := by omega
      subst this
      simp only [if_neg hrow]
      exact ⟨_, _, rfl, Keeps.refl hB, hrn, ⟨h1, h5, h6⟩, Or.inl rfl⟩
  | flushC r em beg cur =>
    obtain ⟨h1, h2, h3, hbg, k, h4, h5, h6, h7, h8⟩ := hJ
    have hlr : lens exp r = (exp r).length := rfl
    cases em with
    | nil =>
      unfold step4
      have hk : k = lens exp r := by
        have := congrArg List.length h5
        simp at this; omega
      have hp : psum (lens exp) r + k = psum (lens exp) (r + 1) := by rw [hk]; rfl
      have hd : psum (lens exp) r + k - psum (lens exp) r = lens exp r := by omega
      simp only [h6, hbg, use_some, ok_bind, hd, wr_of_lt (show r < g.rowNvals.length by rw [hrn]; omega)]
      have hkp := Keeps.setRn hB r
      rw [hp] at h7 h8
      refine ⟨_, _, rfl, hkp, by simpa using hrn, ⟨h1.keeps hkp, by omega, h3, fun _ => by rw [hp], h7.keeps hkp,
        h8.keeps hkp⟩, Or.inr ?_⟩
      simp only [ticks4, List.length_nil]; omega
    | cons x em =>
      obtain ⟨c, v⟩ := x
      unfold step4
      have hk : k < (exp r).length := by
        have := congrArg List.length h5
        simp at this; omega
      have hget : (exp r)[k]? = some (c, v) := by
        have := congrArg (fun l => l[0]?) h5
        simpa using this.symm
      have hem : em = (exp r).drop (k + 1) := by
        have := congrArg List.tail h5
        simpa using this
      have hcol : (colL exp A.rows)[psum (lens exp) r + k]? = some c :=
        colL_get (rows := A.rows) (b := r) (e := r + 1) (by omega) (by omega) (by rw [exp_eq_seg]; exact hget)
      have hpos : psum (lens exp) r + k < g.colids.length := by
        rw [hB.cl, ← colL_length exp A.rows]; exact lt_of_getElem? hcol
      simp only [h6, use_some, ok_bind, wr_of_lt hpos]
      have hkeep := Keeps.setCl hB hcol
      refine ⟨_, _, rfl, hkeep, hrn, ⟨h1.keeps hkeep, h2, h3, hbg, k, c, hget, hem, rfl, ?_, h8.keeps hkeep⟩,
        Or.inr ?_⟩
      · intro p p1 p2
        by_cases hp : p = psum (lens exp) r + k
        · subst hp; exact At.set_self hcol hpos
        · exact hkeep.col _ (h7 p p1 (by omega))
      · simp only [ticks4, List.length_cons]; omega
  | flushV r v em beg cur =>
    unfold step4
    obtain ⟨h1, h2, h3, hbg, k, c, h4, h5, h6, h7, h8⟩ := hJ
    have hlr : lens exp r = (exp r).length := rfl
    have hk := lt_of_getElem? h4
    have hval : (valL exp A.rows)[psum (lens exp) r + k]? = some v :=
      valL_get (rows := A.rows) (b := r) (e := r + 1) (by omega) (by omega) (by rw [exp_eq_seg]; exact h4)
    have hpos : psum (lens exp) r + k < g.values.length := by
      rw [hB.vl, ← valL_length exp A.rows]; exact lt_of_getElem? hval
    simp only [h6, use_some, ok_bind, wr_of_lt hpos]
    have hkeep := Keeps.setVl hB hval
    refine ⟨_, _, rfl, hkeep, hrn, ⟨h1.keeps hkeep, h2, h3, hbg, k + 1, by omega, h5, rfl, h7.keeps hkeep, ?_⟩,
      Or.inr ?_⟩
    · intro p p1 p2
      by_cases hp : p = psum (lens exp) r + k
      · subst hp; exact At.set_self hval hpos
      · exact hkeep.val _ (h8 p p1 (by omega))
    · simp only [ticks4]; omega
  | done => simp [Ctl4.fin] at hfin

end Phase4

/-! ## The drivers -/

section Main
variable {A : CSR V} {B : CSC V} {M : CSR V}

theorem prepare_ok (h : ValidC A B M) {n : Nat} (hn : 0 < n) (sch : Scheds)
    (ho : sch.flops.Perm (List.range A.rows)) :
    (prepare A B M n sch = .ok none ∧ Starved n (A.rows + 3) sch) ∨
    prepare A B M n sch = .ok (some (tab A.rows (fun i => some (workOf A B M i)),
      psum (workOf A B M) A.rows, tab A.rows (fun i => some (psum (workOf A B M) i)))) := by
  unfold prepare
  rw [← h.ma] at ho ⊢
  rw [verifyInputs_ok h, calculateWork_eq h ho]
  simp only [ok_bind]
  rcases Scan.exclusiveScan_spec (f := workOf A B M) (dst := List.replicate M.rows none)
    (src := tab M.rows (fun i => some (workOf A B M i))) hn (by rw [h.ma]; exact h.rowsPos)
    (fun i hi => has_tab hi) (by simp) sch.scan1 sch.scan2 with ⟨h, t, ht, hc⟩ | h
  · left
    rw [h]
    refine ⟨rfl, t, ht, ?_⟩
    rcases hc with hc | hc
    · left; omega
    · right; left; omega
  · right
    rw [h]; rfl

theorem spgemm1p_spec (mul add : V → V → V) (h : ValidC A B M) (zb : Bool) {nt dflt : Nat}
    (hn : 0 < setNumThreads nt dflt) (sch : Scheds) (ho : sch.flops.Perm (List.range A.rows)) :
    (spgemm1p mul add A B M zb nt dflt sch = .ok none ∧
      Starved (setNumThreads nt dflt) (stepBound (innerRow mul add A B M) A.rows) sch) ∨
    spgemm1p mul add A B M zb nt dflt sch = .ok (some (ofRows A.rows B.cols zb (innerRow mul add A B M))) := by
  have hR := rows1_ok mul add h
  generalize innerRow mul add A B M = exp at *
  unfold spgemm1p
  generalize hnn : setNumThreads nt dflt = n at hn
  simp only
  rcases prepare_ok h hn sch ho with ⟨h, t, ht, hcn⟩ | hp
  · left
    rw [h]
    refine ⟨rfl, t, ht, ?_⟩
    unfold stepBound
    rcases hcn with h | h | h | h
    · left; omega
    · right; left; omega
    · right; right; left; omega
    · right; right; right; omega
  rw [hp]
  simp only [ok_bind]
  generalize hP : psum (workOf A B M) = P
  generalize hb : bnd P (P A.rows) A.rows n = b
  have hs : Split b A.rows n := hb ▸ split_bnd P (P A.rows) A.rows hn
  have hsM : Split b M.rows n := by rw [h.ma]; exact hs
  have hf : ∀ i < A.rows, Has (tab A.rows fun i => some (workOf A B M i)) (workOf A B M) i :=
    fun i hi => has_tab hi
  have hcum : ∀ i < A.rows, Has (tab A.rows fun i => some (P i)) P i := fun i hi => has_tab hi
  have hPm : ∀ i j, i ≤ j → j < A.rows → P i ≤ P j := fun i j h _ => by rw [← hP]; exact psum_mono h
  have hdw : ∀ t < n, distributeWork (P A.rows) (tab A.rows fun i => some (P i)) A.rows n t =
      .ok (b t, b (t + 1)) := fun t ht => by rw [distributeWork_eq _ ht hcum hPm, hb]
  have hls : setup n (init1 A M n (P A.rows) (tab A.rows fun i => some (P i))) = .ok ((List.range n).map fun t =>
        ({ row := b t, stop := b (t + 1), base := M.ptr (b t), cur := M.ptr (b t), beg := M.ptr (b t),
           ctl := .row } : L1 V)) := by
    apply mapM_ok
    intro t ht
    have ht' : t < n := by simpa using ht
    unfold init1
    rw [hdw t ht']
    simp only [ok_bind]
    rw [CSR.rd_ptr h.wfM (hsM.le t)]; rfl
  have hrg : setup n (distributeWork (P A.rows) (tab A.rows fun i => some (P i)) A.rows n) =
      .ok ((List.range n).map fun t => (b t, b (t + 1))) := by
    apply mapM_ok
    intro t ht
    exact hdw t (by simpa using ht)
  rw [hls, hrg]
  simp only [ok_bind]
  obtain ⟨m, rfl⟩ : ∃ m, n = m + 1 := ⟨n - 1, by omega⟩
  generalize hl0 : (List.range (m + 1)).map (fun t =>
        ({ row := b t, stop := b (t + 1), base := M.ptr (b t), cur := M.ptr (b t), beg := M.ptr (b t),
           ctl := .row } : L1 V)) = ls0
  cases ls0 with
  | nil => simp [List.range_succ] at hl0
  | cons l0 ls1 =>
  simp only
  have hget : ∀ t < m + 1, (l0 :: ls1).getD t l0 =
        ({ row := b t, stop := b (t + 1), base := M.ptr (b t), cur := M.ptr (b t), beg := M.ptr (b t),
           ctl := .row } : L1 V) := by
    intro t ht
    rw [← hl0, list_getD_map_range _ _ ht]
  have ho0 : ∀ t, off exp b t (b t) = 0 := fun t => by unfold off; omega
  rcases phase_inv (I1 M exp b (m + 1)) (ticks1 exp b)
    (step1_ok (wpr := tab A.rows fun i => some (workOf A B M i)) h.wfM h.ma hR hsM (by rw [h.ma]; exact hf))
    sch.first { rowNvals := List.replicate M.rows none, threadsNvals := List.replicate (m + 1) none,
                tmpC := List.replicate M.nnz none, tmpV := List.replicate M.nnz none }
    (fun t => (l0 :: ls1).getD t l0)
    (by
      intro t ht
      rw [hget t ht]
      exact { rnLen := by simp, tnLen := by simp, tcLen := by simp, tvLen := by simp, stop := rfl, base := rfl,
              lo := Nat.le_refl _, hi := hs.mono t ht,
              has := fun i h1 h2 => by simp only at h2; omega,
              ctl := ⟨by simp only [ho0]; rfl, fun j hj => by simp only [ho0] at hj; omega,
                fun j hj => by simp only [ho0] at hj; omega⟩ })
    with ⟨h1, t, ht, h2⟩ | ⟨g1, ls', h1, h2⟩
  · left
    rw [h1]
    refine ⟨rfl, t, ht, ?_⟩
    rw [hget t ht] at h2
    have k1 := hs.le (t + 1)
    have k2 := psum_mono (f := lens exp) k1
    right; right; left
    unfold stepBound
    simp only [ticks1, work4] at h2
    omega
  rw [h1]
  simp only [ok_bind]
  have hd1 : ∀ t < m + 1, I1 M exp b (m + 1) t g1 (ls' t) ∧ (ls' t).row = b (t + 1) ∧
      Has g1.threadsNvals (tnv exp b) t ∧ TC M exp b t (tnv exp b t) g1 ∧ TV M exp b t (tnv exp b t) g1 := by
    intro t ht
    obtain ⟨hf1, hI⟩ := h2 t ht
    refine ⟨hI, ?_⟩
    have hJ := hI.ctl
    unfold J1 at hJ
    unfold L1.fin at hf1
    split at hf1
    · rename_i hc; rw [hc] at hJ; exact hJ
    · simp at hf1
  have houts : setup (m + 1) (fun t => readTmp g1 (ls' t).base t) =
      .ok ((List.range (m + 1)).map fun t => seg exp (b t) (b (t + 1))) := by
    apply mapM_ok
    intro t ht
    have ht' : t < m + 1 := by simpa using ht
    obtain ⟨hI, _, d2, d3, d4⟩ := hd1 t ht'
    rw [hI.base]
    exact readTmp_ok (hs.mono t ht') d2 d3 d4
  rw [houts]
  simp only [ok_bind]
  obtain ⟨g2, e1, e2⟩ := initC_ok (exp := exp) (g := g1.toSh) hs
    (by
      intro i hi
      obtain ⟨t, ht, h3, h4⟩ := hs.row_cover hi
      obtain ⟨hI, hr, _⟩ := hd1 t ht
      exact hI.has i h3 (by rw [hr]; exact h4))
    (by
      intro t ht
      exact (hd1 t ht).2.2.1)
  rw [e1]
  simp only [ok_bind]
  rcases phase_inv (I3 exp b A.rows (m + 1)) (ticks3 exp b)
    (step3_ok hs (rng := fun t => ((List.range (m + 1)).map fun t => (b t, b (t + 1))).getD t (0, 0))
      (outs := fun t => ((List.range (m + 1)).map fun t => seg exp (b t) (b (t + 1))).getD t [])
      (by intro t ht; exact list_getD_map_range _ _ ht)
      (by intro t ht; exact list_getD_map_range _ _ ht))
    sch.second g2 (fun _ => .start) (fun t ht => ⟨e2, trivial⟩) with ⟨h3, t, ht, h4⟩ | ⟨g3, ls3, h3, h4⟩
  · left
    rw [h3]
    refine ⟨rfl, t, ht, ?_⟩
    right; right; right
    have k1 := hs.le (t + 1)
    have k2 : tnv exp b t ≤ psum (lens exp) A.rows := by
      have := psum_mono (f := lens exp) k1
      unfold tnv; omega
    unfold stepBound
    simp only [ticks3] at h4
    omega
  right
  rw [h3]
  simp only [ok_bind]
  have hdone : ∀ t < m + 1, J3 exp b A.rows (m + 1) t g3 .done := by
    intro t ht
    obtain ⟨hf1, hI⟩ := h4 t ht
    have : ls3 t = .done := by simpa using hf1
    rw [← this]; exact hI.2
  rw [freeze_ok hs hn B.cols zb (h4 0 (by omega)).2.1 (fun t ht => (hdone t ht).1)
    (fun t ht => (hdone t ht).2.1) (fun t ht => (hdone t ht).2.2)]
  rfl

theorem spgemm2p_spec (mul add : V → V → V) (h : ValidC A B M) (zb : Bool) {nt dflt : Nat}
    (hn : 0 < setNumThreads nt dflt) (sch : Scheds) (ho : sch.flops.Perm (List.range A.rows)) :
    (spgemm2p mul add A B M zb nt dflt sch = .ok none ∧
      Starved (setNumThreads nt dflt) (stepBound (innerRow mul add A B M) A.rows) sch) ∨
    spgemm2p mul add A B M zb nt dflt sch = .ok (some (ofRows A.rows B.cols zb (innerRow mul add A B M))) := by
  have hR := rows_ok mul add h
  generalize innerRow mul add A B M = exp at *
  unfold spgemm2p
  generalize hnn : setNumThreads nt dflt = n at hn
  simp only
  rcases prepare_ok h hn sch ho with ⟨h, t, ht, hcn⟩ | hp
  · left
    rw [h]
    refine ⟨rfl, t, ht, ?_⟩
    unfold stepBound
    rcases hcn with h | h | h | h
    · left; omega
    · right; left; omega
    · right; right; left; omega
    · right; right; right; omega
  rw [hp]
  simp only [ok_bind]
  generalize hP : psum (workOf A B M) = P
  generalize hb : bnd P (P A.rows) A.rows n = b
  have hs : Split b A.rows n := hb ▸ split_bnd P (P A.rows) A.rows hn
  have hsM : Split b M.rows n := by rw [h.ma]; exact hs
  have hf : ∀ i < A.rows, Has (tab A.rows fun i => some (workOf A B M i)) (workOf A B M) i :=
    fun i hi => has_tab hi
  have hcum : ∀ i < A.rows, Has (tab A.rows fun i => some (P i)) P i := fun i hi => has_tab hi
  have hPm : ∀ i j, i ≤ j → j < A.rows → P i ≤ P j := fun i j h _ => by rw [← hP]; exact psum_mono h
  have hdw : ∀ t < n, distributeWork (P A.rows) (tab A.rows fun i => some (P i)) A.rows n t =
      .ok (b t, b (t + 1)) := fun t ht => by rw [distributeWork_eq _ ht hcum hPm, hb]
  have hls : setup n (init2 A n (P A.rows) (tab A.rows fun i => some (P i))) = .ok ((List.range n).map fun t =>
        ({ row := b t, nvals := 0, stop := b (t + 1) } : L2)) := by
    apply mapM_ok
    intro t ht
    have ht' : t < n := by simpa using ht
    unfold init2
    rw [hdw t ht']; rfl
  have hrg : setup n (distributeWork (P A.rows) (tab A.rows fun i => some (P i)) A.rows n) =
      .ok ((List.range n).map fun t => (b t, b (t + 1))) := by
    apply mapM_ok
    intro t ht
    exact hdw t (by simpa using ht)
  rw [hls, hrg]
  simp only [ok_bind]
  obtain ⟨m, rfl⟩ : ∃ m, n = m + 1 := ⟨n - 1, by omega⟩
  generalize hl0 : (List.range (m + 1)).map (fun t =>
        ({ row := b t, nvals := 0, stop := b (t + 1) } : L2)) = ls0
  cases ls0 with
  | nil => simp [List.range_succ] at hl0
  | cons l0 ls1 =>
  simp only
  have hget : ∀ t < m + 1, (l0 :: ls1).getD t l0 = ({ row := b t, nvals := 0, stop := b (t + 1) } : L2) := by
    intro t ht
    rw [← hl0, list_getD_map_range _ _ ht]
  rcases phase_inv (I2 M exp b (m + 1)) (fun t x => b (t + 1) + 1 - x.row)
    (step2_ok (wpr := tab A.rows fun i => some (workOf A B M i)) h.ma hR hsM (by rw [h.ma]; exact hf))
    sch.first ({ rowNvals := List.replicate M.rows none, threadsNvals := List.replicate (m + 1) none } : Sh V)
    (fun t => (l0 :: ls1).getD t l0)
    (by
      intro t ht
      rw [hget t ht]
      exact { rnLen := by simp, tnLen := by simp, stop := rfl,
              lo := Nat.le_refl _, hi := hs.mono t ht, out := by simp,
              has := fun i h1 h2 => by simp only at h2; omega, fin := fun h => by simp at h })
    with ⟨h1, t, ht, h2⟩ | ⟨g1, ls', h1, h2⟩
  · left
    rw [h1]
    refine ⟨rfl, t, ht, ?_⟩
    rw [hget t ht] at h2
    have := hs.le (t + 1)
    right; right; left
    unfold stepBound
    simp only at h2
    omega
  rw [h1]
  simp only [ok_bind]
  obtain ⟨g2, e1, e2⟩ := initC_ok (exp := exp) (g := g1) hs
    (by
      intro i hi
      obtain ⟨t, ht, h3, h4⟩ := hs.row_cover hi
      obtain ⟨hf1, hI⟩ := h2 t ht
      exact hI.has i h3 (by rw [(hI.fin hf1).1]; exact h4))
    (by
      intro t ht
      obtain ⟨hf1, hI⟩ := h2 t ht
      exact (hI.fin hf1).2)
  have hrn2 : g2.rowNvals.length = A.rows := by
    have h5 := (h2 0 (by omega)).2.rnLen
    have : g2.rowNvals = g1.rowNvals := by
      unfold initC at e1
      cases hacc : accumulate g1.threadsNvals (m + 1) with
      | error e => rw [hacc] at e1; simp at e1
      | ok k => rw [hacc] at e1; simp only [ok_bind] at e1; injection e1 with e1; rw [← e1]
    rw [this, h5, h.ma]
  rw [e1]
  simp only [ok_bind]
  rcases phase_inv (I4 exp b A.rows (m + 1)) (ticks4 exp b)
    (step4_ok (wpr := tab A.rows fun i => some (workOf A B M i)) hR hs hf
      (rng := fun t => ((List.range (m + 1)).map fun t => (b t, b (t + 1))).getD t (0, 0))
      (by intro t ht; exact list_getD_map_range _ _ ht))
    sch.second g2 (fun _ => .start)
    (fun t ht => ⟨e2, hrn2, trivial⟩) with ⟨h3, t, ht, h4⟩ | ⟨g3, ls3, h3, h4⟩
  · left
    rw [h3]
    refine ⟨rfl, t, ht, ?_⟩
    right; right; right
    have k1 := hs.le (t + 1)
    have k2 := psum_mono (f := lens exp) k1
    unfold stepBound
    simp only [ticks4, work4] at h4
    omega
  right
  rw [h3]
  simp only [ok_bind]
  have hdone : ∀ t < m + 1, J4 exp b A.rows (m + 1) t g3 .done := by
    intro t ht
    obtain ⟨hf1, hI⟩ := h4 t ht
    have : ls3 t = .done := by
      unfold Ctl4.fin at hf1
      split at hf1
      · assumption
      · simp at hf1
    rw [← this]; exact hI.2.2
  rw [freeze_ok hs hn B.cols zb (h4 0 (by omega)).2.1 (fun t ht => (hdone t ht).1)
    (fun t ht => (hdone t ht).2.1) (fun t ht => (hdone t ht).2.2)]
  rfl

theorem computes1p (mul add : V → V → V) (h : ValidC A B M) (zb : Bool) {nt dflt : Nat}
    (hn : 0 < setNumThreads nt dflt) :
    Spec.Computes (spgemm1p mul add A B M zb nt dflt) A.rows (setNumThreads nt dflt)
      (ofRows A.rows B.cols zb (innerRow mul add A B M)) where
  safe := fun sch ho => (spgemm1p_spec mul add h zb hn sch ho).imp (·.1) id
  live := ⟨stepBound (innerRow mul add A B M) A.rows, fun sch ho hf =>
    (spgemm1p_spec mul add h zb hn sch ho).resolve_left (fun h => not_starved hf h.2)⟩

theorem computes2p (mul add : V → V → V) (h : ValidC A B M) (zb : Bool) {nt dflt : Nat}
    (hn : 0 < setNumThreads nt dflt) :
    Spec.Computes (spgemm2p mul add A B M zb nt dflt) A.rows (setNumThreads nt dflt)
      (ofRows A.rows B.cols zb (innerRow mul add A B M)) where
  safe := fun sch ho => (spgemm2p_spec mul add h zb hn sch ho).imp (·.1) id
  live := ⟨stepBound (innerRow mul add A B M) A.rows, fun sch ho hf =>
    (spgemm2p_spec mul add h zb hn sch ho).resolve_left (fun h => not_starved hf h.2)⟩

/-- The result is the masked product. -/
theorem isMasked (mul add : V → V → V) (h : ValidC A B M) (nd : M.NodupRows) (zb : Bool) :
    Spec.IsMaskedC mul add A B M (ofRows A.rows B.cols zb (innerRow mul add A B M)) where
  rows := rfl
  cols := rfl
  entries := by
    intro i hi j v
    rw [ofRows_row _ _ _ _ hi]
    unfold innerRow
    simp only [List.mem_filterMap, Option.map_eq_some_iff]
    constructor
    · rintro ⟨a, ha, w, hw, e⟩
      injection e with e1 e2
      subst e1; subst e2
      exact ⟨ha, hw⟩
    · rintro ⟨h1, h2⟩
      exact ⟨j, h1, v, h2, rfl⟩
  nodup := by
    intro i hi
    have hi' : i < A.rows := hi
    rw [ofRows_rowCols _ _ _ _ hi']
    exact (sub i).nodup (nd i (h.ma ▸ hi'))
  order := by
    intro i hi
    rw [ofRows_rowCols _ _ _ _ hi]
    exact sub i
where
  sub (i : Nat) : ((innerRow mul add A B M i).map Prod.fst).Sublist (M.rowCols i) := by
    unfold innerRow
    generalize M.rowCols i = l
    induction l with
    | nil => exact List.Sublist.slnil
    | cons a l ih =>
      rw [List.filterMap_cons]
      cases dotC mul add A B i a with
      | none => exact ih.cons _
      | some v => exact ih.cons_cons _

end Main

end Inner

end Verif.Model
