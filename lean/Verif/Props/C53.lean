import Verif.Lemmas.Dot
import Verif.Lemmas.SameMat
import Verif.Props.C08
import Verif.Props.C31

/-!
# C53: the older inner-product kernel

The full claim: for every addition and multiplication, all matrices of fitting shapes (rows of `A` and columns of `B` sorted) and
every output object, the call stores the masked product in the output. It is false in four ways, see the theorems below. The
proved part asks for an addition with `0` as left identity, columns of `A` that are also columns of `B`, fewer than `2^17 - 1`
rows and an output object with `nnz = 0`.
-/

namespace Verif.Props
open Verif.Model Verif.Spec

variable {V : Type}

/-- C53 in the cases in which it holds: there is one matrix, the masked product, which every run returns that gives each thread
enough steps. -/
theorem C53_inner_partial (mul add : V → V → V) (zero : V) (hz : ∀ x y, add zero (mul x y) = mul x y) {A : CSR V} {B : CSC V}
    {M : CSR V} (h : ValidC A B M) (hnd : M.NodupRows) (hcols : ∀ c ∈ A.colids, c < B.cols) (hsmall : A.rows + 1 < 2 ^ 17)
    {n : Nat} (hn : 0 < n) (nd : Nat) :
    ∃ C, IsMaskedC mul add A B M C ∧ C.WF ∧ ∀ sch : Dot.Sched, sch.Adm A.rows n →
      (Dot.innerNohash mul add zero A B M n nd 0 sch = .ok none ∧ ∃ t < n, sch.main.count t ≤ A.rows + 1) ∨
      Dot.innerNohash mul add zero A B M n nd 0 sch = .ok (some C) := by
  have hrow : Dot.expRow mul add zero A B M = Inner.innerRow mul add A B M := by
    funext i
    unfold Dot.expRow Inner.innerRow
    congr 1
    funext j
    rw [Dot.dotZ_eq hz]
  have hout : Dot.outOf M.rows M.cols 0 zero (Dot.expRow mul add zero A B M) =
      ofRows A.rows B.cols true (Inner.innerRow mul add A B M) := by
    rw [hrow, h.ma, h.mb]
    unfold Dot.outOf ofRows
    simp
  refine ⟨_, Inner.isMasked mul add h hnd true, ?_, ?_⟩
  · apply ofRows_wf _ _ _ _ rfl
    intro i hi x hx
    rw [← h.mb]
    have : x.1 ∈ M.rowCols i := (Inner.isMasked.sub mul add i).subset (List.mem_map_of_mem hx)
    exact CSR.rowCols_lt h.wfM this
  · intro sch hadm
    rw [← hout]
    rcases Dot.innerNohash_ok (mul := mul) (add := add) (zero := zero) h hcols hsmall hn nd 0 hadm with ⟨e, t, ht, hc⟩ | e
    · exact Or.inl ⟨e, t, ht, by rw [← h.ma]; exact hc⟩
    · exact Or.inr e

/-- C53, violated for other additions. Suppose the mask allows position `(i, j)` and a single product `p` contributes to it. If
`0` added to `p` differs from `p` then no run returns the masked product. -/
theorem C53_violated_zero (mul add : V → V → V) (zero : V) {A : CSR V} {B : CSC V} {M : CSR V} (h : ValidC A B M)
    (hcols : ∀ c ∈ A.colids, c < B.cols) (hsmall : A.rows + 1 < 2 ^ 17) {n : Nat} (hn : 0 < n) (nd : Nat) {sch : Dot.Sched}
    (hadm : sch.Adm A.rows n) {i j : Nat} (hi : i < A.rows) (hj : j ∈ M.rowCols i) {p : V} (hp : contribsC mul A B i j = [p])
    (hne : add zero p ≠ p) {C : CSR V} (hC : Dot.innerNohash mul add zero A B M n nd 0 sch = .ok (some C)) :
    ¬ IsMaskedC mul add A B M C := by
  rcases Dot.innerNohash_ok (mul := mul) (add := add) (zero := zero) h hcols hsmall hn nd 0 hadm with ⟨e, _⟩ | e
  · rw [e] at hC; cases hC
  · rw [e] at hC
    injection hC with hC
    injection hC with hC
    intro hm
    have hrow : C.row i = Dot.expRow mul add zero A B M i := by
      rw [← hC]
      have : Dot.outOf M.rows M.cols 0 zero (Dot.expRow mul add zero A B M) =
          ofRows M.rows M.cols true (Dot.expRow mul add zero A B M) := by
        unfold Dot.outOf ofRows
        simp
      rw [this, ofRows_row _ _ _ _ (by rw [h.ma]; exact hi)]
    have hd : Dot.dotZ mul add zero A B i j = some (add zero p) := by
      unfold Dot.dotZ; rw [hp]; rfl
    have hmem : (j, add zero p) ∈ C.row i := by
      rw [hrow]
      unfold Dot.expRow
      rw [List.mem_filterMap]
      exact ⟨j, hj, by rw [hd]; rfl⟩
    have := ((hm.entries i hi j _).1 hmem).2
    unfold dotC at this
    rw [hp] at this
    injection this with this
    exact hne this.symm

/-- C53, violated for shapes: if `A` has an entry in a column that is not smaller than the number of columns of `B` then no run
returns. The partition reads the column pointers of `B` at the columns of `A`. -/
theorem C53_violated_shape (mul add : V → V → V) (zero : V) {A : CSR V} {B : CSC V} {M : CSR V} (h : ValidC A B M) {c : Nat}
    (hc : c ∈ A.colids) (hcB : B.cols ≤ c) {n nd nnz0 : Nat} {sch : Dot.Sched} (hadm : sch.Adm A.rows n) (r : Option (CSR V)) :
    Dot.innerNohash mul add zero A B M n nd nnz0 sch ≠ .ok r := by
  intro he
  unfold Dot.innerNohash at he
  obtain ⟨_, _, he⟩ := Alias.bind_ok' he
  obtain ⟨p, hp, _⟩ := Alias.bind_ok' he
  exact Dot.setMaxBin_fails h.wfA h.wfB hc hcB hadm.intprod p hp

/-- C53, violated for many rows: with `2^17 - 1` or more rows no run returns a matrix. -/
theorem C53_violated_rows (mul add : V → V → V) (zero : V) {A : CSR V} {B : CSC V} {M : CSR V} {n nd nnz0 : Nat}
    (hbig : 2 ^ 17 ≤ A.rows + 1) (hnd : 0 < nd) (sch : Dot.Sched) (C : CSR V) :
    Dot.innerNohash mul add zero A B M n nd nnz0 sch ≠ .ok (some C) := by
  intro he
  unfold Dot.innerNohash at he
  obtain ⟨_, _, he⟩ := Alias.bind_ok' he
  obtain ⟨p, hp, he⟩ := Alias.bind_ok' he
  cases p with
  | none => cases he
  | some p => exact C33_violated hbig hnd _ p hp

/-- C53, violated for outputs that are in use: if `nnz` of the output object is not zero before the call then the result is not
a well-formed matrix. -/
theorem C53_violated_reuse (mul add : V → V → V) (zero : V) {A : CSR V} {B : CSC V} {M : CSR V} (h : ValidC A B M)
    (hcols : ∀ c ∈ A.colids, c < B.cols) (hsmall : A.rows + 1 < 2 ^ 17) {n : Nat} (hn : 0 < n) {nd nnz0 : Nat} (h0 : nnz0 ≠ 0)
    {sch : Dot.Sched} (hadm : sch.Adm A.rows n) {C : CSR V}
    (hC : Dot.innerNohash mul add zero A B M n nd nnz0 sch = .ok (some C)) : ¬ C.WF := by
  rcases Dot.innerNohash_ok (mul := mul) (add := add) (zero := zero) h hcols hsmall hn nd nnz0 hadm with ⟨e, _⟩ | e
  · rw [e] at hC; cases hC
  · rw [e] at hC
    injection hC with hC
    injection hC with hC
    intro hwf
    have h1 := hwf.ptrLast
    subst hC
    have h2 : (Dot.outOf M.rows M.cols nnz0 zero (Dot.expRow mul add zero A B M)).ptr M.rows =
        psum (lens (Dot.expRow mul add zero A B M)) M.rows := ofRows_ptr M.rows M.cols true _ (Nat.le_refl _)
    have h3 : (Dot.outOf M.rows M.cols nnz0 zero (Dot.expRow mul add zero A B M)).nnz =
        nnz0 + psum (lens (Dot.expRow mul add zero A B M)) M.rows := rfl
    have h4 : (Dot.outOf M.rows M.cols nnz0 zero (Dot.expRow mul add zero A B M)).rows = M.rows := rfl
    rw [h4, h2, h3] at h1
    omega

/-- A schedule for the examples. -/
def exDot : Dot.Sched :=
  { bin := { intprod := [2, 0, 1], s1 := [], s2 := [], threads := [1, 0], ids := [1, 2, 0] },
    main := [1, 0, 0, 1, 0, 1, 1, 0] }

theorem exDot_adm : exDot.Adm 3 2 := ⟨by decide, by decide, by decide⟩

example := C53_inner_partial (· * ·) (· + ·) (0 : Int) (by intro x y; simp) validBc Ex.nodupM (by decide) (by decide)
  (n := 2) (by decide) 4

/-- The run of the example. -/
theorem C53_run : Dot.innerNohash (· * ·) (· + ·) 0 Ex.A Bc Ex.M 2 4 0 exDot = .ok (some Ex.C) := by decide +kernel

/-- The second call with the same output object. -/
theorem C53_run_reuse : Dot.innerNohash (· * ·) (· + ·) 0 Ex.A Bc Ex.M 2 4 3 exDot = .ok (some { Ex.C with
    nnz := 6, colids := Ex.C.colids ++ [0, 0, 0], values := Ex.C.values ++ [0, 0, 0] }) := by
  decide +kernel

/-- Minimum and addition, 1 × 1 matrices `[2]` and `[3]`. -/
def oneA : CSR Int := { rows := 1, cols := 1, nnz := 1, rowptr := [0, 1], colids := [0], values := [2] }
def oneBc : CSC Int := { rows := 1, cols := 1, nnz := 1, colptr := [0, 1], rowids := [0], values := [3] }

theorem oneA_wf : oneA.WF := ⟨rfl, rfl, rfl, by decide, rfl, rfl, rfl, by decide⟩
theorem oneBc_wf : oneBc.WF := ⟨rfl, rfl, rfl, by decide, rfl, rfl, rfl, by decide⟩

theorem one_valid : ValidC oneA oneBc oneA :=
  ⟨oneA_wf, oneBc_wf, oneA_wf, rfl, rfl, rfl, by decide, by unfold CSR.SortedRows; decide, by unfold CSC.SortedCols; decide⟩

def oneSched : Dot.Sched := { bin := { intprod := [0], s1 := [], s2 := [], threads := [0], ids := [0] }, main := [0, 0] }

example : Dot.innerNohash (· + ·) min 0 oneA oneBc oneA 1 1 0 oneSched =
    .ok (some { rows := 1, cols := 1, nnz := 1, rowptr := [0, 1], colids := [0], values := [0] }) := by decide +kernel

example (C : CSR Int) (hC : Dot.innerNohash (· + ·) min 0 oneA oneBc oneA 1 1 0 oneSched = .ok (some C)) :
    ¬ IsMaskedC (· + ·) min oneA oneBc oneA C :=
  C53_violated_zero (· + ·) min 0 one_valid (by decide) (by decide) (by decide) 1 (sch := oneSched)
    ⟨by decide, by decide, by decide⟩ (i := 0) (j := 0) (by decide) (by decide) (p := 5) (by decide) (by decide) hC

/-- A row times a column: `[2 5]` and `[3 4]ᵀ`. -/
def wideA : CSR Int := { rows := 1, cols := 2, nnz := 2, rowptr := [0, 2], colids := [0, 1], values := [2, 5] }
def tallB : CSC Int := { rows := 2, cols := 1, nnz := 2, colptr := [0, 2], rowids := [0, 1], values := [3, 4] }

theorem wideA_wf : wideA.WF := ⟨rfl, rfl, rfl, by decide, rfl, rfl, rfl, by decide⟩
theorem tallB_wf : tallB.WF := ⟨rfl, rfl, rfl, by decide, rfl, rfl, rfl, by decide⟩

theorem wide_valid : ValidC wideA tallB oneA :=
  ⟨wideA_wf, tallB_wf, oneA_wf, rfl, rfl, rfl, by decide, by unfold CSR.SortedRows; decide, by unfold CSC.SortedCols; decide⟩

example (r : Option (CSR Int)) : Dot.innerNohash (· * ·) (· + ·) 0 wideA tallB oneA 1 1 0 oneSched ≠ .ok r :=
  C53_violated_shape (· * ·) (· + ·) 0 wide_valid (c := 1) (by decide) (by decide) ⟨by decide, by decide, by decide⟩ r

theorem C53_run_shape : Dot.innerNohash (· * ·) (· + ·) 0 wideA tallB oneA 1 1 0 oneSched = .error .oob := by decide +kernel

example (sch : Dot.Sched) (C : CSR Int) : Dot.innerNohash (· * ·) (· + ·) 0 bigA oneBc bigA 2 4 0 sch ≠ .ok (some C) :=
  C53_violated_rows _ _ _ (by rw [bigA_rows]; omega) (by decide) sch C

example (C : CSR Int) (hC : Dot.innerNohash (· * ·) (· + ·) 0 Ex.A Bc Ex.M 2 4 3 exDot = .ok (some C)) : ¬ C.WF :=
  C53_violated_reuse _ _ _ validBc (by decide) (by decide) (by decide) (by decide) exDot_adm hC

end Verif.Props
