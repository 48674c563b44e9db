import Verif.Props.C09

/-! # C11, C19, C26, C43: rows of the generic drivers and their accumulators -/

namespace Verif.Props

open Verif.Model Verif.Spec

variable {V : Type}

/-- The array `flopsPerRow` with the number of products of each row. -/
def workTable (compl : Bool) (A B M : CSR V) : List (Option Nat) :=
  (List.range A.rows).map fun i => some (rowWork compl A B M i)

theorem workTable_eq (compl : Bool) (A B M : CSR V) :
    workTable compl A B M = tab A.rows fun i => some (flopsOf compl A B M i) := by
  unfold workTable tab
  simp only [rowWork_eq]

/-- C43: the drivers count the products of each row and their total exactly, in whatever order the
iterations of the loop are executed. -/
theorem C43_work_counts (compl : Bool) {A B M : CSR V} (h : Valid A B M) {order : List Nat}
    (ho : order.Perm (List.range A.rows)) :
    calculateFlops compl A B M order =
      .ok (workTable compl A B M, ((List.range A.rows).map (rowWork compl A B M)).sum) := by
  rw [calculateFlops_eq h.wfA h.wfB h.wfM h.shapes compl ho, workTable_eq]
  have : rowWork compl A B M = flopsOf compl A B M := funext (rowWork_eq compl A B M)
  rw [this, sum_map_range]

theorem scan_ok {A B M : CSR V} (h : Valid A B M) (compl calcC calcA calcM calcF : Bool) {b e : Nat} (hbe : b ≤ e)
    (he : e ≤ A.rows) :
    ∃ sz, scanInputs compl calcC calcA calcM calcF b e (workTable compl A B M) A M = .ok sz ∧
      (calcC = true → sz.sizeC = psum (boundOf compl A B M) e - psum (boundOf compl A B M) b) ∧
      ∀ i, b ≤ i → i < e → Covers compl calcA calcM calcF A B M sz i := by
  rw [workTable_eq]
  exact scanInputs_ok h.wfA h.wfM h.shapes.ma compl calcC calcA calcM calcF hbe he (fun i hi => has_tab hi)

/-- C11 and C19: take any range of rows of a thread and the sizes the driver computes for it. Then there are rows
`out r` such that, whatever rows of the range the thread processes and in whatever order:
* the numeric phase (called with the number of products, or with the number of entries found by the symbolic phase)
  emits `out r` for each row `r`, so what it emits does not depend on the rows before;
* the symbolic phase counts exactly the entries the numeric phase emits;
* both accumulators end as clean as they started.
-/
theorem C11_C19_rows (k : Kind) (mul add : V → V → V) {A B M : CSR V} (h : Valid A B M) (hr : k.Req add A B M)
    (calcC : Bool) {b e : Nat} (hbe : b ≤ e) (he : e ≤ A.rows) :
    ∃ sz, scanInputs k.compl calcC (k.alg : RowAlg V).calcA (k.alg : RowAlg V).calcM (k.alg : RowAlg V).calcF b e
        (workTable k.compl A B M) A M = .ok sz ∧
      ∃ out : Nat → List (Nat × V), ∀ rs : List Nat, (∀ r ∈ rs, b ≤ r ∧ r < e ∧ rowWork k.compl A B M r ≠ 0) →
        (∃ acc, runSym k.alg A B M rs (k.alg.initS B.cols sz) = .ok (acc, rs.map fun r => (out r).length) ∧
          k.CleanS B.cols sz acc) ∧
        ∀ fl : Nat → Nat, (∀ r ∈ rs, fl r = rowWork k.compl A B M r ∨ fl r = (out r).length ∧ fl r ≠ 0) →
          ∃ acc, runNum k.alg mul add A B M fl rs (k.alg.initN B.cols sz) = .ok (acc, rs.map out) ∧
            k.CleanN B.cols sz acc := by
  obtain ⟨sz, hsz, -, hcov⟩ := scan_ok h k.compl calcC (k.alg : RowAlg V).calcA (k.alg : RowAlg V).calcM
    (k.alg : RowAlg V).calcF hbe he
  have hc := kind_contract (mul := mul) k h hr
  have hk := kind_compl (V := V) k
  refine ⟨sz, hsz, kindRow k mul add A B M, fun rs hrs => ⟨?_, fun fl hfl => ?_⟩⟩
  · refine runSym_ok hc rs (fun r hm => ?_) _ (hc.initS sz)
    obtain ⟨h1, h2, h3⟩ := hrs r hm
    rw [hk, ← rowWork_eq]
    exact ⟨by omega, hcov r h1 h2, h3⟩
  · refine runNum_ok hc rs (fun r hm => ?_) _ (hc.initN sz)
    obtain ⟨h1, h2, h3⟩ := hrs r hm
    rw [hk, ← rowWork_eq]
    exact ⟨by omega, hcov r h1 h2, h3, hfl r hm⟩

/-- C11 for the inner-product multiply (it has no accumulator): the symbolic count of a row is the number of entries the
numeric phase emits. -/
theorem C11_inner (mul add : V → V → V) {A : CSR V} {B : CSC V} {M : CSR V} (h : ValidC A B M) {i : Nat}
    (hi : i < A.rows) : ∃ out, Inner.numericRow mul add A B M i = .ok out ∧
      Inner.symbolicRow A B M i = .ok out.length :=
  ⟨_, Inner.numericRow_eq mul add h hi, Inner.symbolicRow_eq mul add h hi⟩

/-- C26: the buffer size `scanInputs` computes for a range of rows is the sum of the bounds of its rows, and what the
numeric phase emits for all rows of the range that have work fits into it. -/
theorem C26_buffer_bound (k : Kind) (mul add : V → V → V) {A B M : CSR V} (h : Valid A B M) (hr : k.Req add A B M)
    {b e : Nat} (hbe : b ≤ e) (he : e ≤ A.rows) :
    ∃ sz, scanInputs k.compl true (k.alg : RowAlg V).calcA (k.alg : RowAlg V).calcM (k.alg : RowAlg V).calcF b e
        (workTable k.compl A B M) A M = .ok sz ∧
      ∃ acc ems, runNum k.alg mul add A B M (rowWork k.compl A B M)
          ((List.range' b (e - b)).filter fun r => rowWork k.compl A B M r ≠ 0) (k.alg.initN B.cols sz) =
            .ok (acc, ems) ∧
        (ems.map List.length).sum ≤ sz.sizeC := by
  obtain ⟨sz, hsz, hC, hcov⟩ := scan_ok h k.compl true (k.alg : RowAlg V).calcA (k.alg : RowAlg V).calcM
    (k.alg : RowAlg V).calcF hbe he
  have hc := kind_contract (mul := mul) k h hr
  have hk := kind_compl (V := V) k
  obtain ⟨acc, e1, -⟩ := runNum_ok (fl := rowWork k.compl A B M) hc
    ((List.range' b (e - b)).filter fun r => rowWork k.compl A B M r ≠ 0) (fun r hm => by
      rw [List.mem_filter] at hm
      obtain ⟨h1, h2⟩ := hm
      have h1 := List.mem_range'_1.1 h1
      rw [hk, ← rowWork_eq]
      exact ⟨by omega, hcov r h1.1 (by omega), by simpa using h2, .inl rfl⟩) _ (hc.initN sz)
  refine ⟨sz, hsz, acc, _, e1, ?_⟩
  rw [hC rfl]
  clear e1 hsz hC hcov
  have hb : ∀ i < A.rows, (kindRow k mul add A B M i).length ≤ boundOf k.compl A B M i := by
    intro i hi
    have := hc.bound i hi
    rwa [hk] at this
  have key : ∀ n, b + n ≤ A.rows →
      ((((List.range' b n).filter fun r => decide (rowWork k.compl A B M r ≠ 0)).map
        (kindRow k mul add A B M)).map List.length).sum + psum (boundOf k.compl A B M) b ≤
        psum (boundOf k.compl A B M) (b + n) := by
    intro n
    induction n with
    | zero => intro _; simp
    | succ n ih =>
      intro hn
      have h1 := ih (by omega)
      have h2 := hb (b + n) (by omega)
      rw [List.range'_concat, Nat.one_mul, List.filter_append, List.map_append, List.map_append, List.sum_append]
      have e2 : psum (boundOf k.compl A B M) (b + (n + 1)) =
        psum (boundOf k.compl A B M) (b + n) + boundOf k.compl A B M (b + n) := rfl
      rw [e2]
      by_cases hz : rowWork k.compl A B M (b + n) ≠ 0
      · have : [b + n].filter (fun r => decide (rowWork k.compl A B M r ≠ 0)) = [b + n] := by simp [hz]
        rw [this]
        simp only [List.map_cons, List.map_nil, List.sum_cons, List.sum_nil]
        omega
      · have : [b + n].filter (fun r => decide (rowWork k.compl A B M r ≠ 0)) = [] := by
          simp at hz; simp [hz]
        rw [this]
        simp only [List.map_nil, List.sum_nil]
        omega
  have := key (e - b) (by omega)
  have e3 : b + (e - b) = e := by omega
  rw [e3] at this
  omega

/-- C26, the bound itself: it is the sum over the rows of the number of products, capped by the length
of the mask row when the mask is not complemented. -/
theorem C26_bound_value (k : Kind) {A B M : CSR V} (h : Valid A B M) {b e : Nat} (hbe : b ≤ e) (he : e ≤ A.rows)
    (cA cM cF : Bool) :
    ∃ sz, scanInputs k.compl true cA cM cF b e (workTable k.compl A B M) A M = .ok sz ∧
      sz.sizeC = ((List.range' b (e - b)).map fun r =>
        if k.compl then rowWork k.compl A B M r else min (rowWork k.compl A B M r) (M.rowCols r).length).sum := by
  obtain ⟨sz, hsz, hC, -⟩ := scan_ok h k.compl true cA cM cF hbe he
  refine ⟨sz, hsz, ?_⟩
  have hf : (fun r => if k.compl then rowWork k.compl A B M r else
      min (rowWork k.compl A B M r) (M.rowCols r).length) = boundOf k.compl A B M := by
    funext r
    unfold boundOf
    rw [rowWork_eq, Hash.rowCols_row_length h.wfM]
  rw [hf, hC rfl]
  have key : ∀ n, ((List.range' b n).map (boundOf k.compl A B M)).sum + psum (boundOf k.compl A B M) b =
      psum (boundOf k.compl A B M) (b + n) := by
    intro n
    induction n with
    | zero => simp
    | succ n ih =>
      rw [List.range'_concat, List.map_append, List.sum_append]
      have e2 : psum (boundOf k.compl A B M) (b + (n + 1)) =
        psum (boundOf k.compl A B M) (b + n) + boundOf k.compl A B M (b + n) := rfl
      rw [e2]
      simp only [Nat.one_mul, List.map_cons, List.map_nil, List.sum_cons, List.sum_nil]
      omega
  have := key (e - b)
  have e3 : b + (e - b) = e := by omega
  rw [e3] at this
  omega

/-- C26 for the inner-product multiply: a row emits at most as many entries as its mask row has, which is the room
reserved for it in the shared buffers. -/
theorem C26_inner (mul add : V → V → V) {A : CSR V} {B : CSC V} {M : CSR V} (h : ValidC A B M) {i : Nat}
    (hi : i < A.rows) : ∃ out, Inner.numericRow mul add A B M i = .ok out ∧ out.length ≤ M.ptr (i + 1) - M.ptr i :=
  ⟨_, Inner.numericRow_eq mul add h hi, Inner.innerRow_length_le mul add h hi⟩

/-- The hypotheses hold for the hash algorithm on all three rows of the example; rows 0 and 2 have work. -/
example : rowWork false Ex.A Ex.B Ex.M 0 = 4 ∧ rowWork false Ex.A Ex.B Ex.M 1 = 0 ∧
    rowWork false Ex.A Ex.B Ex.M 2 = 3 := by decide +kernel

example := C11_C19_rows .hash (fun a b : Int => a * b) (fun a b => a + b) Ex.validM
  (reqM (.gen .hash) (by simp) (by simp)) true (b := 0) (e := 3) (by decide) (by decide)

example := C26_buffer_bound (.hashC true) (fun a b : Int => a * b) (fun a b => a + b) Ex.validM
  (reqM (.gen (.hashC true)) (by simp) (by simp)) (b := 1) (e := 3) (by decide) (by decide)

end Verif.Props
