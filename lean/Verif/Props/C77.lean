import Verif.Lemmas.WidthNeg
import Verif.Props.C09
import Mathlib.Tactic.NormNum

/-! # C77, C78: index types of limited width

`W` is the number of values of the (unsigned) index type, for example `2 ^ 32`: sums are reduced modulo `W`. -/

namespace Verif.Spec

open Verif.Model

variable {V : Type}

/-- The sizes and the numbers of entries of the three inputs are values of an index type with `W` values. -/
structure Fits (W : Nat) (A B M : CSR V) : Prop where
  rows : A.rows < W
  inner : A.cols < W
  cols : B.cols < W
  nnzA : A.nnz < W
  nnzB : B.nnz < W
  nnzM : M.nnz < W

/-- Number of products `A(i,k) * B(k,j)` that exist. -/
def products (A B : CSR V) : Nat := ((List.range A.rows).map fun i => (touched A B i).length).sum

/-- The one-phase or the two-phase call of a row algorithm with an index type of `W` values. -/
def Kind.callW (k : Kind) (W : Nat) (twoPhase : Bool) (mul add : V → V → V) (A B M : CSR V) (zb : Bool)
    (numThreads dflt : Nat) : Scheds → Res (Option (CSR V)) :=
  if twoPhase then Wid.spgemm2p W k.alg mul add A B M zb numThreads dflt
  else Wid.spgemm1p W k.alg mul add A B M zb numThreads dflt

/-- The same for inputs of the inner-product calls. -/
structure FitsC (W : Nat) (A : CSR V) (B : CSC V) (M : CSR V) : Prop where
  rows : A.rows < W
  inner : A.cols < W
  cols : B.cols < W
  nnzA : A.nnz < W
  nnzB : B.nnz < W
  nnzM : M.nnz < W

/-- Work that the inner-product calls attribute to row `i`: the lengths of the row of `A` and of the column of `B`, for
each mask entry for which neither is empty. -/
def innerWork (A : CSR V) (B : CSC V) (M : CSR V) (i : Nat) : Nat :=
  ((M.rowCols i).map fun j =>
    if A.row i = [] ∨ B.col j = [] then 0 else (A.row i).length + (B.col j).length).sum

end Verif.Spec

namespace Verif.Props

open Verif.Model Verif.Spec

variable {V : Type}

theorem products_eq (A B M : CSR V) : products A B = psum (boundOf true A B M) A.rows := by
  unfold products
  rw [sum_map_range]
  apply psum_congr
  intro i _
  rw [Model.touched_eq]
  simp [boundOf, flopsOf]

/-- C77, masked calls: with an index type that can hold the sizes and the numbers of entries of the inputs, and without
repeated columns in the rows of `A`, every masked call computes the masked product, even if the number of products
exceeds the index type. -/
theorem C77_masked (k : Kind) (hk : k.compl = false) (two : Bool) (mul add : V → V → V) {A B M : CSR V} {W : Nat}
    (h : Valid A B M) (hr : k.Req add A B M) (hf : Fits W A B M) (hnd : A.NodupRows) (zb : Bool) {nt dflt : Nat}
    (hn : 0 < setNumThreads nt dflt) :
    ∃ C, Computes (k.callW W two mul add A B M zb nt dflt) A.rows (setNumThreads nt dflt) C ∧
      IsMasked mul add A B M C := by
  have hc := (kind_contract (mul := mul) k h hr).contract
  have e : kindRow k mul add A B M = maskedRow mul add A B M := by unfold kindRow; simp [hk]
  rw [e] at hc
  have hkc : (k.alg : RowAlg V).compl = false := by rw [kind_compl, hk]
  have hfl : ∀ i < A.rows, flopsOf (k.alg : RowAlg V).compl A B M i < W := fun i hi =>
    Nat.lt_of_le_of_lt (Wid.flops_le h.wfA h.wfB h.shapes _ hnd hi) hf.nnzB
  have hbd : psum (boundOf (k.alg : RowAlg V).compl A B M) A.rows < W := by
    rw [hkc, ← h.shapes.ma]
    have h1 := Wid.bound_le (A := A) (B := B) h.wfM M.rows (Nat.le_refl _)
    have h2 := CSR.ptr_le_nnz h.wfM (Nat.le_refl M.rows)
    have h3 := hf.nnzM
    omega
  refine ⟨maskedMat mul add A B M zb, ?_, maskedMat_isMasked h.shapes.ma zb hr.nodup⟩
  unfold Kind.callW
  cases two
  · exact Wid.computes1p h.wfA h.wfB h.wfM h.shapes hc.toContract1 h.rowsPos zb hn hfl hbd
  · refine Wid.computes2p h.wfA h.wfB h.wfM h.shapes hc h.rowsPos zb hn hfl ?_
    have := seg_length_le_bound (alg := k.alg) (B := B) (M := M) hc.bound (Nat.zero_le A.rows) (Nat.le_refl _)
    simp only [psum] at this
    omega

/-- C77, two-phase calls with the complement of the mask: right whenever the result, too, has fewer than `W` entries.
`C` is what the call with unbounded integers computes. (The hash tables are sized by the sum of a mask row and the
products of a row; this sum is at most `M.nnz + B.nnz`.) -/
theorem C77_complement_two_phase (k : Kind) (hk : k.compl = true) (mul add : V → V → V) {A B M C : CSR V} {W : Nat}
    (h : Valid A B M) (hr : k.Req add A B M) (hf : Fits W A B M) (hnd : A.NodupRows)
    (_hh : ∀ s, k = .hashC s → M.nnz + B.nnz < W) (zb : Bool) {nt dflt : Nat} (hn : 0 < setNumThreads nt dflt)
    (hC : Computes (spgemm2p k.alg mul add A B M zb nt dflt) A.rows (setNumThreads nt dflt) C) (hCW : C.nnz < W) :
    Computes (k.callW W true mul add A B M zb nt dflt) A.rows (setNumThreads nt dflt) C ∧
      IsComplMasked mul add A B M C := by
  have hc := (kind_contract (mul := mul) k h hr).contract
  have e : kindRow k mul add A B M = complRow k.sorted mul add A B M := by unfold kindRow; simp [hk]
  rw [e] at hc
  have hC' := computes2p h.wfA h.wfB h.wfM h.shapes hc h.rowsPos zb hn
  have e2 := hC.unique hC'
  subst e2
  have hfl : ∀ i < A.rows, flopsOf (k.alg : RowAlg V).compl A B M i < W := fun i hi =>
    Nat.lt_of_le_of_lt (Wid.flops_le h.wfA h.wfB h.shapes _ hnd hi) hf.nnzB
  exact ⟨Wid.computes2p h.wfA h.wfB h.wfM h.shapes hc h.rowsPos zb hn hfl hCW, complMat_isCompl k.sorted zb⟩

/-- C77, one-phase calls with the complement of the mask: right if the number of all products is less than `W`.
Missing: larger numbers of products, where the claim fails (`C77_violated`). -/
theorem C77_complement_one_phase_partial (k : Kind) (hk : k.compl = true) (mul add : V → V → V) {A B M : CSR V}
    {W : Nat} (h : Valid A B M) (hr : k.Req add A B M) (hf : Fits W A B M) (hnd : A.NodupRows)
    (_hh : ∀ s, k = .hashC s → M.nnz + B.nnz < W) (hp : products A B < W) (zb : Bool) {nt dflt : Nat}
    (hn : 0 < setNumThreads nt dflt) :
    ∃ C, Computes (k.callW W false mul add A B M zb nt dflt) A.rows (setNumThreads nt dflt) C ∧
      IsComplMasked mul add A B M C := by
  have hc := (kind_contract (mul := mul) k h hr).contract
  have e : kindRow k mul add A B M = complRow k.sorted mul add A B M := by unfold kindRow; simp [hk]
  rw [e] at hc
  have hkc : (k.alg : RowAlg V).compl = true := by rw [kind_compl, hk]
  have hfl : ∀ i < A.rows, flopsOf (k.alg : RowAlg V).compl A B M i < W := fun i hi =>
    Nat.lt_of_le_of_lt (Wid.flops_le h.wfA h.wfB h.shapes _ hnd hi) hf.nnzB
  refine ⟨_, Wid.computes1p h.wfA h.wfB h.wfM h.shapes hc.toContract1 h.rowsPos zb hn hfl ?_,
    complMat_isCompl k.sorted zb⟩
  rw [hkc, ← products_eq]; exact hp

/-- C77 fails for one-phase calls with the complement of the mask and one thread: whenever the number of products,
reduced to the index type, is less than the number of entries of the result, the result does not fit into the buffer
and the call does not return it (nor anything else), under any schedule. -/
theorem C77_violated (k : Kind) (hk : k.compl = true) (mul add : V → V → V) {A B M C : CSR V}
    {W : Nat} (h : Valid A B M) (hr : k.Req add A B M) (hf : Fits W A B M) (hnd : A.NodupRows)
    (_hh : ∀ s, k = .hashC s → M.nnz + B.nnz < W) (zb : Bool) {nt dflt : Nat} (hn : setNumThreads nt dflt = 1)
    (hC : Computes (spgemm1p k.alg mul add A B M zb nt dflt) A.rows (setNumThreads nt dflt) C)
    (hp : products A B % W < C.nnz) (sch : Scheds) (hs : Admissible A.rows sch) (C' : CSR V) :
    k.callW W false mul add A B M zb nt dflt sch ≠ .ok (some C') := by
  have hc := (kind_contract (mul := mul) k h hr).contract
  have hn0 : 0 < setNumThreads nt dflt := by omega
  have hC' := computes1p h.wfA h.wfB h.wfM h.shapes hc h.rowsPos zb hn0
  have e2 := hC.unique hC'
  subst e2
  have hkc : (k.alg : RowAlg V).compl = true := by rw [kind_compl, hk]
  have hfl : ∀ i < A.rows, flopsOf (k.alg : RowAlg V).compl A B M i < W := fun i hi =>
    Nat.lt_of_le_of_lt (Wid.flops_le h.wfA h.wfB h.shapes _ hnd hi) hf.nnzB
  refine Wid.never1p h.wfA h.wfB h.wfM h.shapes hc.toContract1 h.rowsPos zb hn sch hs hfl ?_ C'
  rw [hkc, ← products_eq]; exact hp

/-! ## Inputs that meet the hypotheses -/

section Family

/-- All entries are stored and equal to 1. -/
def full (r c : Nat) : CSR Int := ofRows r c true fun _ => (List.range c).map fun j => (j, 1)

theorem full_wf (r c : Nat) : (full r c).WF := by
  apply ofRows_wf _ _ _ _ rfl
  intro i _ x hx
  simp only [List.mem_map, List.mem_range] at hx
  obtain ⟨j, hj, rfl⟩ := hx
  exact hj

theorem full_row {r c i : Nat} (hi : i < r) : (full r c).row i = (List.range c).map fun j => (j, 1) :=
  ofRows_row _ _ _ _ hi

theorem full_cols {r c i : Nat} (hi : i < r) : (full r c).rowCols i = List.range c := by
  unfold full
  rw [ofRows_rowCols _ _ _ _ hi, List.map_map]
  exact List.map_id' _

theorem psum_const (c n : Nat) : psum (fun _ => c) n = n * c := by
  induction n with
  | zero => simp [psum]
  | succ n ih => simp only [psum, ih, Nat.succ_mul]

theorem full_nnz (r c : Nat) : (full r c).nnz = r * c := by
  show psum (lens _) r = _
  have : lens (fun _ : Nat => (List.range c).map fun j => (j, (1 : Int))) = fun _ => c := by
    funext i; simp [lens]
  rw [this, psum_const]

theorem full_nodup (r c : Nat) : (full r c).NodupRows := fun i hi => by
  rw [full_cols (show i < r from hi)]; exact List.nodup_range

/-- The matrix without entries. -/
def none' (r c : Nat) : CSR Int := ofRows r c true fun _ => []

theorem none_wf (r c : Nat) : (none' r c).WF := by
  apply ofRows_wf _ _ _ _ rfl
  intro i _ x hx
  cases hx

theorem none_cols {r c i : Nat} (hi : i < r) : (none' r c).rowCols i = [] := by
  unfold none'
  rw [ofRows_rowCols _ _ _ _ hi]; rfl

theorem none_nnz (r c : Nat) : (none' r c).nnz = 0 := by
  show psum (lens _) r = _
  have : lens (fun _ : Nat => ([] : List (Nat × Int))) = fun _ => 0 := rfl
  rw [this, psum_const]; rfl

theorem full_touched {r c d i : Nat} (hi : i < r) :
    (touched (full r c) (full c d) i) = (List.range c).flatMap fun _ => List.range d := by
  unfold touched
  rw [full_row hi, List.flatMap_map]
  apply Conv.flatMap_congr_mem
  intro k hk
  have hk' : k < c := by simpa using hk
  rw [full_row hk', List.map_map]
  exact List.map_id' _

theorem full_products (r c d : Nat) : products (full r c) (full c d) = r * (c * d) := by
  unfold products
  have : (List.range (full r c).rows).map (fun i => (touched (full r c) (full c d) i).length) =
      (List.range r).map fun _ => c * d := by
    apply List.map_congr_left
    intro i hi
    have hi' : i < r := List.mem_range.1 hi
    rw [full_touched hi', List.length_flatMap]
    simp [List.map_const']
  rw [this]
  simp

theorem full_valid {r c d : Nat} (hr : 0 < r) : Valid (full r c) (full c d) (full r d) :=
  ⟨full_wf r c, full_wf c d, full_wf r d, ⟨rfl, rfl, rfl⟩, hr⟩

theorem none_valid {r c d : Nat} (hr : 0 < r) : Valid (full r c) (full c d) (none' r d) :=
  ⟨full_wf r c, full_wf c d, none_wf r d, ⟨rfl, rfl, rfl⟩, hr⟩

theorem none_nodup (r c : Nat) : (none' r c).NodupRows := fun i hi => by
  rw [none_cols (show i < r from hi)]; exact List.nodup_nil

/-- 32-bit indices: two full matrices of size `2 ^ 15` and a full mask. The inputs fit, the number of products does
not, and the result is right. -/
example : 2 ^ 32 ≤ products (full (2 ^ 15) (2 ^ 15)) (full (2 ^ 15) (2 ^ 15)) ∧
    ∃ C, Computes (Kind.callW .hash (2 ^ 32) true (· * ·) (· + ·) (full (2 ^ 15) (2 ^ 15)) (full (2 ^ 15) (2 ^ 15))
      (full (2 ^ 15) (2 ^ 15)) true 8 1) (2 ^ 15) 8 C ∧
    IsMasked (· * ·) (· + ·) (full (2 ^ 15) (2 ^ 15)) (full (2 ^ 15) (2 ^ 15)) (full (2 ^ 15) (2 ^ 15)) C := by
  refine ⟨by rw [full_products]; norm_num, C77_masked .hash rfl true _ _ (full_valid (by norm_num)) (full_nodup _ _) ?_
    (full_nodup _ _) true (by decide)⟩
  exact ⟨by show 2 ^ 15 < 2 ^ 32; norm_num, by show 2 ^ 15 < 2 ^ 32; norm_num, by show 2 ^ 15 < 2 ^ 32; norm_num,
    by rw [full_nnz]; norm_num, by rw [full_nnz]; norm_num, by rw [full_nnz]; norm_num⟩

/-- The failing case of `C77_violated` for every width `4 * m`, for example `m = 2 ^ 30`: a full matrix with two rows and
two columns, a full matrix with two rows and `m` columns, and a mask without entries. The inputs and the result, which
has `2 * m` entries, fit, but the `4 * m` products are counted as 0. -/
theorem C77_violated_family (k : Kind) (hk : k.compl = true) {m : Nat} (hm : 1 < m)
    (hr : k.Req (fun a b : Int => a + b) (full 2 2) (full 2 m) (none' 2 m)) :
    Fits (4 * m) (full 2 2) (full 2 m) (none' 2 m) ∧
    ∃ C, Computes (spgemm1p k.alg (· * ·) (· + ·) (full 2 2) (full 2 m) (none' 2 m) true 1 1) 2 1 C ∧
      C.nnz = 2 * m ∧
      ∀ sch, Admissible 2 sch → ∀ C',
        k.callW (4 * m) false (· * ·) (· + ·) (full 2 2) (full 2 m) (none' 2 m) true 1 1 sch ≠ .ok (some C') := by
  have hv : Valid (full 2 2) (full 2 m) (none' 2 m) := none_valid (by decide)
  have hfit : Fits (4 * m) (full 2 2) (full 2 m) (none' 2 m) :=
    ⟨by show 2 < 4 * m; omega, by show 2 < 4 * m; omega, by show m < 4 * m; omega, by rw [full_nnz]; omega,
     by rw [full_nnz]; omega, by rw [none_nnz]; omega⟩
  have hc := (kind_contract (mul := (· * ·)) k hv hr).contract
  have e : kindRow k (· * ·) (· + ·) (full 2 2) (full 2 m) (none' 2 m) =
      complRow k.sorted (· * ·) (· + ·) (full 2 2) (full 2 m) (none' 2 m) := by unfold kindRow; simp [hk]
  have hC := computes1p hv.wfA hv.wfB hv.wfM hv.shapes hc hv.rowsPos true (nt := 1) (dflt := 1) (by decide)
  rw [e] at hC
  have hlen : ∀ i < 2, (complRow k.sorted (· * ·) (· + ·) (full 2 2) (full 2 m) (none' 2 m) i).length = m := by
    intro i hi
    have ht : ∀ j, j ∈ touched (full 2 2) (full 2 m) i ↔ j < m := by
      intro j
      rw [full_touched hi]
      simp only [List.mem_flatMap, List.mem_range]
      exact ⟨fun ⟨_, _, h⟩ => h, fun h => ⟨0, by decide, h⟩⟩
    have h1 := complRow_nodup k.sorted (fun a b : Int => a * b) (· + ·) (full 2 2) (full 2 m) (none' 2 m) i
    have hmem : ∀ j, j ∈ (complRow k.sorted (fun a b : Int => a * b) (· + ·) (full 2 2) (full 2 m) (none' 2 m) i).map
        Prod.fst ↔ j < m := by
      intro j
      rw [← ht j, Model.touched_eq]
      simp only [List.mem_map, Prod.exists, exists_and_right, exists_eq_right]
      constructor
      · rintro ⟨v, hv⟩
        have := dot_mem_visits (mem_complRow.1 hv).2
        simpa using this
      · intro h
        obtain ⟨v, hv⟩ := mem_visits_dot (fun a b : Int => a * b) (· + ·)
          (A := full 2 2) (B := full 2 m) (i := i) (j := j) (by simpa using h)
        exact ⟨v, mem_complRow.2 ⟨by rw [none_cols hi]; simp, hv⟩⟩
    have h2 := nodup_length_le h1 (l' := List.range m) (fun x hx => by simpa using (hmem x).1 hx)
    have h3 := nodup_length_le (List.nodup_range (n := m)) (fun x hx => (hmem x).2 (by simpa using hx))
    simp only [List.length_map, List.length_range] at h2 h3
    omega
  have hnnz : (ofRows (full 2 2).rows (full 2 m).cols true
      (complRow k.sorted (· * ·) (· + ·) (full 2 2) (full 2 m) (none' 2 m))).nnz = 2 * m := by
    show psum (lens _) 2 = _
    simp only [psum, lens, hlen 0 (by decide), hlen 1 (by decide)]
    omega
  refine ⟨hfit, _, hC, hnnz, fun sch hs C' => ?_⟩
  refine C77_violated k hk _ _ hv hr hfit (full_nodup 2 2) ?_ true (nt := 1) (dflt := 1) rfl hC ?_ sch hs C'
  · intro s _; rw [none_nnz, full_nnz]; omega
  · rw [full_products, hnnz, show 2 * (2 * m) = 4 * m by omega, Nat.mod_self]; omega

example := C77_violated_family (.msa1C true) rfl (m := 2 ^ 30) (by norm_num) (none_nodup _ _)

/-- A row with the same column twice. -/
def twice : CSR Int := { rows := 1, cols := 1, nnz := 2, rowptr := [0, 2], colids := [0, 0], values := [1, 1] }

/-- A schedule for one row and one thread. -/
def schedW : Scheds :=
  { flops := [0], scan1 := List.replicate 40 0, scan2 := List.replicate 40 0, first := List.replicate 40 0,
    second := List.replicate 40 0 }

/-- Without the condition on the rows of `A` the claim fails: the row of `A` holds column 0 twice, the inputs fit, but
the 4 products of the row are counted as 0 and the row is skipped. -/
theorem C77_violated_repeated (two : Bool) :
    Valid twice (full 1 2) (full 1 2) ∧ Fits 4 twice (full 1 2) (full 1 2) ∧
    Kind.callW .msa1 4 two (· * ·) (· + ·) twice (full 1 2) (full 1 2) true 1 1 schedW =
      .ok (some { rows := 1, cols := 2, nnz := 0, rowptr := [0, 0], colids := [], values := [] }) ∧
    dot (· * ·) (· + ·) twice (full 1 2) 0 1 = some 2 := by
  refine ⟨⟨⟨rfl, rfl, rfl, by decide, rfl, rfl, rfl, by decide⟩, full_wf _ _, full_wf _ _, ⟨rfl, rfl, rfl⟩, by decide⟩,
    ⟨by decide, by decide, by decide, by decide, by decide, by decide⟩, ?_, by decide +kernel⟩
  cases two <;> decide +kernel

end Family

/-! ## C78: the inner-product calls -/

theorem ofRows_same {rows cols : Nat} {zb : Bool} {F G : Nat → List (Nat × V)} (h : ∀ i < rows, F i = G i) :
    ofRows rows cols zb F = ofRows rows cols zb G := by
  have h1 : seg F 0 rows = seg G 0 rows := Conv.seg_congr fun i _ hi => h i hi
  have h2 : ∀ i ≤ rows, psum (lens F) i = psum (lens G) i := fun i hi => psum_congr fun k hk => by
    unfold lens; rw [h k (by omega)]
  unfold ofRows
  rw [h1, h2 rows (Nat.le_refl _), tab_ext (fun i hi => h2 i (by omega))]

theorem innerWork_eq (A : CSR V) (B : CSC V) (M : CSR V) (i : Nat) : innerWork A B M i = Inner.workOf A B M i := by
  unfold innerWork Inner.workOf
  congr 1
  apply List.map_congr_left
  intro j _
  by_cases h1 : A.row i = [] <;> by_cases h2 : B.col j = [] <;> simp [h1, h2]

/-- C78, one phase: with an index type that can hold the sizes and the numbers of entries of the inputs the result is
the masked product, however large the work is. -/
theorem C78_one_phase (mul add : V → V → V) {A : CSR V} {B : CSC V} {M : CSR V} {W : Nat} (h : ValidC A B M)
    (nd : M.NodupRows) (hf : FitsC W A B M) (zb : Bool) {nt dflt : Nat} (hn : 0 < setNumThreads nt dflt) :
    ∃ C, Computes (Wid.Inner.spgemm1p W mul add A B M zb nt dflt) A.rows (setNumThreads nt dflt) C ∧
      IsMaskedC mul add A B M C :=
  ⟨_, Wid.Inner.computes1p mul add h zb hn hf.nnzM, Inner.isMasked mul add h nd zb⟩

/-- C78, two phases, exactly: the result is the masked product without the rows whose work is a multiple of `W`. -/
theorem C78_two_phase_rows (mul add : V → V → V) {A : CSR V} {B : CSC V} {M : CSR V} {W : Nat} (h : ValidC A B M)
    (nd : M.NodupRows) (hf : FitsC W A B M) (zb : Bool) {nt dflt : Nat} (hn : 0 < setNumThreads nt dflt) :
    ∃ C D, Computes (Wid.Inner.spgemm2p W mul add A B M zb nt dflt) A.rows (setNumThreads nt dflt) C ∧
      IsMaskedC mul add A B M D ∧ C.rows = A.rows ∧ C.cols = B.cols ∧
      ∀ i < A.rows, C.row i = if W ∣ innerWork A B M i then [] else D.row i := by
  refine ⟨_, _, Wid.Inner.computes2p mul add h zb hn hf.nnzM, Inner.isMasked mul add h nd zb, rfl, rfl, ?_⟩
  intro i hi
  rw [ofRows_row _ _ _ _ hi, ofRows_row _ _ _ _ hi, innerWork_eq]
  unfold Wid.Inner.wrapRow
  simp only [Nat.dvd_iff_mod_eq_zero]

/-- C78, two phases: the result is the masked product if and only if the product has no entry, under the mask, in a
row whose work is a multiple of `W`. -/
theorem C78_two_phase_iff (mul add : V → V → V) {A : CSR V} {B : CSC V} {M : CSR V} {W : Nat} (h : ValidC A B M)
    (nd : M.NodupRows) (hf : FitsC W A B M) (zb : Bool) {nt dflt : Nat} (hn : 0 < setNumThreads nt dflt) :
    (∃ C, Computes (Wid.Inner.spgemm2p W mul add A B M zb nt dflt) A.rows (setNumThreads nt dflt) C ∧
      IsMaskedC mul add A B M C) ↔
    ∀ i < A.rows, W ∣ innerWork A B M i → ∀ j ∈ M.rowCols i, dotC mul add A B i j = none := by
  obtain ⟨C, D, hC, hD, h1, h2, hrow⟩ := C78_two_phase_rows mul add h nd hf zb hn
  constructor
  · rintro ⟨C', hC', hM'⟩ i hi hw j hj
    have e := hC'.unique hC
    subst e
    cases hd : dotC mul add A B i j with
    | none => rfl
    | some v =>
      have := (hM'.entries i hi j v).2 ⟨hj, hd⟩
      rw [hrow i hi, if_pos hw] at this
      cases this
  · intro hw
    have hD' : ∀ i < A.rows, W ∣ innerWork A B M i → D.row i = [] := by
      intro i hi hwi
      rw [List.eq_nil_iff_forall_not_mem]
      rintro ⟨j, v⟩ hm
      obtain ⟨hj, hd⟩ := (hD.entries i hi j v).1 hm
      rw [hw i hi hwi j hj] at hd
      cases hd
    have e : ∀ i < A.rows, Wid.Inner.wrapRow W mul add A B M i = Inner.innerRow mul add A B M i := by
      intro i hi
      unfold Wid.Inner.wrapRow
      split
      · rename_i hz
        rw [← innerWork_eq] at hz
        symm
        rw [List.eq_nil_iff_forall_not_mem]
        rintro ⟨j, v⟩ hm
        unfold Inner.innerRow at hm
        simp only [List.mem_filterMap, Option.map_eq_some_iff] at hm
        obtain ⟨a, ha, w, hd, _⟩ := hm
        rw [hw i hi (Nat.dvd_of_mod_eq_zero hz) a ha] at hd
        cases hd
      · rfl
    refine ⟨_, Wid.Inner.computes2p mul add h zb hn hf.nnzM, ?_⟩
    rw [ofRows_same e]
    exact Inner.isMasked mul add h nd zb

/-- C78, two phases: right if the work of every row is less than `W`. Missing: rows with more work, for which
`C78_two_phase_iff` tells when the result is wrong. -/
theorem C78_two_phase_partial (mul add : V → V → V) {A : CSR V} {B : CSC V} {M : CSR V} {W : Nat} (h : ValidC A B M)
    (nd : M.NodupRows) (hf : FitsC W A B M) (hw : ∀ i < A.rows, innerWork A B M i < W) (zb : Bool) {nt dflt : Nat}
    (hn : 0 < setNumThreads nt dflt) :
    ∃ C, Computes (Wid.Inner.spgemm2p W mul add A B M zb nt dflt) A.rows (setNumThreads nt dflt) C ∧
      IsMaskedC mul add A B M C := by
  refine (C78_two_phase_iff mul add h nd hf zb hn).2 ?_
  intro i hi hd j hj
  have h0 : innerWork A B M i = 0 := Nat.eq_zero_of_dvd_of_lt hd (hw i hi)
  have h1 := Inner.innerRow_nil mul add (A := A) (B := B) (M := M) (i := i) (by rw [← innerWork_eq]; exact h0)
  cases hdot : dotC mul add A B i j with
  | none => rfl
  | some v =>
    have : (j, v) ∈ Inner.innerRow mul add A B M i := by
      unfold Inner.innerRow
      simp only [List.mem_filterMap]
      exact ⟨j, hj, by rw [hdot]; rfl⟩
    rw [h1] at this
    cases this

section FamilyC

/-- The matrix, stored by columns, in which every entry is 1. -/
def fullC (r c : Nat) : CSC Int := Conv.ofCols r c fun _ => (List.range r).map fun j => (j, 1)

theorem fullC_wf (r c : Nat) : (fullC r c).WF := by
  apply Conv.ofCols_wf
  intro i _ x hx
  simp only [List.mem_map, List.mem_range] at hx
  obtain ⟨j, hj, rfl⟩ := hx
  exact hj

theorem fullC_col {r c j : Nat} (hj : j < c) : (fullC r c).col j = (List.range r).map fun i => (i, 1) :=
  Conv.ofCols_col _ _ _ hj

theorem fullC_nnz (r c : Nat) : (fullC r c).nnz = c * r := full_nnz c r

theorem fullC_sorted (r c : Nat) : (fullC r c).SortedCols := fun j hj => by
  unfold fullC
  rw [Conv.ofCols_colRows _ _ _ (show j < c from hj), List.map_map]
  exact (List.map_id' (List.range r)).symm ▸ List.pairwise_lt_range

theorem fullC_valid {r k c : Nat} (hr : 0 < r) : ValidC (full r k) (fullC k c) (full r c) :=
  ⟨full_wf r k, fullC_wf k c, full_wf r c, rfl, rfl, rfl, hr,
   fun i hi => by rw [full_cols (show i < r from hi)]; exact List.pairwise_lt_range, fullC_sorted k c⟩

theorem fullC_work {r k c i : Nat} (hi : i < r) (hk : 0 < k) :
    innerWork (full r k) (fullC k c) (full r c) i = c * (k + k) := by
  unfold innerWork
  rw [full_cols hi]
  have : (List.range c).map (fun j => if (full r k).row i = [] ∨ (fullC k c).col j = [] then 0
      else ((full r k).row i).length + ((fullC k c).col j).length) = (List.range c).map fun _ => k + k := by
    apply List.map_congr_left
    intro j hj
    rw [full_row hi, fullC_col (List.mem_range.1 hj)]
    have : (List.range k).map (fun j => (j, (1 : Int))) ≠ [] := by
      simp only [ne_eq, List.map_eq_nil_iff, List.range_eq_nil]; omega
    simp [this]
  rw [this, sum_map_range, psum_const]

/-- C78 is violated by the two-phase call: for every size `k` and every width `c ≥ 2`, with an index type of `2 * k * c`
values, the product of a full row by a full matrix under a full mask has `c` entries, and the call returns none. -/
theorem C78_violated {k c : Nat} (hk : 0 < k) (hc : 1 < c) :
    FitsC (c * (k + k)) (full 1 k) (fullC k c) (full 1 c) ∧
    (∀ j < c, (dotC (· * ·) (· + ·) (full 1 k) (fullC k c) 0 j).isSome) ∧
    ∃ C, Computes (Wid.Inner.spgemm2p (c * (k + k)) (· * ·) (· + ·) (full 1 k) (fullC k c) (full 1 c) true 1 1) 1 1 C ∧
      C.row 0 = [] := by
  have hv : ValidC (full 1 k) (fullC k c) (full 1 c) := fullC_valid (by decide)
  have h2 : k < c * k := by
    have := Nat.mul_lt_mul_of_pos_right hc hk
    omega
  have h3 : c ≤ c * k := Nat.le_mul_of_pos_right _ hk
  have hf : FitsC (c * (k + k)) (full 1 k) (fullC k c) (full 1 c) := by
    rw [Nat.mul_add]
    exact ⟨by show 1 < _; omega, by show k < _; omega, by show c < _; omega, by rw [full_nnz]; omega,
      by rw [fullC_nnz]; omega, by rw [full_nnz]; omega⟩
  obtain ⟨C, D, hC, -, -, -, hrow⟩ := C78_two_phase_rows (· * ·) (· + ·) hv (full_nodup 1 c) hf true
    (nt := 1) (dflt := 1) (by decide)
  refine ⟨hf, ?_, C, hC, ?_⟩
  · intro j hj
    have hm : (1 : Int) ∈ contribsC (fun a b : Int => a * b) (full 1 k) (fullC k c) 0 j := by
      unfold contribsC
      rw [full_row (by decide), fullC_col hj]
      simp only [List.mem_flatMap, List.mem_filterMap, List.mem_map, List.mem_range]
      exact ⟨(0, 1), ⟨0, hk, rfl⟩, (0, 1), ⟨0, hk, rfl⟩, rfl⟩
    unfold dotC
    cases hl : contribsC (fun a b : Int => a * b) (full 1 k) (fullC k c) 0 j with
    | nil => rw [hl] at hm; cases hm
    | cons a l => rfl
  · have := hrow 0 (show 0 < 1 by decide)
    rw [this, fullC_work (by decide) hk, if_pos (Nat.dvd_refl _)]

/-- 32-bit indices: a row of `2 ^ 15` entries and a matrix of size `2 ^ 15` by `2 ^ 16`. -/
example : FitsC (2 ^ 32) (full 1 (2 ^ 15)) (fullC (2 ^ 15) (2 ^ 16)) (full 1 (2 ^ 16)) ∧
    ∃ C, Computes (Wid.Inner.spgemm2p (2 ^ 32) (· * ·) (· + ·) (full 1 (2 ^ 15)) (fullC (2 ^ 15) (2 ^ 16))
      (full 1 (2 ^ 16)) true 1 1) 1 1 C ∧ C.row 0 = [] := by
  have e : 2 ^ 16 * (2 ^ 15 + 2 ^ 15) = 2 ^ 32 := by norm_num
  have h := C78_violated (k := 2 ^ 15) (c := 2 ^ 16) (by norm_num) (by norm_num)
  rw [e] at h
  exact ⟨h.1, h.2.2⟩

/-- The hypotheses of the other C78 theorems hold for three full rows and 32-bit indices; the total work,
`3 * 2 ^ 31`, does not fit. -/
example : ValidC (full 3 (2 ^ 15)) (fullC (2 ^ 15) (2 ^ 15)) (full 3 (2 ^ 15)) ∧
    (full 3 (2 ^ 15)).NodupRows ∧ FitsC (2 ^ 32) (full 3 (2 ^ 15)) (fullC (2 ^ 15) (2 ^ 15)) (full 3 (2 ^ 15)) ∧
    ∀ i < 3, innerWork (full 3 (2 ^ 15)) (fullC (2 ^ 15) (2 ^ 15)) (full 3 (2 ^ 15)) i = 2 ^ 31 := by
  refine ⟨fullC_valid (by decide), full_nodup _ _, ⟨?_, ?_, ?_, ?_, ?_, ?_⟩, ?_⟩
  · show 3 < 2 ^ 32; norm_num
  · show 2 ^ 15 < 2 ^ 32; norm_num
  · show 2 ^ 15 < 2 ^ 32; norm_num
  · rw [full_nnz]; norm_num
  · rw [fullC_nnz]; norm_num
  · rw [full_nnz]; norm_num
  · intro i hi
    rw [fullC_work hi (by norm_num)]; norm_num

end FamilyC

end Verif.Props
