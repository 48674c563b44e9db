import Verif.Props.Examples
import Verif.SpecLegacy
import Verif.Lemmas.HeapGenPlain
import Verif.Lemmas.HeapGenNeg

/-!
# C74, C75, C76: the generic heap driver

`HeapSpGEMM<RowAlgorithm>` of `/repo/heap_mult_generic.h`. C74: the masked heaps. C75: the mask compressed accumulators; the full claim
(the masked product for all matrices with sorted rows) is false for all three versions, see the theorems below, and the proved part says
for which inputs it holds. C76: the heaps without a mask.
-/

namespace Verif.Props
open Verif.Model
open _root_.Verif.Spec (Valid AssocComm IsMasked IsPlainProduct Computes Admissible Fair touched)

variable {V : Type}

theorem gen_computes {alg : Gen.Alg V} {mul add : V → V → V} {A B M : CSR V} {exp : Nat → List (Nat × V)} {bound : Nat → Nat}
    {Inv : Nat → Nat → alg.Aux → Prop} (hc : Gen.Contract alg mul add A B M exp bound Inv) (hA : A.WF) (hB : B.WF) (hAB : A.cols = B.rows)
    (hrows : 0 < A.rows) (zero : V) (zb : Bool) {nt dflt : Nat} (hd : 0 < dflt) (hbig : A.rows < 2 ^ 17 ∨ dflt ≤ A.rows) :
    Computes (Gen.heapSpGEMM alg mul add zero A B M zb nt dflt) A.rows (max nt dflt) (ofRows A.rows B.cols zb exp) where
  safe sch ho := by
    rcases Gen.heapSpGEMM_spec hc hA hB hAB hrows zero zb (nt := nt) hd hbig sch ho with ⟨h, -⟩ | h
    · exact Or.inl h
    · exact Or.inr h
  live := by
    refine ⟨stepBound exp A.rows, fun sch ho hf => ?_⟩
    rcases Gen.heapSpGEMM_spec hc hA hB hAB hrows zero zb (nt := nt) hd hbig sch ho with ⟨-, h⟩ | h
    · exfalso
      have hle : setNumThreads nt dflt ≤ max nt dflt := by unfold setNumThreads; split <;> omega
      rcases h with ⟨t, ht, h⟩ | ⟨t, ht, h⟩
      · have := hf t (by omega); omega
      · have := hf t (by omega); omega
    · exact h

theorem masked_len {mul add : V → V → V} {A B M : CSR V} (hM : M.WF) {i : Nat} (hnd : (M.rowCols i).Nodup) :
    (maskedRow mul add A B M i).length ≤ min (Bin.nprod A B i) (M.row i).length := by
  have h := maskedRow_bound (mul := mul) (add := add) (A := A) (B := B) hM hnd
  unfold boundOf flopsOf at h
  simp only [Bool.false_eq_true, if_false] at h
  unfold Bin.nprod
  split at h <;> omega

/-- C74: the masked heaps `MaskedHeap_v0`, `MaskedHeap_v1`, `MaskedHeap_v2` of the generic driver compute the masked product. `numThreads`
is the argument (0: the default team size `dflt`). -/
theorem C74_masked_heaps (ver : Old.Ver) (mul add : V → V → V) (hadd : AssocComm add) (zero : V) {A B M : CSR V} (h : Valid A B M)
    (sB : B.SortedRows) (sM : M.SortedRows) (zb : Bool) (numThreads : Nat) {dflt : Nat} (hd : 0 < dflt)
    (hbig : A.rows < 2 ^ 17 ∨ dflt ≤ A.rows) :
    ∃ C, IsMasked mul add A B M C ∧ (zb = true → C.WF) ∧
      Computes (Gen.heapSpGEMM (Gen.masked ver) mul add zero A B M zb numThreads dflt) A.rows (max numThreads dflt) C := by
  have hnd : M.NodupRows := fun i hi => (sM i hi).imp (fun h => Nat.ne_of_lt h)
  refine ⟨maskedMat mul add A B M zb, maskedMat_isMasked h.shapes.ma zb hnd, ?_, ?_⟩
  · rintro rfl; exact maskedMat_wf h.wfB
  · refine gen_computes (Gen.contract_masked hadd h.wfA h.wfM h.shapes.ma (fun i hi => ?_) ver (fun i hi => ?_)) h.wfA h.wfB h.shapes.ab
      h.rowsPos zero zb hd hbig
    · have hi' : i < M.rows := h.shapes.ma ▸ hi
      exact { wfA := h.wfA, wfB := h.wfB, wfM := h.wfM, sh := h.shapes, nodup := hnd i hi', lt := hi, sB := sB, sM := sM i hi' }
    · exact masked_len h.wfM (hnd i (h.shapes.ma ▸ hi))

example := C74_masked_heaps .v2 (· * ·) (· + ·) ⟨Int.add_assoc, Int.add_comm⟩ (0 : Int) Ex.validM Ex.sortedB Ex.sortedM true 0
  (dflt := 2) (by decide) (Or.inl (by decide))

example : Gen.heapSpGEMM (Gen.masked .v1) (· * ·) (· + ·) 0 Ex.A Ex.B Ex.M true 0 2 Ex.sched2 = .ok (some Ex.C) := by decide +kernel

/-- C74, C75, C76, violated for matrices without rows: no run returns, with any row algorithm. -/
theorem C74_violated_no_rows (alg : Gen.Alg V) (mul add : V → V → V) (zero : V) {A B M : CSR V} (h0 : A.rows = 0) (zb : Bool)
    (numThreads dflt : Nat) (sch : Scheds) (r : Option (CSR V)) : Gen.heapSpGEMM alg mul add zero A B M zb numThreads dflt sch ≠ .ok r :=
  Gen.no_rows h0 zero zb numThreads dflt sch r

example : Gen.heapSpGEMM (Gen.masked .v0) (· * ·) (· + ·) (0 : Int) ⟨0, 3, 0, [0], [], [], true⟩ Ex.B ⟨0, 3, 0, [0], [], [], true⟩ true 0 2
    ⟨[], [], [], [], []⟩ = .error .oob := by decide +kernel

/-! ## C76 -/

/-- C76: `BasicHeap` (`threshold = 0`) and `HeapLinear<threshold>` of the generic driver compute the product with sorted rows. -/
theorem C76_plain_heaps (threshold : Nat) (mul add : V → V → V) (hadd : AssocComm add) (zero : V) {A B : CSR V} (hA : A.WF) (hB : B.WF)
    (hAB : A.cols = B.rows) (hrows : 0 < A.rows) (sB : B.SortedRows) (M : CSR V) (numThreads : Nat) {dflt : Nat} (hd : 0 < dflt)
    (hbig : A.rows < 2 ^ 17 ∨ dflt ≤ A.rows) :
    ∃ C, IsPlainProduct mul add true A B C ∧
      Computes (Gen.heapSpGEMM (Gen.plain threshold) mul add zero A B M true numThreads dflt) A.rows (max numThreads dflt) C := by
  refine ⟨_, ?_, gen_computes (Gen.contract_plain hadd hA hB hAB sB threshold M) hA hB hAB hrows zero true hd hbig⟩
  have hmem : ∀ i j v, (j, v) ∈ Gen.prodRow mul add A B i ↔ Spec.dot mul add A B i j = some v := by
    intro i j v
    unfold Gen.prodRow
    simp only [List.mem_filterMap, List.mem_range, Option.map_eq_some_iff, Prod.mk.injEq]
    constructor
    · rintro ⟨j', -, v', h, rfl, rfl⟩; exact h
    · intro h; exact ⟨j, dot_lt hB h, v, h, rfl, rfl⟩
  have hsub : ∀ i, ((Gen.prodRow mul add A B i).map Prod.fst).Pairwise (· < ·) := fun i =>
    List.pairwise_lt_range.sublist (filterMap_fst_sublist _)
  refine ⟨ofRows_wf _ _ _ _ rfl (fun i _ x hx => dot_lt hB ((hmem i x.1 x.2).1 hx)), rfl, rfl, ?_, ?_, fun _ => ?_⟩
  · intro i hi j v
    rw [ofRows_row _ _ _ _ hi]; exact hmem i j v
  · intro i hi
    have hi' : i < A.rows := hi
    rw [ofRows_rowCols _ _ _ _ hi']
    exact (hsub i).imp (fun h => Nat.ne_of_lt h)
  · intro i hi
    have hi' : i < A.rows := hi
    rw [ofRows_rowCols _ _ _ _ hi']
    exact hsub i

example := C76_plain_heaps 16 (· * ·) (· + ·) ⟨Int.add_assoc, Int.add_comm⟩ (0 : Int) Ex.wfA Ex.wfB rfl (by decide) Ex.sortedB Ex.M 3
  (dflt := 2) (by decide) (Or.inl (by decide))

example : Gen.heapSpGEMM (Gen.plain 16) (· * ·) (· + ·) 0 Ex.A Ex.B Ex.M true 2 2 Ex.sched2 = .ok (some
    { rows := 3, cols := 3, nnz := 6, rowptr := [0, 3, 4, 6], colids := [0, 1, 2, 2, 0, 2], values := [7, 8, 2, 15, 4, 33] }) := by
  decide +kernel

/-! ## C75 -/

/-- What the mask compressed accumulators need. `covered`: a row with products has a mask row that is not empty (not needed by version 2).
`fits`: the room for a row has as many cells as there are products (or entries of the mask row, if they are fewer), but a value is put
at the position of its column in the mask row. `same`: the first column of a row of `B` is read from the other matrix (not version 3). -/
structure McaInputs (ver : Gen.MVer) (A B M : CSR V) : Prop where
  sB : B.SortedRows
  sM : M.SortedRows
  covered : ver ≠ .v2 → ∀ i < A.rows, touched A B i ≠ [] → M.rowCols i ≠ []
  fits : ∀ i < A.rows, ∀ j ∈ touched A B i, j ∈ M.rowCols i → (M.rowCols i).idxOf j < (touched A B i).length
  same : ver ≠ .v3 → A.colids = B.colids ∧ ∀ k ∈ A.colids, B.ptr k < B.nnz

theorem touched_eq (A B : CSR V) (i : Nat) : touched A B i = (visits A B i).map (·.1) := by
  unfold touched visits
  rw [List.map_flatMap]
  simp only [List.map_map]
  rfl

theorem mca_contract (ver : Gen.MVer) (mul add : V → V → V) {A B M : CSR V} (h : Valid A B M) (hm : McaInputs ver A B M) :
    Gen.Contract (Gen.mca ver) mul add A B M (maskedRow mul add A B M) (fun i => min (Bin.nprod A B i) (M.row i).length)
      (fun lo hi (f : List Bool) => ∀ i, lo ≤ i → i < hi → (M.row i).length ≤ f.length) := by
  have hnd : M.NodupRows := fun i hi => (hm.sM i hi).imp (fun h => Nat.ne_of_lt h)
  refine Gen.contract_mca ⟨h.wfA, h.wfB, h.wfM, h.shapes, hnd⟩ hm.sB hm.sM ver (fun i hi => ?_) (fun i hi he => ?_)
    (fun i hi x hx hc => ?_) (fun i hi => masked_len h.wfM (hnd i (h.shapes.ma ▸ hi)))
  · intro hv j _ hj2
    obtain ⟨e, hk⟩ := hm.same hv
    have hjn : j < A.nnz := Nat.lt_of_lt_of_le hj2 (CSR.ptr_le_nnz h.wfA hi)
    have hjc : j < A.colids.length := by rw [h.wfA.colLen]; exact hjn
    have hn : A.nnz = B.nnz := by rw [← h.wfA.colLen, ← h.wfB.colLen, e]
    refine ⟨?_, fun _ => by rw [e]⟩
    rw [hn]
    apply hk
    have : A.colids.getD j 0 = A.colids[j] := by simp [hjc]
    rw [this]; exact List.getElem_mem hjc
  · by_cases hv : ver = .v2
    · exact Or.inl hv
    · right
      by_contra hne
      refine hm.covered hv i hi ?_ he
      rw [touched_eq]
      simpa using hne
  · have := hm.fits i hi x.1 (by rw [touched_eq]; exact List.mem_map.2 ⟨x, hx, rfl⟩) hc
    rw [touched_eq, List.length_map] at this
    exact this

/-- C75 in the cases in which it holds. -/
theorem C75_mca_partial (ver : Gen.MVer) (mul add : V → V → V) (zero : V) {A B M : CSR V} (h : Valid A B M) (hm : McaInputs ver A B M)
    (zb : Bool) (numThreads : Nat) {dflt : Nat} (hd : 0 < dflt) (hbig : A.rows < 2 ^ 17 ∨ dflt ≤ A.rows) :
    ∃ C, IsMasked mul add A B M C ∧ (zb = true → C.WF) ∧
      Computes (Gen.heapSpGEMM (Gen.mca ver) mul add zero A B M zb numThreads dflt) A.rows (max numThreads dflt) C := by
  have hnd : M.NodupRows := fun i hi => (hm.sM i hi).imp (fun h => Nat.ne_of_lt h)
  refine ⟨maskedMat mul add A B M zb, maskedMat_isMasked h.shapes.ma zb hnd, ?_, ?_⟩
  · rintro rfl; exact maskedMat_wf h.wfB
  · exact gen_computes (mca_contract ver mul add h hm) h.wfA h.wfB h.shapes.ab h.rowsPos zero zb hd hbig

theorem pos_of_mem {A : CSR V} (hA : A.WF) {i k : Nat} (hi : i < A.rows) (hk : k ∈ A.rowCols i) :
    ∃ j, A.ptr i ≤ j ∧ j < A.ptr (i + 1) ∧ A.colids.getD j 0 = k := by
  obtain ⟨n, hn, rfl⟩ := List.getElem_of_mem hk
  have hlen := CSR.rowCols_length hA hi
  have hle : A.ptr (i + 1) ≤ A.colids.length := by rw [hA.colLen]; exact CSR.ptr_le_nnz hA hi
  refine ⟨A.ptr i + n, by omega, by omega, ?_⟩
  have := Mca.slice_getD (l := A.colids) (lo := A.ptr i) (hi := A.ptr (i + 1)) (i := n) (by omega) hle
  rw [show slice A.colids (A.ptr i) (A.ptr (i + 1)) = A.rowCols i from rfl, List.getElem?_eq_getElem hn] at this
  exact (Option.some.inj this).symm

/-- C75, violated: versions 1 and 2 read `A.colids[B.rowptr[k]]`. If that is outside of the array for an entry of column `k` in some row of
`A` then no run returns a matrix. -/
theorem C75_violated_key {ver : Gen.MVer} (hv : ver ≠ .v3) (mul add : V → V → V) (zero : V) {A B M : CSR V} (h : Valid A B M)
    (hnd : M.NodupRows) {i k : Nat} (hi : i < A.rows) (hk : k ∈ A.rowCols i) (hbad : A.nnz ≤ B.ptr k) (zb : Bool) (numThreads : Nat)
    {dflt : Nat} (hd : 0 < dflt) (hbig : A.rows < 2 ^ 17 ∨ dflt ≤ A.rows) (sch : Scheds) (ho : Admissible A.rows sch) (C : CSR V) :
    Gen.heapSpGEMM (Gen.mca ver) mul add zero A B M zb numThreads dflt sch ≠ .ok (some C) := by
  obtain ⟨j, hj1, hj2, rfl⟩ := pos_of_mem h.wfA hi hk
  exact Gen.never_row h.wfA h.wfB h.shapes.ab zero zb hd hbig sch ho hi
    (fun lo hi h1 h2 => (Gen.start_mca ⟨h.wfA, h.wfB, h.wfM, h.shapes, hnd⟩ zero ver h1 h2).elim fun n h => ⟨_, h⟩)
    (Gen.mcaRow_fail h.wfA hi hj1 hj2 h.wfM (h.shapes.ma ▸ hi) (Gen.turn_key h.wfA h.wfB h.shapes.ab hi hj2 hv hbad _ _)) C

/-- C75, violated: versions 1 and 3 walk past an empty mask row. If it and all later ones are empty and the row has a product then no run
returns a matrix. -/
theorem C75_violated_empty {ver : Gen.MVer} (hv : ver ≠ .v2) (mul add : V → V → V) (zero : V) {A B M : CSR V} (h : Valid A B M)
    (hnd : M.NodupRows) {i : Nat} (hi : i < A.rows) (hprod : touched A B i ≠ []) (hbad : M.ptr i = M.nnz) (zb : Bool) (numThreads : Nat)
    {dflt : Nat} (hd : 0 < dflt) (hbig : A.rows < 2 ^ 17 ∨ dflt ≤ A.rows) (sch : Scheds) (ho : Admissible A.rows sch) (C : CSR V) :
    Gen.heapSpGEMM (Gen.mca ver) mul add zero A B M zb numThreads dflt sch ≠ .ok (some C) := by
  obtain ⟨x, hx⟩ := List.exists_mem_of_ne_nil _ hprod
  unfold Spec.touched at hx
  obtain ⟨⟨k, a⟩, hka, hx⟩ := List.mem_flatMap.1 hx
  have hk : k ∈ A.rowCols i := by rw [← CSR.row_map_fst h.wfA]; exact List.mem_map.2 ⟨_, hka, rfl⟩
  obtain ⟨j, hj1, hj2, rfl⟩ := pos_of_mem h.wfA hi hk
  obtain ⟨e1, h1⟩ := Gen.rd_row_col h.wfA hi hj2
  have hlen := CSR.row_length h.wfB (h.shapes.ab ▸ h1)
  have hpos : 0 < (B.row (A.colids.getD j 0)).length := by
    obtain ⟨y, hy, -⟩ := List.mem_map.1 hx
    exact List.length_pos_of_mem hy
  exact Gen.never_row h.wfA h.wfB h.shapes.ab zero zb hd hbig sch ho hi
    (fun lo hi h1 h2 => (Gen.start_mca ⟨h.wfA, h.wfB, h.wfM, h.shapes, hnd⟩ zero ver h1 h2).elim fun n h => ⟨_, h⟩)
    (Gen.mcaRow_fail h.wfA hi hj1 hj2 h.wfM (h.shapes.ma ▸ hi)
      (Gen.turn_mask h.wfA h.wfB h.shapes.ab h.wfM hi hj2 hv (by omega) (by omega) _)) C

/-- C75, violated: one row, and a column of the result whose position in the mask row is not less than the number of products. Version 3
writes outside of its buffer, so no run returns a matrix. -/
theorem C75_violated_room (mul add : V → V → V) (zero : V) {A B M : CSR V} (h : Valid A B M) (sB : B.SortedRows) (sM : M.SortedRows)
    (h1 : A.rows = 1) {j : Nat} (hj : j ∈ touched A B 0) (hjM : j ∈ M.rowCols 0) (hbad : (touched A B 0).length ≤ (M.rowCols 0).idxOf j)
    (zb : Bool) (numThreads : Nat) {dflt : Nat} (hd : 0 < dflt) (sch : Scheds) (ho : Admissible A.rows sch) (C : CSR V) :
    Gen.heapSpGEMM (Gen.mca .v3) mul add zero A B M zb numThreads dflt sch ≠ .ok (some C) := by
  have hnd : M.NodupRows := fun i hi => (sM i hi).imp (fun h => Nat.ne_of_lt h)
  rw [touched_eq] at hj hbad
  rw [List.length_map] at hbad
  obtain ⟨x, hx, rfl⟩ := List.mem_map.1 hj
  exact Gen.one_row ⟨h.wfA, h.wfB, h.wfM, h.shapes, hnd⟩ sB sM h1 zero zb hd sch ho (fun h => absurd rfl h) ⟨x, hx, hjM, hbad⟩ C

/-! ### Versions 1 and 2 store an entry in the wrong column -/

/-- `[a]`, the row `[0 … 0 b]` with `b` in column `c`, and a full mask of one row. -/
def keyA (a : V) : CSR V := { rows := 1, cols := 1, nnz := 1, rowptr := [0, 1], colids := [0], values := [a] }
def keyB (c : Nat) (b : V) : CSR V := { rows := 1, cols := c + 1, nnz := 1, rowptr := [0, 1], colids := [c], values := [b] }
def keyM (c : Nat) (x : V) : CSR V :=
  { rows := 1, cols := c + 1, nnz := c + 1, rowptr := [0, c + 1], colids := List.range (c + 1), values := List.replicate (c + 1) x }

theorem keyM_row (c : Nat) (x : V) : (keyM c x).rowCols 0 = List.range (c + 1) := by
  show slice (List.range (c + 1)) 0 (c + 1) = _
  unfold slice
  simp

theorem key_valid (a b x : V) (c : Nat) : Valid (keyA a) (keyB c b) (keyM c x) := by
  refine ⟨⟨rfl, rfl, rfl, ?_, rfl, rfl, rfl, ?_⟩, ⟨rfl, rfl, rfl, ?_, rfl, rfl, rfl, ?_⟩, ⟨rfl, rfl, rfl, ?_, rfl, ?_, ?_, ?_⟩, ⟨rfl, rfl, rfl⟩,
    Nat.zero_lt_one⟩
  · intro i hi
    obtain rfl : i = 0 := by have : i < 1 := hi; omega
    show 0 ≤ 1; decide
  · intro k hk; have : k = 0 := by simpa [keyA] using hk
    subst this; exact Nat.zero_lt_one
  · intro i hi
    obtain rfl : i = 0 := by have : i < 1 := hi; omega
    show 0 ≤ 1; decide
  · intro k hk; have : k = c := by simpa [keyB] using hk
    subst this; exact Nat.lt_succ_self _
  · intro i hi
    obtain rfl : i = 0 := by have : i < 1 := hi; omega
    exact Nat.zero_le _
  · simp [keyM]
  · simp [keyM]
  · intro k hk
    have : k < c + 1 := by simpa [keyM] using hk
    exact this

theorem key_sorted (b x : V) (c : Nat) : (keyB c b).SortedRows ∧ (keyM c x).SortedRows := by
  constructor
  · intro i hi
    obtain rfl : i = 0 := by have : i < 1 := hi; omega
    show (slice [c] 0 1).Pairwise (· < ·)
    unfold slice; simp
  · intro i hi
    obtain rfl : i = 0 := by have : i < 1 := hi; omega
    rw [keyM_row]; exact List.pairwise_lt_range

theorem key_contract {ver : Gen.MVer} (hv : ver ≠ .v3) (mul add : V → V → V) (a b x : V) (c : Nat) :
    Gen.Contract (Gen.mca ver) mul add (keyA a) (keyB c b) (keyM c x) (fun _ => [(0, mul a b)])
      (fun i => min (Bin.nprod (keyA a) (keyB c b) i) ((keyM c x).row i).length)
      (fun lo hi (f : List Bool) => ∀ i, lo ≤ i → i < hi → ((keyM c x).row i).length ≤ f.length) := by
  have h := key_valid a b x c
  obtain ⟨sB, sM⟩ := key_sorted b x c
  have hnd : (keyM c x).NodupRows := fun i hi => (sM i hi).imp (fun h => Nat.ne_of_lt h)
  have hrl : ((keyM c x).row 0).length = c + 1 := by
    have := congrArg List.length (keyM_row c x)
    rw [← CSR.row_map_fst h.wfM] at this
    simpa using this
  have hnp : Bin.nprod (keyA a) (keyB c b) 0 = 1 := rfl
  refine ⟨fun lo hi h1 h2 => Gen.maskedSize_ok h.wfM h1 h2 rfl, fun lo hi h1 h2 => ?_, ?_⟩
  · obtain ⟨m, e1, e2⟩ := Gen.longest_ok h.wfM h1 h2
    refine ⟨List.replicate m false, ?_, ?_⟩
    · show (do let n ← Gen.longest (keyM c x) lo hi; .ok (List.replicate n false) : Res (List Bool)) = _
      rw [e1]; rfl
    · simpa using e2
  · intro lo hi i f bf h1 h2 h3 hinv hb
    obtain rfl : hi = 1 := by have : hi ≤ 1 := h3; omega
    obtain rfl : i = 0 := by omega
    obtain rfl : lo = 0 := by omega
    have hL : psum (fun i => min (Bin.nprod (keyA a) (keyB c b) i) ((keyM c x).row i).length) 1 -
        psum (fun i => min (Bin.nprod (keyA a) (keyB c b) i) ((keyM c x).row i).length) 0 = 1 := by
      simp only [psum, hnp, hrl]; omega
    rw [hL] at hb ⊢
    have hfl : c + 1 ≤ List.length f := by have := hinv 0 (Nat.le_refl _) (by omega); rw [hrl] at this; exact this
    rw [seg_self] at hb
    have hp : bf.pos = 0 ∧ bf.vals.length = 2 := by
      obtain ⟨c0, v0, rc, rv, q1, q2, q3, q4, q5⟩ := hb
      refine ⟨q3, ?_⟩
      rw [q2]; simpa using q5
    obtain ⟨fl, e1, f1, f2⟩ := Gen.flags_ok (k := c + 1) f rfl hfl
    have hturn : ∀ s : List V × List Bool, s.1.length = 2 → s.2[0]? = some false →
        Gen.mcaTurn ver mul add (keyA a) (keyB c b) (keyM c x) 0 (c + 1) 0 0 s = .ok (s.1.set 1 (mul a b), s.2.set 0 true) := by
      intro s hs1 hs2
      have hhit : Gen.hit mul add (keyA a) (keyB c b) 0 0 0 0 s = .ok (s.1.set 1 (mul a b), s.2.set 0 true) := by
        unfold Gen.hit
        rw [show rd (keyA a).values 0 = .ok a from rfl, ok_bind, show rd (keyB c b).values 0 = .ok b from rfl, ok_bind,
          rd_of_getElem? hs2, ok_bind]
        simp only [Bool.not_false, if_true]
        rw [wr_of_lt (by omega), ok_bind, wr_of_lt (List.getElem?_eq_some_iff.1 hs2).1, ok_bind]
      have hm0 : rd (keyM c x).colids 0 = .ok 0 := rd_of_getElem? (by simp [keyM])
      unfold Gen.mcaTurn
      rw [show rd (keyA a).colids 0 = .ok 0 from rfl, ok_bind, show rd (keyB c b).rowptr 0 = .ok 0 from rfl, ok_bind,
        show rd (keyB c b).rowptr (0 + 1) = .ok 1 from rfl, ok_bind]
      cases ver
      · simp only [show rd (keyA a).colids 0 = .ok 0 from rfl, ok_bind]
        rw [if_neg (by decide), show 1 - 0 + ((keyM c x).colids.length - 0) = (keyM c x).colids.length + 1 by omega]
        unfold Gen.walk
        rw [hm0, ok_bind]
        simp only [Nat.lt_irrefl, if_false, gt_iff_lt, Nat.sub_self, hhit, ok_bind]
      · simp only [show rd (keyA a).colids 0 = .ok 0 from rfl, ok_bind]
        rw [if_neg (by decide), show c + 1 - 0 = c + 1 from rfl]
        unfold Gen.walk2
        rw [hm0, ok_bind]
        rw [show Gen.skip (keyB c b) 1 0 (1 - 0) 0 0 = .ok (some (0, 0)) from rfl, ok_bind]
        simp only [if_true, Nat.sub_self, hhit, ok_bind]
        rfl
      · exact absurd rfl hv
    have hacc : Gen.Acc add (List.range (c + 1)) 0 f.length bf.vals [(0, mul a b)] (bf.vals.set 1 (mul a b), fl.set 0 true) := by
      refine ⟨by simp, by simpa using f1, ?_, ?_, ?_⟩
      · simp only [List.take_set_of_le (show 0 + 1 ≤ 1 by decide)]
      · intro idx k hk1 hk2
        have hik : idx < c + 1 ∧ idx = k := by simpa [List.getElem?_eq_some_iff] using hk1
        obtain ⟨hi, rfl⟩ := hik
        by_cases h0 : idx = 0
        · subst h0; simp [pick, Spec.sum1] at hk2
        · simp only [List.getElem?_set_ne (show 0 ≠ idx by omega)]
          exact f2 idx hi
      · intro idx k v hk1 hk2
        have hik : idx < c + 1 ∧ idx = k := by simpa [List.getElem?_eq_some_iff] using hk1
        obtain ⟨hi, rfl⟩ := hik
        by_cases h0 : idx = 0
        · subst h0
          have : mul a b = v := by simpa [pick, Spec.sum1] using hk2
          subst this
          simp only
          rw [List.getElem?_set_self (by omega), List.getElem?_set_self (by omega)]
          exact ⟨rfl, rfl⟩
        · have : ¬ 0 = idx := fun h => h0 h.symm
          simp [pick, this, Spec.sum1] at hk2
    have hfound : Msa.found add [(0, mul a b)] (List.range (c + 1)) = [(0, mul a b)] := by
      unfold Msa.found
      rw [List.range_succ_eq_map, List.filterMap_cons]
      simp [pick, Spec.sum1]
    have hcomp := Gen.compress_ok (M := keyM c x) (mb := 0) (ms := List.range (c + 1)) (ps := [(0, mul a b)]) (b := bf) (pre := []) (L := 1)
      (s := (bf.vals.set 1 (mul a b), fl.set 0 true)) (n := f.length) (add := add) hb (by rw [hp.1]; exact hacc)
      (by
        intro i k hk
        rw [Nat.zero_add]
        exact rd_of_getElem? hk) (by rw [hfound]; simp)
    rw [hfound, List.length_range, hp.1] at hcomp
    obtain ⟨b', g1, g2, g3⟩ := hcomp
    refine ⟨fl.set 0 true, b', some 1, ?_, ?_, ?_, Or.inl rfl⟩
    · show Gen.mcaRow ver mul add (keyA a) (keyB c b) (keyM c x) 0 f bf = _
      unfold Gen.mcaRow
      rw [show rd (keyM c x).rowptr 0 = .ok 0 from rfl, ok_bind, show rd (keyM c x).rowptr (0 + 1) = .ok (c + 1) from rfl, ok_bind]
      simp only [Nat.sub_zero]
      rw [e1, ok_bind, show rd (keyA a).rowptr 0 = .ok 0 from rfl, ok_bind, show rd (keyA a).rowptr (0 + 1) = .ok 1 from rfl, ok_bind,
        forRange_step (by decide), hp.1, hturn (bf.vals, fl) hp.2 (f2 0 (by omega)), ok_bind, forRange_of_le (by decide), ok_bind]
      simp only [g1, ok_bind]
      rw [show 0 + [(0, mul a b)].length = b'.pos by rw [g2]]
      rfl
    · intro i k1 k2
      have := hinv i k1 k2
      rw [← f1] at this
      simpa using this
    · rw [seg_snoc _ (Nat.le_refl _), seg_self]
      exact g3

/-- C75, violated: `[a]` times `[0 … 0 b]` with a full mask. For `c ≥ 1`, versions 1 and 2 store `a * b` in column 0 instead of column `c`, in
every run that returns, and the result is not the masked product. -/
theorem C75_violated_column {ver : Gen.MVer} (hv : ver ≠ .v3) (mul add : V → V → V) (zero a b x : V) {c : Nat} (hc : 0 < c) (zb : Bool)
    (numThreads : Nat) {dflt : Nat} (hd : 0 < dflt) :
    ∃ C, Computes (Gen.heapSpGEMM (Gen.mca ver) mul add zero (keyA a) (keyB c b) (keyM c x) zb numThreads dflt) 1 (max numThreads dflt) C ∧
      C.row 0 = [(0, mul a b)] ∧ ¬ IsMasked mul add (keyA a) (keyB c b) (keyM c x) C := by
  have h := key_valid a b x c
  have hrow : (ofRows 1 (c + 1) zb (fun _ => [(0, mul a b)])).row 0 = [(0, mul a b)] := ofRows_row _ _ _ _ (by decide)
  refine ⟨_, gen_computes (key_contract hv mul add a b x c) h.wfA h.wfB rfl Nat.zero_lt_one zero zb hd (Or.inl (by show 1 < 2 ^ 17; decide)),
    hrow, ?_⟩
  intro hm
  have h2 := ((hm.entries 0 Nat.zero_lt_one 0 (mul a b)).1 (by
    show (0, mul a b) ∈ (ofRows 1 (c + 1) zb (fun _ => [(0, mul a b)])).row 0
    rw [hrow]; simp)).2
  have h3 : Spec.dot mul add (keyA a) (keyB c b) 0 0 = none := by
    show Spec.sum1 add ((if c = 0 then some (mul a b) else none : Option V).toList ++ []) = none
    rw [if_neg (by omega)]; rfl
  rw [h3] at h2
  cases h2

/-! ### Examples -/

/-- The lower triangle of the complete graph with four vertices -/
def lowK4 : CSR Int :=
  { rows := 4, cols := 4, nnz := 6, rowptr := [0, 0, 1, 3, 6], colids := [0, 0, 1, 0, 1, 2], values := [1, 1, 1, 1, 1, 1] }

theorem lowK4_valid : Valid lowK4 lowK4 lowK4 :=
  have h : lowK4.WF := ⟨rfl, rfl, rfl, by decide, rfl, rfl, rfl, by decide⟩
  ⟨h, h, h, ⟨rfl, rfl, rfl⟩, by decide⟩

theorem lowK4_mca (ver : Gen.MVer) : McaInputs ver lowK4 lowK4 lowK4 :=
  ⟨by unfold CSR.SortedRows; decide, by unfold CSR.SortedRows; decide, fun _ => by decide, by decide, fun _ => ⟨rfl, by decide⟩⟩

example := C75_mca_partial .v1 (· * ·) (· + ·) (0 : Int) lowK4_valid (lowK4_mca .v1) true 0 (dflt := 2) (by decide) (Or.inl (by decide))

/-- The lower triangle of a graph with the triangle 2, 3, 4 and the edges 4-0, 4-1 -/
def lowG5 : CSR Int :=
  { rows := 5, cols := 5, nnz := 5, rowptr := [0, 0, 0, 0, 1, 5], colids := [2, 0, 1, 2, 3], values := [1, 1, 1, 1, 1] }

/-- A thread order for one thread -/
def one5 : Scheds := ⟨[0, 1, 2, 3, 4], List.replicate 60 0, List.replicate 60 0, List.replicate 60 0, List.replicate 60 0⟩

/-- Versions 1, 2 and 3 write outside of the buffer for this graph. -/
example : Gen.heapSpGEMM (Gen.mca .v1) (· * ·) (· + ·) 0 lowG5 lowG5 lowG5 true 1 1 one5 = .error .oob ∧
    Gen.heapSpGEMM (Gen.mca .v2) (· * ·) (· + ·) 0 lowG5 lowG5 lowG5 true 1 1 one5 = .error .oob ∧
    Gen.heapSpGEMM (Gen.mca .v3) (· * ·) (· + ·) 0 lowG5 lowG5 lowG5 true 1 1 one5 = .error .oob := by decide +kernel

example (sch : Scheds) (ho : Admissible 1 sch) (C : CSR Int) :
    Gen.heapSpGEMM (Gen.mca .v3) (· * ·) (· + ·) 0 (keyA 2) (keyB 3 5) (keyM 3 1) true 2 2 sch ≠ .ok (some C) :=
  C75_violated_room _ _ _ (key_valid _ _ _ _) (key_sorted 5 1 3).1 (key_sorted 5 1 3).2 rfl (j := 3) (by decide) (by decide) (by decide)
    _ _ (by decide) sch ho C

example := C75_violated_column (ver := .v1) (by decide) (· * ·) (· + ·) (0 : Int) 2 5 1 (c := 3) (by decide) true 0 (dflt := 2) (by decide)

/-- A row of `B` that starts behind the end of `A.colids` -/
def shortA : CSR Int := { rows := 1, cols := 3, nnz := 1, rowptr := [0, 1], colids := [2], values := [1] }

theorem shortA_valid : Valid shortA Ex.B (keyM 2 1) :=
  ⟨⟨rfl, rfl, rfl, by decide, rfl, rfl, rfl, by decide⟩, Ex.wfB, (key_valid (1 : Int) 1 1 2).wfM, ⟨rfl, rfl, rfl⟩, by decide⟩

example (sch : Scheds) (ho : Admissible 1 sch) (C : CSR Int) :
    Gen.heapSpGEMM (Gen.mca .v2) (· * ·) (· + ·) 0 shortA Ex.B (keyM 2 1) true 2 2 sch ≠ .ok (some C) :=
  C75_violated_key (by decide) _ _ _ shortA_valid (by unfold CSR.NodupRows; decide) (i := 0) (k := 2) (by decide) (by decide) (by decide) _ _
    (by decide) (Or.inl (by decide)) sch ho C

/-- A mask whose last row is empty -/
def lastM : CSR Int := { rows := 3, cols := 3, nnz := 2, rowptr := [0, 1, 2, 2], colids := [0, 2], values := [1, 1] }

theorem lastM_valid : Valid Ex.A Ex.B lastM := ⟨Ex.wfA, Ex.wfB, ⟨rfl, rfl, rfl, by decide, rfl, rfl, rfl, by decide⟩, ⟨rfl, rfl, rfl⟩, by decide⟩

example (sch : Scheds) (ho : Admissible 3 sch) (C : CSR Int) :
    Gen.heapSpGEMM (Gen.mca .v3) (· * ·) (· + ·) 0 Ex.A Ex.B lastM true 2 2 sch ≠ .ok (some C) :=
  C75_violated_empty (by decide) _ _ _ lastM_valid (by unfold CSR.NodupRows; decide) (i := 2) (by decide) (by decide) (by decide) _ _
    (by decide) (Or.inl (by decide)) sch ho C

end Verif.Props
