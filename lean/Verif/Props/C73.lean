import Verif.Model.HashIntersect
import Verif.Props.C72
import Verif.Props.C24
import Verif.Props.C31
import Verif.Props.C33
import Verif.Props.C53

/-! # C73: the other kernels of the triangle counting program -/

namespace Verif.Props

open Verif.Model Verif.Model.TriCnt
open _root_.Verif.Spec (undirected SortsDown Splits SortsGreater SortsBy triangles Algo SameMat triples)
open _root_.Verif.Spec (IsMaskedSet IsMasked dot)

section

variable {n : Nat} {R : Type} [Semiring R]

theorem row_nodup {V : Type} {X : CSR V} (h : X.WF) {i : Nat} (hnd : (X.rowCols i).Nodup) : (X.row i).Nodup := by
  rw [← CSR.row_map_fst h] at hnd
  exact List.Nodup.of_map _ hnd

/-- Two matrices with the same rows up to order have the same sum. -/
theorem reduce_congr {C D : CSR R} (hC : C.WF) (hD : D.WF) (hr : C.rows = D.rows) (nC : C.NodupRows) (nD : D.NodupRows)
    (h : ∀ i < C.rows, ∀ x, x ∈ C.row i ↔ x ∈ D.row i) : Graph.reduce C = Graph.reduce D := by
  rw [Graph.reduce_eq hC, Graph.reduce_eq hD, ← hr]
  congr 1
  refine List.map_congr_left fun i hi => ?_
  have hi := List.mem_range.1 hi
  exact (((List.perm_ext_iff_of_nodup (row_nodup hC (nC i hi)) (row_nodup hD (nD i (hr ▸ hi)))).2 (h i hi)).map Prod.snd).sum_eq

/-- A multiplication for the program: on the matrices that the program passes (the same matrix by rows and by columns, square, sorted) it
returns the masked product, with the entries of a row in any order, or does not finish and then `P`. -/
def CountsWith (n : Nat) (f : CSR R → CSC R → Res (Option (CSR R))) (P : Prop) : Prop :=
  ∀ X L, X.WF → L.WF → X.rows = n → X.cols = n → X.SortedRows → L.SortedCols → SameMat X L →
    (f X L = .ok none ∧ P) ∨ ∃ C, f X L = .ok (some C) ∧ IsMaskedSet (fun x y => x * y) (fun x y => x + y) X X X C

/-- C73: with any multiplication that returns the masked product the program returns the number of triangles. -/
theorem C73_any_kernel_partial {A : CSC R} (h : A.WF) (hr : A.rows = n) (hc : A.cols = n) (hnz : 0 < A.nnz)
    {sortP : List (Nat × Nat) → List (Nat × Nat)} (hP : SortsGreater sortP)
    {sortT : List (Nat × Nat × R) → List (Nat × Nat × R)} (hT : SortsDown sortT)
    {sortf : List (Nat × R) → List (Nat × R)} (hs : SortsBy Prod.fst sortf) {order : List Nat} (ho : order.Perm (List.range n))
    {f : CSR R → CSC R → Res (Option (CSR R))} {P : Prop} (hf : CountsWith n f P)
    {parts : Nat → List (List Nat)} (hp : ∀ k, Splits k (parts k)) :
    (countWith sortP sortT sortf order f A parts = .ok none ∧ P) ∨
      countWith sortP sortT sortf order f A parts = .ok (some (triangles (undirected n A) : R)) := by
  obtain ⟨L, X, e1, e2, lw, ls, xw, xr, xc, xs, xm, xn, -, hred⟩ := tri_square h hr hc hnz hP hT hs ho
  unfold countWith
  rw [e1, ok_bind, e2, ok_bind]
  rcases hf X L xw lw xr xc xs ls xm with ⟨e, hPP⟩ | ⟨C, e, hC⟩
  · exact Or.inl ⟨by rw [e]; rfl, hPP⟩
  · right
    rw [e, ok_bind]
    have hM := maskedMat_isMasked (mul := fun x y : R => x * y) (add := fun x y => x + y) (A := X) (B := X) (M := X) rfl true
      (Graph.nodup_of_sorted xs)
    have hsum : C.values.sum = (triangles (undirected n A) : R) := by
      rw [← hred]
      refine reduce_congr hC.wf (maskedMat_wf xw) (hC.rows.trans hM.rows.symm) hC.nodup hM.nodup ?_
      rintro i hi ⟨j, v⟩
      rw [hC.entries i (hC.rows ▸ hi), hM.entries i (hC.rows ▸ hi)]
    simp only
    rw [SumAll.sumall_acc (acc := fun s v : R => s + v) (f := id) (fun _ _ => rfl) id (by rw [hC.wf.valLen]; exact hp _), List.map_id, hsum]
    rfl

theorem valid_self {V : Type} {X : CSR V} (h : X.WF) (hsq : X.rows = X.cols) (h0 : 0 < X.rows) : Spec.Valid X X X :=
  ⟨h, h, h, ⟨hsq.symm, rfl, rfl⟩, h0⟩

/-- The kernel with a dense accumulator -/
theorem counts_spa (h0 : 0 < n) (hsmall : n + 1 < 2 ^ 17) {nt : Nat} (ht : 0 < nt) (nd : Nat) {sch : TwoPassSched} (ha : sch.Adm n nt) :
    CountsWith n (fun X _ => Spa.spaSpGEMM (fun x y : R => x * y) (fun x y => x + y) X X X 0 nt nd sch)
      (∃ t < nt, sch.count.count t ≤ n + 1 ∨ sch.fill.count t ≤ n + 1) := by
  intro X L xw _ xr xc _ _ _
  obtain ⟨C, h1, -, h3⟩ := C31_spa_partial (fun x y : R => x * y) (fun x y => x + y) (valid_self xw (xr.trans xc.symm) (xr ▸ h0)) (xr ▸ hsmall)
    0 ht nd
  rw [xr] at h3
  have hflip : (fun a b : R => b + a) = fun a b => a + b := by funext a b; exact add_comm _ _
  rw [hflip] at h1
  exact (h3 sch ha).imp id fun e => ⟨C, e, h1⟩

/-- The kernel with hash tables and bins -/
theorem counts_hash (h0 : 0 < n) (hsmall : n + 1 < 2 ^ 17) {nt : Nat} (ht : 0 < nt) (nd : Nat) {sch : TwoPassSched} (ha : sch.Adm n nt) :
    CountsWith n (fun X _ => LpMult.hashMask (fun x y : R => x * y) (fun x y => x + y) X X X 0 nt nd sch)
      (∃ t < nt, sch.count.count t ≤ n + 1 ∨ sch.fill.count t ≤ n + 1) := by
  intro X L xw _ xr xc _ _ _
  obtain ⟨C, h1, h3⟩ := C31_hash_partial (fun x y : R => x * y) (fun x y => x + y) (valid_self xw (xr.trans xc.symm) (xr ▸ h0)) (xr ▸ hsmall)
    0 ht nd
  rw [xr] at h3
  exact (h3 sch ha).imp id fun e => ⟨C, e, h1⟩

/-- The kernel with hash tables and without bins -/
theorem counts_wobin (h0 : 0 < n) (hsmall : n + 1 < 2 ^ 17) (nd : Nat) {order1 s1 s2 order2 : List Nat} (h1 : order1.Perm (List.range n))
    (h2 : order2.Perm (List.range n)) :
    CountsWith n (fun X _ => LpMult.hashMaskWobin (fun x y : R => x * y) (fun x y => x + y) X X X 0 nd order1 s1 s2 order2) False := by
  intro X L xw _ xr xc _ _ _
  obtain ⟨C, hC, h3⟩ := C31_wobin_partial (fun x y : R => x * y) (fun x y => x + y) (valid_self xw (xr.trans xc.symm) (xr ▸ h0)) (xr ▸ hsmall)
    0 nd
  exact Or.inr ⟨C, h3 _ s1 s2 _ (xr ▸ h1) (xr ▸ h2), hC⟩

/-- The older inner-product kernel -/
theorem counts_inner (h0 : 0 < n) (hsmall : n + 1 < 2 ^ 17) {nt : Nat} (ht : 0 < nt) (nd : Nat) {sch : Dot.Sched} (ha : sch.Adm n nt) :
    CountsWith n (fun X L => Dot.innerNohash (fun x y : R => x * y) (fun x y => x + y) 0 X L X nt nd 0 sch)
      (∃ t < nt, sch.main.count t ≤ n + 1) := by
  intro X L xw lw xr xc xs ls xm
  have hv := valid_self xw (xr.trans xc.symm) (xr ▸ h0)
  obtain ⟨C, h1, h2, h3⟩ := C53_inner_partial (fun x y : R => x * y) (fun x y => x + y) 0 (fun _ _ => zero_add _)
    (validC_of hv xm xs lw ls) (Graph.nodup_of_sorted xs) (fun c hc => by rw [xm.cols]; exact xw.inBounds c hc) (xr ▸ hsmall) ht nd
  rw [xr] at h3
  refine (h3 sch ha).imp id fun e => ⟨C, e, h2, h1.rows, h1.cols.trans xm.cols, ?_, h1.nodup⟩
  intro i hi j v
  rw [h1.entries i hi]
  refine and_congr_right fun hj => ?_
  rw [dotC_eq _ _ xw lw xw hv.shapes.ab xm (Graph.nodup_of_sorted xs) ls (CSR.rowCols_lt xw hj)]

end

/-! ## The product followed by an intersection -/

section

variable {V : Type}

/-- What `HashIntersect` returns: the mask entries (with the values of the mask) at which the product has an entry. -/
structure IsSelection (mul add : V → V → V) (A B M C : CSR V) : Prop where
  wf : C.WF
  rows : C.rows = A.rows
  cols : C.cols = B.cols
  entries : ∀ i < A.rows, ∀ j v, (j, v) ∈ C.row i ↔ (j, v) ∈ M.row i ∧ dot mul add A B i j ≠ none
  sorted : C.SortedRows

/-- A schedule in which all iterations run -/
structure IntersectAdm (rows n : Nat) (sch : HashIntersect.Sched) : Prop where
  prod : HashMult.Adm rows n sch.prod
  order1 : sch.order1.Perm (List.range rows)
  order2 : sch.order2.Perm (List.range rows)

theorem sum1_none {add : V → V → V} {l : List V} : Spec.sum1 add l = none ↔ l = [] := by cases l <;> simp [Spec.sum1]

/-- C73, the product followed by an intersection: every run returns the entries of the mask at the positions of the masked product. -/
theorem C73_positions_partial {sortf : List (Nat × V) → List (Nat × V)} (hs : SortsBy (·.1) sortf) (mul add : V → V → V) (dflt : V)
    {A B M : CSR V} (h : Spec.Valid A B M) (sM : M.SortedRows) (hsmall : A.rows + 1 < 2 ^ 17) {n nd : Nat} (hn : 0 < n) (hnd : 0 < nd)
    {sch : HashIntersect.Sched} (ha : IntersectAdm A.rows n sch) :
    (HashIntersect.hashIntersect sortf mul add A B M dflt n nd sch = .ok none ∧
      ∃ t < n, sch.prod.sym.count t ≤ A.rows + 1 ∨ sch.prod.num.count t ≤ A.rows + 1) ∨
    ∃ C, HashIntersect.hashIntersect sortf mul add A B M dflt n nd sch = .ok (some C) ∧ IsSelection mul add A B M C := by
  obtain ⟨T, hT, hrun⟩ := C34_hash_partial (sorted := true) hs mul add dflt h.wfA h.wfB h.shapes.ab h.rowsPos hsmall hn nd
  unfold HashIntersect.hashIntersect
  rcases hrun _ ha.prod with ⟨e, hP⟩ | e
  · exact Or.inl ⟨by rw [e]; rfl, hP⟩
  · right
    rw [e, ok_bind]
    obtain ⟨C, e2, hC⟩ := C24_intersect_partial (fun _ rhs => rhs) hT.wf h.wfM (hT.sorted rfl) sM (hT.rows.trans h.shapes.ma.symm)
      (hT.cols.trans h.shapes.mb.symm) (hT.rows ▸ hsmall) dflt hnd (hT.rows ▸ ha.order1) (hT.rows ▸ ha.order2) sch.s1 sch.s2
    refine ⟨C, e2, hC.wf, hC.rows.trans hT.rows, hC.cols.trans hT.cols, ?_, hC.sorted⟩
    intro i hi j v
    rw [hC.entries i (hT.rows ▸ hi)]
    simp only [hT.entries i hi]
    have hno : ∀ op : V → V → V, dot mul op A B i j = none ↔ Spec.contribs mul A B i j = [] := fun op => sum1_none
    constructor
    · rintro ⟨a, b, h1, h2, rfl⟩
      refine ⟨h2, fun e => ?_⟩
      rw [(hno fun a b => add b a).2 ((hno _).1 e)] at h1
      cases h1
    · rintro ⟨h1, h2⟩
      cases hd : dot mul (fun a b => add b a) A B i j with
      | none => exact absurd ((hno _).2 ((hno _).1 hd)) h2
      | some a => exact ⟨a, v, rfl, h1, rfl⟩

/-- C73, violated: no run returns the masked product if the product differs from the value of the mask at some position of the mask. -/
theorem C73_violated_values {sortf : List (Nat × V) → List (Nat × V)} (hs : SortsBy (·.1) sortf) (mul add : V → V → V) (dflt : V)
    {A B M : CSR V} (h : Spec.Valid A B M) (sM : M.SortedRows) (hsmall : A.rows + 1 < 2 ^ 17) {n nd : Nat} (hn : 0 < n) (hnd : 0 < nd)
    {sch : HashIntersect.Sched} (ha : IntersectAdm A.rows n sch) {i j : Nat} (hi : i < A.rows) {m p : V} (hm : (j, m) ∈ M.row i)
    (hp : dot mul add A B i j = some p) (hne : p ≠ m) {C : CSR V}
    (hC : HashIntersect.hashIntersect sortf mul add A B M dflt n nd sch = .ok (some C)) : ¬ IsMaskedSet mul add A B M C := by
  intro hM
  rcases C73_positions_partial hs mul add dflt h sM hsmall hn hnd ha with ⟨e, _⟩ | ⟨C', e, hC'⟩
  · rw [e] at hC; cases hC
  · rw [e] at hC
    obtain rfl : C' = C := by cases hC; rfl
    have h1 := (hC'.entries i hi j m).2 ⟨hm, by rw [hp]; simp⟩
    have h2 := ((hM.entries i hi j m).1 h1).2
    rw [hp] at h2
    exact hne (Option.some.inj h2)

end

section

variable {n : Nat}

theorem sum_le_length {l : List Nat} (h : ∀ x ∈ l, x ≤ 1) : l.sum ≤ l.length := by
  induction l with
  | nil => simp
  | cons x l ih =>
    have := h x (by simp)
    have := ih fun y hy => h y (by simp [hy])
    simp only [List.sum_cons, List.length_cons]
    omega

/-- The stored values of a matrix with fewer rows: each row is a sublist, so that there are at most as many entries. -/
theorem nnz_le_of_rows {V : Type} {C M : CSR V} (hC : C.WF) (hM : M.WF) (hr : C.rows = M.rows)
    (h : ∀ i < C.rows, (C.row i).length ≤ (M.row i).length) : C.nnz ≤ M.nnz := by
  have key : ∀ k, k ≤ C.rows → C.ptr k ≤ M.ptr k := by
    intro k
    induction k with
    | zero => intro _; rw [hC.ptrFirst, hM.ptrFirst]
    | succ k ih =>
      intro hk
      have h1 := h k hk
      have e : ∀ {X : CSR V}, X.WF → k < X.rows → (X.row k).length = X.ptr (k + 1) - X.ptr k := by
        intro X hX hkX
        have := CSR.rowCols_length hX hkX
        rw [← CSR.row_map_fst hX, List.length_map] at this
        exact this
      rw [e hC hk, e hM (hr ▸ hk)] at h1
      have := ih (by omega)
      have := hC.ptrMono k hk
      have := hM.ptrMono k (hr ▸ hk)
      omega
  have := key C.rows (Nat.le_refl _)
  rw [hC.ptrLast, hr, hM.ptrLast] at this
  exact this

/-- C73, violated for the count: with `HashIntersect` no run returns the number of triangles of a graph with more triangles than stored
entries. -/
theorem C73_violated_count {A : CSC Nat} (h : A.WF) (hr : A.rows = n) (hc : A.cols = n) (hnz : 0 < A.nnz)
    {sortP : List (Nat × Nat) → List (Nat × Nat)} (hP : SortsGreater sortP)
    {sortT : List (Nat × Nat × Nat) → List (Nat × Nat × Nat)} (hT : SortsDown sortT)
    {sortf : List (Nat × Nat) → List (Nat × Nat)} (hs : SortsBy Prod.fst sortf) {order : List Nat} (ho : order.Perm (List.range n))
    (hsmall : n + 1 < 2 ^ 17) {nt nd : Nat} (ht : 0 < nt) (hnd : 0 < nd) {sch : HashIntersect.Sched} (ha : IntersectAdm n nt sch)
    {parts : Nat → List (List Nat)} (hp : ∀ k, Splits k (parts k)) (hmany : A.nnz < triangles (undirected n A)) :
    countWith sortP sortT sortf order
      (fun X _ => HashIntersect.hashIntersect sortf (fun x y => x * y) (fun x y => x + y) X X X 0 nt nd sch) A parts ≠
      .ok (some (triangles (undirected n A))) := by
  obtain ⟨L, X, e1, e2, lw, ls, xw, xr, xc, xs, xm, xn, h01, -⟩ := tri_square h hr hc hnz hP hT hs ho
  have hn : 0 < n := by
    have : 0 < A.rowids.length := by rw [h.rowLen]; exact hnz
    have := h.inBounds _ (List.getElem_mem this)
    omega
  unfold countWith
  rw [e1, ok_bind, e2, ok_bind]
  rcases C73_positions_partial hs (fun x y : Nat => x * y) (fun x y => x + y) 0 (valid_self xw (xr.trans xc.symm) (xr ▸ hn)) xs (xr ▸ hsmall)
    ht hnd (xr ▸ ha) with ⟨e, _⟩ | ⟨C, e, hC⟩
  · simp only [e, ok_bind]
    simp
  · simp only [e, ok_bind]
    rw [SumAll.sumall_acc (acc := fun s v : Nat => s + v) (f := id) (fun _ _ => rfl) id (by rw [hC.wf.valLen]; exact hp _), List.map_id]
    have hle : C.values.sum ≤ C.nnz := by
      rw [← hC.wf.valLen]
      refine sum_le_length fun v hv => ?_
      have hz : C.values = (C.colids.zip C.values).map Prod.snd := by rw [List.map_snd_zip]; rw [hC.wf.colLen, hC.wf.valLen]
      have hrows : C.colids.zip C.values = (List.range C.rows).flatMap C.row := by
        have := Conv.flatMap_slice (C.colids.zip C.values) C.ptr hC.wf.ptrFirst C.rows (fun i hi => hC.wf.ptrMono i hi)
          (by rw [hC.wf.ptrLast, CSR.zip_length hC.wf])
        rw [hC.wf.ptrLast, ← CSR.zip_length hC.wf, List.take_length] at this
        exact this.symm
      rw [hz, hrows] at hv
      obtain ⟨⟨j, w⟩, hx, rfl⟩ := List.mem_map.1 hv
      obtain ⟨i, hi, hx⟩ := List.mem_flatMap.1 hx
      have hi := List.mem_range.1 hi
      have := ((hC.entries i (hC.rows ▸ hi) j w).1 hx).1
      have := h01 (i, j, w) (Graph.mem_triples.2 ⟨hC.rows ▸ hi, this⟩)
      simp only at this ⊢
      omega
    have hnn : C.nnz ≤ X.nnz := by
      refine nnz_le_of_rows hC.wf xw hC.rows fun i hi => ?_
      refine (List.subperm_of_subset (row_nodup hC.wf (Graph.nodup_of_sorted hC.sorted i hi)) ?_).length_le
      rintro ⟨j, v⟩ hx
      exact ((hC.entries i (hC.rows ▸ hi) j v).1 hx).1
    intro he
    have : C.values.sum = triangles (undirected n A) := by
      have := Except.ok.inj he
      exact Option.some.inj this
    omega

end

/-! ## Examples -/

def allSched : TwoPassSched :=
  { bin := { intprod := [2, 0, 1, 3], s1 := [], s2 := [], threads := [1, 0], ids := [1, 2, 0, 3] },
    count := [0, 1, 0, 1, 0, 1, 0, 1, 0, 1, 0, 1], s1 := [], s2 := [], fill := [1, 0, 1, 0, 1, 0, 1, 0, 1, 0, 1, 0] }

theorem allSched_adm : allSched.Adm 4 2 := ⟨by decide, by decide, by decide⟩

example := C73_any_kernel_partial exTri_wf rfl rfl (by decide) sortPairs_ok sortTriples_ok (isort_sorts Prod.fst) (order := [1, 0, 3, 2])
  (by decide) (counts_spa (by decide) (by decide) (by decide) 2 allSched_adm) splits_one
example := C73_any_kernel_partial exTri_wf rfl rfl (by decide) sortPairs_ok sortTriples_ok (isort_sorts Prod.fst) (order := [1, 0, 3, 2])
  (by decide) (counts_hash (by decide) (by decide) (by decide) 2 allSched_adm) splits_one
example := C73_any_kernel_partial exTri_wf rfl rfl (by decide) sortPairs_ok sortTriples_ok (isort_sorts Prod.fst) (order := [1, 0, 3, 2])
  (by decide) (counts_wobin (s1 := []) (s2 := []) (by decide) (by decide) 2 (order1 := [3, 1, 2, 0]) (order2 := [0, 1, 2, 3]) (by decide) (by decide))
  splits_one
example := C73_any_kernel_partial exTri_wf rfl rfl (by decide) sortPairs_ok sortTriples_ok (isort_sorts Prod.fst) (order := [1, 0, 3, 2])
  (by decide) (counts_inner (by decide) (by decide) (by decide) 2 (sch := { bin := allSched.bin, main := allSched.count }) allSched_adm) splits_one

def exInter : HashIntersect.Sched :=
  { prod := exHashSched, order1 := [1, 0, 2], s1 := [], s2 := [], order2 := [2, 1, 0] }

theorem exInter_adm : IntersectAdm 3 2 exInter := ⟨⟨by decide, by decide, by decide⟩, by decide, by decide⟩

example := C73_positions_partial (isort_sorts Prod.fst) (· * ·) (· + ·) (0 : Int) Ex.validM Ex.sortedM (by decide) (n := 2) (nd := 1) (by decide)
  (by decide) exInter_adm

example {C : CSR Int} := C73_violated_values (isort_sorts Prod.fst) (· * ·) (· + ·) (0 : Int) Ex.validM Ex.sortedM (by decide) (n := 2) (nd := 1) (by decide)
  (by decide) exInter_adm (i := 0) (j := 1) (by decide) (m := 1) (p := 8) (by decide) (by decide) (by decide) (C := C)

/-- A run returns the values of the mask. -/
example : HashIntersect.hashIntersect (isort Prod.fst) (· * ·) (· + ·) Ex.A Ex.B Ex.M 0 2 1 exInter = .ok (some
    { rows := 3, cols := 3, nnz := 3, rowptr := [0, 2, 2, 3], colids := [0, 1, 2], values := [1, 1, 1] }) := by
  decide +kernel

/-- The complete graph with four vertices, entries below the diagonal -/
def exK4 : CSC Nat := { rows := 4, cols := 4, nnz := 6, colptr := [0, 3, 5, 6, 6], rowids := [1, 2, 3, 2, 3, 3], values := [1, 1, 1, 1, 1, 1] }

def k4Hash : HashMult.Sched := { bin := allSched.bin, sym := allSched.count, s1 := [], s2 := [], num := allSched.fill }

def k4Sched : HashIntersect.Sched :=
  { prod := k4Hash, order1 := [1, 0, 2, 3], s1 := [], s2 := [], order2 := [2, 1, 0, 3] }

/-- It has four triangles; a run with the intersection returns 3. -/
example : countWith (isort fun x => 100 - (10 * x.1 + x.2)) (isort fun x => 100 - (10 * x.1 + x.2.1)) (isort Prod.fst) [0, 1, 2, 3]
    (fun X _ => HashIntersect.hashIntersect (isort Prod.fst) (fun x y => x * y) (fun x y => x + y) X X X 0 2 1 k4Sched) exK4
    (fun k => [List.range k]) = .ok (some 3) := by
  decide +kernel

/-- A run with the kernel with a dense accumulator returns 4. -/
example : countWith (isort fun x => 100 - (10 * x.1 + x.2)) (isort fun x => 100 - (10 * x.1 + x.2.1)) (isort Prod.fst) [0, 1, 2, 3]
    (fun X _ => Spa.spaSpGEMM (fun x y : Nat => x * y) (fun x y => x + y) X X X 0 2 1 allSched) exK4
    (fun k => [List.range k]) = .ok (some 4) := by
  decide +kernel

/-- The complete graph with six vertices: 15 entries, 20 triangles -/
def exK6 : CSC Nat :=
  { rows := 6, cols := 6, nnz := 15, colptr := [0, 5, 9, 12, 14, 15, 15], rowids := [1, 2, 3, 4, 5, 2, 3, 4, 5, 3, 4, 5, 4, 5, 5],
    values := [1, 1, 1, 1, 1, 1, 1, 1, 1, 1, 1, 1, 1, 1, 1] }

instance : DecidableRel (undirected 6 exK6).Adj := fun u v =>
  inferInstanceAs (Decidable (u ≠ v ∧ (u.val ∈ exK6.colRows v ∨ v.val ∈ exK6.colRows u)))

theorem exK6_triangles : triangles (undirected 6 exK6) = 20 := by
  have : {s : Finset (Fin 6) | (undirected 6 exK6).IsNClique 3 s} =
      ((Finset.univ.filter fun s : Finset (Fin 6) => s.card = 3 : Finset (Finset (Fin 6))) : Set (Finset (Fin 6))) := by
    ext s
    have : ∀ s : Finset (Fin 6), (undirected 6 exK6).IsNClique 3 s ↔ s.card = 3 := by decide +kernel
    simpa using this s
  rw [triangles, this, Set.ncard_coe_finset]
  decide +kernel

def k6Hash : HashMult.Sched :=
  { bin := { intprod := [2, 0, 1, 3, 4, 5], s1 := [], s2 := [], threads := [0], ids := [1, 2, 0, 3, 5, 4] },
    sym := [0, 0, 0, 0, 0, 0, 0, 0], s1 := [], s2 := [], num := [0, 0, 0, 0, 0, 0, 0, 0] }

def k6Sched : HashIntersect.Sched :=
  { prod := k6Hash, order1 := [1, 0, 2, 3, 4, 5], s1 := [], s2 := [], order2 := [2, 1, 0, 3, 4, 5] }

example := C73_violated_count (n := 6) (A := exK6) ⟨rfl, rfl, rfl, by decide, rfl, rfl, rfl, by decide⟩ rfl rfl (by decide) sortPairs_ok sortTriples_ok
  (isort_sorts Prod.fst) (order := [0, 1, 2, 3, 4, 5]) (by decide) (by decide) (nt := 1) (nd := 1) (by decide) (by decide)
  (sch := k6Sched) ⟨⟨by decide, by decide, by decide⟩, by decide, by decide⟩ splits_one
  (by rw [exK6_triangles]; decide)

end Verif.Props
