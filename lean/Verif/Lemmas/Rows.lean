import Verif.Model.Nest
import Verif.Spec

/-! # Helper lemmas about rows and the loops over them -/

namespace Verif

variable {V σ α : Type _}

theorem slice_length {l : List α} {lo hi : Nat} (h : hi ≤ l.length) :
    (slice l lo hi).length = hi - lo := by
  simp [slice]; omega

theorem slice_succ {l : List α} {lo hi : Nat} (h1 : lo < hi) (h2 : lo < l.length) :
    slice l lo hi = l[lo] :: slice l (lo + 1) hi := by
  unfold slice
  rw [List.drop_eq_getElem_cons h2]
  have : hi - lo = (hi - (lo + 1)) + 1 := by omega
  rw [this, List.take_succ_cons]

theorem slice_empty {l : List α} {lo hi : Nat} (h : hi ≤ lo) : slice l lo hi = [] := by
  have : hi - lo = 0 := by omega
  simp [slice, this]

theorem mem_slice {l : List α} {lo hi : Nat} {x : α} (h : x ∈ slice l lo hi) : x ∈ l :=
  List.mem_of_mem_drop (List.mem_of_mem_take h)

theorem slice_getElem? {l : List α} {lo hi i : Nat} (h : i < hi - lo) :
    (slice l lo hi)[i]? = l[lo + i]? := by
  simp [slice, h]

theorem slice_map {β : Type _} (f : α → β) (l : List α) (lo hi : Nat) :
    (slice l lo hi).map f = slice (l.map f) lo hi := by
  simp [slice, List.map_take, List.map_drop]

theorem forRange_eq_slice {L : List α} {lo hi : Nat} {s : σ} {body : Nat → σ → Res σ}
    {g : σ → α → Res σ} (hhi : hi ≤ L.length)
    (h : ∀ i, (h' : i < L.length) → lo ≤ i → i < hi → ∀ s, body i s = g s L[i]) :
    forRange lo hi s body = (slice L lo hi).foldlM g s := by
  induction hd : hi - lo generalizing lo s with
  | zero =>
    have : hi ≤ lo := by omega
    rw [forRange_of_le this, slice_empty this]; rfl
  | succ n ih =>
    have hlt : lo < hi := by omega
    have hl : lo < L.length := by omega
    rw [forRange_step hlt, slice_succ hlt hl, List.foldlM_cons, h lo hl (Nat.le_refl _) hlt]
    congr 1
    funext s'
    exact ih (fun i h1 h2 h3 => h i h1 (by omega) h3) (by omega)

theorem foldlM_flatMap {β : Type _} (l : List α) (f : α → List β) (g : σ → β → Res σ) (s : σ) :
    (l.flatMap f).foldlM g s = l.foldlM (fun s a => (f a).foldlM g s) s := by
  induction l generalizing s with
  | nil => rfl
  | cons a l ih =>
    simp only [List.flatMap_cons, List.foldlM_append, List.foldlM_cons]
    congr 1
    funext s'
    exact ih s'

theorem foldlM_map {β : Type _} (l : List α) (f : α → β) (g : σ → β → Res σ) (s : σ) :
    (l.map f).foldlM g s = l.foldlM (fun s a => g s (f a)) s := by
  induction l generalizing s with
  | nil => rfl
  | cons a l ih =>
    simp only [List.map_cons, List.foldlM_cons]
    congr 1
    funext s'
    exact ih s'

namespace CSR

variable {A B M : CSR V}

theorem rd_ptr (h : A.WF) {i : Nat} (hi : i ≤ A.rows) : rd A.rowptr i = .ok (A.ptr i) := by
  have : i < A.rowptr.length := by rw [h.ptrLen]; omega
  rw [rd_of_lt this]; simp [ptr, this]

theorem ptr_le_ptr (h : A.WF) {i j : Nat} (hij : i ≤ j) (hj : j ≤ A.rows) : A.ptr i ≤ A.ptr j := by
  induction j with
  | zero => have : i = 0 := by omega
            subst this; exact Nat.le_refl _
  | succ j ih =>
    rcases Nat.lt_or_ge i (j + 1) with h1 | h1
    · exact Nat.le_trans (ih (by omega) (by omega)) (h.ptrMono j (by omega))
    · have : i = j + 1 := by omega
      subst this; exact Nat.le_refl _

theorem ptr_le_nnz (h : A.WF) {i : Nat} (hi : i ≤ A.rows) : A.ptr i ≤ A.nnz := by
  rw [← h.ptrLast]; exact ptr_le_ptr h hi (Nat.le_refl _)

theorem zip_length (h : A.WF) : (A.colids.zip A.values).length = A.nnz := by
  simp [h.colLen, h.valLen]

theorem row_map_fst (h : A.WF) (i : Nat) : (A.row i).map Prod.fst = A.rowCols i := by
  unfold row rowCols
  rw [slice_map, List.map_fst_zip]
  rw [h.colLen, h.valLen]; exact Nat.le_refl _

theorem row_length (h : A.WF) {i : Nat} (hi : i < A.rows) :
    (A.row i).length = A.ptr (i + 1) - A.ptr i := by
  unfold row
  rw [slice_length]
  rw [zip_length h]; exact ptr_le_nnz h hi

theorem rowCols_length (h : A.WF) {i : Nat} (hi : i < A.rows) :
    (A.rowCols i).length = A.ptr (i + 1) - A.ptr i := by
  rw [← row_map_fst h, List.length_map, row_length h hi]

theorem rowCols_lt (h : A.WF) {i c : Nat} (hc : c ∈ A.rowCols i) : c < A.cols :=
  h.inBounds c (mem_slice hc)

theorem row_lt (h : A.WF) {i : Nat} {x : Nat × V} (hx : x ∈ A.row i) : x.1 < A.cols := by
  apply rowCols_lt h (i := i)
  rw [← row_map_fst h]
  exact List.mem_map_of_mem hx

theorem SortedRows.nodup (h : A.SortedRows) : A.NodupRows := by
  intro i hi
  exact (h i hi).imp (fun h => Nat.ne_of_lt h)

end CSR

namespace Model

/-- Triples (column, A-value, B-value) visited by the loop nest for row `i`, in order. -/
def visits (A B : CSR V) (i : Nat) : List (Nat × V × V) :=
  (A.row i).flatMap fun ka => (B.row ka.1).map fun jb => (jb.1, ka.2, jb.2)

theorem nest_eq {A B : CSR V} (hA : A.WF) (hB : B.WF) (hAB : A.cols = B.rows) {row : Nat}
    (hrow : row < A.rows) (s : σ) (body : Nat → Nat → σ → Res σ) (g : σ → Nat × V × V → Res σ)
    (hbody : ∀ j k s (hj : j < A.values.length) (hk : k < B.colids.length) (hk' : k < B.values.length),
      body j k s = g s (B.colids[k], A.values[j], B.values[k])) :
    nest A B row s body = (visits A B row).foldlM g s := by
  unfold nest visits
  rw [CSR.rd_ptr hA (Nat.le_of_lt hrow), CSR.rd_ptr hA hrow]
  simp only [ok_bind]
  rw [foldlM_flatMap]
  unfold CSR.row
  apply forRange_eq_slice
  · rw [CSR.zip_length hA]; exact CSR.ptr_le_nnz hA hrow
  · intro j hj _ _ s
    have hjn : j < A.nnz := by rw [← CSR.zip_length hA]; exact hj
    have hjc : j < A.colids.length := by rw [hA.colLen]; exact hjn
    have hjv : j < A.values.length := by rw [hA.valLen]; exact hjn
    have hin : A.colids[j] < B.rows := by
      rw [← hAB]; exact hA.inBounds _ (List.getElem_mem hjc)
    rw [rd_of_lt hjc]
    simp only [ok_bind, CSR.rd_ptr hB (Nat.le_of_lt hin), CSR.rd_ptr hB hin]
    simp only [List.getElem_zip]
    rw [foldlM_map]
    apply forRange_eq_slice
    · rw [CSR.zip_length hB]; exact CSR.ptr_le_nnz hB hin
    · intro k hk _ _ s
      have hkn : k < B.nnz := by rw [← CSR.zip_length hB]; exact hk
      have hkc : k < B.colids.length := by rw [hB.colLen]; exact hkn
      have hkv : k < B.values.length := by rw [hB.valLen]; exact hkn
      rw [hbody j k s hjv hkc hkv]
      simp [List.getElem_zip]

theorem maskLoop_eq {M : CSR V} (hM : M.WF) {row : Nat} (hrow : row < M.rows) (s : σ)
    (body : Nat → σ → Res σ) :
    maskLoop M row s body = (M.rowCols row).foldlM (fun s c => body c s) s := by
  unfold maskLoop CSR.rowCols
  rw [CSR.rd_ptr hM (Nat.le_of_lt hrow), CSR.rd_ptr hM hrow]
  simp only [ok_bind]
  rw [forPtr_of_le (hM.ptrMono row hrow)]
  apply forRange_eq_slice
  · rw [hM.colLen]; exact CSR.ptr_le_nnz hM hrow
  · intro i hi _ _ s
    rw [rd_of_lt hi]; rfl

/-- The visited columns are columns of `B`. -/
theorem visits_lt {A B : CSR V} (hB : B.WF) {i : Nat} {x : Nat × V × V} (hx : x ∈ visits A B i) :
    x.1 < B.cols := by
  unfold visits at hx
  rw [List.mem_flatMap] at hx
  obtain ⟨ka, _, h2⟩ := hx
  rw [List.mem_map] at h2
  obtain ⟨jb, h3, rfl⟩ := h2
  exact CSR.row_lt hB h3

/-- Products in visit order: (column, product). -/
def prods (mul : V → V → V) (A B : CSR V) (i : Nat) : List (Nat × V) :=
  (visits A B i).map fun x => (x.1, mul x.2.1 x.2.2)

/-- The products with column `j`, in order. -/
def pick (ps : List (Nat × V)) (j : Nat) : List V :=
  ps.filterMap fun p => if p.1 = j then some p.2 else none

theorem pick_append (ps qs : List (Nat × V)) (j : Nat) :
    pick (ps ++ qs) j = pick ps j ++ pick qs j := by simp [pick]

@[simp] theorem pick_nil (j : Nat) : pick ([] : List (Nat × V)) j = [] := rfl

theorem pick_cons (p : Nat × V) (ps : List (Nat × V)) (j : Nat) :
    pick (p :: ps) j = if p.1 = j then p.2 :: pick ps j else pick ps j := by
  by_cases h : p.1 = j <;> simp [pick, h]

theorem pick_eq_nil {ps : List (Nat × V)} {j : Nat} : pick ps j = [] ↔ ∀ p ∈ ps, p.1 ≠ j := by
  simp [pick, List.filterMap_eq_nil_iff]

theorem pick_prods (mul : V → V → V) (A B : CSR V) (i j : Nat) :
    pick (prods mul A B i) j = Spec.contribs mul A B i j := by
  unfold pick prods visits Spec.contribs
  generalize A.row i = l
  induction l with
  | nil => rfl
  | cons a l ih =>
    simp only [List.flatMap_cons, List.map_append, List.filterMap_append]
    rw [ih]
    congr 1
    simp only [List.filterMap_map, List.map_map]
    rfl

theorem dot_eq (mul add : V → V → V) (A B : CSR V) (i j : Nat) :
    Spec.dot mul add A B i j = Spec.sum1 add (pick (prods mul A B i) j) := by
  rw [pick_prods]; rfl

theorem prods_lt {mul : V → V → V} {A B : CSR V} (hB : B.WF) {i : Nat} {x : Nat × V}
    (hx : x ∈ prods mul A B i) : x.1 < B.cols := by
  unfold prods at hx
  rw [List.mem_map] at hx
  obtain ⟨y, hy, rfl⟩ := hx
  exact visits_lt hB hy

theorem sum1_append_singleton (add : V → V → V) (l : List V) (x : V) :
    Spec.sum1 add (l ++ [x]) =
      some (match Spec.sum1 add l with | none => x | some v => add v x) := by
  cases l with
  | nil => rfl
  | cons a l => simp [Spec.sum1, List.foldl_append]

theorem sum1_eq_none {add : V → V → V} {l : List V} : Spec.sum1 add l = none ↔ l = [] := by
  cases l <;> simp [Spec.sum1]

end Model

end Verif
