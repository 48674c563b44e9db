import Verif.Lemmas.HashMult
import Verif.Props.Examples
import Verif.Props.C24

/-!
# C33, C34: the work partition of the older kernels and the unmasked hash multiply

The full claims range over all row counts. The proved theorems ask for fewer than `2^17 - 1` rows, because the prefix sum that
both call reads past the end of its source for more (`C33_violated`, `C34_violated`, and C48).
-/

namespace Verif.Props
open Verif.Model

variable {V : Type}

/-- Number of products computed for row `i` of `A * B`. -/
def rowProducts (A B : CSR V) (i : Nat) : Nat := ((A.row i).map fun x => (B.row x.1).length).sum

theorem nprod_eq (A B : CSR V) (i : Nat) : Bin.nprod A B i = rowProducts A B i := by
  unfold Bin.nprod visits rowProducts
  rw [List.length_flatMap]
  simp

/-- A list of offsets that splits the rows `0, …, rows - 1` into `n` consecutive blocks. -/
structure IsPartition (n rows : Nat) (off : List Nat) : Prop where
  len : off.length = n + 1
  first : off[0]? = some 0
  last : off[n]? = some rows
  mono : ∀ t < n, ∀ a b, off[t]? = some a → off[t + 1]? = some b → a ≤ b
  once : ∀ i < rows, ∃ t < n, (∃ a b, off[t]? = some a ∧ off[t + 1]? = some b ∧ a ≤ i ∧ i < b) ∧
    ∀ u < n, (∃ a b, off[u]? = some a ∧ off[u + 1]? = some b ∧ a ≤ i ∧ i < b) → u = t

/-- `b` is the bin of a row that needs `m` slots: 0 if it needs none, otherwise `k + 1` for the smallest `k` such that
`min * 2^k` slots suffice. -/
structure IsSmallestBin (min m b : Nat) : Prop where
  none : b = 0 ↔ m = 0
  fits : ∀ k, b = k + 1 → m ≤ min * 2 ^ k
  least : ∀ k, m ≤ min * 2 ^ k → b ≤ k + 1

/-- C33 for fewer than `2^17 - 1` rows. -/
theorem C33_partition_partial {A B : CSR V} (hA : A.WF) (hB : B.WF) (hAB : A.cols = B.rows) (hpos : 0 < A.rows)
    (hsmall : A.rows + 1 < 2 ^ 17) {cols min n : Nat} (hmin : 0 < min) (hn : 0 < n) (nd : Nat) {sch : Bin.Sched}
    (ho : Bin.Adm A.rows n sch) :
    ∃ p, Bin.setMaxBin A B A.rows cols min n nd sch = .ok (some p) ∧
      IsPartition n A.rows p.rowsOffset ∧
      ∀ i < A.rows, p.rowNz[i]? = some (rowProducts A B i) ∧
        ∃ b, p.binId[i]? = some b ∧ IsSmallestBin min (Nat.min (rowProducts A B i) cols) b := by
  obtain ⟨p, e, hp⟩ := Bin.setMaxBin_ok (cols := cols) hA hB hAB hpos hsmall hmin hn nd ho
  refine ⟨p, e, ?_, ?_⟩
  · have hb := Bin.bounds (Bin.nprod A B) (psum (Bin.nprod A B) A.rows) A.rows hn
    rw [hp.off]
    generalize Bin.bound (Bin.nprod A B) (psum (Bin.nprod A B) A.rows) A.rows n = o at hb
    have hg : ∀ t ≤ n, (tab (n + 1) o)[t]? = some (o t) := fun t ht => tab_getElem? (by omega)
    refine ⟨by simp, by rw [hg 0 (by omega), hb.first], by rw [hg n (Nat.le_refl _), hb.last], ?_, ?_⟩
    · intro t ht a b ha hb'
      rw [hg t (by omega)] at ha
      rw [hg (t + 1) (by omega)] at hb'
      cases ha; cases hb'
      exact hb.mono t ht
    · intro i hi
      obtain ⟨t, ht, h1, h2⟩ := hb.cover hi
      refine ⟨t, ht, ⟨_, _, hg t (by omega), hg (t + 1) (by omega), h1, h2⟩, ?_⟩
      rintro u hu ⟨a, b, ha, hb', h3, h4⟩
      rw [hg u (by omega)] at ha
      rw [hg (u + 1) (by omega)] at hb'
      cases ha; cases hb'
      exact hb.disj hu ht h3 h4 h1 h2
  · intro i hi
    obtain ⟨b, e1, e2⟩ := hp.ids
    refine ⟨by rw [hp.rowNz, tab_getElem? hi, nprod_eq], b i, by rw [e1, tab_getElem? hi], ?_⟩
    have h := e2 i hi
    rw [nprod_eq] at h
    refine ⟨h.zero, ?_, ?_⟩
    · intro k hk
      have := h.fits (by omega)
      rw [hk] at this
      exact this
    · intro k hk
      apply Classical.byContradiction
      intro hno
      have := h.least k (by omega)
      omega

example := C33_partition_partial (cols := 3) (min := 8) (n := 2) Ex.wfA Ex.wfB rfl (by decide) (by decide) (by decide) (by decide) 4
  (sch := { intprod := [2, 0, 1], s1 := [], s2 := [], threads := [1, 0], ids := [1, 2, 0] }) ⟨by decide, by decide, by decide⟩

/-- C33, violated: with `2^17 - 1` or more rows no run returns a partition, because the prefix sum reads past the end of the
array of the row counts. -/
theorem C33_violated {A B : CSR V} {rows cols min n nd : Nat} (hbig : 2 ^ 17 ≤ rows + 1) (hnd : 0 < nd) (sch : Bin.Sched)
    (p : Bin.Part) : Bin.setMaxBin A B rows cols min n nd sch ≠ .ok (some p) := by
  intro h
  unfold Bin.setMaxBin at h
  obtain ⟨_, _, h⟩ := Alias.bind_ok' h
  obtain ⟨⟨rowNz, total⟩, h1, h⟩ := Alias.bind_ok' h
  have hl : rowNz.length = rows := by
    unfold Bin.setIntprodNum at h1
    have := Alias.foldlM_pres (fun s : List Nat × Nat => s.1.length = rows) (by
      rintro ⟨r, v⟩ i s' hp hs
      simp only at hs
      obtain ⟨nz, _, hs⟩ := Alias.bind_ok' hs
      obtain ⟨r', hw, hs⟩ := Alias.bind_ok' hs
      cases hs
      unfold wr at hw
      split at hw
      · cases hw; simpa using hp
      · cases hw) _ _ _ (by simp) h1
    exact this
  simp only at h
  obtain ⟨r, h2, h⟩ := Alias.bind_ok' h
  cases r with
  | none => cases h
  | some off =>
    unfold Bin.setRowsOffset at h2
    obtain ⟨r, h3, h2⟩ := Alias.bind_ok' h2
    cases r with
    | none => cases h2
    | some ps => exact UtilScan.scan_short hnd (by omega) (by omega) _ _ _ h3

example (sch : Bin.Sched) (p : Bin.Part) : Bin.setMaxBin bigA bigA (2 ^ 17) 1 8 4 4 sch ≠ .ok (some p) :=
  C33_violated (by omega) (by decide) sch p

/-- C34 for fewer than `2^17 - 1` rows: there is one matrix `C`, the product, such that every run either returns it or stops
because some thread gets too few steps. In particular no run probes forever, whatever the hash tables look like. The kernel
adds a new product on the left of the sum so far. -/
theorem C34_hash_partial {sorted : Bool} {sortf : List (Nat × V) → List (Nat × V)} (hs : Spec.SortsBy (·.1) sortf)
    (mul add : V → V → V) (dflt : V) {A B : CSR V} (hA : A.WF) (hB : B.WF) (hAB : A.cols = B.rows) (hpos : 0 < A.rows)
    (hsmall : A.rows + 1 < 2 ^ 17) {n : Nat} (hn : 0 < n) (nd : Nat) :
    ∃ C, Spec.IsPlainProduct mul (fun a b => add b a) sorted A B C ∧ ∀ sch, HashMult.Adm A.rows n sch →
      (HashMult.hashSpGEMM sorted sortf mul add A B dflt n nd sch = .ok none ∧
        ∃ t < n, sch.sym.count t ≤ A.rows + 1 ∨ sch.num.count t ≤ A.rows + 1) ∨
      HashMult.hashSpGEMM sorted sortf mul add A B dflt n nd sch = .ok (some C) :=
  HashMult.hashSpGEMM_ok hs mul add dflt hA hB hAB hpos hsmall hn nd

/-- A schedule for the examples: two threads that take turns. -/
def exHashSched : HashMult.Sched :=
  { bin := { intprod := [2, 0, 1], s1 := [], s2 := [], threads := [1, 0], ids := [1, 2, 0] },
    sym := [0, 1, 0, 1, 0, 1, 0, 1, 0, 1], s1 := [], s2 := [], num := [1, 0, 1, 0, 1, 0, 1, 0, 1, 0] }

example : HashMult.hashSpGEMM false id (· * ·) (· + ·) Ex.A Ex.B 0 2 4 exHashSched = .ok (some
    { rows := 3, cols := 3, nnz := 6, rowptr := [0, 3, 4, 6], colids := [0, 1, 2, 2, 0, 2], values := [7, 8, 2, 15, 4, 33] }) := by
  decide +kernel

/-- One row times eight rows with one entry each, in eight different columns: the table of eight slots becomes full. -/
def fullA : CSR Int :=
  { rows := 1, cols := 8, nnz := 8, rowptr := [0, 8], colids := [0, 1, 2, 3, 4, 5, 6, 7], values := [1, 2, 3, 4, 5, 6, 7, 8] }

def fullB : CSR Int :=
  { rows := 8, cols := 8, nnz := 9, rowptr := [0, 1, 2, 3, 4, 5, 6, 7, 9], colids := [0, 1, 2, 3, 4, 5, 6, 7, 0],
    values := [1, 1, 1, 1, 1, 1, 1, 1, 1] }

theorem fullA_wf : fullA.WF := ⟨rfl, rfl, rfl, by decide, rfl, rfl, rfl, by decide⟩
theorem fullB_wf : fullB.WF := ⟨rfl, rfl, rfl, by decide, rfl, rfl, rfl, by decide⟩

/-- The ninth product looks for a key in a full table. -/
example : HashMult.hashSpGEMM false id (· * ·) (· + ·) fullA fullB 0 1 4
    { bin := { intprod := [0], s1 := [], s2 := [], threads := [0], ids := [0] },
      sym := [0, 0, 0], s1 := [], s2 := [], num := [0, 0, 0] } = .ok (some
    { rows := 1, cols := 8, nnz := 8, rowptr := [0, 8], colids := [0, 3, 6, 1, 4, 7, 2, 5], values := [9, 4, 7, 2, 5, 8, 3, 6] }) := by
  decide +kernel

/-- C34, violated: with `2^17 - 1` or more rows no run returns a matrix. -/
theorem C34_violated (sorted : Bool) (sortf : List (Nat × V) → List (Nat × V)) (mul add : V → V → V) {A B : CSR V}
    (dflt : V) {n nd : Nat} (hbig : 2 ^ 17 ≤ A.rows + 1) (hnd : 0 < nd) (sch : HashMult.Sched) (C : CSR V) :
    HashMult.hashSpGEMM sorted sortf mul add A B dflt n nd sch ≠ .ok (some C) := by
  intro h
  unfold HashMult.hashSpGEMM at h
  obtain ⟨r, h1, h⟩ := Alias.bind_ok' h
  cases r with
  | none => cases h
  | some p => exact C33_violated hbig hnd _ _ h1

end Verif.Props
