import Verif.Props.C31
import Verif.Props.C53
import Verif.Props.C88

/-!
# The older kernels on matrices without rows (C31, C34, C53, C88)

Most of them build a partition of the rows, and its constructor asserts that there are rows (BIN.h:42). The hash kernel without
bins has no partition and returns the empty matrix. As in the model of the partition, assertions are compiled in.
-/

namespace Verif.Props
open Verif.Model

variable {V : Type}

/-- The constructor of the partition fails if there are no rows. (C33 excludes this case.) -/
theorem setMaxBin_zero (A B : CSR V) (cols min n nd : Nat) (sch : Bin.Sched) : Bin.setMaxBin A B 0 cols min n nd sch = .error .assertion := rfl

/-- C31, violated: the kernel with the dense accumulator stops with a failed assertion on every matrix `A` without rows. -/
theorem C31_violated_spa_empty (mul add : V → V → V) {A : CSR V} (B M : CSR V) (h0 : A.rows = 0) (dflt : V) (n nd : Nat) (sch : TwoPassSched) :
    Spa.spaSpGEMM mul add A B M dflt n nd sch = .error .assertion := by
  unfold Spa.spaSpGEMM twoPass
  rw [h0, setMaxBin_zero]
  rfl

/-- C31, violated: the same for the hash kernel with bins. -/
theorem C31_violated_hash_empty (mul add : V → V → V) {A : CSR V} (B M : CSR V) (h0 : A.rows = 0) (dflt : V) (n nd : Nat) (sch : TwoPassSched) :
    LpMult.hashMask mul add A B M dflt n nd sch = .error .assertion := by
  unfold LpMult.hashMask twoPass
  rw [h0, setMaxBin_zero]
  rfl

/-- C31 for the hash kernel without bins on matrices without rows: it returns the masked product, which is empty. -/
theorem C31_wobin_empty (mul add : V → V → V) {A B M : CSR V} (h0 : A.rows = 0) (dflt : V) (nd : Nat) :
    ∃ C, Spec.IsMaskedSet mul add A B M C ∧ ∀ order1 s1 s2 order2 : List Nat,
      order1.Perm (List.range A.rows) → order2.Perm (List.range A.rows) →
      LpMult.hashMaskWobin mul add A B M dflt nd order1 s1 s2 order2 = .ok (some C) := by
  refine ⟨{ rows := 0, cols := B.cols, nnz := 0, rowptr := [0], colids := [], values := [], zerobased := true }, ?_, ?_⟩
  · refine ⟨⟨rfl, rfl, rfl, fun i hi => absurd hi (Nat.not_lt_zero i), rfl, rfl, rfl, by simp⟩, h0.symm, rfl, ?_, ?_⟩
    · intro i hi
      rw [h0] at hi
      exact absurd hi (Nat.not_lt_zero i)
    · intro i hi
      exact absurd hi (Nat.not_lt_zero i)
  · intro order1 s1 s2 order2 h1 h2
    rw [h0] at h1 h2
    obtain rfl := List.perm_nil.1 h1
    obtain rfl := List.perm_nil.1 h2
    unfold LpMult.hashMaskWobin
    rw [h0]
    rfl

/-- C34, violated: the hash multiply stops with a failed assertion on every matrix `A` without rows. -/
theorem C34_violated_empty (sorted : Bool) (sortf : List (Nat × V) → List (Nat × V)) (mul add : V → V → V) {A : CSR V} (B : CSR V)
    (h0 : A.rows = 0) (dflt : V) (n nd : Nat) (sch : HashMult.Sched) :
    HashMult.hashSpGEMM sorted sortf mul add A B dflt n nd sch = .error .assertion := by
  unfold HashMult.hashSpGEMM
  rw [h0, setMaxBin_zero]
  rfl

/-- C53, violated: no call of the inner-product kernel returns if `A` has no rows. -/
theorem C53_violated_empty (mul add : V → V → V) (zero : V) {A : CSR V} (B : CSC V) {M : CSR V} (hM : M.WF) (h0 : A.rows = 0)
    (n nd nnz0 : Nat) (sch : Dot.Sched) : Dot.innerNohash mul add zero A B M n nd nnz0 sch = .error .assertion := by
  unfold Dot.innerNohash
  have e : (List.range M.nnz).mapM (rd M.colids) = .ok M.colids := by
    rw [mapM_ok (g := fun i => M.colids.getD i 0)]
    · congr 1
      rw [← hM.colLen]
      exact (eq_tab M.colids 0).symm
    · intro i hi
      have : i < M.colids.length := by rw [hM.colLen]; simpa using hi
      rw [rd_of_lt this]
      simp [List.getD_eq_getElem?_getD, this]
  rw [e, ok_bind, h0, setMaxBin_zero]
  rfl

section
open Verif.Model.BlockedTc Verif.Spec

/-- C88, violated: if a row of the grid consists of blocks without rows then no run prints the totals. -/
theorem C88_violated_empty {sortf : List (Nat × ℚ) → List (Nat × ℚ)} {neg : ℚ → ℚ} {g nd : Nat} {w : Nat → Nat}
    {es : Nat → Nat → List (Nat × Nat × ℚ)} {files : Nat → Nat → Option (List Char)} {orders : Nat → Nat → List Nat}
    (hsort : SortsBy Prod.fst sortf) (h : BlockFiles neg g w es files orders) {i : Nat} (hi : i < g)
    (h0 : w i = 0) {order : List Nat} (ho : order.Perm (List.range (g * g * g))) {sch : Nat → Sch} (T : Counts) :
    main sortf nd g g orders files order sch ≠ .ok (some T) := by
  intro hrun
  obtain ⟨X, eX, hX⟩ := load_ok hsort h
  obtain ⟨q, hq, rfl, hj, hk⟩ := of_digits hi hi hi
  unfold main at hrun
  rw [check, if_pos (by simp), ok_bind, eX, ok_bind] at hrun
  obtain ⟨cs, hcs, -⟩ := andThen_some hrun
  obtain ⟨c, hcell⟩ := fill_some hcs q (ho.mem_iff.2 (List.mem_range.2 hq))
  obtain ⟨hi, hj, hk⟩ := digits hq
  unfold iteration at hcell
  rw [blockAt_eq X hi hk, ok_bind, blockAt_eq X hk hj, ok_bind, blockAt_eq X hi hj, ok_bind] at hcell
  unfold cell at hcell
  obtain ⟨_, -, hcell⟩ := Alias.bind_ok' hcell
  obtain ⟨_, hprod, -⟩ := andThen_some hcell
  rw [C34_violated_empty _ _ _ _ _ (by rw [(mats hX hi hj hk).rA]; exact h0)] at hprod
  cases hprod

end

/-! ## Examples -/

/-- A matrix without rows and with 3 columns -/
def noRows : CSR Int := { rows := 0, cols := 3, nnz := 0, rowptr := [0], colids := [], values := [] }

example (sch : TwoPassSched) := C31_violated_spa_empty (· * ·) (· + ·) (A := noRows) Ex.B noRows rfl 0 2 4 sch
example (sch : TwoPassSched) := C31_violated_hash_empty (· * ·) (· + ·) (A := noRows) Ex.B noRows rfl 0 2 4 sch
example := C31_wobin_empty (· * ·) (· + ·) (A := noRows) (B := Ex.B) (M := noRows) rfl 0 4
example (sch : HashMult.Sched) := C34_violated_empty true id (· * ·) (· + ·) (A := noRows) Ex.B rfl 0 2 4 sch
example (sch : Dot.Sched) := C53_violated_empty (· * ·) (· + ·) 0 (A := noRows) Bc (M := noRows)
  ⟨rfl, rfl, rfl, fun i hi => absurd hi (Nat.not_lt_zero i), rfl, rfl, rfl, by simp [noRows]⟩ rfl 2 4 0 sch

def noRowsFile : Spec.MMText := { field := .integer, sym := .general, comments := [], size := "0 0 0".toList, entries := [] }

theorem noRows_of : Spec.FileOf (fun z : ℤ => (z : ℚ)) (fun v => -v) (Spec.banner .integer .general ++ "\n0 0 0\n".toList) 0 0 [] := by
  refine ⟨noRowsFile, [], ⟨by decide +kernel, ?_, ?_, by decide, fun _ => rfl⟩, rfl, by decide +kernel, by decide,
    by rintro ⟨_, c, hc, _⟩; simp [noRowsFile] at hc, .inl ⟨[], by decide +kernel⟩, by decide⟩
  · exact .mk ['0'] ['0'] ['0'] 0 0 0 (.digit 0 (by decide)) (.digit 0 (by decide)) (.digit 0 (by decide))
  · exact .nil

/-- A single block without rows -/
theorem noRows_files : BlockedTc.BlockFiles (fun v => -v) 1 (fun _ => 0) (fun _ _ => [])
    (fun _ _ => some (Spec.banner .integer .general ++ "\n0 0 0\n".toList)) (fun _ _ => []) where
  files := fun _ _ _ _ => ⟨_, rfl, noRows_of⟩
  orders := fun _ _ _ _ => by decide

example (sch : Nat → BlockedTc.Sch) (T : BlockedTc.Counts) :=
  C88_violated_empty (isort_sorts Prod.fst) (nd := 4) noRows_files (i := 0) (by decide) rfl (order := [0]) (by decide) (sch := sch) T

end Verif.Props
