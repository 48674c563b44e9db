import Verif.Lemmas.Spa
import Verif.Lemmas.LpMult
import Verif.Lemmas.Masked
import Verif.Props.C33

/-!
# C31: the sparse accumulator kernel and the linear-probing hash kernels

The full claim ranges over all row counts. The proved theorems ask for fewer than `2^17 - 1` rows, because all three kernels
call the prefix sum that reads past the end of its source for more (`C31_violated_*`, and C48). Mask rows may have duplicate
columns.
-/

namespace Verif.Props
open Verif.Model

variable {V : Type}

/-- C31 for the sparse accumulator with fewer than `2^17 - 1` rows: there is one matrix `C`, the masked product, such that every
run either returns it or stops because some thread gets too few steps. The kernel adds a new product on the left of the sum so
far. The entries of a row are in the order in which the products reach their columns. -/
theorem C31_spa_partial (mul add : V → V → V) {A B M : CSR V} (h : Spec.Valid A B M) (hsmall : A.rows + 1 < 2 ^ 17) (dflt : V)
    {n : Nat} (hn : 0 < n) (nd : Nat) :
    ∃ C, Spec.IsMaskedSet mul (fun a b => add b a) A B M C ∧ Spec.FirstTouchOrder A B C ∧
      ∀ sch : TwoPassSched, sch.Adm A.rows n →
      (Spa.spaSpGEMM mul add A B M dflt n nd sch = .ok none ∧
        ∃ t < n, sch.count.count t ≤ A.rows + 1 ∨ sch.fill.count t ≤ A.rows + 1) ∨
      Spa.spaSpGEMM mul add A B M dflt n nd sch = .ok (some C) := by
  obtain ⟨C, h1, h2, h3⟩ := Spa.spaSpGEMM_ok mul add h hsmall dflt (nd := nd) hn
  refine ⟨C, h1, ?_, h3⟩
  intro i hi
  rw [h1.rows] at hi
  rw [h2 i hi, touched_eq]
  exact firsts_order _ _

/-- C31 for the hash kernel with bins with fewer than `2^17 - 1` rows. In particular no run probes forever. -/
theorem C31_hash_partial (mul add : V → V → V) {A B M : CSR V} (h : Spec.Valid A B M) (hsmall : A.rows + 1 < 2 ^ 17) (dflt : V)
    {n : Nat} (hn : 0 < n) (nd : Nat) :
    ∃ C, Spec.IsMaskedSet mul add A B M C ∧ ∀ sch : TwoPassSched, sch.Adm A.rows n →
      (LpMult.hashMask mul add A B M dflt n nd sch = .ok none ∧
        ∃ t < n, sch.count.count t ≤ A.rows + 1 ∨ sch.fill.count t ≤ A.rows + 1) ∨
      LpMult.hashMask mul add A B M dflt n nd sch = .ok (some C) :=
  LpMult.hashMask_ok mul add h hsmall dflt hn

/-- C31 for the hash kernel without bins with fewer than `2^17 - 1` rows, for every order of the iterations of its two loops. -/
theorem C31_wobin_partial (mul add : V → V → V) {A B M : CSR V} (h : Spec.Valid A B M) (hsmall : A.rows + 1 < 2 ^ 17) (dflt : V)
    (nd : Nat) : ∃ C, Spec.IsMaskedSet mul add A B M C ∧ ∀ order1 s1 s2 order2 : List Nat,
      order1.Perm (List.range A.rows) → order2.Perm (List.range A.rows) →
      LpMult.hashMaskWobin mul add A B M dflt nd order1 s1 s2 order2 = .ok (some C) :=
  LpMult.hashMaskWobin_ok mul add h hsmall dflt nd

/-- The mask `Ex.M` with some columns given twice: rows `[1,0,1]`, `[]`, `[2,2,1]`. -/
def repM : CSR Int :=
  { rows := 3, cols := 3, nnz := 6, rowptr := [0, 3, 3, 6], colids := [1, 0, 1, 2, 2, 1], values := [1, 1, 1, 1, 1, 1] }

theorem repM_valid : Spec.Valid Ex.A Ex.B repM :=
  ⟨Ex.wfA, Ex.wfB, ⟨rfl, rfl, rfl, by decide, rfl, rfl, rfl, by decide⟩, ⟨rfl, rfl, rfl⟩, by decide⟩

/-- A schedule for the examples: two threads that take turns. -/
def exTwoPass : TwoPassSched :=
  { bin := { intprod := [2, 0, 1], s1 := [], s2 := [], threads := [1, 0], ids := [1, 2, 0] },
    count := [0, 1, 0, 1, 0, 1, 0, 1, 0, 1], s1 := [], s2 := [], fill := [1, 0, 1, 0, 1, 0, 1, 0, 1, 0] }

theorem exTwoPass_adm : exTwoPass.Adm 3 2 := ⟨by decide, by decide, by decide⟩

example := C31_spa_partial (· * ·) (· + ·) repM_valid (by decide) 0 (n := 2) (by decide) 4
example := C31_hash_partial (· * ·) (· + ·) repM_valid (by decide) 0 (n := 2) (by decide) 4
example := C31_wobin_partial (· * ·) (· + ·) repM_valid (by decide) 0 4

example : Spa.spaSpGEMM (· * ·) (· + ·) Ex.A Ex.B repM 0 2 4 exTwoPass = .ok (some Ex.C) := by decide +kernel

example : LpMult.hashMask (· * ·) (· + ·) Ex.A Ex.B repM 0 2 4 exTwoPass = .ok (some
    { rows := 3, cols := 3, nnz := 3, rowptr := [0, 2, 2, 3], colids := [0, 1, 2], values := [7, 8, 33] }) := by
  decide +kernel

example : LpMult.hashMaskWobin (· * ·) (· + ·) Ex.A Ex.B repM 0 4 [2, 0, 1] [] [] [1, 2, 0] = .ok (some
    { rows := 3, cols := 3, nnz := 3, rowptr := [0, 2, 2, 3], colids := [0, 1, 2], values := [7, 8, 33] }) := by
  decide +kernel

/-- C31, violated: with `2^17 - 1` or more rows no run of the sparse accumulator kernel returns a matrix. -/
theorem C31_violated_spa (mul add : V → V → V) {A B M : CSR V} (dflt : V) {n nd : Nat} (hbig : 2 ^ 17 ≤ A.rows + 1)
    (hnd : 0 < nd) (sch : TwoPassSched) (C : CSR V) : Spa.spaSpGEMM mul add A B M dflt n nd sch ≠ .ok (some C) :=
  twoPass_big (C33_violated hbig hnd _)

/-- C31, violated: the same for the hash kernel with bins. -/
theorem C31_violated_hash (mul add : V → V → V) {A B M : CSR V} (dflt : V) {n nd : Nat} (hbig : 2 ^ 17 ≤ A.rows + 1)
    (hnd : 0 < nd) (sch : TwoPassSched) (C : CSR V) : LpMult.hashMask mul add A B M dflt n nd sch ≠ .ok (some C) :=
  twoPass_big (C33_violated hbig hnd _)

/-- C31, violated: the same for the hash kernel without bins. -/
theorem C31_violated_wobin (mul add : V → V → V) {A B M : CSR V} (h : Spec.Valid A B M) (dflt : V) {nd : Nat}
    (hbig : 2 ^ 17 ≤ A.rows + 1) (hnd : 0 < nd) {order1 s1 s2 order2 : List Nat} (ho1 : order1.Perm (List.range A.rows))
    (C : CSR V) : LpMult.hashMaskWobin mul add A B M dflt nd order1 s1 s2 order2 ≠ .ok (some C) :=
  LpMult.hashMaskWobin_big mul add h hbig dflt hnd ho1 C

/-- A matrix to multiply `bigA` with. -/
def oneB : CSR Int := { rows := 1, cols := 1, nnz := 1, rowptr := [0, 1], colids := [0], values := [7] }

theorem oneB_wf : oneB.WF := ⟨rfl, rfl, rfl, by decide, rfl, rfl, rfl, by decide⟩

theorem bigA_valid : Spec.Valid bigA oneB bigA := by
  refine ⟨bigA_wf, oneB_wf, bigA_wf, ⟨?_, ?_, ?_⟩, ?_⟩
  · rfl
  · rfl
  · rfl
  · show 0 < 2 ^ 17
    omega

theorem bigA_rows : bigA.rows = 2 ^ 17 := rfl

/-- A matrix that meets the hypotheses. -/
example (order1 s1 s2 order2 : List Nat) (ho1 : order1.Perm (List.range bigA.rows)) (C : CSR Int) :
    LpMult.hashMaskWobin (· * ·) (· + ·) bigA oneB bigA 0 4 order1 s1 s2 order2 ≠ .ok (some C) :=
  C31_violated_wobin _ _ bigA_valid 0 (by rw [bigA_rows]; omega) (by decide) ho1 C

end Verif.Props
