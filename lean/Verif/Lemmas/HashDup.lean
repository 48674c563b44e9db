import Verif.Lemmas.HashNum
import Verif.Lemmas.Masked

/-! # The hash row on a mask row with a repeated column -/

namespace Verif.Model.Hash

open Msa (pr not_mem_of_nodup_split)

variable {V : Type}

/-- A list with repetitions starts with a duplicate-free part followed by one of its elements. -/
theorem exists_first_dup {l : List Nat} (h : ¬ l.Nodup) :
    ∃ pre a post, l = pre ++ a :: post ∧ pre.Nodup ∧ a ∈ pre := by
  induction l using list_snoc_induction with
  | h0 => exact absurd List.nodup_nil h
  | h1 l a ih =>
    by_cases hl : l.Nodup
    · refine ⟨l, a, [], rfl, hl, ?_⟩
      by_cases ha : a ∈ l
      · exact ha
      · exfalso
        apply h
        rw [List.nodup_append]
        refine ⟨hl, by simp, ?_⟩
        intro x hx y hy
        simp at hy; subst hy
        exact fun e => ha (e ▸ hx)
    · obtain ⟨pre, b, post, rfl, h1, h2⟩ := ih hl
      exact ⟨pre, b, post ++ [a], by simp, h1, h2⟩

/-- The row algorithm never ends: `gather` searches a key that it has removed. -/
theorem numericRow_dup {A B M : CSR V} (hA : A.WF) (hB : B.WF) (hM : M.WF) (sh : Spec.Shapes A B M) {row : Nat}
    (hr : row < A.rows) (hdup : ¬ (M.rowCols row).Nodup) (mul add : V → V → V) {cap : Nat}
    (hcap : adjustSize (M.rowCols row).length ≤ cap) {t : Tbl (Val V)} (ht : Clean cap t) :
    numericRow mul add A B M row t = .error .diverge := by
  obtain ⟨N, f, rfl, hf⟩ := ht
  have hrM : row < M.rows := sh.ma ▸ hr
  unfold numericRow
  simp only [maskLen_eq hM hrM, ok_bind, resize_ok hcap, maskLoop_eq hM hrM]
  obtain ⟨f1, r1, r2⟩ := insertsM_ok (ks := []) add (adjustSize_pow2 (M.rowCols row).length) hcap hf
    (lt_adjustSize (Nat.le_refl _))
  erw [r1]
  simp only [ok_bind]
  rw [nest_eq hA hB sh.ab hr _ _ (stepN mul add) (by
      intro j k s hj hk hk'
      simp only [rd_of_lt hj, rd_of_lt hk, rd_of_lt hk', ok_bind, stepN]
      congr 1)]
  obtain ⟨f2, r3, r4⟩ := accumN_ok (ks := []) (mul := mul) r2 (lt_adjustSize (Nat.le_refl _)) (visits A B row)
  rw [r3]
  simp only [ok_bind]
  obtain ⟨pre, a, post, hl, hnd, ha⟩ := exists_first_dup hdup
  obtain ⟨f3, r5, r6⟩ := gather_ok (ks := []) (K := pre) r4 hnd (fun x hx => by rw [hl]; simp [hx])
    (fun _ _ _ hp => hp)
  have e2 : ∀ out, Tbl.gather1 (mkT cap (adjustSize (M.rowCols row).length) f3 [], out) a = .error .diverge := by
    intro out
    unfold Tbl.gather1
    simp only []
    rw [findIdxForce_diverge r4.pow r4.le (key := a)]
    · rfl
    · intro i hi hk
      by_cases hx : i < adjustSize (M.rowCols row).length ∧ ∃ x ∈ pre, (f2 i).key = some x
      · rw [(r6 i).1 hx] at hk; cases hk
      · rw [(r6 i).2 hx] at hk
        exact hx ⟨hi, a, ha, hk⟩
  have key : ∀ ms, ms = pre ++ a :: post →
      ms.foldlM Tbl.gather1 (mkT cap (adjustSize (M.rowCols row).length) f2 [], []) = .error .diverge := by
    rintro _ rfl
    rw [List.foldlM_append, r5, ok_bind, List.foldlM_cons, e2]; rfl
  exact key _ hl

end Verif.Model.Hash
