import Verif.Props.C33

/-!
# C49: the work is split evenly

A thread gets consecutive rows. Without its last row, its work is at most the average (rounded up for the older kernels).
-/

namespace Verif.Props
open Verif.Model

variable {V : Type}

/-- Work of the rows `lo, …, hi - 1`. -/
def load (f : Nat → Nat) (lo hi : Nat) : Nat := ((List.range' lo (hi - lo)).map f).sum

theorem load_eq (f : Nat → Nat) {lo hi : Nat} (h : lo ≤ hi) : psum f lo + load f lo hi = psum f hi := by
  unfold load
  induction hi with
  | zero => have : lo = 0 := by omega
            subst this; rfl
  | succ hi ih =>
    rcases Nat.lt_or_ge lo (hi + 1) with h' | h'
    · have := ih (by omega)
      rw [show hi + 1 - lo = (hi - lo) + 1 by omega, List.range'_concat, List.map_append, List.sum_append]
      simp only [List.map_cons, List.map_nil, List.sum_cons, List.sum_nil, psum]
      rw [show lo + 1 * (hi - lo) = hi by omega]
      omega
    · have : lo = hi + 1 := by omega
      subst this; simp

theorem lt_of_lt_lb {P : Nat → Nat} {x r i : Nat} (hP : ∀ i j, i ≤ j → j < r → P i ≤ P j) (hi : i < lb P x r) : P i < x := by
  induction r with
  | zero => exact absurd hi (by unfold lb; omega)
  | succ r ih =>
    unfold lb at hi
    split at hi
    · rename_i h
      have := hP i r (by omega) (by omega)
      omega
    · exact ih (fun i j h1 h2 => hP i j h1 (by omega)) hi

theorem le_of_lb_le {P : Nat → Nat} {x r i : Nat} (hi : lb P x r ≤ i) (hr : i < r)
    (hP : ∀ i j, i ≤ j → j < r → P i ≤ P j) : x ≤ P i := by
  induction r with
  | zero => omega
  | succ r ih =>
    unfold lb at hi
    split at hi
    · omega
    · rename_i h
      rcases Nat.lt_or_ge i r with h' | h'
      · exact ih hi h' (fun i j h1 h2 => hP i j h1 (by omega))
      · have : i = r := by omega
        subst this; omega

/-- C49, `distributeWork`: the array holds the prefix sums of the work `f` of the rows. Without its last row, a thread that is
not the last one gets less than `total / n` units of work. The last thread gets at most `total / n + total % n` units. -/
theorem C49_distributeWork (f : Nat → Nat) {accum : List (Option Nat)} {rows n t : Nat} (ht : t < n)
    (ha : ∀ i < rows, accum[i]? = some (some (load f 0 i))) :
    ∃ lo hi, distributeWork (load f 0 rows) accum rows n t = .ok (lo, hi) ∧ lo ≤ hi ∧ hi ≤ rows ∧
      (t + 1 < n → lo < hi → load f lo (hi - 1) < load f 0 rows / n) ∧
      (t + 1 = n → load f lo hi ≤ load f 0 rows / n + load f 0 rows % n) := by
  have h0 : ∀ i, load f 0 i = psum f i := fun i => by
    have := load_eq f (Nat.zero_le i)
    simpa [psum] using this
  have hP : ∀ i j, i ≤ j → j < rows → psum f i ≤ psum f j := fun i j h _ => psum_mono h
  rw [h0]
  refine ⟨_, _, distributeWork_eq (P := psum f) _ ht (fun i hi => by
    show accum[i]? = _
    rw [ha i hi, h0]) hP, bnd_mono _ _ _ ht, bnd_le _ _ _ _ _, ?_, ?_⟩
  · intro ht1 hlt
    obtain ⟨w, hw⟩ : ∃ w, w = psum f rows / n := ⟨_, rfl⟩
    have hhi : bnd (psum f) (psum f rows) rows n (t + 1) = lb (psum f) (w * (t + 1)) rows := by
      unfold bnd; rw [if_neg (by omega), if_neg (by omega), hw]
    have hle : bnd (psum f) (psum f rows) rows n (t + 1) ≤ rows := bnd_le _ _ _ _ _
    have h1 : psum f (bnd (psum f) (psum f rows) rows n (t + 1) - 1) < w * (t + 1) :=
      lt_of_lt_lb hP (by rw [← hhi]; omega)
    have h2 : w * t ≤ psum f (bnd (psum f) (psum f rows) rows n t) := by
      by_cases h : t = 0
      · subst h; simp
      · have e : bnd (psum f) (psum f rows) rows n t = lb (psum f) (w * t) rows := by
          unfold bnd; rw [if_neg h, if_neg (by omega), hw]
        refine le_of_lb_le (r := rows) ?_ (by omega) hP
        rw [e]; exact Nat.le_refl _
    have h3 := load_eq f (lo := bnd (psum f) (psum f rows) rows n t)
      (hi := bnd (psum f) (psum f rows) rows n (t + 1) - 1) (by omega)
    rw [← hw]
    rw [Nat.mul_add, Nat.mul_one] at h1
    omega
  · intro ht1
    have hhi : bnd (psum f) (psum f rows) rows n (t + 1) = rows := by rw [ht1]; exact bnd_last _ _ _ (by omega)
    rw [hhi]
    obtain ⟨w, hw⟩ : ∃ w, w = psum f rows / n := ⟨_, rfl⟩
    have hle : bnd (psum f) (psum f rows) rows n t ≤ rows := bnd_le _ _ _ _ _
    have h3 := load_eq f hle
    have hdm := Nat.div_add_mod (psum f rows) n
    rw [← hw] at hdm ⊢
    rcases Nat.lt_or_ge (bnd (psum f) (psum f rows) rows n t) rows with hlt | hge
    · have h2 : w * t ≤ psum f (bnd (psum f) (psum f rows) rows n t) := by
        by_cases h : t = 0
        · subst h; simp
        · have e : bnd (psum f) (psum f rows) rows n t = lb (psum f) (w * t) rows := by
            unfold bnd; rw [if_neg h, if_neg (by omega), hw]
          refine le_of_lb_le (r := rows) ?_ hlt hP
          rw [e]; exact Nat.le_refl _
      have hn : n * w = w * t + w := by
        rw [show n * w = (t + 1) * w by rw [ht1], Nat.add_mul, Nat.one_mul, Nat.mul_comm]
      omega
    · have : bnd (psum f) (psum f rows) rows n t = rows := by omega
      rw [this] at h3 ⊢
      omega

/-- Four rows with work 5, 0, 7, 4 and two threads. -/
example := C49_distributeWork (fun i => [5, 0, 7, 4].getD i 0) (rows := 4) (n := 2) (t := 1)
  (accum := [some 0, some 5, some 5, some 12]) (by decide) (by decide)

example : distributeWork 16 [some 0, some 5, some 5, some 12] 4 2 0 = .ok (0, 3) := by decide +kernel

/-- C49, work partition of the older kernels, for fewer than `2^17 - 1` rows: without its last row, the products of a thread
are at most the average, rounded up. -/
theorem C49_bin_partial {A B : CSR V} (hA : A.WF) (hB : B.WF) (hAB : A.cols = B.rows) (hpos : 0 < A.rows)
    (hsmall : A.rows + 1 < 2 ^ 17) {cols min n : Nat} (hmin : 0 < min) (hn : 0 < n) (nd : Nat) {sch : Bin.Sched}
    (ho : Bin.Adm A.rows n sch) :
    ∃ p, Bin.setMaxBin A B A.rows cols min n nd sch = .ok (some p) ∧
      ∀ t < n, ∃ lo hi, p.rowsOffset[t]? = some lo ∧ p.rowsOffset[t + 1]? = some hi ∧ lo ≤ hi ∧
        load (rowProducts A B) lo (hi - 1) ≤ (load (rowProducts A B) 0 A.rows + n - 1) / n := by
  obtain ⟨p, e, hp⟩ := Bin.setMaxBin_ok (cols := cols) hA hB hAB hpos hsmall hmin hn nd ho
  refine ⟨p, e, ?_⟩
  have hf : rowProducts A B = Bin.nprod A B := funext fun i => (nprod_eq A B i).symm
  rw [hf]
  have hoff := hp.off
  generalize Bin.nprod A B = f at hoff
  intro t ht
  have hb := Bin.bounds f (psum f A.rows) A.rows hn
  refine ⟨Bin.bound f (psum f A.rows) A.rows n t, Bin.bound f (psum f A.rows) A.rows n (t + 1),
    by rw [hoff, tab_getElem? (by omega)], by rw [hoff, tab_getElem? (by omega)], hb.mono t ht, ?_⟩
  have h0 : load f 0 A.rows = psum f A.rows := by
    have := load_eq f (Nat.zero_le A.rows)
    simpa [psum] using this
  rw [h0]
  have hP : ∀ i j, i ≤ j → j < A.rows + 1 → psum f i ≤ psum f j := fun i j h _ => psum_mono h
  obtain ⟨w, hw⟩ : ∃ w, w = (psum f A.rows + n - 1) / n := ⟨_, rfl⟩
  rw [← hw]
  have hwn : psum f A.rows ≤ w * n := by
    have h1 := Nat.div_add_mod (psum f A.rows + n - 1) n
    have h2 := Nat.mod_lt (psum f A.rows + n - 1) hn
    rw [← hw, Nat.mul_comm] at h1
    omega
  have hhi : psum f (Bin.bound f (psum f A.rows) A.rows n (t + 1) - 1) ≤ w * (t + 1) := by
    by_cases h1 : t + 1 = n
    · rw [h1]
      have := psum_mono (f := f) (i := Bin.bound f (psum f A.rows) A.rows n n - 1) (j := A.rows) (by
        have := hb.last; omega)
      omega
    · by_cases h2 : Bin.bound f (psum f A.rows) A.rows n (t + 1) = 0
      · rw [h2]; simp [psum]
      · have e : Bin.bound f (psum f A.rows) A.rows n (t + 1) ≤ lb (psum f) (w * (t + 1)) (A.rows + 1) := by
          unfold Bin.bound; rw [if_neg (by omega), if_neg h1, hw]; omega
        exact Nat.le_of_lt (lt_of_lt_lb hP (by omega : Bin.bound f (psum f A.rows) A.rows n (t + 1) - 1 < _))
  rcases Nat.lt_or_ge (Bin.bound f (psum f A.rows) A.rows n t) (Bin.bound f (psum f A.rows) A.rows n (t + 1)) with hlt | hge
  · have hlo : w * t ≤ psum f (Bin.bound f (psum f A.rows) A.rows n t) := by
      by_cases h : t = 0
      · subst h; simp
      · have hle : Bin.bound f (psum f A.rows) A.rows n (t + 1) ≤ A.rows := hb.le (by omega)
        have e : lb (psum f) (w * t) (A.rows + 1) ≤ Bin.bound f (psum f A.rows) A.rows n t := by
          have : Bin.bound f (psum f A.rows) A.rows n t = Min.min A.rows (lb (psum f) (w * t) (A.rows + 1)) := by
            unfold Bin.bound; rw [if_neg h, if_neg (by omega), hw]
          omega
        exact le_of_lb_le e (by omega) hP
    have h3 := load_eq f (lo := Bin.bound f (psum f A.rows) A.rows n t)
      (hi := Bin.bound f (psum f A.rows) A.rows n (t + 1) - 1) (by omega)
    rw [Nat.mul_add, Nat.mul_one] at hhi
    omega
  · unfold load
    rw [show Bin.bound f (psum f A.rows) A.rows n (t + 1) - 1 - Bin.bound f (psum f A.rows) A.rows n t = 0 by omega]
    simp

example := C49_bin_partial (cols := 3) (min := 8) (n := 2) Ex.wfA Ex.wfB rfl (by decide) (by decide) (by decide) (by decide) 4
  (sch := { intprod := [2, 0, 1], s1 := [], s2 := [], threads := [1, 0], ids := [1, 2, 0] }) ⟨by decide, by decide, by decide⟩

end Verif.Props
