import Verif.Lemmas.Common

/-! # C13, C14, C44: work distribution and prefix sums -/

namespace Verif.Props

open Verif.Model

/-! ## Prefix sums -/

/-- exclusive prefix sums of a list -/
def exclSums (xs : List Nat) : List Nat := (List.range xs.length).map fun i => (xs.take i).sum

/-- inclusive prefix sums of a list -/
def inclSums (xs : List Nat) : List Nat := (List.range xs.length).map fun i => (xs.take (i + 1)).sum

theorem psum_take (xs : List Nat) : ∀ i ≤ xs.length, psum (fun i => xs.getD i 0) i = (xs.take i).sum := by
  intro i
  induction i with
  | zero => intro _; simp [psum]
  | succ i ih =>
    intro hi
    rw [psum, ih (by omega), List.take_add_one, List.sum_append, List.getD_eq_getElem?_getD,
      List.getElem?_eq_getElem (by omega)]
    simp

theorem has_src (xs : List Nat) : ∀ i < xs.length, Has (xs.map some) (fun i => xs.getD i 0) i := by
  intro i hi
  unfold Has
  simp [List.getElem?_eq_getElem hi]

theorem exclSums_eq (xs : List Nat) :
    (tab xs.length fun i => some (psum (fun i => xs.getD i 0) i)) = (exclSums xs).map some := by
  unfold exclSums tab
  rw [List.map_map]
  apply List.map_congr_left
  intro i hi
  rw [List.mem_range] at hi
  exact congrArg some (psum_take xs i (by omega))

theorem inclSums_eq (xs : List Nat) :
    (tab xs.length fun i => some (psum (fun i => xs.getD i 0) (i + 1))) = (inclSums xs).map some := by
  unfold inclSums tab
  rw [List.map_map]
  apply List.map_congr_left
  intro i hi
  rw [List.mem_range] at hi
  exact congrArg some (psum_take xs (i + 1) (by omega))

/-- What it means that a scan of `xs` with `n` threads computes `ys`: under all schedules it makes no error and
returns nothing else, and it returns when every thread gets enough turns. -/
structure Scans (scan : List (Option Nat) → Nat → List (Option Nat) → Nat → List Nat → List Nat →
    Res (Option (List (Option Nat)))) (xs ys : List Nat) (n : Nat) : Prop where
  safe : ∀ dst s1 s2, dst.length = xs.length → scan (xs.map some) xs.length dst n s1 s2 = .ok none ∨
    scan (xs.map some) xs.length dst n s1 s2 = .ok (some (ys.map some))
  live : ∃ K, ∀ dst s1 s2, dst.length = xs.length → (∀ t < n, K ≤ s1.count t ∧ K ≤ s2.count t) →
    scan (xs.map some) xs.length dst n s1 s2 = .ok (some (ys.map some))

/-- C14: the exclusive scan writes the exclusive prefix sums, for every non-empty array, every thread
count and every schedule, whatever the destination held before. -/
theorem C14_exclusive (xs : List Nat) (hx : xs ≠ []) {n : Nat} (hn : 0 < n) :
    Scans Scan.exclusiveScan xs (exclSums xs) n := by
  have hs : 0 < xs.length := List.length_pos_iff.2 hx
  have key := fun dst s1 s2 hd => Scan.exclusiveScan_spec (dst := dst) hn hs (has_src xs) hd s1 s2
  simp only [exclSums_eq] at key
  refine ⟨fun dst s1 s2 hd => (key dst s1 s2 hd).imp (·.1) id, xs.length + 3, fun dst s1 s2 hd hK => ?_⟩
  refine (key dst s1 s2 hd).resolve_left ?_
  rintro ⟨-, t, ht, hc⟩
  have := hK t ht
  omega

/-- C14: the inclusive scan writes the inclusive prefix sums. -/
theorem C14_inclusive (xs : List Nat) (hx : xs ≠ []) {n : Nat} (hn : 0 < n) :
    Scans Scan.inclusiveScan xs (inclSums xs) n := by
  have hs : 0 < xs.length := List.length_pos_iff.2 hx
  have key := fun dst s1 s2 hd => Scan.inclusiveScan_spec (dst := dst) hn hs (has_src xs) hd s1 s2
  simp only [inclSums_eq] at key
  refine ⟨fun dst s1 s2 hd => (key dst s1 s2 hd).imp (·.1) id, xs.length + 3, fun dst s1 s2 hd hK => ?_⟩
  refine (key dst s1 s2 hd).resolve_left ?_
  rintro ⟨-, t, ht, hc⟩
  have := hK t ht
  omega

/-- The parallel code of the inclusive scan (which the call above uses from 2^17 elements on) is correct for every
non-empty array. -/
theorem C14_inclusive_parallel (xs : List Nat) (hx : xs ≠ []) {n : Nat} (hn : 0 < n) :
    Scans (Scan.par true) xs (inclSums xs) n := by
  have hs : 0 < xs.length := List.length_pos_iff.2 hx
  have key := fun dst s1 s2 hd => Scan.par_spec true (dst := dst) hn hs (has_src xs) hd s1 s2
  have e : (tab xs.length fun i => some (Scan.scanned true (fun i => xs.getD i 0) i)) = (inclSums xs).map some :=
    inclSums_eq xs
  simp only [e] at key
  refine ⟨fun dst s1 s2 hd => (key dst s1 s2 hd).imp (·.1) id, xs.length + 3, fun dst s1 s2 hd hK => ?_⟩
  refine (key dst s1 s2 hd).resolve_left ?_
  rintro ⟨-, t, ht, hc⟩
  have := hK t ht
  omega

/-- Two threads scan five elements; more threads than elements work as well. -/
example : Scan.exclusiveScan ([3, 1, 4, 1, 5].map some) 5 (List.replicate 5 none) 2 [1, 0] (List.replicate 9 1 ++
    List.replicate 9 0) = .ok (some ([0, 3, 4, 8, 9].map some)) := by decide +kernel

example : Scan.par true ([3, 1, 4].map some) 3 (List.replicate 3 none) 4 [3, 2, 1, 0]
    ((List.range 9).flatMap fun _ => [0, 1, 2, 3]) = .ok (some ([3, 4, 8].map some)) := by decide +kernel

/-! ## Work distribution -/

theorem has_excl (work : List Nat) : ∀ i < work.length,
    Has ((exclSums work).map some) (psum fun i => work.getD i 0) i := by
  intro i hi
  rw [← exclSums_eq]
  exact has_tab hi

/-- C13: from the exclusive prefix sums of the work of the rows, `n` threads get consecutive ranges that start at row
0, end at the last row and never overlap: thread `t` gets the rows from `b t` up to (not including) `b (t + 1)`.
(The total passed to the function may be anything.) -/
theorem C13_ranges (work : List Nat) (total : Nat) {n : Nat} (hn : 0 < n) :
    ∃ b : Nat → Nat, b 0 = 0 ∧ b n = work.length ∧ (∀ s t, s ≤ t → t ≤ n → b s ≤ b t) ∧
      ∀ t < n, distributeWork total ((exclSums work).map some) work.length n t = .ok (b t, b (t + 1)) := by
  refine ⟨bnd (psum fun i => work.getD i 0) total work.length n, bnd_zero _ _ _ _, bnd_last _ _ _ hn,
    fun s t h1 h2 => bnd_mono' _ _ _ h1 h2, fun t ht => ?_⟩
  exact distributeWork_eq total ht (has_excl work) (fun i j h _ => psum_mono h)

/-- C13: each row belongs to the range of exactly one thread. -/
theorem C13_each_row_once (work : List Nat) (total : Nat) {n : Nat} (hn : 0 < n) {i : Nat} (hi : i < work.length) :
    ∃ t, t < n ∧ (∃ r, distributeWork total ((exclSums work).map some) work.length n t = .ok r ∧ r.1 ≤ i ∧ i < r.2) ∧
      ∀ t' < n, ∀ r, distributeWork total ((exclSums work).map some) work.length n t' = .ok r → r.1 ≤ i → i < r.2 →
        t' = t := by
  obtain ⟨b, h0, hl, hm, hd⟩ := C13_ranges work total hn
  have hex : ∃ t, t < n ∧ b t ≤ i ∧ i < b (t + 1) := by
    have key : ∀ k, k ≤ n → i < b k → ∃ t, t < k ∧ b t ≤ i ∧ i < b (t + 1) := by
      intro k
      induction k with
      | zero => intro _ h; omega
      | succ k ih =>
        intro hk h
        by_cases h' : i < b k
        · obtain ⟨t, h1, h2⟩ := ih (by omega) h'
          exact ⟨t, by omega, h2⟩
        · exact ⟨k, by omega, by omega, h⟩
    exact key n (Nat.le_refl _) (by omega)
  obtain ⟨t, ht, h1, h2⟩ := hex
  refine ⟨t, ht, ⟨_, hd t ht, h1, h2⟩, ?_⟩
  intro t' ht' r hr h1' h2'
  rw [hd t' ht'] at hr
  injection hr with hr
  subst hr
  simp only at h1' h2'
  rcases Nat.lt_trichotomy t t' with h | h | h
  · have := hm (t + 1) t' (by omega) (by omega); omega
  · exact h.symm
  · have := hm (t' + 1) t (by omega) (by omega); omega

theorem lb_spec {P : Nat → Nat} {x : Nat} : ∀ r, (∀ i j, i ≤ j → j < r → P i ≤ P j) →
    (∀ i < lb P x r, P i < x) ∧ (∀ i, lb P x r ≤ i → i < r → x ≤ P i) := by
  intro r
  induction r with
  | zero => intro _; exact ⟨fun i hi => by simp [lb] at hi, fun i _ hi => by omega⟩
  | succ r ih =>
    intro hP
    obtain ⟨h1, h2⟩ := ih (fun i j hij hj => hP i j hij (by omega))
    unfold lb
    by_cases h : P r < x
    · rw [if_pos h]
      refine ⟨fun i hi => ?_, fun i h3 h4 => by omega⟩
      have := hP i r (by omega) (by omega); omega
    · rw [if_neg h]
      refine ⟨h1, fun i h3 h4 => ?_⟩
      by_cases hi : i < r
      · exact h2 i h3 hi
      · have : i = r := by omega
        subst this; omega

/-- C44: the ranges are balanced: with the true total, no thread gets more work than an `n`-th of the
total, plus the work of one row, plus `n`. -/
theorem C44_balanced (work : List Nat) {n w : Nat} (hn : 0 < n) (hw : ∀ x ∈ work, x ≤ w) {t : Nat} (ht : t < n)
    {r : Nat × Nat}
    (hr : distributeWork work.sum ((exclSums work).map some) work.length n t = .ok r) :
    ((work.take r.2).drop r.1).sum ≤ work.sum / n + w + n := by
  have hP : ∀ i j, i ≤ j → j < work.length →
      psum (fun i => work.getD i 0) i ≤ psum (fun i => work.getD i 0) j := fun i j h _ => psum_mono h
  rw [distributeWork_eq work.sum ht (has_excl work) hP] at hr
  injection hr with hr
  subst hr
  simp only
  obtain ⟨P, hPdef⟩ : ∃ P, P = psum (fun i => work.getD i 0) := ⟨_, rfl⟩
  rw [← hPdef] at hP ⊢
  obtain ⟨q, hq⟩ : ∃ q, work.sum / n = q := ⟨_, rfl⟩
  rw [hq]
  have htake : ∀ i ≤ work.length, P i = (work.take i).sum := fun i hi => by rw [hPdef]; exact psum_take work i hi
  have hPmono : ∀ i j, i ≤ j → P i ≤ P j := fun i j h => by rw [hPdef]; exact psum_mono h
  have hPstep : ∀ i < work.length, P (i + 1) ≤ P i + w := by
    intro i hi
    rw [hPdef]
    simp only [psum]
    rw [List.getD_eq_getElem?_getD, List.getElem?_eq_getElem hi]
    have := hw _ (List.getElem_mem hi)
    simp only [Option.getD_some]
    omega
  have hb : ∀ k, bnd P work.sum work.length n k ≤ work.length := fun k => bnd_le _ _ _ _ _
  have hle := bnd_mono P work.sum work.length ht
  have hsum : ((work.take (bnd P work.sum work.length n (t + 1))).drop (bnd P work.sum work.length n t)).sum =
      P (bnd P work.sum work.length n (t + 1)) - P (bnd P work.sum work.length n t) := by
    rw [htake _ (hb _), htake _ (hb _)]
    revert hle
    generalize bnd P work.sum work.length n (t + 1) = e
    generalize bnd P work.sum work.length n t = b
    intro hle
    have h1 := List.take_append_drop b (work.take e)
    rw [List.take_take, Nat.min_eq_left hle] at h1
    have h2 := congrArg List.sum h1
    rw [List.sum_append] at h2
    omega
  rw [hsum]
  have hlast : P work.length = work.sum := by rw [htake _ (Nat.le_refl _), List.take_length]
  have hqn : work.sum < n * q + n := by
    rw [← hq]
    have := Nat.div_add_mod work.sum n
    have := Nat.mod_lt work.sum hn
    omega
  -- lower bound of the start
  have hstart : bnd P work.sum work.length n t = work.length ∨ q * t ≤ P (bnd P work.sum work.length n t) := by
    by_cases h0 : t = 0
    · right; rw [h0, Nat.mul_zero]; exact Nat.zero_le _
    · have e : bnd P work.sum work.length n t = lb P (q * t) work.length := by
        unfold bnd; rw [if_neg h0, if_neg (by omega), hq]
      rw [e]
      by_cases h : lb P (q * t) work.length < work.length
      · right
        exact (lb_spec work.length hP).2 _ (Nat.le_refl _) h
      · left
        have := lb_le P (q * t) work.length; omega
  rcases hstart with h | h
  · rw [h] at hle ⊢
    have := hb (t + 1)
    have h1 : bnd P work.sum work.length n (t + 1) = work.length := by omega
    rw [h1]; omega
  · by_cases hl : t + 1 = n
    · have e : bnd P work.sum work.length n (t + 1) = work.length := by rw [hl]; exact bnd_last _ _ _ hn
      rw [e, hlast]
      have : n * q = q * t + q := by
        rw [← hl, Nat.add_mul, Nat.one_mul, Nat.mul_comm]
      omega
    · have e : bnd P work.sum work.length n (t + 1) = lb P (q * (t + 1)) work.length := by
        unfold bnd; rw [if_neg (by omega), if_neg hl, hq]
      rw [e]
      have h1 := lb_le P (q * (t + 1)) work.length
      have h2 : P (lb P (q * (t + 1)) work.length) ≤ q * (t + 1) + w := by
        cases hk : lb P (q * (t + 1)) work.length with
        | zero =>
          have : P 0 = 0 := by rw [hPdef]; rfl
          omega
        | succ k =>
          have h3 := (lb_spec (x := q * (t + 1)) work.length hP).1 k (by omega)
          have h4 := hPstep k (by omega)
          omega
      have : q * (t + 1) = q * t + q := by rw [Nat.mul_add, Nat.mul_one]
      omega

/-- Four threads share seven rows, one of them heavy: rows 0-2, none, none, and rows 3-6. -/
example : (List.range 4).map (fun t => distributeWork 31 ((exclSums [1, 1, 20, 1, 1, 3, 4]).map some) 7 4 t) =
    [.ok (0, 3), .ok (3, 3), .ok (3, 3), .ok (3, 7)] := by decide +kernel

end Verif.Props
