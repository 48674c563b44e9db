import Verif.Lemmas.HashWord

/-! # C16: hash table sizing -/

namespace Verif.Props

open Verif.Model.Hash

/-- C16: the table size is a power of two, at least 16, at least four times (requested keys plus one), and
monotone in the request. So the load is at most one quarter, one slot stays empty, and the table of a
row fits into the capacity computed for a row that is at least as large. -/
theorem C16_adjustSize (n : Nat) :
    (∃ k, adjustSize n = 2 ^ k) ∧ 16 ≤ adjustSize n ∧ 4 * (n + 1) ≤ adjustSize n ∧
      ∀ m, m ≤ n → adjustSize m ≤ adjustSize n :=
  ⟨adjustSize_pow2 n, adjustSize_ge16 n, adjustSize_load n, fun _ h => adjustSize_mono h⟩

/-- It is the smallest such size. -/
theorem C16_least (n k : Nat) (h16 : 16 ≤ 2 ^ k) (h : 4 * (n + 1) ≤ 2 ^ k) : adjustSize n ≤ 2 ^ k := by
  apply pow2_le (adjustSize_pow2 n) ⟨k, rfl⟩
  rcases adjustSize_lt n with h1 | h1 <;> omega

/-! ## Fixed-width integers -/

/-- C16, fixed width: on unsigned integers of `w` bits the code computes the size above as long as four times
the (incremented) request is at most `2 ^ (w - 1)`. -/
theorem C16_word {w n : Nat} (hw5 : 5 ≤ w) (hw : w ≤ 64) (h : 4 * (n + 1) ≤ 2 ^ (w - 1)) :
    adjustSizeW w n = .ok (adjustSize n) := by
  have hww : 2 ^ w = 2 * 2 ^ (w - 1) := by
    rw [← Nat.pow_succ']; congr 1; omega
  have h64 : 2 ^ w ≤ 2 ^ 64 := Nat.pow_le_pow_right (by omega) hw
  have hreq : (n + 1) % 2 ^ w = n + 1 := Nat.mod_eq_of_lt (by omega)
  obtain ⟨b1, p1, p2, p3⟩ := exists_least (n + 1) 4
  have hb1 : b1 < w := by
    rcases Nat.eq_or_lt_of_le p1 with h' | h'
    · omega
    · have hc := p3 (b1 - 1) (by omega) (by omega)
      have := lt_of_pow_lt (Nat.lt_of_lt_of_le hc (by omega : n + 1 ≤ 2 ^ (w - 1)))
      omega
  obtain ⟨b2, q1, q2, q3⟩ := exists_least ((n + 1) * 4) b1
  have hb2 : b2 < w := by
    rcases Nat.eq_or_lt_of_le q1 with h' | h'
    · omega
    · have hc := q3 (b2 - 1) (by omega) (by omega)
      have := lt_of_pow_lt (Nat.lt_of_lt_of_le hc (by omega : (n + 1) * 4 ≤ 2 ^ (w - 1)))
      omega
  have e16 : (16 : Nat) = 2 ^ 4 := rfl
  have hfuel : ∀ {T a b : Nat}, (∀ c, a ≤ c → c < b → 2 ^ c < T) → b - a ≤ T := by
    intro T a b h3
    apply Classical.byContradiction
    intro hlt
    have := h3 (b - 1) (by omega) (by omega)
    have : b - 1 < 2 ^ (b - 1) := Nat.lt_two_pow_self
    omega
  have hA : adjustSize n = 2 ^ b2 := by
    unfold adjustSize
    simp only
    rw [e16, grow_char (n + 1) 4 p1 p2 p3 (hfuel p3), grow_char _ b1 q1 q2 q3 (hfuel q3)]
  have hB : adjustSizeW w n = .ok (2 ^ b2) := by
    unfold adjustSizeW
    simp only [hreq]
    rw [e16, growW_char hb1 (w + 2) 4 p1 (by simpa using p2) (fun c h1 h2 => by simpa using p3 c h1 h2) (by omega)]
    simp only [ok_bind]
    have hm : ∀ c, c ≤ b2 → 2 ^ c * 1 % 2 ^ 64 = 2 ^ c := by
      intro c hc
      rw [Nat.mul_one]
      exact Nat.mod_eq_of_lt ((Nat.pow_lt_pow_iff_right (by omega)).2 (by omega))
    have hr : (n + 1) * 4 % 2 ^ 64 = (n + 1) * 4 := Nat.mod_eq_of_lt (by omega)
    refine growW_char hb2 (w + 2) b1 q1 ?_ ?_ (by omega)
    · simp only [hm b2 (Nat.le_refl _), hr]; simpa using q2
    · intro c h1 h2
      simp only [hm c (by omega), hr]; simpa using q3 c h1 h2
  rw [hA, hB]

/-- C16, the bound is sharp: for integers of up to 32 bits a larger request makes the code loop forever
(the size is shifted to 0). -/
theorem C16_word_diverges {w n : Nat} (hw5 : 5 ≤ w) (hw : w ≤ 32) (h : 2 ^ (w - 1) < 4 * (n + 1)) (hn : n + 1 < 2 ^ w) :
    adjustSizeW w n = .error .diverge := by
  have hww : 2 ^ w = 2 * 2 ^ (w - 1) := by
    rw [← Nat.pow_succ']; congr 1; omega
  have h32 : 2 ^ w ≤ 2 ^ 32 := Nat.pow_le_pow_right (by omega) hw
  have hreq : (n + 1) % 2 ^ w = n + 1 := Nat.mod_eq_of_lt hn
  have e16 : (16 : Nat) = 2 ^ 4 % 2 ^ w := by
    rw [Nat.mod_eq_of_lt ((Nat.pow_lt_pow_iff_right (by omega)).2 (by omega))]
  have hle : ∀ c, c < w → 2 ^ c ≤ 2 ^ (w - 1) := fun c hc => Nat.pow_le_pow_right (by omega) (by omega)
  unfold adjustSizeW
  simp only [hreq]
  by_cases hbig : 2 ^ (w - 1) < n + 1
  · rw [e16, growW_diverge (by simp) (w + 2) 4 (by omega)
      (fun c _ h2 => by have := hle c h2; simp; omega)]
    rfl
  · obtain ⟨b1, p1, p2, p3⟩ := exists_least (n + 1) 4
    have hb1 : b1 < w := by
      rcases Nat.eq_or_lt_of_le p1 with h' | h'
      · omega
      · have hc := p3 (b1 - 1) (by omega) (by omega)
        have := lt_of_pow_lt (Nat.lt_of_lt_of_le hc (by omega : n + 1 ≤ 2 ^ (w - 1)))
        omega
    have e16' : (16 : Nat) = 2 ^ 4 := rfl
    rw [e16', growW_char hb1 (w + 2) 4 p1 (by simpa using p2) (fun c h1 h2 => by simpa using p3 c h1 h2) (by omega)]
    simp only [ok_bind]
    have e : 2 ^ b1 = 2 ^ b1 % 2 ^ w :=
      (Nat.mod_eq_of_lt ((Nat.pow_lt_pow_iff_right (by omega)).2 hb1)).symm
    rw [e]
    have hr : (n + 1) * 4 % 2 ^ 64 = (n + 1) * 4 := Nat.mod_eq_of_lt (by omega)
    refine growW_diverge ?_ (w + 2) b1 (by omega) ?_
    · simp only [hr]; simp
    · intro c _ h2
      have := hle c h2
      have hm : 2 ^ c * 1 % 2 ^ 64 = 2 ^ c := by
        rw [Nat.mul_one]
        exact Nat.mod_eq_of_lt ((Nat.pow_lt_pow_iff_right (by omega)).2 (by omega))
      simp only [hm, hr]; simp; omega

/-- C16: with 64-bit keys a request of `2 ^ 62 - 1` keys gives a table with load above one quarter, since the
scaled request wraps around. -/
theorem C16_word64_fails : ∃ s, adjustSizeW 64 (2 ^ 62 - 1) = .ok s ∧ s < 4 * (2 ^ 62 - 1 + 1) := by
  refine ⟨2 ^ 62, ?_, by omega⟩
  have e16 : (16 : Nat) = 2 ^ 4 := rfl
  unfold adjustSizeW
  simp only
  have hreq : (2 ^ 62 - 1 + 1) % 2 ^ 64 = 2 ^ 62 := by decide
  rw [hreq, e16, growW_char (w := 64) (b := 62) (by omega) _ 4 (by omega) (by simp)
    (fun c h1 h2 => by
      have := (Nat.pow_lt_pow_iff_right (a := 2) (by omega)).2 h2
      simpa using this) (by omega)]
  simp only [ok_bind]
  rw [growW_char (w := 64) (b := 62) (by omega) _ 62 (by omega) (by decide) (fun c h1 h2 => by omega) (by omega)]

/-- The word-size reduction of `key * SCALE` does not change the first slot. -/
theorem C16_hash_word (key w k : Nat) (h : k ≤ w) :
    (key * 107 % 2 ^ w) &&& (2 ^ k - 1) = (key * 107) &&& (2 ^ k - 1) := by
  rw [Nat.and_two_pow_sub_one_eq_mod, Nat.and_two_pow_sub_one_eq_mod]
  exact Nat.mod_mod_of_dvd _ (Nat.pow_dvd_pow 2 h)

/-- The hypotheses are met by realistic requests. -/
example : adjustSizeW 32 1000 = .ok (adjustSize 1000) := C16_word (by omega) (by omega) (by decide)
example : adjustSize 1000 = 4096 := by decide
example : adjustSizeW 32 (2 ^ 29) = .error .diverge := C16_word_diverges (by omega) (by omega) (by decide) (by decide)

end Verif.Props
