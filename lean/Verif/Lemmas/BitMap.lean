import Verif.Model.BitMap
import Verif.SpecBits
import Verif.Lemmas.Alias

/-! # The bit map -/

namespace Verif.BitMap
open Model.Scan (rdu)
open Spec (HasBit WordsOk IsNext)

theorem rdu_some {w : Words} {i x : Nat} (h : w[i]? = some (some x)) : rdu w i = .ok x := by
  unfold rdu
  rw [rd_of_getElem? h]
  rfl

theorem WordsOk.get {w : Words} (h : WordsOk w) {i : Nat} (hi : i < w.length) :
    ∃ x, w[i]? = some (some x) ∧ x < 2 ^ 64 := by
  obtain ⟨x, e, hx⟩ := h w[i] (List.getElem_mem hi)
  exact ⟨x, by rw [List.getElem?_eq_getElem hi, e], hx⟩

theorem and63 (p : Nat) : p &&& 0x3f = p % 64 := Nat.and_two_pow_sub_one_eq_mod p 6

theorem shl_testBit (b i : Nat) : (1 <<< b).testBit i = decide (i = b) := by
  rw [Nat.shiftLeft_eq, Nat.one_mul, Nat.testBit_two_pow]
  exact decide_eq_decide.2 eq_comm

theorem and_shl (x b : Nat) : x &&& 1 <<< b ≠ 0 ↔ x.testBit b = true := by
  constructor
  · intro h
    obtain ⟨i, hi⟩ := Nat.exists_testBit_of_ne_zero h
    rw [Nat.testBit_and, Bool.and_eq_true, shl_testBit, decide_eq_true_eq] at hi
    obtain ⟨h1, rfl⟩ := hi
    exact h1
  · intro h e
    have : (x &&& 1 <<< b).testBit b = true := by
      rw [Nat.testBit_and, h, shl_testBit]
      simp
    rw [e] at this
    simp at this

theorem getBit_ok {w : Words} (h : WordsOk w) {p : Nat} (hp : p < 64 * w.length) :
    ∃ b, getBit w p = .ok b ∧ (b = true ↔ HasBit w p) := by
  obtain ⟨x, e, _⟩ := WordsOk.get h (i := p / 64) (by omega)
  unfold getBit
  rw [rdu_some e, ok_bind]
  refine ⟨_, rfl, ?_⟩
  rw [decide_eq_true_eq, and63, and_shl]
  constructor
  · intro h1
    exact ⟨x, e, h1⟩
  · rintro ⟨y, e', h1⟩
    rw [e] at e'
    obtain rfl := Option.some.inj (Option.some.inj e')
    exact h1

theorem setBit_ok {w : Words} (h : WordsOk w) {p : Nat} (hp : p < 64 * w.length) :
    ∃ w', setBit w p = .ok w' ∧ w'.length = w.length ∧ WordsOk w' ∧ ∀ q, HasBit w' q ↔ q = p ∨ HasBit w q := by
  have hl : p / 64 < w.length := by omega
  obtain ⟨x, e, hx⟩ := WordsOk.get h hl
  unfold setBit
  rw [rdu_some e, ok_bind, wr_of_lt hl]
  have hlt : p &&& 0x3f < 64 := by rw [and63]; omega
  refine ⟨_, rfl, by simp, ?_, ?_⟩
  · intro o ho
    rcases List.mem_or_eq_of_mem_set ho with ho | rfl
    · exact h o ho
    · refine ⟨_, rfl, ?_⟩
      apply Nat.or_lt_two_pow hx
      rw [Nat.shiftLeft_eq, Nat.one_mul]
      exact Nat.pow_lt_pow_right (by omega) hlt
  · intro q
    unfold HasBit
    rw [List.getElem?_set]
    by_cases hq : p / 64 = q / 64
    · rw [if_pos hq, if_pos hl]
      constructor
      · rintro ⟨y, ey, hy⟩
        obtain rfl := Option.some.inj (Option.some.inj ey)
        rw [Nat.testBit_or, Bool.or_eq_true, shl_testBit, decide_eq_true_eq, and63] at hy
        rcases hy with hy | hy
        · exact Or.inr ⟨x, by rw [← hq]; exact e, hy⟩
        · left; omega
      · intro hy
        refine ⟨_, rfl, ?_⟩
        rw [Nat.testBit_or, Bool.or_eq_true, shl_testBit, decide_eq_true_eq, and63]
        rcases hy with rfl | ⟨y, ey, hy⟩
        · exact Or.inr rfl
        · rw [← hq, e] at ey
          obtain rfl := Option.some.inj (Option.some.inj ey)
          exact Or.inl hy
    · rw [if_neg hq]
      constructor
      · exact Or.inr
      · rintro (rfl | h)
        · exact absurd rfl hq
        · exact h

theorem reset_ok (w : Words) : (reset w).length = w.length ∧ WordsOk (reset w) ∧ ∀ q, ¬ HasBit (reset w) q := by
  refine ⟨by simp [reset], ?_, ?_⟩
  · intro o ho
    unfold reset at ho
    rw [List.mem_map] at ho
    obtain ⟨_, _, rfl⟩ := ho
    exact ⟨0, rfl, by omega⟩
  · rintro q ⟨x, e, h⟩
    unfold reset at e
    rw [List.getElem?_map] at e
    cases h' : w[q / 64]? with
    | none => rw [h'] at e; cases e
    | some y =>
      rw [h'] at e
      obtain rfl := Option.some.inj (Option.some.inj e)
      simp at h

/-! ## The next bit -/

theorem lowBit_ok : ∀ (fuel temp next : Nat), temp ≠ 0 → temp < 2 ^ fuel →
    ∃ k, lowBit fuel temp next = .ok (next + k) ∧ temp.testBit k = true ∧ ∀ i < k, temp.testBit i = false := by
  intro fuel
  induction fuel with
  | zero => intro temp next h0 h1; omega
  | succ fuel ih =>
    intro temp next h0 h1
    unfold lowBit
    have hm : temp &&& 1 = temp % 2 := Nat.and_one_is_mod temp
    by_cases h : temp &&& 1 = 0
    · rw [if_pos h]
      rw [hm] at h
      have e : temp >>> 1 = temp / 2 := Nat.shiftRight_eq_div_pow temp 1
      rw [Nat.pow_succ] at h1
      obtain ⟨k, e1, e2, e3⟩ := ih (temp >>> 1) (next + 1) (by omega) (by omega)
      refine ⟨k + 1, by rw [e1]; congr 1; omega, ?_, ?_⟩
      · rw [Nat.testBit_shiftRight] at e2
        rw [Nat.add_comm]
        exact e2
      · intro i hi
        cases i with
        | zero => rw [Nat.testBit_zero]; simp [h]
        | succ i =>
          have := e3 i (by omega)
          rw [Nat.testBit_shiftRight] at this
          rw [Nat.add_comm]
          exact this
    · rw [if_neg h]
      rw [hm] at h
      refine ⟨0, rfl, ?_, by simp⟩
      rw [Nat.testBit_zero]
      simp only [decide_eq_true_eq]
      omega

theorem above_testBit {x b : Nat} (hx : x < 2 ^ 64) (i : Nat) :
    (above x b).testBit i = x.testBit (b + 1 + i) := by
  unfold above
  by_cases h : b = 63
  · rw [if_neg (by omega), Nat.zero_testBit]
    symm
    apply Nat.testBit_lt_two_pow
    exact Nat.lt_of_lt_of_le hx (Nat.pow_le_pow_right (by omega) (by omega))
  · rw [if_pos h, Nat.testBit_shiftRight]

theorem above_le (x b : Nat) : above x b ≤ x := by
  unfold above
  split
  · rw [Nat.shiftRight_eq_div_pow]; exact Nat.div_le_self _ _
  · omega

theorem scanWords_ok {w : Words} (h : WordsOk w) : ∀ (fuel it next : Nat), it < w.length → w.length ≤ it + fuel →
    (scanWords w fuel it next = .ok none ∧ ∀ m, it < m → m < w.length → w[m]? = some (some 0)) ∨
    ∃ m x, it < m ∧ scanWords w fuel it next = .ok (some (x, next + 64 * (m - it))) ∧ w[m]? = some (some x) ∧
      x ≠ 0 ∧ ∀ m', it < m' → m' < m → w[m']? = some (some 0) := by
  intro fuel
  induction fuel with
  | zero =>
    intro it next h1 h2
    omega
  | succ fuel ih =>
    intro it next hi hl
    unfold scanWords
    by_cases hlen : w.length ≤ it + 1
    · rw [if_pos hlen]
      exact Or.inl ⟨rfl, fun m h1 h2 => by omega⟩
    · rw [if_neg hlen]
      obtain ⟨x, e, hx⟩ := WordsOk.get h (i := it + 1) (by omega)
      rw [rdu_some e, ok_bind]
      by_cases hz : x = 0
      · rw [if_pos hz]
        subst hz
        rcases ih (it + 1) (next + 64) (by omega) (by omega) with ⟨h1, h2⟩ | ⟨m, x, h1, h2, h3, h4, h5⟩
        · refine Or.inl ⟨h1, fun m hm1 hm2 => ?_⟩
          rcases Nat.lt_or_ge (it + 1) m with hlt | hge
          · exact h2 m hlt hm2
          · rw [show m = it + 1 by omega]; exact e
        · refine Or.inr ⟨m, x, by omega, ?_, h3, h4, fun m' hm1 hm2 => ?_⟩
          · rw [h2, show next + 64 + 64 * (m - (it + 1)) = next + 64 * (m - it) by omega]
          · rcases Nat.lt_or_ge (it + 1) m' with hlt | hge
            · exact h5 m' hlt hm2
            · rw [show m' = it + 1 by omega]; exact e
      · rw [if_neg hz]
        refine Or.inr ⟨it + 1, x, by omega, ?_, e, hz, fun m' h1 h2 => by omega⟩
        rw [show next + 64 * (it + 1 - it) = next + 64 by omega]

theorem andMask (p : Nat) : p &&& 0xffffffc0 = p % 2 ^ 32 / 64 * 64 := by
  have e : (0xffffffc0 : Nat) = (2 ^ 26 - 1) <<< 6 := by decide
  apply Nat.eq_of_testBit_eq
  intro i
  rw [e, Nat.testBit_and, Nat.testBit_shiftLeft, show 64 = 2 ^ 6 by decide, ← Nat.shiftLeft_eq,
    Nat.testBit_shiftLeft, Nat.testBit_two_pow_sub_one, ← Nat.shiftRight_eq_div_pow, Nat.testBit_shiftRight,
    Nat.testBit_mod_two_pow]
  by_cases h : i ≥ 6
  · rw [show 6 + (i - 6) = i by omega]
    simp only [h, decide_true, Bool.true_and]
    by_cases h2 : i < 32
    · simp [h2, show i - 6 < 26 by omega]
    · simp [h2, show ¬ i - 6 < 26 by omega]
  · simp [h]

theorem HasBit.word {w : Words} {q : Nat} (h : HasBit w q) : w[q / 64]? ≠ some (some 0) := by
  rintro e
  obtain ⟨x, e', h'⟩ := h
  rw [e] at e'
  obtain rfl := Option.some.inj (Option.some.inj e')
  simp at h'

/-- What `get_next_bit` returns, for all positions. -/
theorem getNextBit_ok {w : Words} (h : WordsOk w) {p : Nat} (hp : p < 64 * w.length) :
    (getNextBit w p = .ok none ∧ ∀ q, p < q → ¬ HasBit w q) ∨
    ∃ n, IsNext w p n ∧
      getNextBit w p = .ok (some (if n / 64 = p / 64 then n else n - p / 2 ^ 32 * 2 ^ 32)) := by
  obtain ⟨x, e, hx⟩ := WordsOk.get h (i := p / 64) (by omega)
  have hb : p &&& 0x3f < 64 := by rw [and63]; omega
  unfold getNextBit
  rw [rdu_some e, ok_bind]
  have hab := above_testBit (b := p &&& 0x3f) hx
  rw [and63] at hab hb ⊢
  have hlast : ∀ q, HasBit w q → q < 64 * w.length := by
    rintro q ⟨y, ey, _⟩
    have := (List.getElem?_eq_some_iff.1 ey).1
    omega
  by_cases hz : above x (p % 64) = 0
  · rw [if_pos hz]
    have hsame : ∀ q, p < q → q / 64 = p / 64 → ¬ HasBit w q := by
      rintro q h1 h2 ⟨y, ey, hy⟩
      rw [h2, e] at ey
      obtain rfl := Option.some.inj (Option.some.inj ey)
      have := hab (q - p - 1)
      rw [hz, Nat.zero_testBit, show p % 64 + 1 + (q - p - 1) = q % 64 by omega, hy] at this
      cases this
    rcases scanWords_ok h (w.length + 1) (p / 64) (p &&& 0xffffffc0) (by omega) (by omega) with
      ⟨h1, h2⟩ | ⟨m, y, h1, h2, h3, h4, h5⟩
    · left
      rw [h1]
      refine ⟨rfl, fun q hq hbq => ?_⟩
      by_cases hs : q / 64 = p / 64
      · exact hsame q hq hs hbq
      · exact HasBit.word hbq (h2 (q / 64) (by omega) (by have := hlast q hbq; omega))
    · right
      have hm : m < w.length := (List.getElem?_eq_some_iff.1 h3).1
      have hy : y < 2 ^ 64 := by
        obtain ⟨y', e', hy'⟩ := WordsOk.get h hm
        rw [h3] at e'
        obtain rfl := Option.some.inj (Option.some.inj e')
        exact hy'
      obtain ⟨k, k1, k2, k3⟩ := lowBit_ok 65 y ((p &&& 0xffffffc0) + 64 * (m - p / 64)) h4 (by omega)
      have hk : k < 64 := by
        rcases Nat.lt_or_ge k 64 with hk | hk
        · exact hk
        · rw [Nat.testBit_lt_two_pow (Nat.lt_of_lt_of_le hy (Nat.pow_le_pow_right (by omega) hk))] at k2
          cases k2
      refine ⟨64 * m + k, ⟨by omega, ⟨y, ?_, ?_⟩, ?_⟩, ?_⟩
      · rw [show (64 * m + k) / 64 = m by omega]; exact h3
      · rw [show (64 * m + k) % 64 = k by omega]; exact k2
      · intro q hq1 hq2 hbq
        by_cases hs : q / 64 = p / 64
        · exact hsame q hq1 hs hbq
        · by_cases hs2 : q / 64 = m
          · obtain ⟨z, ez, hz⟩ := hbq
            rw [hs2, h3] at ez
            obtain rfl := Option.some.inj (Option.some.inj ez)
            rw [k3 (q % 64) (by omega)] at hz
            cases hz
          · exact HasBit.word hbq (h5 (q / 64) (by omega) (by omega))
      · rw [h2, ok_bind]
        simp only []
        rw [k1, ok_bind, if_neg (by omega), andMask]
        congr 2
        omega
  · rw [if_neg hz]
    right
    obtain ⟨k, k1, k2, k3⟩ := lowBit_ok 65 _ (p + 1) hz (by have := above_le x (p % 64); omega)
    rw [k1, ok_bind]
    rw [hab] at k2
    have hk : p % 64 + 1 + k < 64 := by
      rcases Nat.lt_or_ge (p % 64 + 1 + k) 64 with hk | hk
      · exact hk
      · rw [Nat.testBit_lt_two_pow (Nat.lt_of_lt_of_le hx (Nat.pow_le_pow_right (by omega) hk))] at k2
        cases k2
    refine ⟨p + 1 + k, ⟨by omega, ⟨x, ?_, ?_⟩, ?_⟩, ?_⟩
    · rw [show (p + 1 + k) / 64 = p / 64 by omega]; exact e
    · rw [show (p + 1 + k) % 64 = p % 64 + 1 + k by omega]; exact k2
    · rintro q hq1 hq2 ⟨z, ez, hz⟩
      rw [show q / 64 = p / 64 by omega, e] at ez
      obtain rfl := Option.some.inj (Option.some.inj ez)
      have := k3 (q - p - 1) (by omega)
      rw [hab, show p % 64 + 1 + (q - p - 1) = q % 64 by omega, hz] at this
      cases this
    · rw [if_pos (by omega)]

end Verif.BitMap
