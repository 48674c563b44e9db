import Verif.Lemmas.BitMap

/-! # C59: the bit map is a set of positions -/

namespace Verif.Props
open Verif BitMap
open _root_.Verif.Spec (HasBit WordsOk IsNext)

/-- C59, membership: a bit map made for `size` positions and reset accepts every sequence of `set_bit` calls with positions below
`size`. Afterwards `get_bit` tells for each position below `size` whether it was set, and nothing else is set. -/
theorem C59_set (size : Nat) (ps : List Nat) (hps : ∀ p ∈ ps, p < size) :
    ∃ w, ps.foldlM setBit (reset (make size)) = .ok w ∧ WordsOk w ∧ size ≤ 64 * w.length ∧ (∀ q, HasBit w q ↔ q ∈ ps) ∧
      ∀ q < size, getBit w q = .ok (decide (q ∈ ps)) := by
  obtain ⟨r1, r2, r3⟩ := reset_ok (make size)
  have hlen : (reset (make size)).length = (size + 63) / 64 := by rw [r1]; simp [make]
  obtain ⟨w, e, h1, h2, h3⟩ := foldlM_inv (f := setBit)
    (fun pre w => w.length = (size + 63) / 64 ∧ WordsOk w ∧ ∀ q, HasBit w q ↔ q ∈ pre) ps (reset (make size))
    ⟨hlen, r2, fun q => by simp [r3 q]⟩
    (by
      rintro pre a post w hl ⟨h1, h2, h3⟩
      have ha := hps a (by rw [hl]; simp)
      obtain ⟨w', e, g1, g2, g3⟩ := setBit_ok h2 (p := a) (by omega)
      refine ⟨w', e, g1.trans h1, g2, fun q => ?_⟩
      rw [g3, h3, List.mem_append, List.mem_singleton, or_comm])
  refine ⟨w, e, h2, by omega, h3, fun q hq => ?_⟩
  obtain ⟨b, g1, g2⟩ := getBit_ok h2 (p := q) (by omega)
  rw [g1]
  congr 1
  rw [Bool.eq_iff_iff, g2, h3, decide_eq_true_eq]

/-- C59, search: for bit maps of at most 2^32 positions, `get_next_bit` returns the next set position, and -1 if there is none.
What is missing for the full claim are larger bit maps, see `C59_violated_far`. -/
theorem C59_next_partial {w : Words} (h : WordsOk w) (hw : 64 * w.length ≤ 2 ^ 32) {p : Nat} (hp : p < 64 * w.length) :
    (∀ n, getNextBit w p = .ok (some n) ↔ IsNext w p n) ∧
    (getNextBit w p = .ok none ↔ ∀ q, p < q → ¬ HasBit w q) := by
  have huniq : ∀ n n', IsNext w p n → IsNext w p n' → n = n' := by
    rintro n n' ⟨a1, a2, a3⟩ ⟨b1, b2, b3⟩
    rcases Nat.lt_trichotomy n n' with hlt | rfl | hlt
    · exact absurd a2 (b3 n a1 hlt)
    · rfl
    · exact absurd b2 (a3 n' b1 hlt)
  rcases getNextBit_ok h hp with ⟨e, hno⟩ | ⟨n, hn, e⟩
  · refine ⟨fun n => ?_, ⟨fun _ => hno, fun _ => e⟩⟩
    rw [e]
    constructor
    · intro hh; cases hh
    · rintro ⟨a1, a2, _⟩
      exact absurd a2 (hno n a1)
  · have e' : (if n / 64 = p / 64 then n else n - p / 2 ^ 32 * 2 ^ 32) = n := by
      split
      · rfl
      · have : p / 2 ^ 32 = 0 := by omega
        omega
    rw [e'] at e
    refine ⟨fun m => ?_, ?_⟩
    · rw [e]
      constructor
      · intro hh
        obtain rfl := Option.some.inj (Except.ok.inj hh)
        exact hn
      · intro hm
        rw [huniq n m hn hm]
    · rw [e]
      constructor
      · intro hh; cases hh
      · intro hno
        exact absurd hn.2.1 (hno n hn.1)

/-- Also in larger bit maps, the answer -1 is right. -/
theorem C59_none {w : Words} (h : WordsOk w) {p : Nat} (hp : p < 64 * w.length) :
    getNextBit w p = .ok none ↔ ∀ q, p < q → ¬ HasBit w q := by
  rcases getNextBit_ok h hp with ⟨e, hno⟩ | ⟨n, hn, e⟩
  · exact ⟨fun _ => hno, fun _ => e⟩
  · rw [e]
    constructor
    · intro hh; cases hh
    · intro hno
      exact absurd hn.2.1 (hno n hn.1)

/-- The claim fails for every search that starts at or above position 2^32 and ends in a later word: the result is too small by a
multiple of 2^32. -/
theorem C59_violated_far {w : Words} (h : WordsOk w) {p n : Nat} (hp : p < 64 * w.length) (hfar : 2 ^ 32 ≤ p)
    (hn : IsNext w p n) (hword : n / 64 ≠ p / 64) :
    getNextBit w p = .ok (some (n - p / 2 ^ 32 * 2 ^ 32)) ∧ n - p / 2 ^ 32 * 2 ^ 32 ≠ n := by
  have hlt := hn.1
  refine ⟨?_, by omega⟩
  rcases getNextBit_ok h hp with ⟨_, hno⟩ | ⟨m, hm, e⟩
  · exact absurd hn.2.1 (hno n hn.1)
  · have : m = n := by
      rcases Nat.lt_trichotomy m n with hlt | rfl | hlt
      · exact absurd hm.2.1 (hn.2.2 m hm.1 hlt)
      · rfl
      · exact absurd hn.2.1 (hm.2.2 n hn.1 hlt)
    subst this
    rw [e, if_neg hword]

/-- Such a bit map: 2^26 + 2 words, only position 2^32 + 64 set. The search from 2^32 returns 64. -/
theorem C59_violated_witness :
    ∃ w : Words, WordsOk w ∧ 2 ^ 32 < 64 * w.length ∧ IsNext w (2 ^ 32) (2 ^ 32 + 64) ∧
      getNextBit w (2 ^ 32) = .ok (some 64) := by
  have hl : (List.replicate (2 ^ 26 + 1) (some 0) : Words).length = 2 ^ 26 + 1 := List.length_replicate
  generalize hz : (List.replicate (2 ^ 26 + 1) (some 0) : Words) = z at hl
  have hget : ∀ i x, (z ++ [some 1] : Words)[i]? = some (some x) → x ≠ 0 → i = 2 ^ 26 + 1 ∧ x = 1 := by
    intro i x hi hx
    rw [List.getElem?_append] at hi
    split at hi
    · have := List.mem_of_getElem? hi
      rw [← hz, List.mem_replicate] at this
      exact absurd (Option.some.inj this.2) hx
    · rw [List.getElem?_singleton] at hi
      split at hi
      · refine ⟨by omega, (Option.some.inj (Option.some.inj hi)).symm⟩
      · cases hi
  have hok : WordsOk (z ++ [some 1]) := by
    intro o ho
    rw [List.mem_append, ← hz, List.mem_replicate, List.mem_singleton] at ho
    rcases ho with ⟨_, rfl⟩ | rfl
    · exact ⟨0, rfl, by omega⟩
    · exact ⟨1, rfl, by omega⟩
  have hlen : (z ++ [some 1] : Words).length = 2 ^ 26 + 2 := by rw [List.length_append, hl]; rfl
  have hbit : ∀ q, HasBit (z ++ [some 1]) q → q = 2 ^ 32 + 64 := by
    rintro q ⟨x, e, h⟩
    have hx : x ≠ 0 := by rintro rfl; simp at h
    obtain ⟨h1, rfl⟩ := hget _ _ e hx
    have h2 : q % 64 = 0 := by
      by_cases h0 : q % 64 = 0
      · exact h0
      · rw [Nat.testBit_lt_two_pow (Nat.one_lt_two_pow h0)] at h
        cases h
    omega
  have hnext : IsNext (z ++ [some 1]) (2 ^ 32) (2 ^ 32 + 64) := by
    refine ⟨by omega, ⟨1, ?_, by decide⟩, fun q h1 h2 h3 => ?_⟩
    · rw [show (2 ^ 32 + 64) / 64 = z.length by omega]
      simp
    · have := hbit q h3
      omega
  refine ⟨z ++ [some 1], hok, by omega, hnext, ?_⟩
  have := (C59_violated_far hok (p := 2 ^ 32) (by omega) (by omega) hnext (by omega)).1
  rw [this]

/-- Without `reset` the words are unset: `set_bit` and `get_bit` read memory that was never written. -/
theorem C59_unset {size p : Nat} (hp : p < size) :
    setBit (make size) p = .error .uninit ∧ getBit (make size) p = .error .uninit := by
  have e : Model.Scan.rdu (make size) (p / 64) = .error .uninit := by
    unfold Model.Scan.rdu make
    rw [rd_of_lt (by simp; omega), ok_bind]
    simp [use]
  unfold setBit getBit
  rw [e]
  exact ⟨rfl, rfl⟩

/-- A set with members in three words. -/
example : (do
    let w ← [5, 70, 63, 200].foldlM setBit (reset (make 201))
    let a ← getNextBit w 5
    let b ← getNextBit w 63
    let c ← getNextBit w 70
    let d ← getNextBit w 200
    .ok (a, b, c, d)) = .ok (some 63, some 70, some 200, none) := by decide +kernel

example := C59_set 201 [5, 70, 63, 200] (by decide)

end Verif.Props
