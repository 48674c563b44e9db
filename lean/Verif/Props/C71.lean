import Verif.Model.Checksum
import Verif.SpecChecksum
import Verif.SpecTri
import Verif.Lemmas.SumAll
import Verif.Props.C29
import Mathlib.Algebra.Order.BigOperators.Group.List

/-! # C71: checksums of results -/

namespace Verif.Props

open Verif.Model Verif.Model.Checksum
open _root_.Verif.Spec (words onesSum Splits bytesLE)

theorem and_high {x : Nat} (h : x < 131072) : (x &&& 0xFFFF0000 ≠ 0) ↔ 65536 ≤ x := by
  have h1 : (x &&& 0xFFFF0000) / 2 ^ 16 = x / 2 ^ 16 &&& 0xFFFF := by rw [Nat.and_div_two_pow]
  have h2 : (x &&& 0xFFFF0000) % 2 ^ 16 = 0 := by
    rw [Nat.and_mod_two_pow]
    exact Nat.and_zero _
  have h3 : x / 2 ^ 16 &&& 0xFFFF = x / 2 ^ 16 := by
    have := Nat.and_two_pow_sub_one_eq_mod (x / 2 ^ 16) 16
    simp only [Nat.reducePow, Nat.reduceSub] at this ⊢
    omega
  rw [h3] at h1
  omega

theorem and_low (x : Nat) : x &&& 0xFFFF = x % 65536 := Nat.and_two_pow_sub_one_eq_mod x 16

theorem addWord_ok (S w : Nat) (hw : w ≤ 65535) :
    addWord (if S = 0 then 0 else (S - 1) % 65535 + 1) w = if S + w = 0 then 0 else (S + w - 1) % 65535 + 1 := by
  generalize hc : (if S = 0 then 0 else (S - 1) % 65535 + 1) = c
  have hc' : c ≤ 65535 := by split at hc <;> omega
  unfold addWord
  have hm : (c + w) % 2 ^ 32 = c + w := Nat.mod_eq_of_lt (by omega)
  simp only [hm, and_high (show c + w < 131072 by omega), and_low]
  have hm2 : ((c + w) % 65536 + 1) % 2 ^ 32 = (c + w) % 65536 + 1 := Nat.mod_eq_of_lt (by omega)
  rw [hm2]
  by_cases hS : S = 0
  · rw [if_pos hS] at hc
    by_cases hw0 : w = 0
    · rw [if_neg (by omega), if_pos (by omega)]; omega
    · rw [if_neg (by omega), if_neg (by omega)]; omega
  · rw [if_neg hS] at hc
    rw [if_neg (show ¬ (S + w = 0) by omega)]
    by_cases hb : 65536 ≤ c + w
    · rw [if_pos hb]; omega
    · rw [if_neg hb]; omega

theorem words_le : ∀ (data : List UInt8), ∀ w ∈ words data, w ≤ 65535
  | a :: b :: r => by
    intro w hw
    rw [words, List.mem_cons] at hw
    rcases hw with rfl | hw
    · have := a.toNat_lt; have := b.toNat_lt; omega
    · exact words_le r w hw
  | [a] => by
    intro w hw
    rw [words, List.mem_singleton] at hw
    have := a.toNat_lt
    omega
  | [] => by intro w hw; cases hw

theorem loop_ok : ∀ (data : List UInt8) (S : Nat), loop data (if S = 0 then 0 else (S - 1) % 65535 + 1) =
    if S + (words data).sum = 0 then 0 else (S + (words data).sum - 1) % 65535 + 1
  | a :: b :: r, S => by
    have ha := a.toNat_lt
    have hb := b.toNat_lt
    rw [loop, addWord_ok _ _ (by omega), loop_ok r, words, List.sum_cons, Nat.add_assoc]
  | [a], S => by
    have ha := a.toNat_lt
    rw [loop, addWord_ok _ _ (by omega), words, List.sum_singleton]
  | [], S => by rw [loop, words]; rfl

/-- C71: the checksum is the complement of the one's complement sum of the 16-bit words, for every sequence of bytes. -/
theorem C71_value (data : List UInt8) : calculateChecksum data = 65535 - onesSum (words data) := by
  unfold calculateChecksum onesSum
  have := loop_ok data 0
  rw [if_pos rfl, Nat.zero_add] at this
  rw [this, and_low]
  split <;> omega

/-- C71, exactly when two sequences of bytes have the same checksum: the sums of their words agree modulo 65535, and both or none consist of
zeros only. -/
theorem C71_equal_iff (d e : List UInt8) : calculateChecksum d = calculateChecksum e ↔
    (words d).sum % 65535 = (words e).sum % 65535 ∧ ((words d).sum = 0 ↔ (words e).sum = 0) := by
  rw [C71_value, C71_value]
  unfold onesSum
  split <;> split <;> omega

/-- C71, for changes of one word: two sequences of bytes that differ in one 16-bit word have different checksums, unless one of the words is
0 and the other is 65535. -/
theorem C71_one_word_partial (d e : List UInt8) {pre post : List Nat} {w v : Nat} (hd : words d = pre ++ w :: post)
    (he : words e = pre ++ v :: post) (hne : w ≠ v) (h : ¬ (w = 0 ∧ v = 65535)) (h' : ¬ (w = 65535 ∧ v = 0)) :
    calculateChecksum d ≠ calculateChecksum e := by
  have hw := words_le d w (by rw [hd]; simp)
  have hv := words_le e v (by rw [he]; simp)
  rw [Ne, C71_equal_iff, hd, he]
  simp only [List.sum_append, List.sum_cons]
  omega

/-- C71, violated: a word 0 that becomes 65535 is not seen if there is any other byte that is not 0. -/
theorem C71_violated_word (d e : List UInt8) {pre post : List Nat} (hd : words d = pre ++ 0 :: post)
    (he : words e = pre ++ 65535 :: post) (h : ∃ w ∈ pre ++ post, w ≠ 0) : calculateChecksum d = calculateChecksum e := by
  obtain ⟨w, hw, hw0⟩ := h
  have : 0 < pre.sum + post.sum := by
    rw [← List.sum_append]
    exact Nat.lt_of_lt_of_le (Nat.pos_of_ne_zero hw0) (List.single_le_sum (fun _ _ => Nat.zero_le _) w hw)
  rw [C71_equal_iff, hd, he]
  simp only [List.sum_append, List.sum_cons]
  omega

theorem words_append : ∀ (d e : List UInt8), d.length % 2 = 0 → words (d ++ e) = words d ++ words e
  | a :: b :: r, e, h => by
    simp only [List.cons_append, words]
    rw [words_append r e (by simp only [List.length_cons] at h; omega)]
  | [a], e, h => by simp at h
  | [], e, _ => rfl

theorem words_flatMap {α : Type} (enc : α → List UInt8) (heven : ∀ v, (enc v).length % 2 = 0) (l : List α) :
    (words (l.flatMap enc)).sum = (l.map fun v => (words (enc v)).sum).sum := by
  induction l with
  | nil => rfl
  | cons v l ih => rw [List.flatMap_cons, words_append _ _ (heven v), List.sum_append, ih, List.map_cons, List.sum_cons]

/-- C71, violated: two results of the same shape whose values are the same in a different order (or whose column ids are) cannot be told
apart by what the programs print: number of entries, sum, checksum. -/
theorem C71_violated_order {R : Type} [AddCommMonoid R] (enc : R → List UInt8) (heven : ∀ v, (enc v).length % 2 = 0) {si : Nat}
    (A B : CSR R) (hA : A.WF) (hB : B.WF) (hr : B.rowptr = A.rowptr) (hrow : B.rows = A.rows) (hn : B.nnz = A.nnz)
    (hc : B.colids = A.colids) (hv : B.values.Perm A.values) {parts : List (List Nat)} (hp : Splits A.nnz parts) :
    checksum enc si B = checksum enc si A ∧
      SumAll.sumall (fun s v => s + v) (fun s t => s + t) (0 : R) id B.values parts =
        SumAll.sumall (fun s v => s + v) (fun s t => s + t) (0 : R) id A.values parts := by
  constructor
  · unfold checksum
    rw [hr, hrow, hc]
    have : calculateChecksum (B.values.flatMap enc) = calculateChecksum (A.values.flatMap enc) := by
      rw [C71_equal_iff, words_flatMap enc heven, words_flatMap enc heven, (hv.map _).sum_eq]
      exact ⟨rfl, Iff.rfl⟩
    rw [this]
  · rw [SumAll.sumall_acc (acc := fun s v : R => s + v) (f := id) (fun _ _ => rfl) id (by rw [hB.valLen, hn]; exact hp),
      SumAll.sumall_acc (acc := fun s v : R => s + v) (f := id) (fun _ _ => rfl) id (by rw [hA.valLen]; exact hp), (hv.map _).sum_eq]

/-! ## Examples -/

example : calculateChecksum [1, 2, 255, 255, 7] = 65535 - 520 := by decide +kernel
example := C71_one_word_partial [1, 2, 3, 4] [1, 2, 9, 4] (pre := [513]) (post := []) (w := 1027) (v := 1033) (by decide) (by decide) (by decide)
  (by decide) (by decide)
example := C71_violated_word [1, 2, 0, 0] [1, 2, 255, 255] (pre := [513]) (post := []) (by decide) (by decide) ⟨513, by decide, by decide⟩
example := C71_violated_order (R := Nat) (bytesLE 8) (by
    have : ∀ k n, (bytesLE k n).length = k := by
      intro k
      induction k with
      | zero => intro n; rfl
      | succ k ih => intro n; rw [bytesLE, List.length_cons, ih]
    intro v
    rw [this]) (si := 8) { exAdj with values := List.range 8 } { exAdj with values := (List.range 8).reverse }
  ⟨rfl, rfl, rfl, by decide, rfl, rfl, rfl, by decide⟩
  ⟨rfl, rfl, rfl, by decide, rfl, rfl, rfl, by decide⟩ rfl rfl rfl rfl (List.reverse_perm _) (parts := [List.range 8]) (by unfold Splits; decide)

end Verif.Props
