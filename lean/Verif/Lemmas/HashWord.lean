import Verif.Lemmas.Hash

/-! # Doubling loops on machine words -/

namespace Verif.Model.Hash

theorem exists_least (T a : Nat) : ∃ b, a ≤ b ∧ T ≤ 2 ^ b ∧ ∀ c, a ≤ c → c < b → 2 ^ c < T := by
  suffices H : ∀ d a, T ≤ 2 ^ (a + d) → ∃ b, a ≤ b ∧ T ≤ 2 ^ b ∧ ∀ c, a ≤ c → c < b → 2 ^ c < T by
    apply H T a
    calc T ≤ 2 ^ T := Nat.le_of_lt Nat.lt_two_pow_self
      _ ≤ 2 ^ (a + T) := Nat.pow_le_pow_right (by omega) (by omega)
  intro d
  induction d with
  | zero => intro a h; exact ⟨a, Nat.le_refl _, h, fun c h1 h2 => by omega⟩
  | succ d ih =>
    intro a h
    by_cases ha : T ≤ 2 ^ a
    · exact ⟨a, Nat.le_refl _, ha, fun c h1 h2 => by omega⟩
    · obtain ⟨b, h1, h2, h3⟩ := ih (a + 1) (by rw [show a + 1 + d = a + (d + 1) by omega]; exact h)
      refine ⟨b, by omega, h2, ?_⟩
      intro c hc1 hc2
      rcases Nat.eq_or_lt_of_le hc1 with rfl | hlt
      · omega
      · exact h3 c hlt hc2

theorem grow_char {T b : Nat} : ∀ (fuel a : Nat), a ≤ b → T ≤ 2 ^ b → (∀ c, a ≤ c → c < b → 2 ^ c < T) →
    b - a ≤ fuel → grow T fuel (2 ^ a) = 2 ^ b := by
  intro fuel
  induction fuel with
  | zero =>
    intro a h1 h2 h3 h4
    have : a = b := by omega
    subst this; rfl
  | succ n ih =>
    intro a h1 h2 h3 h4
    unfold grow
    by_cases hab : a = b
    · subst hab
      rw [if_neg (by omega)]
    · rw [if_pos (h3 a (Nat.le_refl _) (by omega)), ← Nat.pow_succ]
      exact ih (a + 1) (by omega) h2 (fun c hc1 hc2 => h3 c (by omega) hc2) (by omega)

theorem growW_char {w b : Nat} {cond : Nat → Bool} (hb : b < w) : ∀ (fuel a : Nat), a ≤ b → cond (2 ^ b) = false →
    (∀ c, a ≤ c → c < b → cond (2 ^ c) = true) → b - a < fuel → growW w cond fuel (2 ^ a) = .ok (2 ^ b) := by
  intro fuel
  induction fuel with
  | zero => intro a _ _ _ h; omega
  | succ n ih =>
    intro a h1 h2 h3 h4
    unfold growW
    by_cases hab : a = b
    · subst hab
      simp [h2]
    · rw [h3 a (Nat.le_refl _) (by omega), if_pos rfl, ← Nat.pow_succ]
      have : 2 ^ (a + 1) % 2 ^ w = 2 ^ (a + 1) :=
        Nat.mod_eq_of_lt ((Nat.pow_lt_pow_iff_right (by omega)).2 (by omega))
      show growW w cond n (2 ^ (a + 1) % 2 ^ w) = _
      rw [this]
      exact ih (a + 1) (by omega) h2 (fun c hc1 hc2 => h3 c (by omega) hc2) (by omega)

theorem growW_zero {w : Nat} {cond : Nat → Bool} (h : cond 0 = true) : ∀ fuel,
    growW w cond fuel 0 = .error .diverge := by
  intro fuel
  induction fuel with
  | zero => rfl
  | succ n ih => unfold growW; rw [h, if_pos rfl]; simpa using ih

theorem growW_diverge {w : Nat} {cond : Nat → Bool} (h0 : cond 0 = true) : ∀ (fuel a : Nat), a ≤ w →
    (∀ c, a ≤ c → c < w → cond (2 ^ c) = true) →
    growW w cond fuel (2 ^ a % 2 ^ w) = .error .diverge := by
  intro fuel
  induction fuel with
  | zero => intro a _ _; rfl
  | succ n ih =>
    intro a ha h
    by_cases haw : a = w
    · subst haw; rw [Nat.mod_self]; exact growW_zero h0 _
    · have hlt : 2 ^ a % 2 ^ w = 2 ^ a := Nat.mod_eq_of_lt ((Nat.pow_lt_pow_iff_right (by omega)).2 (by omega))
      rw [hlt]
      unfold growW
      rw [h a (Nat.le_refl _) (by omega), if_pos rfl, ← Nat.pow_succ]
      exact ih (a + 1) (by omega) (fun c h1 h2 => h c (by omega) h2)

theorem lt_of_pow_lt {c d : Nat} (h : 2 ^ c < 2 ^ d) : c < d := (Nat.pow_lt_pow_iff_right (by omega)).1 h

end Verif.Model.Hash
