import Verif.Model.Memory

/-! # Lemmas on byte buffers -/

namespace Verif.Mem

theorem sub64_eq {a b : Nat} (h : b ≤ a) (ha : a < 2 ^ 64) : sub64 a b = a - b := by
  unfold sub64
  have : a + 2 ^ 64 - b = (a - b) + 2 ^ 64 := by omega
  rw [this, Nat.add_mod_right, Nat.mod_eq_of_lt (by omega)]

theorem add64_eq {a b : Nat} (h : a + b < 2 ^ 64) : add64 a b = a + b := by
  unfold add64
  rw [Nat.mod_eq_of_lt h]

/-- Two wrapping subtractions, the inner one possibly wrapping. -/
theorem sub64_sub64 {a m d : Nat} (hm : m < 2 ^ 64) (hd : d < 2 ^ 64) (ha : a < 2 ^ 64)
    (h : m ≤ a + d) (hr : a + d - m < 2 ^ 64) : sub64 a (sub64 m d) = a + d - m := by
  unfold sub64
  omega

theorem memsetFF_spec (mem : List Nat) (off n : Nat) (h : off + n ≤ mem.length) :
    ∃ m', memsetFF mem off n = .ok m' ∧ m'.length = mem.length ∧
      ∀ i, m'[i]? = if off ≤ i ∧ i < off + n then some 255 else mem[i]? := by
  obtain ⟨m', h1, h2, h3⟩ := forRange_inv (body := fun i m => wr m i (255 : Nat))
    (fun k m => m.length = mem.length ∧
      ∀ i, m[i]? = if off ≤ i ∧ i < k then some 255 else mem[i]?)
    off (off + n) (by omega) mem ⟨rfl, by
      intro i
      rw [if_neg (by omega)]⟩ (by
      intro k m hk1 hk2 ⟨hl, hm⟩
      refine ⟨m.set k 255, wr_of_lt (by omega), by simpa using hl, ?_⟩
      intro i
      rw [List.getElem?_set]
      by_cases hik : k = i
      · subst hik
        rw [if_pos rfl, if_pos (by omega), if_pos (by omega)]
      · rw [if_neg hik, hm i]
        by_cases hc : off ≤ i ∧ i < k
        · rw [if_pos hc, if_pos (by omega)]
        · rw [if_neg hc, if_neg (by omega)])
  exact ⟨m', h1, h2, h3⟩

theorem roundDown_eq {s n : Nat} (hn : n < 2 ^ 64) : roundDown s n = n - n % s :=
  sub64_eq (Nat.mod_le _ _) hn

theorem dvd_roundDown (s n : Nat) : s ∣ n - n % s := Nat.dvd_sub_mod n

theorem roundUp_spec {s n : Nat} (hs : 0 < s) (hn : n + s ≤ 2 ^ 64) :
    s ∣ roundUp s n ∧ n ≤ roundUp s n ∧ roundUp s n < n + s := by
  have hlt := Nat.mod_lt n hs
  have hmle := Nat.mod_le n s
  unfold roundUp
  by_cases h : n % s ≠ 0
  · simp only [if_pos h]
    rw [sub64_eq (by omega) (by omega), add64_eq (by omega)]
    refine ⟨?_, by omega, by omega⟩
    have h1 : n + (s - n % s) = (n - n % s) + s := by
      have := Nat.mod_le n s
      omega
    rw [h1]
    exact Nat.dvd_add (dvd_roundDown s n) (Nat.dvd_refl s)
  · simp only [if_neg h]
    have h0 : n % s = 0 := by omega
    exact ⟨Nat.dvd_of_mod_eq_zero h0, Nat.le_refl _, by omega⟩

/-- Multiples of `s` that differ, differ by at least `s`. -/
theorem dvd_lt {s a b : Nat} (ha : s ∣ a) (hb : s ∣ b) (h : a < b) : a + s ≤ b := by
  obtain ⟨x, rfl⟩ := ha
  obtain ⟨y, rfl⟩ := hb
  have hxy : x < y := Nat.lt_of_mul_lt_mul_left h
  have := Nat.mul_le_mul_left s (show x + 1 ≤ y from hxy)
  rw [Nat.mul_add, Nat.mul_one] at this
  exact this

/-- A multiple of `s` that is at most `n` is at most `n` rounded down. -/
theorem le_roundDown {s a n : Nat} (hs : 0 < s) (ha : s ∣ a) (h : a ≤ n) : a ≤ n - n % s := by
  have hlt := Nat.mod_lt n hs
  have hle := Nat.mod_le n s
  by_cases hc : a ≤ n - n % s
  · exact hc
  · have := dvd_lt (dvd_roundDown s n) ha (by omega)
    omega

/-- What a successful split guarantees. -/
structure Good (mem : List Nat) (memSize dirty dObj cObj szC : Nat) (r : Split) : Prop where
  len : r.mem.length = memSize
  disjoint : dObj ≤ r.clean
  inside : r.clean + cObj ≤ memSize
  aligned : szC ∣ r.clean
  ff : ∀ i, r.clean ≤ i → i < r.clean + cObj → r.mem[i]? = some 255
  dirtyLe : r.dirty ≤ dirty
  dirtyClean : r.dirty ≤ r.clean
  bound : ∀ i, r.dirty ≤ i → i < memSize → r.mem[i]? = some 255
  kept : ∀ i, i < r.dirty → r.mem[i]? = mem[i]?

theorem splitMemory_good {mem : List Nat} {memSize dirty szD nD szC nC : Nat}
    (hlen : mem.length = memSize) (hsz : 0 < szC)
    (hfit : szD * nD + szC * nC ≤ memSize - memSize % szC)
    (hd : dirty ≤ memSize)
    (hff : ∀ i, dirty ≤ i → i < memSize → mem[i]? = some 255)
    (hw : memSize + szC ≤ 2 ^ 64) :
    ∃ r, splitMemory mem memSize dirty szD nD szC nC = .ok r ∧
      Good mem memSize dirty (szD * nD) (szC * nC) szC r := by
  unfold splitMemory
  simp only []
  have hms : memSize - memSize % szC ≤ memSize := Nat.sub_le _ _
  rw [roundDown_eq (by omega)]
  have hdm := dvd_roundDown szC memSize
  have hdc : szC ∣ szC * nC := Nat.dvd_mul_right _ _
  generalize szC * nC = cObj at *
  generalize szD * nD = dObj at *
  generalize hm : memSize - memSize % szC = ms at *
  have hmax : max dirty dObj + szC ≤ 2 ^ 64 := by omega
  obtain ⟨hu1, hu2, hu3⟩ := roundUp_spec hsz hmax
  generalize roundUp szC (max dirty dObj) = used at *
  by_cases hc : used > ms ∨ cObj > sub64 ms used
  · rw [if_pos hc]
    -- in the cleaning branch the clean objects end at the rounded size
    have hlt : ms < used + cObj := by
      rcases hc with h | h
      · omega
      · by_cases hle : used ≤ ms
        · rw [sub64_eq hle (by omega)] at h; omega
        · omega
    have h2 := dvd_lt hdm (Nat.dvd_add hu1 hdc) hlt
    have h3 : ms < dirty + cObj := by
      by_cases hmx : dObj ≤ dirty
      · have : max dirty dObj = dirty := Nat.max_eq_left hmx
        omega
      · have : max dirty dObj = dObj := Nat.max_eq_right (by omega)
        omega
    have h4 : dObj < dirty := by omega
    rw [check_of (by simpa using h4), ok_bind]
    have ht : sub64 cObj (sub64 ms dirty) = cObj + dirty - ms :=
      sub64_sub64 (by omega) (by omega) (by omega) (by omega) (by omega)
    rw [ht]
    have hs2 : sub64 dirty (cObj + dirty - ms) = ms - cObj := by
      rw [sub64_eq (by omega) (by omega)]; omega
    rw [hs2]
    have hmod : (ms - cObj) % szC = 0 := Nat.mod_eq_zero_of_dvd (Nat.dvd_sub hdm hdc)
    rw [hmod, add64_eq (by omega), Nat.add_zero, check_of (by simp; omega), ok_bind, hs2]
    obtain ⟨m', e1, e2, e3⟩ := memsetFF_spec mem (dirty - (cObj + dirty - ms)) (cObj + dirty - ms)
      (by omega)
    rw [e1, ok_bind, check_of (by simp; omega), ok_bind, check_of (by simp; omega), ok_bind]
    have hff' : ∀ i, ms - cObj ≤ i → i < memSize → m'[i]? = some 255 := by
      intro i h1 h2
      rw [e3 i]
      by_cases hi : i < dirty
      · rw [if_pos (by omega)]
      · rw [if_neg (by omega)]
        exact hff i (by omega) h2
    refine ⟨_, rfl, ⟨by rw [e2, hlen], by show dObj ≤ ms - cObj; omega,
      by show ms - cObj + cObj ≤ memSize; omega, Nat.dvd_sub hdm hdc, ?_,
      by show ms - cObj ≤ dirty; omega, Nat.le_refl _, hff', ?_⟩⟩
    · intro i h1 h2
      exact hff' i h1 (by change i < ms - cObj + cObj at h2; omega)
    · intro i hi
      show m'[i]? = mem[i]?
      rw [e3 i, if_neg (by change i < ms - cObj at hi; omega)]
  · rw [if_neg hc]
    have hle : used ≤ ms := by omega
    rw [sub64_eq hle (by omega)] at hc
    rw [check_of (by simp; omega), ok_bind, check_of (by simp; omega), ok_bind]
    refine ⟨_, rfl, ⟨hlen, by show dObj ≤ used; omega, by show used + cObj ≤ memSize; omega, hu1, ?_,
      Nat.le_refl _, by show dirty ≤ used; omega, hff, fun _ _ => rfl⟩⟩
    intro i h1 h2
    exact hff i (by change used ≤ i at h1; omega) (by change i < used + cObj at h2; omega)

/-! ## Words -/

theorem storeWord_spec (blk : List Nat) (off v : Nat) (h : off + 8 ≤ blk.length) :
    ∃ b, storeWord blk off v = .ok b ∧ b.length = blk.length ∧
      (∀ k, k < 8 → b[off + k]? = some (v / 256 ^ k % 256)) ∧
      ∀ i, i < off ∨ off + 8 ≤ i → b[i]? = blk[i]? := by
  obtain ⟨b, h1, h2, h3, h4⟩ := forRange_inv
    (body := fun k b => wr b (off + k) (v / 256 ^ k % 256))
    (fun n b => b.length = blk.length ∧
      (∀ k, k < n → b[off + k]? = some (v / 256 ^ k % 256)) ∧
      ∀ i, i < off ∨ off + n ≤ i → b[i]? = blk[i]?)
    0 8 (by omega) blk ⟨rfl, by omega, fun _ _ => rfl⟩ (by
      intro n b _ hn ⟨hl, hk, ho⟩
      refine ⟨_, wr_of_lt (by omega), by simpa using hl, ?_, ?_⟩
      · intro k hkn
        rw [List.getElem?_set]
        by_cases he : k = n
        · subst he
          rw [if_pos rfl, if_pos (by omega)]
        · rw [if_neg (by omega)]
          exact hk k (by omega)
      · intro i hi
        rw [List.getElem?_set, if_neg (by omega)]
        exact ho i (by omega))
  exact ⟨b, h1, h2, h3, h4⟩

theorem load_spec (w : Nat) (blk : List Nat) (off v : Nat) (hv : v < 256 ^ w)
    (h : ∀ k, k < w → blk[off + k]? = some (v / 256 ^ k % 256)) :
    load w blk off = .ok v := by
  obtain ⟨r, h1, h2⟩ := forRange_inv
    (body := fun k acc => do
      let b ← rd blk (off + k)
      .ok (acc + b * 256 ^ k))
    (fun n acc => acc = v % 256 ^ n) 0 w (by omega) 0 (by simp [Nat.mod_one]) (by
      intro k acc _ hk he
      refine ⟨_, by rw [rd_of_getElem? (h k hk), ok_bind], ?_⟩
      rw [he, Nat.pow_succ, Nat.mod_mul, Nat.mul_comm (256 ^ k)])
  unfold load
  rw [h1, h2, Nat.mod_eq_of_lt hv]

/-- All bytes 255: the value is the largest of its width, `~0`. -/
theorem load_ff (w : Nat) (blk : List Nat) (off : Nat)
    (h : ∀ k, k < w → blk[off + k]? = some 255) : load w blk off = .ok (256 ^ w - 1) := by
  have hp : ∀ n, 0 < 256 ^ n := fun n => Nat.pow_pos (by omega)
  refine load_spec w blk off _ (by have := hp w; omega) ?_
  intro k hk
  rw [h k hk]
  congr 1
  have e : 256 ^ w = 256 ^ (w - k - 1) * 256 * 256 ^ k := by
    rw [← Nat.pow_succ, ← Nat.pow_add]; congr 1; omega
  have e2 : 256 ^ w - 1 = (256 ^ k - 1) + (256 ^ (w - k - 1) * 256 - 1) * 256 ^ k := by
    rw [e, Nat.sub_mul, Nat.one_mul]
    have := hp k
    have h2 : 256 ^ k ≤ 256 ^ (w - k - 1) * 256 * 256 ^ k :=
      Nat.le_mul_of_pos_left _ (Nat.mul_pos (hp _) (by omega))
    omega
  rw [e2, Nat.add_mul_div_right _ _ (hp k), Nat.div_eq_of_lt (by have := hp k; omega), Nat.zero_add]
  have := hp (w - k - 1)
  omega

end Verif.Mem
