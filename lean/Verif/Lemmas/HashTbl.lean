import Verif.Model.Hash
import Verif.Lemmas.Masked

/-! # Open addressing with linear probing and backward-shift deletion -/

namespace Verif.Model.Hash

variable {P : Type}

/-! ## Cyclic distance -/

/-- Number of steps from slot `a` forward to slot `b` in a table with `N` slots. -/
def dist (N a b : Nat) : Nat := if a ≤ b then b - a else b + N - a

theorem dist_spec (N a b : Nat) :
    (a ≤ b ∧ dist N a b = b - a) ∨ (b < a ∧ dist N a b = b + N - a) := by
  unfold dist; split <;> omega

theorem dist_ne {N a b c : Nat} (ha : a < N) (hb : b < N) (hc : c < N) (h : b ≠ c) : dist N a b ≠ dist N a c := by
  have := dist_spec N a b; have := dist_spec N a c; omega

theorem dist_self (N a : Nat) : dist N a a = 0 := by unfold dist; simp

/-- First slot probed for a key. -/
def home (N key : Nat) : Nat := key * 107 % N

theorem home_lt {N key : Nat} (h : 0 < N) : home N key < N := Nat.mod_lt _ h

/-- `N` is a power of two. -/
def Pow2 (N : Nat) : Prop := ∃ k, N = 2 ^ k

theorem Pow2.pos {N : Nat} (h : Pow2 N) : 0 < N := by
  obtain ⟨k, rfl⟩ := h; exact Nat.two_pow_pos k

theorem and_mask {N x : Nat} (h : Pow2 N) : x &&& (N - 1) = x % N := by
  obtain ⟨k, rfl⟩ := h; exact Nat.and_two_pow_sub_one_eq_mod x k

/-- The next slot. -/
def next (N p : Nat) : Nat := if p + 1 < N then p + 1 else 0

theorem mod_next {N p : Nat} (h : p < N) : (p + 1) % N = next N p := by
  unfold next
  split
  · exact Nat.mod_eq_of_lt (by assumption)
  · have : p + 1 = N := by omega
    rw [this, Nat.mod_self]

theorem next_spec (N p : Nat) : (p + 1 < N ∧ next N p = p + 1) ∨ (N ≤ p + 1 ∧ next N p = 0) := by
  unfold next; split <;> omega

theorem next_lt {N p : Nat} (h : p < N) : next N p < N := by
  unfold next; split <;> omega

/-! ## Tables -/

/-- The table whose slots are given by `f`. -/
def mkT (cap N : Nat) (f : Nat → Entry P) (keys : List Nat) : Tbl P := ⟨cap, N, tab cap f, keys⟩

section
variable {cap N : Nat} {f : Nat → Entry P} {ks : List Nat}

@[simp] theorem mkT_size : (mkT cap N f ks).size = N := rfl
@[simp] theorem mkT_table : (mkT cap N f ks).table = tab cap f := rfl
@[simp] theorem mkT_keys : (mkT cap N f ks).keys = ks := rfl

theorem hash_eq (hN : Pow2 N) (key : Nat) : (mkT cap N f ks).hash key = home N key := by
  simp [Tbl.hash, Tbl.mask, home, and_mask hN]

theorem step_eq (hN : Pow2 N) {p : Nat} (hp : p < N) : (p + 1) &&& (mkT cap N f ks).mask = next N p := by
  simp [Tbl.mask, and_mask hN, mod_next hp]

theorem put_eq {i : Nat} {e : Entry P} (h : i < cap) :
    (mkT cap N f ks).put i e = .ok (mkT cap N (upd f i e) ks) := by
  simp [Tbl.put, mkT, wr_tab h]

theorem putEmpty_eq {i : Nat} (h : i < cap) :
    (mkT cap N f ks).putEmpty i = .ok (mkT cap N (upd f i ⟨none, (f i).val⟩) ks) := by
  simp only [Tbl.putEmpty, mkT_table, rd_tab h, ok_bind, put_eq h]

theorem probe_aux (hN : Pow2 N) (hc : N ≤ cap) {stop : Entry P → Bool} {h q : Nat} (hh : h < N) (hq : q < N)
    (hs : stop (f q) = true) : ∀ (fuel p : Nat), p < N → dist N h p + fuel = N →
    (∀ j < N, dist N h j < dist N h p → stop (f j) = false) →
    ∃ i < N, (mkT cap N f ks).probe stop fuel p = .ok i ∧ stop (f i) = true ∧
      ∀ j < N, dist N h j < dist N h i → stop (f j) = false := by
  intro fuel
  induction fuel with
  | zero =>
    intro p hp hd _
    have := dist_spec N h p; omega
  | succ n ih =>
    intro p hp hd hv
    simp only [Tbl.probe, mkT_table, rd_tab (Nat.lt_of_lt_of_le hp hc), ok_bind]
    by_cases hst : stop (f p) = true
    · rw [if_pos hst]
      exact ⟨p, hp, rfl, hst, hv⟩
    · rw [if_neg hst, step_eq hN hp]
      have hst' : stop (f p) = false := by simpa using hst
      by_cases hn : next N p = h
      · exfalso
        by_cases hqp : q = p
        · subst hqp; exact hst hs
        · have : dist N h q < dist N h p := by
            have := next_spec N p; have := dist_spec N h q; have := dist_spec N h p; omega
          rw [hv q hq this] at hs; simp at hs
      · have hd' : dist N h (next N p) = dist N h p + 1 := by
          have := next_spec N p; have := dist_spec N h (next N p); have := dist_spec N h p; omega
        apply ih (next N p) (next_lt hp) (by omega)
        intro j hj hjd
        by_cases hjp : j = p
        · subst hjp; exact hst'
        · apply hv j hj
          rw [hd'] at hjd
          have := dist_ne hh hj hp hjp
          omega

/-- A probe finds the first slot that stops it. -/
theorem probe_ok (hN : Pow2 N) (hc : N ≤ cap) {stop : Entry P → Bool} {h q : Nat} (hh : h < N) (hq : q < N)
    (hs : stop (f q) = true) :
    ∃ i < N, (mkT cap N f ks).probe stop N h = .ok i ∧ stop (f i) = true ∧
      ∀ j < N, dist N h j < dist N h i → stop (f j) = false := by
  apply probe_aux hN hc hh hq hs N h hh
  · rw [dist_self]; omega
  · intro j _ hj
    rw [dist_self] at hj
    omega

/-- If no slot stops the probe, it never ends. -/
theorem probe_diverge (hN : Pow2 N) (hc : N ≤ cap) {stop : Entry P → Bool}
    (hs : ∀ i < N, stop (f i) = false) : ∀ (fuel p : Nat), p < N →
    (mkT cap N f ks).probe stop fuel p = .error .diverge := by
  intro fuel
  induction fuel with
  | zero => intro p _; rfl
  | succ n ih =>
    intro p hp
    simp only [Tbl.probe, mkT_table, rd_tab (Nat.lt_of_lt_of_le hp hc), ok_bind, hs p hp, step_eq hN hp]
    exact ih _ (next_lt hp)

end

/-! ## The invariant -/

/-- Every key can be reached from its first slot through full slots, and no key is stored twice. -/
structure Good (N : Nat) (k : Nat → Option Nat) : Prop where
  reach : ∀ i < N, ∀ x, k i = some x → ∀ j < N, dist N (home N x) j < dist N (home N x) i → k j ≠ none
  uniq : ∀ i < N, ∀ j < N, ∀ x, k i = some x → k j = some x → i = j

/-- Keys of the slots. -/
def keysOf (f : Nat → Entry P) : Nat → Option Nat := fun i => (f i).key

theorem Good.empty {N : Nat} {k : Nat → Option Nat} (h : ∀ i < N, k i = none) : Good N k where
  reach := by intro i hi x hx; rw [h i hi] at hx; simp at hx
  uniq := by intro i hi j hj x hx; rw [h i hi] at hx; simp at hx

theorem Good.congr {N : Nat} {k k' : Nat → Option Nat} (h : Good N k) (he : ∀ i < N, k' i = k i) : Good N k' where
  reach := by
    intro i hi x hx j hj hd
    rw [he i hi] at hx; rw [he j hj]
    exact h.reach i hi x hx j hj hd
  uniq := by
    intro i hi j hj x hx hy
    rw [he i hi] at hx; rw [he j hj] at hy
    exact h.uniq i hi j hj x hx hy

/-- Adding a key at the end of its probe path. -/
theorem Good.insert {N : Nat} {k : Nat → Option Nat} (h : Good N k) {i x : Nat} (hi : i < N)
    (hx : ∀ j < N, k j ≠ some x) (hp : ∀ j < N, dist N (home N x) j < dist N (home N x) i → k j ≠ none) :
    Good N (upd k i (some x)) where
  reach := by
    intro a ha y hy j hj hd
    by_cases hji : j = i
    · subst hji; simp
    · rw [upd_ne _ _ hji]
      by_cases hai : a = i
      · subst hai; rw [upd_same] at hy; cases hy
        exact hp j hj hd
      · rw [upd_ne _ _ hai] at hy
        exact h.reach a ha y hy j hj hd
  uniq := by
    intro a ha b hb y hy hz
    by_cases hai : a = i
    · by_cases hbi : b = i
      · omega
      · rw [upd_ne _ _ hbi] at hz; subst hai; rw [upd_same] at hy; cases hy
        exact absurd hz (hx b hb)
    · rw [upd_ne _ _ hai] at hy
      by_cases hbi : b = i
      · subst hbi; rw [upd_same] at hz; cases hz
        exact absurd hy (hx a ha)
      · rw [upd_ne _ _ hbi] at hz
        exact h.uniq a ha b hb y hy hz

section
variable {cap N : Nat} {f : Nat → Entry P} {ks : List Nat}

/-- What `findIdx` returns. -/
theorem findIdx_ok (hN : Pow2 N) (hc : N ≤ cap) (hg : Good N (keysOf f)) (he : ∃ q < N, (f q).key = none)
    (key : Nat) : ∃ i < N, (mkT cap N f ks).findIdx key = .ok i ∧
      ((f i).key = some key ∨
        (f i).key = none ∧ (∀ j < N, (f j).key ≠ some key) ∧
          ∀ j < N, dist N (home N key) j < dist N (home N key) i → (f j).key ≠ none) := by
  obtain ⟨q, hq, hqe⟩ := he
  obtain ⟨i, hi, h1, h2, h3⟩ := probe_ok (ks := ks) hN hc (stop := fun e => e.key == none || e.key == some key)
    (f := f) (home_lt (key := key) hN.pos) hq (by simp [hqe])
  refine ⟨i, hi, ?_, ?_⟩
  · unfold Tbl.findIdx; rw [hash_eq hN]; exact h1
  · simp only [Bool.or_eq_true, beq_iff_eq] at h2
    rcases h2 with h2 | h2
    · right
      refine ⟨h2, ?_, ?_⟩
      · intro j hj hjk
        have hji : j ≠ i := by intro h; subst h; rw [h2] at hjk; simp at hjk
        have hd := dist_ne (home_lt (key := key) hN.pos) hj hi hji
        rcases Nat.lt_or_gt_of_ne hd with hlt | hgt
        · have := h3 j hj hlt
          simp [hjk] at this
        · exact hg.reach j hj key hjk i hi hgt h2
      · intro j hj hd hjn
        have := h3 j hj hd
        simp [hjn] at this
    · exact .inl h2

/-- `findIdx` does not end in a full table without the key. -/
theorem findIdx_diverge (hN : Pow2 N) (hc : N ≤ cap) {key : Nat} (h1 : ∀ i < N, (f i).key ≠ none)
    (h2 : ∀ i < N, (f i).key ≠ some key) : (mkT cap N f ks).findIdx key = .error .diverge := by
  unfold Tbl.findIdx
  rw [hash_eq hN]
  apply probe_diverge hN hc _ _ _ (home_lt hN.pos)
  intro i hi
  simp only [Bool.or_eq_false_iff, beq_eq_false_iff_ne]
  exact ⟨h1 i hi, h2 i hi⟩

/-- `findIdxForce` finds a key that is there, through empty slots. -/
theorem findIdxForce_ok (hN : Pow2 N) (hc : N ≤ cap) {key q : Nat} (hq : q < N) (hk : (f q).key = some key) :
    ∃ i < N, (mkT cap N f ks).findIdxForce key = .ok i ∧ (f i).key = some key := by
  obtain ⟨i, hi, h1, h2, _⟩ := probe_ok (ks := ks) hN hc (stop := fun e => e.key == some key)
    (f := f) (home_lt (key := key) hN.pos) hq (by simp [hk])
  refine ⟨i, hi, ?_, by simpa using h2⟩
  unfold Tbl.findIdxForce; rw [hash_eq hN]; exact h1

/-- `findIdxForce` does not end if the key is not there. -/
theorem findIdxForce_diverge (hN : Pow2 N) (hc : N ≤ cap) {key : Nat}
    (h2 : ∀ i < N, (f i).key ≠ some key) : (mkT cap N f ks).findIdxForce key = .error .diverge := by
  unfold Tbl.findIdxForce
  rw [hash_eq hN]
  apply probe_diverge hN hc _ _ _ (home_lt hN.pos)
  intro i hi
  simp [h2 i hi]

end

/-! ## Deletion -/

/-- The test in the loop of `erase`: slot `e` lies on the way from `ins` to `s`. -/
theorem cond_iff {N ins e s : Nat} (h1 : ins < N) (h2 : e < N) :
    ((ins ≤ e ∧ e ≤ s) ∨ (e ≤ s ∧ s < ins) ∨ (s < ins ∧ ins ≤ e)) ↔ dist N e s ≤ dist N ins s := by
  have := dist_spec N e s; have := dist_spec N ins s; omega

/-- Loop invariant of `shift`: the slot `e` is to be removed, the slots after `e` up to `s` need not move. -/
structure ShInv (N : Nat) (f : Nat → Entry P) (e s z : Nat) : Prop where
  he : e < N
  hs : s < N
  hz : z < N
  full : (f e).key ≠ none
  emp : (f z).key = none
  reach : ∀ i < N, i ≠ e → ∀ x, (f i).key = some x → ∀ j < N, dist N (home N x) j < dist N (home N x) i →
    (f j).key ≠ none
  uniq : ∀ i < N, i ≠ e → ∀ j < N, j ≠ e → ∀ x, (f i).key = some x → (f j).key = some x → i = j
  stay : ∀ t < N, 0 < dist N e t → dist N e t ≤ dist N e s → ∀ x, (f t).key = some x →
    dist N (home N x) t < dist N e t
  before : dist N e s < dist N e z

theorem shift_ok {cap N : Nat} {ks : List Nat} (hN : Pow2 N) (hc : N ≤ cap) {z : Nat} :
    ∀ (fuel : Nat) (f : Nat → Entry P) (e s : Nat), ShInv N f e s z → dist N s z ≤ fuel →
    ∃ f' e', (mkT cap N f ks).shift fuel e s = .ok (mkT cap N f' ks, e') ∧ e' < N ∧
      Good N (upd (keysOf f') e' none) ∧
      (∀ ent : Entry P, (∃ i < N, i ≠ e' ∧ f' i = ent) ↔ (∃ i < N, i ≠ e ∧ f i = ent)) ∧
      ∀ i, N ≤ i → f' i = f i := by
  intro fuel
  induction fuel with
  | zero =>
    intro f e s h hd
    exfalso
    have hb := h.before
    have h1 := h.he; have h2 := h.hs; have h3 := h.hz
    have := dist_spec N s z; have := dist_spec N e s; have := dist_spec N e z
    omega
  | succ n ih =>
    intro f e s h hd
    have hs' := next_lt h.hs
    have hb := h.before
    have hdist : dist N e (next N s) = dist N e s + 1 ∧ next N s ≠ e := by
      have h1 := h.he; have h2 := h.hs; have h3 := h.hz
      have := next_spec N s; have := dist_spec N e s; have := dist_spec N e z
      have := dist_spec N e (next N s)
      omega
    obtain ⟨hd1, hne⟩ := hdist
    unfold Tbl.shift
    simp only [step_eq hN h.hs, mkT_table, rd_tab (Nat.lt_of_lt_of_le hs' hc), ok_bind]
    obtain ⟨s', hsn⟩ : ∃ s', next N s = s' := ⟨_, rfl⟩
    rw [hsn] at hs' hd1 hne ⊢
    cases hk : (f s').key with
    | none =>
      refine ⟨f, e, rfl, h.he, ⟨?_, ?_⟩, fun _ => Iff.rfl, fun _ _ => rfl⟩
      · intro i hi x hx j hj hdj
        have hie : i ≠ e := by intro h'; subst h'; simp at hx
        rw [upd_ne _ _ hie] at hx
        have hx' : (f i).key = some x := hx
        by_cases hje : j = e
        · exfalso
          subst hje
          have hi' : i ≠ s' := by intro h'; subst h'; rw [hk] at hx'; simp at hx'
          by_cases hin : dist N j i ≤ dist N j s
          · have h1 := h.he
            have := h.stay i hi (by have := dist_spec N j i; omega) hin x hx'
            have hh := home_lt (key := x) hN.pos
            have := dist_spec N (home N x) i; have := dist_spec N j i; have := dist_spec N (home N x) j
            omega
          · have : dist N (home N x) s' < dist N (home N x) i := by
              have hh := home_lt (key := x) hN.pos
              have h1 := h.he
              have h2 := dist_ne h1 hi hs' hi'
              have h3 : dist N j s' < dist N j i := by omega
              have := dist_spec N (home N x) i; have := dist_spec N j i; have := dist_spec N (home N x) j
              have := dist_spec N j s'; have := dist_spec N (home N x) s'
              omega
            exact h.reach i hi hie x hx' s' hs' this hk
        · rw [upd_ne _ _ hje]
          exact h.reach i hi hie x hx' j hj hdj
      · intro i hi j hj x hx hy
        have hie : i ≠ e := by intro h'; subst h'; simp at hx
        have hje : j ≠ e := by intro h'; subst h'; simp at hy
        rw [upd_ne _ _ hie] at hx
        rw [upd_ne _ _ hje] at hy
        exact h.uniq i hi hie j hj hje x hx hy
    | some y =>
      simp only
      have hh := home_lt (key := y) hN.pos
      have hhm : (mkT cap N f ks).hash y &&& (mkT cap N f ks).mask = home N y := by
        rw [hash_eq hN]
        simp only [Tbl.mask, mkT_size, and_mask hN]
        exact Nat.mod_eq_of_lt hh
      rw [hhm]
      have hzs : z ≠ s' := by intro h'; subst h'; rw [h.emp] at hk; simp at hk
      have hze : z ≠ e := by intro h'; subst h'; exact h.full h.emp
      have hd2 : dist N s' z ≤ n := by
        have h1 := h.he; have h2 := h.hs; have h3 := h.hz
        have hsz : s ≠ z := by intro h'; subst h'; omega
        have := dist_spec N s z; have := dist_spec N s' z; have := next_spec N s
        omega
      have hb2 : dist N e s' < dist N e z := by
        have := dist_ne h.he h.hz hs' hzs
        omega
      by_cases hcond : (home N y ≤ e ∧ e ≤ s') ∨ (e ≤ s' ∧ s' < home N y) ∨ (s' < home N y ∧ home N y ≤ e)
      · rw [if_pos hcond, put_eq (Nat.lt_of_lt_of_le h.he hc)]
        simp only [ok_bind]
        rw [cond_iff hh h.he] at hcond
        have hinv : ShInv N (upd f e (f s')) s' s' z := by
          refine ⟨hs', hs', h.hz, ?_, ?_, ?_, ?_, ?_, ?_⟩
          · rw [upd_ne _ _ hne, hk]; simp
          · rw [upd_ne _ _ hze]; exact h.emp
          · intro i hi his x hx j hj hdj
            have hfj : (f j).key ≠ none → (upd f e (f s') j).key ≠ none := by
              intro hh
              by_cases hje : j = e
              · subst hje; rw [upd_same, hk]; simp
              · rw [upd_ne _ _ hje]; exact hh
            apply hfj
            by_cases hie : i = e
            · subst hie
              rw [upd_same, hk] at hx; cases hx
              apply h.reach s' hs' hne y hk j hj
              have h1 := h.he
              have := dist_spec N i s'; have := dist_spec N (home N y) s'; have := dist_spec N (home N y) j
              have := dist_spec N (home N y) i
              omega
            · rw [upd_ne _ _ hie] at hx
              exact h.reach i hi hie x hx j hj hdj
          · intro i hi his j hj hjs x hx hy
            by_cases hie : i = e
            · by_cases hje : j = e
              · omega
              · subst hie
                rw [upd_same] at hx; rw [upd_ne _ _ hje] at hy
                exact absurd (h.uniq s' hs' hne j hj hje x hx hy).symm hjs
            · rw [upd_ne _ _ hie] at hx
              by_cases hje : j = e
              · subst hje
                rw [upd_same] at hy
                exact absurd (h.uniq s' hs' hne i hi hie x hy hx).symm his
              · rw [upd_ne _ _ hje] at hy
                exact h.uniq i hi hie j hj hje x hx hy
          · intro t _ h1 h2
            rw [dist_self] at h2
            omega
          · rw [dist_self]
            have h3 := h.hz
            have := dist_spec N s' z; omega
        obtain ⟨f', e', r1, r2, r3, r4, r5⟩ := ih (upd f e (f s')) s' s' hinv hd2
        refine ⟨f', e', r1, r2, r3, ?_, ?_⟩
        · intro ent
          rw [r4]
          constructor
          · rintro ⟨i, hi, his, hie⟩
            by_cases hi' : i = e
            · subst hi'; rw [upd_same] at hie
              exact ⟨s', hs', hne, hie⟩
            · rw [upd_ne _ _ hi'] at hie
              exact ⟨i, hi, hi', hie⟩
          · rintro ⟨i, hi, hi', hie⟩
            by_cases his : i = s'
            · subst his
              exact ⟨e, h.he, Ne.symm hne, by rw [upd_same]; exact hie⟩
            · exact ⟨i, hi, his, by rw [upd_ne _ _ hi']; exact hie⟩
        · intro i hi
          rw [r5 i hi, upd_ne]
          have := h.he; omega
      · rw [if_neg hcond]
        rw [cond_iff hh h.he] at hcond
        have hinv : ShInv N f e s' z := by
          refine ⟨h.he, hs', h.hz, h.full, h.emp, h.reach, h.uniq, ?_, hb2⟩
          intro t ht h1 h2 x hx
          by_cases hts : t = s'
          · subst hts; rw [hk] at hx; cases hx; omega
          · apply h.stay t ht h1 _ x hx
            have := dist_ne h.he ht hs' hts
            omega
        exact ih f e s' hinv hd2

end Verif.Model.Hash
