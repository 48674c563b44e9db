import Verif.Model.Scan
import Verif.Model.Common
import Verif.Lemmas.Threads

/-! # Prefix sums: proofs -/

namespace Verif.Model

variable {α : Type}

/-- Sum of `f 0, ..., f (i-1)`. -/
def psum (f : Nat → Nat) : Nat → Nat
  | 0 => 0
  | i + 1 => psum f i + f i

theorem psum_mono {f : Nat → Nat} {i j : Nat} (h : i ≤ j) : psum f i ≤ psum f j := by
  induction j with
  | zero => have : i = 0 := by omega
            subst this; exact Nat.le_refl _
  | succ j ih =>
    rcases Nat.lt_or_ge i (j + 1) with h1 | h1
    · have := ih (by omega)
      simp only [psum]; omega
    · have : i = j + 1 := by omega
      subst this; exact Nat.le_refl _

theorem psum_congr {f g : Nat → Nat} {i : Nat} (h : ∀ k < i, f k = g k) : psum f i = psum g i := by
  induction i with
  | zero => rfl
  | succ i ih => simp only [psum]; rw [ih (fun k hk => h k (by omega)), h i (by omega)]

/-- Cell `i` holds its final value. -/
def Has (l : List (Option α)) (X : Nat → α) (i : Nat) : Prop := l[i]? = some (some (X i))

theorem Has.lt {l : List (Option α)} {X : Nat → α} {i : Nat} (h : Has l X i) : i < l.length := by
  unfold Has at h
  rcases Nat.lt_or_ge i l.length with h' | h'
  · exact h'
  · rw [List.getElem?_eq_none h'] at h; simp at h

theorem Has.set {l : List (Option α)} {X : Nat → α} {i : Nat} (h : Has l X i) (j : Nat) :
    Has (l.set j (some (X j))) X i := by
  unfold Has at *
  rw [List.getElem?_set]
  by_cases hj : j = i
  · subst hj; simp [Has.lt h]
  · simp [hj, h]

theorem Has.set_self {l : List (Option α)} {X : Nat → α} {j : Nat} (h : j < l.length) :
    Has (l.set j (some (X j))) X j := by
  unfold Has; simp [h]

theorem Has.rdu {l : List (Option α)} {X : Nat → α} {i : Nat} (h : Has l X i) :
    Scan.rdu l i = .ok (X i) := by
  unfold Scan.rdu
  rw [rd_of_getElem? h]; rfl

theorem Has.rd {l : List (Option α)} {X : Nat → α} {i : Nat} (h : Has l X i) :
    rd l i = .ok (some (X i)) := rd_of_getElem? h

theorem has_tab {n i : Nat} {X : Nat → α} (h : i < n) : Has (tab n fun i => some (X i)) X i := by
  unfold Has; rw [tab_getElem? h]

theorem eq_tab_of_has {l : List (Option α)} {X : Nat → α} {n : Nat} (hl : l.length = n)
    (h : ∀ i < n, Has l X i) : l = tab n fun i => some (X i) := by
  apply List.ext_getElem?
  intro i
  by_cases hi : i < n
  · rw [h i hi, tab_getElem? hi]
  · rw [List.getElem?_eq_none (by omega), List.getElem?_eq_none (by simp; omega)]

theorem sum_loop {l : List (Option Nat)} {f : Nat → Nat} {lo hi s : Nat} (hle : lo ≤ hi)
    (h : ∀ i, lo ≤ i → i < hi → Has l f i) :
    (forRange lo hi s fun i s => do
      let x ← Scan.rdu l i
      .ok (s + x)) = .ok (s + (psum f hi - psum f lo)) := by
  obtain ⟨s', h1, h2⟩ := forRange_inv (body := fun i s => (do
      let x ← Scan.rdu l i
      .ok (s + x) : Res Nat)) (fun i r => r = s + (psum f i - psum f lo)) lo hi hle s (by simp) (by
    intro i r h1 h2 hr
    refine ⟨r + f i, ?_, ?_⟩
    · rw [(h i h1 h2).rdu]; rfl
    · have := psum_mono (f := f) h1
      simp only [psum]; omega)
  rw [h1, h2]

theorem accumulate_eq {l : List (Option Nat)} {f : Nat → Nat} {k : Nat} (h : ∀ i < k, Has l f i) :
    accumulate l k = .ok (psum f k) := by
  have := sum_loop (l := l) (f := f) (lo := 0) (hi := k) (s := 0) (by omega) (fun i _ hi => h i hi)
  unfold accumulate
  simpa [Scan.rdu, psum] using this

namespace Scan

/-- The scanned function: exclusive or inclusive sums. -/
def scanned (incl : Bool) (f : Nat → Nat) (i : Nat) : Nat := psum f (if incl then i + 1 else i)

theorem exclSeq_eq {f : Nat → Nat} {src dst : List (Option Nat)} {size : Nat} (hs : 0 < size)
    (hsrc : ∀ i < size, Has src f i) (hd : dst.length = size) :
    exclSeq src size dst = .ok (tab size fun i => some (psum f i)) := by
  unfold exclSeq
  rw [wr_of_lt (by omega)]
  simp only [ok_bind]
  obtain ⟨d, h1, h2, h3⟩ := forRange_inv (body := fun i dst => (do
      let p ← rdu dst (i - 1)
      let x ← rdu src (i - 1)
      wr dst i (some (p + x)) : Res (List (Option Nat))))
    (fun i d => d.length = size ∧ ∀ k < i, Has d (psum f) k) 1 size (by omega) (dst.set 0 (some 0)) (by
      refine ⟨by simp [hd], ?_⟩
      intro k hk
      have : k = 0 := by omega
      subst this
      exact Has.set_self (X := psum f) (by omega)) (by
    rintro i d h1 h2 ⟨hl, hk⟩
    refine ⟨d.set i (some (psum f i)), ?_, by simp [hl], ?_⟩
    · rw [(hk (i - 1) (by omega)).rdu, (hsrc (i - 1) (by omega)).rdu]
      simp only [ok_bind]
      rw [wr_of_lt (by omega)]
      congr 3
      obtain ⟨j, rfl⟩ : ∃ j, i = j + 1 := ⟨i - 1, by omega⟩
      simp [psum]
    · intro k hk'
      rcases Nat.lt_or_ge k i with h | h
      · exact (hk k h).set i
      · have : k = i := by omega
        subst this
        exact Has.set_self (by omega))
  rw [h1, eq_tab_of_has h2 h3]

theorem inclSeq_eq {f : Nat → Nat} {src dst : List (Option Nat)} {size : Nat} (hs : 0 < size)
    (hsrc : ∀ i < size, Has src f i) (hd : dst.length = size) :
    inclSeq src size dst = .ok (tab size fun i => some (psum f (i + 1))) := by
  unfold inclSeq
  rw [(hsrc 0 hs).rdu]
  simp only [ok_bind]
  rw [wr_of_lt (by omega)]
  simp only [ok_bind]
  obtain ⟨d, h1, h2, h3⟩ := forRange_inv (body := fun i dst => (do
      let p ← rdu dst (i - 1)
      let x ← rdu src i
      wr dst i (some (p + x)) : Res (List (Option Nat))))
    (fun i d => d.length = size ∧ ∀ k < i, Has d (fun i => psum f (i + 1)) k) 1 size (by omega)
      (dst.set 0 (some (f 0))) (by
      refine ⟨by simp [hd], ?_⟩
      intro k hk
      have : k = 0 := by omega
      subst this
      have := Has.set_self (l := dst) (X := fun i => psum f (i + 1)) (j := 0) (by omega)
      simpa [psum] using this) (by
    rintro i d h1 h2 ⟨hl, hk⟩
    refine ⟨d.set i (some (psum f (i + 1))), ?_, by simp [hl], ?_⟩
    · rw [(hk (i - 1) (by omega)).rdu, (hsrc i (by omega)).rdu]
      simp only [ok_bind]
      rw [wr_of_lt (by omega)]
      congr 3
      obtain ⟨j, rfl⟩ : ∃ j, i = j + 1 := ⟨i - 1, by omega⟩
      simp [psum]
    · intro k hk'
      rcases Nat.lt_or_ge k i with h | h
      · exact Has.set (X := fun i => psum f (i + 1)) (hk k h) i
      · have : k = i := by omega
        subst this
        exact Has.set_self (X := fun i => psum f (i + 1)) (by omega))
  rw [h1, eq_tab_of_has h2 h3]

theorem start_le_stop {size n t : Nat} (ht : t < n) : start size n t ≤ stop size n t := by
  unfold start stop
  have := ht
  split
  · exact Nat.mul_le_mul_right _ (by omega)
  · calc t * (size / n) ≤ n * (size / n) := Nat.mul_le_mul_right _ (by omega)
      _ ≤ size := Nat.mul_div_le _ _

theorem stop_le {size n t : Nat} (ht : t < n) : stop size n t ≤ size := by
  unfold stop
  split
  · calc (t + 1) * (size / n) ≤ n * (size / n) := Nat.mul_le_mul_right _ (by omega)
      _ ≤ size := Nat.mul_div_le _ _
  · exact Nat.le_refl _

theorem start_lt {size n t : Nat} (ht : t < n) (hs : 0 < size) : start size n t < size := by
  unfold start
  by_cases hq : size / n = 0
  · rw [hq]; simpa using hs
  · calc t * (size / n) < n * (size / n) := by
          exact Nat.mul_lt_mul_of_pos_right ht (Nat.pos_of_ne_zero hq)
      _ ≤ size := Nat.mul_div_le _ _

theorem psum_blocks {f : Nat → Nat} {size n t : Nat} (ht : t < n) :
    psum (fun t => psum f (stop size n t) - psum f (start size n t)) t = psum f (start size n t) := by
  induction t with
  | zero => simp [psum, start]
  | succ t ih =>
    have h1 := ih (by omega)
    simp only [psum]
    rw [h1]
    have h2 := psum_mono (f := f) (start_le_stop (size := size) (t := t) (n := n) (by omega))
    have h3 : stop size n t = start size n (t + 1) := by
      unfold stop start; rw [if_pos (by omega)]
    rw [h3] at h2 ⊢
    omega

theorem covered {size n i : Nat} (hn : 0 < n) (hi : i < size) :
    ∃ t, t < n ∧ start size n t ≤ i ∧ i < stop size n t := by
  by_cases h : i < (n - 1) * (size / n)
  · have hq : 0 < size / n := by
      rcases Nat.eq_zero_or_pos (size / n) with h0 | h0
      · rw [h0] at h; simp at h
      · exact h0
    refine ⟨i / (size / n), ?_, ?_, ?_⟩
    · have := (Nat.div_lt_iff_lt_mul hq).2 h; omega
    · unfold start; exact Nat.div_mul_le_self _ _
    · have h1 := (Nat.div_lt_iff_lt_mul hq).2 h
      unfold stop
      rw [if_pos (by omega)]
      have := Nat.lt_mul_div_succ i hq
      rw [Nat.mul_comm]; exact this
  · refine ⟨n - 1, by omega, by unfold start; omega, ?_⟩
    unfold stop
    rw [if_neg (by omega)]; exact hi

/-- Enough steps for the second part. -/
def ticks (size n : Nat) (t : Nat) : Ctl → Nat
  | .first => size + 2
  | .at i => (stop size n t + 1 - i) + 1
  | .done => 0

theorem par_spec (incl : Bool) {f : Nat → Nat} {src dst : List (Option Nat)} {size n : Nat} (hn : 0 < n)
    (hs : 0 < size) (hsrc : ∀ i < size, Has src f i) (hd : dst.length = size) (s1 s2 : List Nat) :
    (par incl src size dst n s1 s2 = .ok none ∧ ∃ t < n, s1.count t ≤ 1 ∨ s2.count t ≤ size + 2) ∨
    par incl src size dst n s1 s2 = .ok (some (tab size fun i => some (scanned incl f i))) := by
  unfold par
  let bs : Nat → Nat := fun t => psum f (stop size n t) - psum f (start size n t)
  rcases phase_inv (n := n) (step := stepSum src size n) (fin := id)
    (fun t ps (d : Bool) => ps.length = n ∧ (d = true → Has ps bs t)) (fun _ d => if d then 0 else 1)
    (by
      rintro t ps d ht ⟨hl, -⟩ hd
      refine ⟨ps.set t (some (bs t)), true, ?_, ⟨by simp [hl], fun _ => Has.set_self (by omega)⟩,
        Or.inl rfl, ?_⟩
      · unfold stepSum
        rw [sum_loop (f := f) (start_le_stop ht) (fun i _ hi => hsrc i (by
          have := stop_le (size := size) ht; omega))]
        simp only [ok_bind, Nat.zero_add]
        rw [wr_of_lt (by omega)]; rfl
      · rintro u y hu hne ⟨hl', h'⟩
        exact ⟨by simp [hl'], fun hy => (h' hy).set t⟩)
    s1 (List.replicate n none) (fun _ => false)
    (fun t ht => ⟨by simp, fun h => by simp at h⟩) with ⟨h1, t, ht, hc⟩ | ⟨ps, ls, h1, h2⟩
  · left
    rw [h1]
    exact ⟨rfl, t, ht, Or.inl (by simpa using hc)⟩
  · rw [h1]
    simp only [ok_bind]
    have hps : ∀ t < n, Has ps bs t := fun t ht => (h2 t ht).2.2 (h2 t ht).1
    rcases phase_inv (n := n) (step := stepWrite incl src ps size n) (fin := (· == .done))
      (fun t dst c => dst.length = size ∧
        match c with
        | .first => True
        | .at i => start size n t < i ∧ ∀ k, start size n t ≤ k → k < i → Has dst (scanned incl f) k
        | .done => ∀ k, start size n t ≤ k → k < stop size n t → Has dst (scanned incl f) k)
      (ticks size n)
      (by
        rintro t dst c ht ⟨hl, hc⟩ hf
        have hst := start_lt (size := size) ht hs
        have hsp := stop_le (size := size) ht
        have hss := start_le_stop (size := size) ht
        cases c with
        | first =>
          refine ⟨dst.set (start size n t) (some (scanned incl f (start size n t))),
            .at (start size n t + 1), ?_, ⟨by simp [hl], by omega, ?_⟩, ?_, ?_⟩
          · unfold stepWrite
            rw [sum_loop (f := bs) (by omega) (fun i _ hi => hps i (by omega))]
            simp only [ok_bind]
            have hb : 0 + (psum bs t - psum bs 0) = psum f (start size n t) := by
              have := psum_blocks (f := f) (size := size) ht
              have h0 : psum bs 0 = 0 := rfl
              have h1 : psum bs t = psum f (start size n t) := this
              omega
            rw [hb]
            cases incl
            · simp only [Bool.false_eq_true, if_false, Nat.add_zero]
              rw [wr_of_lt (by omega)]; rfl
            · simp only [if_true]
              rw [(hsrc _ hst).rdu]
              simp only [ok_bind]
              rw [wr_of_lt (by omega)]; rfl
          · intro k h1 h2
            have : k = start size n t := by omega
            subst this
            exact Has.set_self (by omega)
          · right; simp only [ticks]; omega
          · rintro u y hu hne ⟨hl', h'⟩
            refine ⟨by simp [hl'], ?_⟩
            cases y with
            | first => trivial
            | «at» i => exact ⟨h'.1, fun k h1 h2 => (h'.2 k h1 h2).set _⟩
            | done => exact fun k h1 h2 => (h' k h1 h2).set _
        | «at» i =>
          obtain ⟨hlt, hk⟩ := hc
          by_cases hi : i < stop size n t
          · refine ⟨dst.set i (some (scanned incl f i)), .at (i + 1), ?_,
              ⟨by simp [hl], by omega, ?_⟩, ?_, ?_⟩
            · unfold stepWrite
              simp only [hi, if_true]
              rw [(hk (i - 1) (by omega) (by omega)).rdu, (hsrc _ (by split <;> omega)).rdu]
              simp only [ok_bind]
              rw [wr_of_lt (by omega)]
              simp only [ok_bind]
              congr 4
              obtain ⟨j, rfl⟩ : ∃ j, i = j + 1 := ⟨i - 1, by omega⟩
              cases incl <;> simp [scanned, psum]
            · intro k h1 h2
              rcases Nat.lt_or_ge k i with h | h
              · exact (hk k h1 h).set i
              · have : k = i := by omega
                subst this
                exact Has.set_self (by omega)
            · right; simp only [ticks]; omega
            · rintro u y hu hne ⟨hl', h'⟩
              refine ⟨by simp [hl'], ?_⟩
              cases y with
              | first => trivial
              | «at» i => exact ⟨h'.1, fun k h1 h2 => (h'.2 k h1 h2).set _⟩
              | done => exact fun k h1 h2 => (h' k h1 h2).set _
          · refine ⟨dst, .done, ?_, ⟨hl, fun k h1 h2 => hk k h1 (by omega)⟩, Or.inl rfl, ?_⟩
            · unfold stepWrite; simp only [hi, if_false]
            · intro u y _ _ h; exact h
        | done => simp at hf)
      s2 dst (fun _ => .first) (fun t _ => ⟨hd, trivial⟩) with ⟨h3, t, ht, hc⟩ | ⟨d', ls', h3, h4⟩
    · left
      rw [h3]
      exact ⟨rfl, t, ht, Or.inr hc⟩
    · right
      rw [h3]
      simp only [ok_bind]
      have hlen : d'.length = size := (h4 0 hn).2.1
      rw [eq_tab_of_has (X := scanned incl f) hlen]
      intro i hi
      obtain ⟨t, ht, h5, h6⟩ := covered hn hi
      obtain ⟨hf, -, hI⟩ := h4 t ht
      have hdone : ls' t = .done := by simpa using hf
      rw [hdone] at hI
      exact hI i h5 h6

theorem exclusiveScan_spec {f : Nat → Nat} {src dst : List (Option Nat)} {size n : Nat} (hn : 0 < n)
    (hs : 0 < size) (hsrc : ∀ i < size, Has src f i) (hd : dst.length = size) (s1 s2 : List Nat) :
    (exclusiveScan src size dst n s1 s2 = .ok none ∧ ∃ t < n, s1.count t ≤ 1 ∨ s2.count t ≤ size + 2) ∨
    exclusiveScan src size dst n s1 s2 = .ok (some (tab size fun i => some (psum f i))) := by
  unfold exclusiveScan
  split
  · right
    rw [exclSeq_eq hs hsrc hd]; rfl
  · exact par_spec false hn hs hsrc hd s1 s2

theorem inclusiveScan_spec {f : Nat → Nat} {src dst : List (Option Nat)} {size n : Nat} (hn : 0 < n)
    (hs : 0 < size) (hsrc : ∀ i < size, Has src f i) (hd : dst.length = size) (s1 s2 : List Nat) :
    (inclusiveScan src size dst n s1 s2 = .ok none ∧ ∃ t < n, s1.count t ≤ 1 ∨ s2.count t ≤ size + 2) ∨
    inclusiveScan src size dst n s1 s2 = .ok (some (tab size fun i => some (psum f (i + 1)))) := by
  unfold inclusiveScan
  split
  · right
    rw [inclSeq_eq hs hsrc hd]; rfl
  · exact par_spec true hn hs hsrc hd s1 s2

end Scan

end Verif.Model
