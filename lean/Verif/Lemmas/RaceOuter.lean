import Verif.Model.RaceOuter
import Verif.Lemmas.RaceOldFree
import Verif.Lemmas.RaceDot
import Verif.Lemmas.Outer
import Verif.Lemmas.UtilScan

/-! # Races of the outer-product kernels -/

namespace Verif.Model.RaceOuter
open RaceOld (Arr Access Racy done)
open Outer (Glob Loc Out)
open RaceDot (get_of_rd set_of_wr)

variable {V σ α β ι : Type}

/-! ## Programs -/

theorem exec_bind (p : Prog σ α) (q : α → Prog σ β) (g : σ) :
    (p >>= q).exec g = (p.exec g >>= fun r => (q r.2).exec r.1) := by
  show (p.andThen q).exec g = _
  induction p generalizing g with
  | ret a => rfl
  | fail e => rfl
  | op a f k ih =>
    simp only [Prog.andThen, Prog.exec, bind_assoc]
    congr 1
    funext r
    exact ih r.2 r.1

theorem exec_priv (r : Res α) (g : σ) : (priv r : Prog σ α).exec g = (r >>= fun a => .ok (g, a)) := by
  cases r <;> rfl

theorem exec_pure (a : α) (g : σ) : (pure a : Prog σ α).exec g = .ok (g, a) := rfl

theorem exec_loop {body : Nat → Prog σ Unit} {step : Nat → σ → Res σ}
    (h : ∀ x g, (body x).exec g = (step x g >>= fun g => .ok (g, ()))) :
    ∀ len lo g, (loop lo len body).exec g = (forRange lo (lo + len) g step >>= fun g => .ok (g, ())) := by
  intro len
  induction len with
  | zero =>
    intro lo g
    unfold forRange
    simp [loop, Prog.exec]
  | succ len ih =>
    intro lo g
    have e : forRange lo (lo + (len + 1)) g step = (step lo g >>= fun g => forRange (lo + 1) (lo + 1 + len) g step) := by
      unfold forRange
      rw [show lo + (len + 1) - lo = len + 1 by omega, show lo + 1 + len - (lo + 1) = len by omega, List.range'_succ, List.foldlM_cons]
    rw [loop, exec_bind, h, e, bind_assoc, bind_assoc]
    congr 1
    funext g'
    exact ih (lo + 1) g'

/-- The accesses satisfy `P`, and `Q` holds after a run that succeeds. -/
def wp (P : Access → Prop) : Prog σ α → (σ → α → Prop) → σ → Prop
  | .ret a, Q, g => Q g a
  | .fail _, _, _ => True
  | .op a f k, Q, g => (∀ x ∈ a, P x) ∧ ∀ r, f g = .ok r → wp P (k r.2) Q r.1

variable {P : Access → Prop}

theorem wp_sound {p : Prog σ α} {Q : σ → α → Prop} : ∀ {g}, wp P p Q g →
    (∀ a ∈ p.accesses g, P a) ∧ ∀ g' r, p.exec g = .ok (g', r) → Q g' r := by
  induction p with
  | ret a =>
    intro g h
    refine ⟨fun a ha => (by cases ha), ?_⟩
    intro g' r he
    cases he
    exact h
  | fail e =>
    intro g h
    refine ⟨fun a ha => (by cases ha), ?_⟩
    intro g' r he
    cases he
  | op a f k ih =>
    rintro g ⟨h1, h2⟩
    cases hr : f g with
    | error e =>
      refine ⟨?_, ?_⟩
      · intro x hx
        rw [Prog.accesses, hr] at hx
        exact h1 x (by simpa using hx)
      · intro g' r he
        rw [Prog.exec, hr] at he
        cases he
    | ok r0 =>
      obtain ⟨k1, k2⟩ := ih r0.2 (h2 r0 hr)
      refine ⟨?_, ?_⟩
      · intro y hy
        rw [Prog.accesses, hr] at hy
        rcases List.mem_append.1 hy with hy | hy
        · exact h1 y hy
        · exact k1 y hy
      · intro g' r he
        rw [Prog.exec, hr] at he
        exact k2 g' r he

theorem wp_bind {p : Prog σ α} {q : α → Prog σ β} {Q : σ → β → Prop} : ∀ {g},
    wp P p (fun g a => wp P (q a) Q g) g → wp P (p >>= q) Q g := by
  show ∀ {g}, _ → wp P (p.andThen q) Q g
  induction p with
  | ret a => intro g h; exact h
  | fail e => intro g h; trivial
  | op a f k ih => rintro g ⟨h1, h2⟩; exact ⟨h1, fun r hr => ih r.2 (h2 r hr)⟩

theorem wp_mono {p : Prog σ α} {Q Q' : σ → α → Prop} : ∀ {g}, wp P p Q g → (∀ g a, Q g a → Q' g a) → wp P p Q' g := by
  induction p with
  | ret a => intro g h h'; exact h' _ _ h
  | fail e => intros; trivial
  | op a f k ih => rintro g ⟨h1, h2⟩ h'; exact ⟨h1, fun r hr => ih r.2 (h2 r hr) h'⟩

theorem wp_priv {r : Res α} {Q : σ → α → Prop} {g : σ} (h : ∀ a, r = .ok a → Q g a) : wp P (priv r) Q g := by
  cases r with
  | error e => trivial
  | ok a => exact h a rfl

theorem wp_loop {body : Nat → Prog σ Unit} {I : Nat → σ → Prop} : ∀ (len lo : Nat) {g : σ}, I lo g →
    (∀ j g, lo ≤ j → j < lo + len → I j g → wp P (body j) (fun g _ => I (j + 1) g) g) →
    wp P (loop lo len body) (fun g _ => I (lo + len) g) g := by
  intro len
  induction len with
  | zero => intro lo g h _; exact h
  | succ len ih =>
    intro lo g h hb
    rw [loop]
    apply wp_bind
    refine wp_mono (hb lo g (Nat.le_refl _) (by omega) h) ?_
    intro g' _ hI
    have := ih (lo + 1) hI (fun j g h2 h3 => hb j g (by omega) (by omega))
    rw [show lo + (len + 1) = lo + 1 + len by omega]
    exact this

/-! ## Regions -/

/-- The accesses of a region, with an invariant. -/
theorem mem_trace {n : Nat} {prog : Nat → α → Prog σ α} {fin : α → Bool} {own : Nat → Access → Prop} {I : Nat → α → Prop} {W : σ → Prop}
    (h : ∀ t < n, ∀ l g, I t l → W g → fin l = false → wp (own t) (prog t l) (fun g l => W g ∧ I t l) g) :
    ∀ sched g ls, W g → (∀ t < n, I t (ls t)) → ∀ x ∈ trace n prog fin sched g ls, x.1 < n ∧ own x.1 x.2 := by
  intro sched
  induction sched with
  | nil => intro g ls _ _ x hx; cases hx
  | cons t ts ih =>
    intro g ls hW hI x hx
    rw [trace] at hx
    by_cases hc : t < n ∧ fin (ls t) = false
    · rw [if_pos hc] at hx
      obtain ⟨s1, s2⟩ := wp_sound (h t hc.1 _ g (hI t hc.1) hW hc.2)
      rcases List.mem_append.1 hx with hx | hx
      · obtain ⟨a, ha, rfl⟩ := List.mem_map.1 hx
        exact ⟨hc.1, s1 a ha⟩
      · cases he : (prog t (ls t)).exec g with
        | error e => rw [he] at hx; cases hx
        | ok r =>
          obtain ⟨g', l'⟩ := r
          rw [he] at hx
          obtain ⟨w1, w2⟩ := s2 g' l' he
          refine ih g' (upd ls t l') w1 ?_ x hx
          intro u hu
          by_cases hut : u = t
          · subst hut; rw [upd_same]; exact w2
          · rw [upd_ne _ _ hut]; exact hI u hu
    · rw [if_neg hc] at hx
      exact ih g ls hW hI x hx

theorem mem_loopTrace {who : ι → Nat} {prog : ι → Prog σ Unit} {own : ι → Access → Prop} : ∀ (order : List ι)
    (_ : ∀ i ∈ order, ∀ g, wp (own i) (prog i) (fun _ _ => True) g) (g : σ), ∀ x ∈ loopTrace who prog order g,
      ∃ i ∈ order, x.1 = who i ∧ own i x.2 := by
  intro order
  induction order with
  | nil => intro _ g x hx; cases hx
  | cons i is ih =>
    intro h g x hx
    rw [loopTrace] at hx
    rcases List.mem_append.1 hx with hx | hx
    · obtain ⟨a, ha, rfl⟩ := List.mem_map.1 hx
      exact ⟨i, List.mem_cons_self .., rfl, (wp_sound (h i (List.mem_cons_self ..) g)).1 a ha⟩
    · cases he : (prog i).exec g with
      | error e => rw [he] at hx; cases hx
      | ok r =>
        rw [he] at hx
        obtain ⟨j, hj, e⟩ := ih (fun j hj => h j (List.mem_cons_of_mem _ hj)) r.1 x hx
        exact ⟨j, List.mem_cons_of_mem _ hj, e⟩

theorem loop_free {who : ι → Nat} {prog : ι → Prog σ Unit} {own : ι → Access → Prop} {order : List ι}
    (h : ∀ i ∈ order, ∀ g, wp (own i) (prog i) (fun _ _ => True) g)
    (hd : ∀ i ∈ order, ∀ j ∈ order, i ≠ j → ∀ a b, own i a → own j b → a.arr = b.arr → a.idx ≠ b.idx) (g : σ) :
    ¬ Racy (loopTrace who prog order g) := by
  rintro ⟨x, hx, y, hy, h1, h2, h3, -⟩
  obtain ⟨i, hi, e1, o1⟩ := mem_loopTrace order h g x hx
  obtain ⟨j, hj, e2, o2⟩ := mem_loopTrace order h g y hy
  by_cases hij : i = j
  · subst hij; exact h1 (by rw [e1, e2])
  · exact hd i hi j hj hij _ _ o1 o2 h2 h3

theorem racy_own {tr : List (Nat × Access)} {n : Nat} {own : Nat → Access → Prop} (h : ∀ x ∈ tr, x.1 < n ∧ own x.1 x.2)
    (hd : ∀ s t, s < n → t < n → s ≠ t → ∀ a b, own s a → own t b → a.arr = b.arr → a.idx ≠ b.idx) : ¬ Racy tr := by
  rintro ⟨x, hx, y, hy, h1, h2, h3, -⟩
  exact hd _ _ (h x hx).1 (h y hy).1 h1 _ _ (h x hx).2 (h y hy).2 h2 h3

/-! ## The prefix sum -/

theorem exec_scanProg1 (inp : List Nat) (N n t : Nat) (c : UtilScan.Ctl1) (g : List Nat × List Nat) :
    (scanProg1 inp N n t c).exec g = UtilScan.step1 inp N n t g c := by
  unfold scanProg1 UtilScan.step1
  cases c with
  | first =>
    simp only [exec_bind, putOut, Prog.exec, bind_assoc, ok_bind]
    rfl
  | done => rfl
  | «at» i =>
    simp only
    split
    · rfl
    · split
      · simp only [exec_bind, exec_priv, getOut, putOut, Prog.exec, bind_assoc, ok_bind]
        rfl
      · simp only [exec_bind, exec_priv, getOut, putSum, Prog.exec, bind_assoc, ok_bind]
        rfl

theorem exec_sumProg : ∀ (t j s : Nat) (g : List Nat × List Nat), (sumProg j t s).exec g =
    (forRange j (j + t) s (fun j s => do
      let x ← rd g.2 j
      .ok (s + x)) >>= fun s => .ok (g, s)) := by
  intro t
  induction t with
  | zero =>
    intro j s g
    unfold forRange
    simp [sumProg]
    rfl
  | succ t ih =>
    intro j s g
    rw [sumProg]
    unfold forRange at ih ⊢
    rw [show j + (t + 1) - j = t + 1 by omega, List.range'_succ, List.foldlM_cons]
    simp only [exec_bind, getSum, Prog.exec, bind_assoc, ok_bind, ih]
    rw [show j + 1 + t - (j + 1) = t by omega]

theorem exec_scanProg2 (t : Nat) (x : Nat × Nat) (g : List Nat × List Nat) :
    (scanProg2 t x).exec g = (UtilScan.step2 g.2 t g.1 x.1 >>= fun r => .ok ((r.1, g.2), (r.2, x.2))) := by
  unfold scanProg2 UtilScan.step2
  simp only [exec_bind, exec_sumProg, getOut, putOut, Prog.exec, bind_assoc, ok_bind, Nat.zero_add]
  rfl

/-- The cells of thread `t`. -/
def ScanOwn (N n t : Nat) (a : Access) : Prop :=
  (a.arr = .numbers ∧ UtilScan.start N n t ≤ a.idx ∧ a.idx < UtilScan.stop N n t) ∨ (a.arr = .thNnz ∧ a.idx = t)

theorem start_lt_stop {N n t : Nat} (hnN : n ≤ N) (ht : t < n) : UtilScan.start N n t < UtilScan.stop N n t := by
  have h1 : 1 ≤ N / n := (Nat.le_div_iff_mul_le (by omega)).2 (by omega)
  unfold UtilScan.stop
  split
  · omega
  · have : t = n - 1 := by omega
    unfold UtilScan.start
    subst this
    have h2 : N / n * n ≤ N := Nat.div_mul_le_self N n
    have h3 : N / n * (n - 1) + N / n = N / n * n := by
      rw [← Nat.mul_succ]
      congr 1
      omega
    omega

theorem scan_own1 (inp : List Nat) {N n : Nat} (hnN : n ≤ N) (sched : List Nat) (g : List Nat × List Nat) :
    ∀ x ∈ trace n (scanProg1 inp N n) (· == .done) sched g (fun _ => .first), x.1 < n ∧ ScanOwn N n x.1 x.2 := by
  refine mem_trace (W := fun _ => True)
    (I := fun t c => match c with | .at i => UtilScan.start N n t ≤ i | _ => True) ?_ _ _ _ trivial (fun _ _ => trivial)
  intro t ht c g hI _ hf
  have hlt := start_lt_stop hnN ht
  have hone : ∀ {a : Access} {Q : Access → Prop}, Q a → ∀ x ∈ [a], Q x := by
    intro a Q h x hx
    rw [List.mem_singleton.1 hx]
    exact h
  cases c with
  | done => exact absurd hf (by decide)
  | first => exact ⟨hone (Or.inl ⟨rfl, Nat.le_refl _, hlt⟩), fun r _ => ⟨trivial, Nat.le_refl _⟩⟩
  | «at» i =>
    have hI : UtilScan.start N n t ≤ i := hI
    unfold scanProg1
    simp only
    rw [if_neg (by omega)]
    split
    · refine wp_bind ⟨hone (Or.inl ⟨rfl, hI, by show i < _; omega⟩), fun r _ => ?_⟩
      refine wp_bind (wp_priv fun x _ => ?_)
      refine wp_bind ⟨hone (Or.inl ⟨rfl, by show _ ≤ i + 1; omega, by show i + 1 < _; omega⟩), fun r _ => ?_⟩
      exact ⟨trivial, by show _ ≤ i + 1; omega⟩
    · refine wp_bind ⟨hone (Or.inl ⟨rfl, by show _ ≤ UtilScan.stop N n t - 1; omega, by show UtilScan.stop N n t - 1 < _; omega⟩), fun r _ => ?_⟩
      refine wp_bind (wp_priv fun x _ => ?_)
      refine wp_bind ⟨hone (Or.inr ⟨rfl, rfl⟩), fun r _ => ?_⟩
      exact ⟨trivial, trivial⟩

theorem scan_free1 (inp : List Nat) {N n : Nat} (hnN : n ≤ N) (sched : List Nat) (g : List Nat × List Nat) :
    ¬ Racy (trace n (scanProg1 inp N n) (· == .done) sched g (fun _ => .first)) := by
  refine racy_own (scan_own1 inp hnN sched g) ?_
  intro s t hs ht hst a b ha hb hab hidx
  rcases ha with ⟨a1, a2, a3⟩ | ⟨a1, a2⟩ <;> rcases hb with ⟨b1, b2, b3⟩ | ⟨b1, b2⟩
  · rw [hidx] at a2 a3
    exact UtilScan.disj hs ht (fun h => hst h.symm) a2 a3 b2 b3
  · rw [a1, b1] at hab; cases hab
  · rw [a1, b1] at hab; cases hab
  · exact hst (by rw [← a2, ← b2, hidx])

/-- Accesses after the barrier: cells of the thread, and loads of the sums. -/
def ScanOwn2 (N n t : Nat) (a : Access) : Prop :=
  (a.arr = .numbers ∧ UtilScan.start N n t ≤ a.idx ∧ a.idx < UtilScan.stop N n t) ∨ (a.arr = .thNnz ∧ a.write = false)

theorem wp_sumProg {P : Access → Prop} (h : ∀ i, P ⟨.thNnz, i, false⟩) {Q : List Nat × List Nat → Nat → Prop} :
    ∀ (t j s : Nat) (g : List Nat × List Nat), (∀ s, Q g s) → wp P (sumProg j t s) Q g := by
  intro t
  induction t with
  | zero => intro j s g hQ; exact hQ s
  | succ t ih =>
    intro j s g hQ
    rw [sumProg]
    refine wp_bind ⟨?_, fun r hr => ?_⟩
    · intro x hx
      rw [List.mem_singleton.1 hx]
      exact h j
    · have : r.1 = g := by
        obtain ⟨y, _, e⟩ := Alias.bind_ok' hr
        cases e
        rfl
      show wp P (sumProg (j + 1) t (s + r.2)) Q r.1
      rw [this]
      exact ih _ _ _ hQ

theorem scan_free2 {N n : Nat} (sched : List Nat) (g : List Nat × List Nat) :
    ¬ Racy (trace n scanProg2 (fun x => decide (x.2 ≤ x.1)) sched g (fun t => (UtilScan.start N n t, UtilScan.stop N n t))) := by
  have hown : ∀ x ∈ trace n scanProg2 (fun x => decide (x.2 ≤ x.1)) sched g (fun t => (UtilScan.start N n t, UtilScan.stop N n t)),
      x.1 < n ∧ ScanOwn2 N n x.1 x.2 := by
    refine mem_trace (W := fun _ => True) (I := fun t x => UtilScan.start N n t ≤ x.1 ∧ x.2 = UtilScan.stop N n t) ?_ _ _ _ trivial
      (fun _ _ => ⟨Nat.le_refl _, rfl⟩)
    rintro t ht ⟨i, hi⟩ g ⟨h1, h2⟩ _ hf
    have hlt : i < UtilScan.stop N n t := by
      have : hi = UtilScan.stop N n t := h2
      simp at hf
      omega
    have hone : ∀ {a : Access} {Q : Access → Prop}, Q a → ∀ x ∈ [a], Q x := by
      intro a Q h x hx
      rw [List.mem_singleton.1 hx]
      exact h
    unfold scanProg2
    refine wp_bind (wp_sumProg (fun i => Or.inr ⟨rfl, rfl⟩) _ _ _ _ fun s => ?_)
    refine wp_bind ⟨hone (Or.inl ⟨rfl, h1, hlt⟩), fun r _ => ?_⟩
    refine wp_bind ⟨hone (Or.inl ⟨rfl, h1, hlt⟩), fun r _ => ?_⟩
    exact ⟨trivial, by have : UtilScan.start N n t ≤ i := h1; show _ ≤ i + 1; omega, h2⟩
  rintro ⟨x, hx, y, hy, h1, h2, h3, h4⟩
  obtain ⟨x1, x2⟩ := hown x hx
  obtain ⟨y1, y2⟩ := hown y hy
  rcases x2 with ⟨a1, a2, a3⟩ | ⟨a1, a2⟩ <;> rcases y2 with ⟨b1, b2, b3⟩ | ⟨b1, b2⟩
  · rw [h3] at a2 a3
    exact UtilScan.disj x1 y1 (fun h => h1 h.symm) a2 a3 b2 b3
  · rw [a1, b1] at h2; cases h2
  · rw [a1, b1] at h2; cases h2
  · rw [a2, b2] at h4; simp at h4

end Verif.Model.RaceOuter
