import Verif.Lemmas.Race

/-! # Conflicts in whole calls -/

namespace Verif.Model.Race

open Scan (rdu start stop)

variable {V σ l α β : Type}

theorem bind_ok {x : Res α} {f : α → Res β} {b : β} (h : (x >>= f) = .ok b) : ∃ a, x = .ok a ∧ f a = .ok b := by
  cases x with
  | error e => cases h
  | ok a => exact ⟨a, rfl, h⟩

/-- Rule for traces with an assertion about local states only. -/
theorem trace_local {m : Mem V σ} {n : Nat} {prog : Nat → l → Prog V l} {fin : l → Bool} (L : Nat → l → Prop)
    (hstep : ∀ t x g g' x', t < n → L t x → (prog t x).exec m g = .ok (g', x') → L t x')
    (Own : Nat → Access → Prop) (hown : ∀ t x g, t < n → L t x → ∀ a ∈ (prog t x).accesses m g, Own t a) :
    ∀ (sched : List Nat) (g : σ) (ls : Nat → l), (∀ t, t < n → L t (ls t)) →
    ∀ e ∈ trace m n prog fin sched g ls, e.1 < n ∧ Own e.1 e.2 := by
  intro sched
  induction sched with
  | nil => intro g ls _ e he; cases he
  | cons t ts ih =>
    intro g ls h e hmem
    unfold trace at hmem
    by_cases hc : t < n ∧ fin (ls t) = false
    · rw [if_pos hc] at hmem
      rcases List.mem_append.1 hmem with hm | hm
      · obtain ⟨a, ha, rfl⟩ := List.mem_map.1 hm
        exact ⟨hc.1, hown t _ g hc.1 (h t hc.1) a ha⟩
      · cases hx : (prog t (ls t)).exec m g with
        | error e => rw [hx] at hm; cases hm
        | ok r =>
          rw [hx] at hm
          refine ih r.1 (upd ls t r.2) ?_ e hm
          intro u hu
          by_cases hut : u = t
          · subst hut; rw [upd_same]; exact hstep u _ _ _ _ hu (h u hu) hx
          · rw [upd_ne _ _ hut]; exact h u hu
    · rw [if_neg hc] at hmem
      exact ih g ls h e hmem

/-- A thread whose state has changed from not `Q` to `Q` has made a step that does so, and the accesses of this step are in the
trace. -/
theorem trace_cross {m : Mem V σ} {n : Nat} {prog : Nat → l → Prog V l} {step : Nat → σ → l → Res (σ × l)} {fin : l → Bool}
    (he : ∀ t x g, (prog t x).exec m g = step t g x) (Q : l → Prop) (t : Nat) :
    ∀ (sched : List Nat) (g : σ) (ls : Nat → l) (g' : σ) (ls' : Nat → l), runs n step fin sched g ls = .ok (g', ls') →
    ¬ Q (ls t) → Q (ls' t) → ∃ g1 x g2 x', step t g1 x = .ok (g2, x') ∧ ¬ Q x ∧ Q x' ∧
      ∀ a ∈ (prog t x).accesses m g1, (t, a) ∈ trace m n prog fin sched g ls := by
  intro sched
  induction sched with
  | nil =>
    intro g ls g' ls' h h0 h1
    simp only [runs, Except.ok.injEq, Prod.mk.injEq] at h
    rw [h.2] at h0
    exact absurd h1 h0
  | cons u ts ih =>
    intro g ls g' ls' h h0 h1
    unfold runs at h
    unfold trace
    by_cases hc : u < n ∧ fin (ls u) = false
    · rw [if_pos hc] at h ⊢
      rw [he]
      cases hs : step u g (ls u) with
      | error e => rw [hs] at h; cases h
      | ok r =>
        rw [hs] at h
        have h' : runs n step fin ts r.1 (upd ls u r.2) = .ok (g', ls') := h
        by_cases hq : u = t ∧ Q r.2
        · obtain ⟨rfl, hq⟩ := hq
          exact ⟨g, ls u, r.1, r.2, hs, h0, hq, fun a ha => List.mem_append_left _ (List.mem_map_of_mem ha)⟩
        · obtain ⟨g1, x, g2, x', e1, e2, e3, e4⟩ := ih r.1 (upd ls u r.2) g' ls' h' (by
            by_cases hut : t = u
            · subst hut; rw [upd_same]; exact fun h => hq ⟨rfl, h⟩
            · rw [upd_ne _ _ hut]; exact h0) h1
          exact ⟨g1, x, g2, x', e1, e2, e3, fun a ha => List.mem_append_right _ (e4 a ha)⟩
    · rw [if_neg hc] at h ⊢
      exact ih g ls g' ls' h h0 h1

theorem phase_some {n : Nat} {step : Nat → σ → l → Res (σ × l)} {fin : l → Bool} {sched : List Nat} {g : σ} {ls : Nat → l}
    {r : σ × (Nat → l)} (h : phase n step fin sched g ls = .ok (some r)) :
    runs n step fin sched g ls = .ok (r.1, r.2) ∧ ∀ t < n, fin (r.2 t) = true := by
  unfold phase at h
  cases hr : runs n step fin sched g ls with
  | error e => rw [hr] at h; cases h
  | ok q =>
    rw [hr] at h
    simp only [ok_bind] at h
    by_cases hall : ((List.range n).all fun t => fin (q.2 t)) = true
    · rw [if_pos hall] at h
      have : q = r := by simpa using h
      subst this
      exact ⟨rfl, fun t ht => List.all_eq_true.1 hall t (by simpa using ht)⟩
    · rw [if_neg hall] at h; simp at h

/-! ## Scan -/

theorem conflicts_scan {src dst : List (Option Nat)} {size n : Nat} {s1 s2 : List Nat} :
    ∀ tr ∈ tracesScan src size dst n s1 s2, ∀ x ∈ tr, ∀ y ∈ tr, Conflict x y → 2 ≤ size ∧ size < n := by
  intro tr htr x hx y hy hc
  unfold tracesScan at htr
  split at htr
  · cases htr
  · next hsz =>
    rcases List.mem_cons.1 htr with rfl | htr
    · have key := trace_local (m := arrMem) (prog := progSum src size n) (fin := id) (n := n) (fun _ _ => True)
        (fun _ _ _ _ _ _ _ _ => trivial) OwnSum (by
          intro t x g _ _ a ha
          unfold progSum at ha
          obtain ⟨s, -, ha⟩ := mem_accesses_lift ha
          rcases mem_accesses_store ha with rfl | ⟨g', ha⟩
          · exact ⟨rfl, rfl⟩
          · cases ha) s1 (List.replicate n none) (fun _ => false) (fun _ _ => trivial)
      exact absurd hc (no_conflict_sum (key x hx).2 (key y hy).2)
    · split at htr
      · rename_i ps ls hph
        rcases List.mem_cons.1 htr with rfl | htr
        · have key := trace_local (m := arrMem) (prog := progWrite src ps size n) (fin := (· == .done)) (n := n)
            (fun t c => match c with
              | .at i => start size n t < i
              | _ => True)
            (by
              intro t c g g' c' _ hL h
              rw [exec_progWrite] at h
              unfold Scan.stepWrite at h
              cases c with
              | first =>
                simp only [Bool.false_eq_true, if_false] at h
                obtain ⟨o, -, h⟩ := bind_ok h
                obtain ⟨o, -, h⟩ := bind_ok h
                obtain ⟨d, -, h⟩ := bind_ok h
                simp only [Except.ok.injEq, Prod.mk.injEq] at h
                rw [← h.2]; exact Nat.lt_succ_self _
              | «at» i =>
                simp only at h
                split at h
                · obtain ⟨o, -, h⟩ := bind_ok h
                  obtain ⟨o, -, h⟩ := bind_ok h
                  obtain ⟨d, -, h⟩ := bind_ok h
                  simp only [Except.ok.injEq, Prod.mk.injEq] at h
                  rw [← h.2]; exact Nat.lt_succ_of_lt hL
                · simp only [Except.ok.injEq, Prod.mk.injEq] at h
                  rw [← h.2]; trivial
              | done =>
                simp only [Except.ok.injEq, Prod.mk.injEq] at h
                rw [← h.2]; trivial)
            (OwnWrite size n) (by
              intro t c g ht hL a ha
              unfold progWrite at ha
              cases c with
              | first =>
                obtain ⟨s, -, ha⟩ := mem_accesses_lift ha
                rcases mem_accesses_store ha with rfl | ⟨g', ha⟩
                · exact ⟨rfl, Nat.le_refl _, Or.inl rfl⟩
                · cases ha
              | «at» i =>
                have hL' : start size n t < i := hL
                simp only at ha
                split at ha
                · rcases mem_accesses_load ha with rfl | ⟨v, -, ha⟩
                  · exact ⟨rfl, by simp only; omega, Or.inr (by simp only; omega)⟩
                  · obtain ⟨p, -, ha⟩ := mem_accesses_lift ha
                    obtain ⟨q, -, ha⟩ := mem_accesses_lift ha
                    rcases mem_accesses_store ha with rfl | ⟨g', ha⟩
                    · exact ⟨rfl, by simp only; omega, Or.inr (by simp only; omega)⟩
                    · cases ha
                · cases ha
              | done => cases ha) s2 dst (fun _ => .first) (fun _ _ => trivial)
          have := conflict_write (key x hx).1 (key y hy).1 (key x hx).2 (key y hy).2 hc
          exact ⟨by omega, this.1⟩
        · cases htr
      · cases htr

theorem racy_scan {src dst : List (Option Nat)} {size n : Nat} {s1 s2 : List Nat} {r : List (Option Nat)} (h2 : 2 ≤ size)
    (hn : size < n) (h : Scan.exclusiveScan src size dst n s1 s2 = .ok (some r)) :
    ∃ tr ∈ tracesScan src size dst n s1 s2, Racy tr := by
  unfold Scan.exclusiveScan at h
  unfold tracesScan
  rw [if_neg (by omega)] at h ⊢
  unfold Scan.par at h
  obtain ⟨p, hp, h⟩ := bind_ok h
  cases p with
  | none => cases h
  | some p =>
    obtain ⟨ps, ls⟩ := p
    simp only at h
    obtain ⟨q, hq, h⟩ := bind_ok h
    cases q with
    | none => cases h
    | some q =>
      obtain ⟨hr, hf⟩ := phase_some hq
      rw [hp]
      refine ⟨_, List.mem_cons_of_mem _ (List.mem_singleton.2 rfl), ?_⟩
      have hacc : ∀ t < n, (t, (⟨.cumulativeWork, 0, true⟩ : Access)) ∈
          trace arrMem n (progWrite src ps size n) (· == .done) s2 dst (fun _ => .first) := by
        intro t ht
        obtain ⟨g1, x, g2, x', e1, e2, e3, e4⟩ := trace_cross (m := arrMem) (prog := progWrite src ps size n)
          (fun t x g => exec_progWrite src ps size n t x g) (fun c => c ≠ .first) t s2 dst (fun _ => .first) _ _ hr (by simp) (by
            have := hf t ht
            have : q.2 t = .done := by simpa using this
            rw [this]; simp)
        have hx : x = .first := by
          cases x with
          | first => rfl
          | «at» i => exact absurd (by simp) e2
          | done => exact absurd (by simp) e2
        subst hx
        apply e4
        unfold Scan.stepWrite at e1
        obtain ⟨o, ho, -⟩ := bind_ok e1
        unfold progWrite
        rw [ho]
        have : start size n t = 0 := by rw [start_block, Nat.div_eq_of_lt hn, Nat.mul_zero]
        rw [this]
        exact List.mem_cons_self
      exact ⟨_, hacc 0 (by omega), _, hacc 1 (by omega), by simp [Conflict]⟩

/-! ## Main region -/

section Second
variable {exp : Nat → List (Nat × V)} {b : Nat → Nat} {rows n : Nat}

/-- The access of a thread without rows and that of the thread that writes this row pointer. -/
theorem racy_of {tr : List (Nat × Access)} (hs : Split b rows n) {u : Nat} (hu : u + 1 < n) (he : b u = b (u + 1))
    (hread : ∀ t < n, (t, (⟨.rowptr, b t, false⟩ : Access)) ∈ tr)
    (hwrite : ∀ t < n, ∀ i, b t ≤ i → i < b (t + 1) → (t, (⟨.rowptr, i, true⟩ : Access)) ∈ tr)
    (hlast : (n - 1, (⟨.rowptr, rows, true⟩ : Access)) ∈ tr) : Racy tr := by
  rcases Nat.lt_or_ge (b u) rows with h | h
  · obtain ⟨t, ht, h1, h2⟩ := hs.row_cover h
    refine ⟨_, hread u (by omega), _, hwrite t ht _ h1 h2, ?_, rfl, rfl, Or.inr rfl⟩
    show u ≠ t
    rintro rfl
    omega
  · have hb : b u = rows := by have := hs.le u; omega
    refine ⟨_, hread u (by omega), _, hlast, ?_, rfl, hb, Or.inr rfl⟩
    show u ≠ n - 1
    omega

theorem racy3 (hs : Split b rows n) (hn : 0 < n) {rng : Nat → Nat × Nat} {outs : Nat → List (Nat × V)}
    (hr : ∀ t < n, rng t = (b t, b (t + 1))) {sched : List Nat} {g : Sh V} {q : Sh V × (Nat → Ctl3)}
    (h : phase n (step3 rows n rng outs) (· == .done) sched g (fun _ => .start) = .ok (some q)) {u : Nat} (hu : u + 1 < n)
    (he : b u = b (u + 1)) : Racy (trace shMem n (prog3 rows n rng outs) (· == .done) sched g (fun _ => .start)) := by
  obtain ⟨hrun, hf⟩ := phase_some h
  have hdone : ∀ t < n, q.2 t = .done := fun t ht => by have := hf t ht; simpa using this
  have hE : ∀ t x g, (prog3 rows n rng outs t x).exec shMem g = step3 rows n rng outs t g x := exec_prog3 rows n rng outs
  refine racy_of hs hu he ?_ ?_ ?_
  · intro t ht
    obtain ⟨g1, x, g2, x', e1, e2, e3, e4⟩ := trace_cross (m := shMem) (prog := prog3 rows n rng outs) hE
      (fun c => match c with
        | .copyC _ _ | .baseV | .copyV _ _ | .done => True
        | _ => False) t sched g (fun _ => .start) _ _ hrun (by simp) (by rw [hdone t ht]; trivial)
    apply e4
    cases x with
    | baseC => simp only [prog3, hr t ht, Prog.accesses]; exact List.mem_cons_self
    | start =>
      simp only [step3] at e1
      obtain ⟨o, -, e1⟩ := bind_ok e1
      cases e1; exact absurd e3 (by simp)
    | offs i off =>
      simp only [step3] at e1
      split at e1
      · obtain ⟨o, -, e1⟩ := bind_ok e1
        obtain ⟨o, -, e1⟩ := bind_ok e1
        cases e1; exact absurd e3 (by simp)
      · cases e1; exact absurd e3 (by simp)
    | last off =>
      simp only [step3] at e1
      split at e1
      · obtain ⟨o, -, e1⟩ := bind_ok e1
        cases e1; exact absurd e3 (by simp)
      · cases e1; exact absurd e3 (by simp)
    | _ => exact absurd trivial e2
  · intro t ht i h1 h2
    obtain ⟨g1, x, g2, x', e1, e2, e3, e4⟩ := trace_cross (m := shMem) (prog := prog3 rows n rng outs) hE
      (fun c => match c with
        | .start => False
        | .offs j _ => i < j
        | _ => True) t sched g (fun _ => .start) _ _ hrun (by simp) (by rw [hdone t ht]; trivial)
    apply e4
    cases x with
    | start =>
      simp only [step3] at e1
      obtain ⟨o, -, e1⟩ := bind_ok e1
      cases e1
      have e3' : i < (rng t).1 := e3
      rw [hr t ht] at e3'
      simp only at e3'
      omega
    | offs j off =>
      have e2' : ¬ i < j := e2
      simp only [step3, hr t ht] at e1
      split at e1
      · next hj =>
        obtain ⟨o, -, e1⟩ := bind_ok e1
        obtain ⟨o, -, e1⟩ := bind_ok e1
        cases e1
        have e3' : i < j + 1 := e3
        have : i = j := by omega
        subst this
        simp only [prog3, hr t ht, if_pos hj]
        exact List.mem_cons_self
      · omega
    | _ => exact absurd trivial e2
  · obtain ⟨g1, x, g2, x', e1, e2, e3, e4⟩ := trace_cross (m := shMem) (prog := prog3 rows n rng outs) hE
      (fun c => match c with
        | .start | .offs _ _ | .last _ => False
        | _ => True) (n - 1) sched g (fun _ => .start) _ _ hrun (by simp) (by rw [hdone (n - 1) (by omega)]; trivial)
    apply e4
    cases x with
    | last off => simp only [prog3, if_true]; exact List.mem_cons_self
    | start =>
      simp only [step3] at e1
      obtain ⟨o, -, e1⟩ := bind_ok e1
      cases e1; exact absurd e3 (by simp)
    | offs i off =>
      simp only [step3] at e1
      split at e1
      · obtain ⟨o, -, e1⟩ := bind_ok e1
        obtain ⟨o, -, e1⟩ := bind_ok e1
        cases e1; exact absurd e3 (by simp)
      · cases e1; exact absurd e3 (by simp)
    | _ => exact absurd trivial e2

theorem racy4 {alg : RowAlg V} {mul add : V → V → V} {A B M : CSR V} (hs : Split b A.rows n) (hn : 0 < n) {rng : Nat → Nat × Nat}
    (hr : ∀ t < n, rng t = (b t, b (t + 1))) {sched : List Nat} {g : Sh V} {acc : Nat → alg.N} {q : Sh V × (Nat → L4 alg.N V)}
    (h : phase n (step4 alg mul add A B M n rng) (·.fin) sched g (fun t => { ctl := .start, acc := acc t }) = .ok (some q))
    {u : Nat} (hu : u + 1 < n) (he : b u = b (u + 1)) :
    Racy (trace shMem n (prog4 alg mul add A B M n rng) (·.fin) sched g (fun t => { ctl := .start, acc := acc t })) := by
  obtain ⟨hrun, hf⟩ := phase_some h
  have hdone : ∀ t < n, (q.2 t).ctl = .done := by
    intro t ht
    have := hf t ht
    unfold L4.fin at this
    split at this
    · assumption
    · simp at this
  have hE : ∀ t x g, (prog4 alg mul add A B M n rng t x).exec shMem g = step4 alg mul add A B M n rng t g x :=
    exec_prog4 alg mul add A B M n rng
  refine racy_of hs hu he ?_ ?_ ?_
  · intro t ht
    obtain ⟨g1, ⟨x, ac⟩, g2, x', e1, e2, e3, e4⟩ := trace_cross (m := shMem) (prog := prog4 alg mul add A B M n rng) hE
      (fun c => match c.ctl with
        | .start | .offs _ _ | .last _ | .base => False
        | _ => True) t sched g _ _ _ hrun (by simp) (by rw [hdone t ht]; trivial)
    apply e4
    cases x with
    | base => simp only [prog4, hr t ht, Prog.accesses]; exact List.mem_cons_self
    | start =>
      simp only [step4] at e1
      obtain ⟨o, -, e1⟩ := bind_ok e1
      cases e1; exact absurd e3 (by simp)
    | offs i off =>
      simp only [step4] at e1
      split at e1
      · obtain ⟨o, -, e1⟩ := bind_ok e1
        obtain ⟨o, -, e1⟩ := bind_ok e1
        cases e1; exact absurd e3 (by simp)
      · cases e1; exact absurd e3 (by simp)
    | last off =>
      simp only [step4] at e1
      split at e1
      · obtain ⟨o, -, e1⟩ := bind_ok e1
        cases e1; exact absurd e3 (by simp)
      · cases e1; exact absurd e3 (by simp)
    | _ => exact absurd trivial e2
  · intro t ht i h1 h2
    obtain ⟨g1, ⟨x, ac⟩, g2, x', e1, e2, e3, e4⟩ := trace_cross (m := shMem) (prog := prog4 alg mul add A B M n rng) hE
      (fun c => match c.ctl with
        | .start => False
        | .offs j _ => i < j
        | _ => True) t sched g _ _ _ hrun (by simp) (by rw [hdone t ht]; trivial)
    apply e4
    cases x with
    | start =>
      simp only [step4] at e1
      obtain ⟨o, -, e1⟩ := bind_ok e1
      cases e1
      have e3' : i < (rng t).1 := e3
      rw [hr t ht] at e3'
      simp only at e3'
      omega
    | offs j off =>
      have e2' : ¬ i < j := e2
      simp only [step4, hr t ht] at e1
      split at e1
      · next hj =>
        obtain ⟨o, -, e1⟩ := bind_ok e1
        obtain ⟨o, -, e1⟩ := bind_ok e1
        cases e1
        have e3' : i < j + 1 := e3
        have : i = j := by omega
        subst this
        simp only [prog4, hr t ht, if_pos hj]
        exact List.mem_cons_self
      · omega
    | _ => exact absurd trivial e2
  · obtain ⟨g1, ⟨x, ac⟩, g2, x', e1, e2, e3, e4⟩ := trace_cross (m := shMem) (prog := prog4 alg mul add A B M n rng) hE
      (fun c => match c.ctl with
        | .start | .offs _ _ | .last _ => False
        | _ => True) (n - 1) sched g _ _ _ hrun (by simp) (by rw [hdone (n - 1) (by omega)]; trivial)
    apply e4
    cases x with
    | last off => simp only [prog4, if_true]; exact List.mem_cons_self
    | start =>
      simp only [step4] at e1
      obtain ⟨o, -, e1⟩ := bind_ok e1
      cases e1; exact absurd e3 (by simp)
    | offs i off =>
      simp only [step4] at e1
      split at e1
      · obtain ⟨o, -, e1⟩ := bind_ok e1
        obtain ⟨o, -, e1⟩ := bind_ok e1
        cases e1; exact absurd e3 (by simp)
      · cases e1; exact absurd e3 (by simp)
    | _ => exact absurd trivial e2

end Second

end Verif.Model.Race
