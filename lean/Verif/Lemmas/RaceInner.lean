import Verif.Model.RaceInner
import Verif.Lemmas.RaceMain
import Verif.Lemmas.InnerDriver

/-! # Conflicts in the calls of the inner-product drivers -/

namespace Verif.Model.Race

open Scan (rdu)
open Spec (ValidC)

variable {V : Type} {mul add : V → V → V} {A : CSR V} {B : CSC V} {M : CSR V} {exp : Nat → List (Nat × V)}

/-! ## Running a program is the step it stands for -/

theorem exec_innerProg1 (mul add : V → V → V) (A : CSR V) (B : CSC V) (M : CSR V) (wpr : List (Option Nat)) (t : Nat)
    (l : Inner.L1 V) (g : Inner.Sh1 V) :
    (innerProg1 mul add A B M wpr t l).exec bufMem g = Inner.step1 mul add A B M wpr t g l := by
  unfold innerProg1 Inner.step1
  obtain ⟨row, stop, base, cur, beg, ctl⟩ := l
  cases ctl with
  | flushC em =>
    cases em with
    | nil => simp only [Prog.exec]; rfl
    | cons x em => simp only [Prog.exec]; rfl
  | _ => simp only [exec_lift, exec_ite, Prog.exec] <;> rfl

theorem exec_innerProg2 (A : CSR V) (B : CSC V) (M : CSR V) (wpr : List (Option Nat)) (t : Nat)
    (l : Inner.L2) (g : Sh V) :
    (innerProg2 A B M wpr t l).exec shMem g = Inner.step2 A B M wpr t g l := by
  unfold innerProg2 Inner.step2 rdu
  simp only [exec_lift, exec_ite, Prog.exec, bind_assoc]
  rfl

theorem exec_innerProg4 (mul add : V → V → V) (A : CSR V) (B : CSC V) (M : CSR V) (wpr : List (Option Nat)) (n : Nat)
    (rng : Nat → Nat × Nat) (t : Nat) (l : Inner.Ctl4 V) (g : Sh V) :
    (innerProg4 mul add A B M wpr n rng t l).exec shMem g = Inner.step4 mul add A B M wpr n rng t g l := by
  unfold innerProg4 Inner.step4 rdu
  cases l with
  | flushC r em beg cur =>
    cases em with
    | nil => simp only [exec_lift, Prog.exec]; rfl
    | cons x em => simp only [exec_lift, Prog.exec]; rfl
  | _ => simp only [exec_lift, exec_ite, Prog.exec, exec_sumLoads, Nat.zero_add, bind_assoc] <;> rfl

/-! ## What each thread accesses -/

/-- First part of the main region of the one-phase driver: the buffers of a thread begin at the first entry of the mask in its
first row. -/
def OwnBuf (M : CSR V) (b : Nat → Nat) (t : Nat) (a : Access) : Prop :=
  OwnA b t a ∨ ((a.arr = .colids ∨ a.arr = .values) ∧ M.ptr (b t) ≤ a.idx ∧ a.idx < M.ptr (b (t + 1)))

/-- Second part of the main region of the two-phase driver. -/
def OwnC (exp : Nat → List (Nat × V)) (b : Nat → Nat) (rows n t : Nat) (a : Access) : Prop :=
  (a.arr = .rowNvals ∧ b t ≤ a.idx ∧ a.idx < b (t + 1)) ∨ (a.arr ≠ .rowNvals ∧ OwnB exp b rows n t a)

theorem own_innerProg1 {b : Nat → Nat} {n : Nat} {wpr : List (Option Nat)} (hM : M.WF) (hs : Split b M.rows n)
    (hlen : ∀ i < M.rows, lens exp i ≤ M.ptr (i + 1) - M.ptr i) {t : Nat} (ht : t < n) {g : Inner.Sh1 V} {x : Inner.L1 V}
    (hI : Inner.I1 M exp b n t g x) : ∀ a ∈ (innerProg1 mul add A B M wpr t x).accesses bufMem g, OwnBuf M b t a := by
  intro a ha
  have hlo := hI.lo
  have hst := hI.stop
  have hJ := hI.ctl
  unfold Inner.J1 at hJ
  have pos : ∀ {r k}, b t ≤ r → r < b (t + 1) → k < lens exp r →
      M.ptr (b t) ≤ M.ptr (b t) + (Inner.off exp b t r + k) ∧
      M.ptr (b t) + (Inner.off exp b t r + k) < M.ptr (b (t + 1)) := by
    intro r k h1 h2 h3
    have e1 := psum_mono (f := lens exp) h1
    have e2 := psum_mono (f := lens exp) (show r + 1 ≤ b (t + 1) from h2)
    have e3 := Inner.room hM hlen (hs.mono t ht) (hs.le (t + 1))
    simp only [psum] at e2
    unfold Inner.off
    omega
  unfold innerProg1 at ha
  obtain ⟨row, stop, base, cur, beg, ctl⟩ := x
  simp only at hlo hst
  cases ctl with
  | row =>
    simp only at ha
    split at ha
    · next hrow =>
      obtain ⟨f, -, ha⟩ := mem_accesses_lift ha
      split at ha
      · rcases mem_accesses_store ha with rfl | ⟨g', ha⟩
        · exact Or.inl (Or.inl ⟨rfl, hlo, hst ▸ hrow⟩)
        · cases ha
      · cases ha
    · rcases mem_accesses_store ha with rfl | ⟨g', ha⟩
      · exact Or.inl (Or.inr ⟨rfl, rfl⟩)
      · cases ha
  | num =>
    obtain ⟨f, -, ha⟩ := mem_accesses_lift ha
    cases ha
  | flushC em =>
    obtain ⟨h1, h2, k, h3, h4, h5, h6, h7⟩ := hJ
    cases em with
    | nil =>
      rcases mem_accesses_store ha with rfl | ⟨g', ha⟩
      · exact Or.inl (Or.inl ⟨rfl, hlo, h1⟩)
      · cases ha
    | cons x em =>
      have hk : k < lens exp row := by
        have := congrArg List.length h4
        simp at this
        unfold lens; omega
      rcases mem_accesses_store ha with rfl | ⟨g', ha⟩
      · have := pos hlo h1 hk
        simp only at h5
        exact Or.inr ⟨Or.inl rfl, by simp only; omega, by simp only; omega⟩
      · cases ha
  | flushV v em =>
    obtain ⟨h1, h2, k, c, h3, h4, h5, h6, h7⟩ := hJ
    rcases mem_accesses_storeV ha with rfl | ⟨g', ha⟩
    · have := pos hlo h1 (lt_of_getElem? h3)
      simp only at h5
      exact Or.inr ⟨Or.inr rfl, by simp only; omega, by simp only; omega⟩
    · cases ha
  | done => cases ha

theorem own_innerProg2 {b : Nat → Nat} {n : Nat} {wpr : List (Option Nat)} {t : Nat} {g : Sh V} {x : Inner.L2}
    (hI : Inner.I2 M exp b n t g x) : ∀ a ∈ (innerProg2 A B M wpr t x).accesses shMem g, OwnA b t a := by
  intro a ha
  have hlo := hI.lo
  unfold innerProg2 at ha
  split at ha
  · next hrow =>
    have hr1 : x.row < b (t + 1) := hI.stop ▸ hrow
    have key : ∀ w, OwnA b t ⟨.rowNvals, x.row, w⟩ := fun _ => Or.inl ⟨rfl, hlo, hr1⟩
    obtain ⟨f, -, ha⟩ := mem_accesses_lift ha
    split at ha
    · rcases mem_accesses_store ha with rfl | ⟨g', ha⟩
      · exact key _
      · cases ha
    · obtain ⟨r, -, ha⟩ := mem_accesses_lift ha
      rcases mem_accesses_store ha with rfl | ⟨g', ha⟩
      · exact key _
      · rcases mem_accesses_load ha with rfl | ⟨v, -, ha⟩
        · exact key _
        · obtain ⟨y, -, ha⟩ := mem_accesses_lift ha
          cases ha
  · rcases mem_accesses_store ha with rfl | ⟨g', ha⟩
    · exact Or.inr ⟨rfl, rfl⟩
    · cases ha

theorem own_innerProg4 {b : Nat → Nat} {n : Nat} {wpr : List (Option Nat)} {rng : Nat → Nat × Nat}
    (hr : ∀ t < n, rng t = (b t, b (t + 1))) {t : Nat} (ht : t < n) {g : Sh V} {x : Inner.Ctl4 V}
    (hI : Inner.I4 exp b A.rows n t g x) :
    ∀ a ∈ (innerProg4 mul add A B M wpr n rng t x).accesses shMem g, OwnC exp b A.rows n t a := by
  intro a ha
  obtain ⟨hB, hA, hJ⟩ := hI
  have pos : ∀ {r k}, b t ≤ r → r < b (t + 1) → k < lens exp r →
      psum (lens exp) (b t) ≤ psum (lens exp) r + k ∧ psum (lens exp) r + k < psum (lens exp) (b (t + 1)) := by
    intro r k h1 h2 h3
    have e1 := psum_mono (f := lens exp) h1
    have e2 := psum_mono (f := lens exp) (show r + 1 ≤ b (t + 1) from h2)
    simp only [psum] at e2
    omega
  unfold innerProg4 at ha
  cases x with
  | start =>
    rcases mem_accesses_sumLoads ha with ⟨i, -, -, rfl⟩ | ⟨s, ha⟩
    · exact Or.inr ⟨by simp, Or.inl ⟨Or.inr rfl, rfl⟩⟩
    · cases ha
  | offs i off =>
    obtain ⟨h1, h2, h3, h4⟩ := hJ
    simp only [hr t ht] at ha
    split at ha
    · next hi =>
      rcases mem_accesses_store ha with rfl | ⟨g', ha⟩
      · exact Or.inr ⟨by simp, Or.inr (Or.inl ⟨rfl, Or.inl ⟨h1, hi⟩⟩)⟩
      · rcases mem_accesses_load ha with rfl | ⟨v, -, ha⟩
        · exact Or.inl ⟨rfl, h1, hi⟩
        · obtain ⟨y, -, ha⟩ := mem_accesses_lift ha
          cases ha
    · cases ha
  | last off =>
    simp only at ha
    split at ha
    · next hl =>
      rcases mem_accesses_store ha with rfl | ⟨g', ha⟩
      · exact Or.inr ⟨by simp, Or.inr (Or.inl ⟨rfl, Or.inr ⟨rfl, hl⟩⟩)⟩
      · cases ha
    · cases ha
  | base =>
    rcases mem_accesses_load ha with rfl | ⟨v, -, ha⟩
    · exact Or.inr ⟨by simp, Or.inr (Or.inr (Or.inl ⟨rfl, rfl, by rw [hr t ht]⟩))⟩
    · cases ha
  | row r cur =>
    obtain ⟨h1, h2, h3, -⟩ := hJ
    simp only [hr t ht] at ha
    split at ha
    · next hrow =>
      obtain ⟨w, -, ha⟩ := mem_accesses_lift ha
      split at ha
      · rcases mem_accesses_store ha with rfl | ⟨g', ha⟩
        · exact Or.inl ⟨rfl, h2, hrow⟩
        · cases ha
      · obtain ⟨y, -, ha⟩ := mem_accesses_lift ha
        cases ha
    · cases ha
  | flushC r em beg cur =>
    obtain ⟨h1, h2, h3, hb, k, h4, h5, h6, h7, h8⟩ := hJ
    cases em with
    | nil =>
      obtain ⟨d, -, ha⟩ := mem_accesses_lift ha
      obtain ⟨d0, -, ha⟩ := mem_accesses_lift ha
      rcases mem_accesses_store ha with rfl | ⟨g', ha⟩
      · exact Or.inl ⟨rfl, h2, h3⟩
      · cases ha
    | cons x em =>
      have hk : k < lens exp r := by
        have := congrArg List.length h5
        simp at this
        unfold lens; omega
      simp only [h6] at ha
      obtain ⟨d, hd, ha⟩ := mem_accesses_lift ha
      have hd' : d = psum (lens exp) r + k := by simpa using hd.symm
      subst hd'
      rcases mem_accesses_store ha with rfl | ⟨g', ha⟩
      · exact Or.inr ⟨by simp, Or.inr (Or.inr (Or.inr ⟨Or.inl rfl, pos h2 h3 hk⟩))⟩
      · cases ha
  | flushV r v em beg cur =>
    obtain ⟨h1, h2, h3, hb, k, c, h4, h5, h6, h7, h8⟩ := hJ
    simp only [h6] at ha
    obtain ⟨d, hd, ha⟩ := mem_accesses_lift ha
    have hd' : d = psum (lens exp) r + k := by simpa using hd.symm
    subst hd'
    rcases mem_accesses_storeV ha with rfl | ⟨g', ha⟩
    · exact Or.inr ⟨by simp, Or.inr (Or.inr (Or.inr ⟨Or.inr rfl, pos h2 h3 (lt_of_getElem? h4)⟩))⟩
    · cases ha
  | done => cases ha

/-! ## Conflicts -/

theorem no_conflict_buf {b : Nat → Nat} {n : Nat} (hM : M.WF) (hs : Split b M.rows n) {x y : Nat × Access} (hx1 : x.1 < n)
    (hy1 : y.1 < n) (hx : OwnBuf M b x.1 x.2) (hy : OwnBuf M b y.1 y.2) : ¬ Conflict x y := by
  intro hc
  rcases hx with hx | ⟨e1, a1, a2⟩ <;> rcases hy with hy | ⟨e2, c1, c2⟩
  · exact no_conflict_A hs hx1 hy1 hx hy hc
  · have h2 := hc.2.1
    rcases hx with ⟨e1, -⟩ | ⟨e1, -⟩ <;> rcases e2 with e2 | e2 <;> rw [e1, e2] at h2 <;> cases h2
  · have h2 := hc.2.1
    rcases hy with ⟨e2, -⟩ | ⟨e2, -⟩ <;> rcases e1 with e1 | e1 <;> rw [e1, e2] at h2 <;> cases h2
  · have h3 := hc.2.2.1
    rcases Nat.lt_trichotomy x.1 y.1 with h | h | h
    · have := CSR.ptr_le_ptr hM (split_le hs (show x.1 + 1 ≤ y.1 from h) (by omega)) (hs.le y.1); omega
    · exact hc.1 h
    · have := CSR.ptr_le_ptr hM (split_le hs (show y.1 + 1 ≤ x.1 from h) (by omega)) (hs.le x.1); omega

theorem idle_of_conflict_C {b : Nat → Nat} {rows n : Nat} (hs : Split b rows n) {x y : Nat × Access} (hx1 : x.1 < n)
    (hy1 : y.1 < n) (hx : OwnC exp b rows n x.1 x.2) (hy : OwnC exp b rows n y.1 y.2) (hc : Conflict x y) :
    ∃ u, u + 1 < n ∧ b u = b (u + 1) := by
  rcases hx with ⟨e1, a1, a2⟩ | ⟨e1, hx⟩ <;> rcases hy with ⟨e2, c1, c2⟩ | ⟨e2, hy⟩
  · have h3 := hc.2.2.1
    exact absurd (split_disj hs hx1 hy1 a1 a2 (by omega) (by omega)) hc.1
  · exact absurd (hc.2.1 ▸ e1) e2
  · exact absurd (hc.2.1.symm ▸ e2) e1
  · exact idle_of_conflict hs hx1 hy1 hx hy hc

theorem innerRacy4 {b : Nat → Nat} {n : Nat} {wpr : List (Option Nat)} (hs : Split b A.rows n) (hn : 0 < n) {rng : Nat → Nat × Nat}
    (hr : ∀ t < n, rng t = (b t, b (t + 1))) {sched : List Nat} {g : Sh V} {q : Sh V × (Nat → Inner.Ctl4 V)}
    (h : phase n (Inner.step4 mul add A B M wpr n rng) (·.fin) sched g (fun _ => .start) = .ok (some q))
    {u : Nat} (hu : u + 1 < n) (he : b u = b (u + 1)) :
    Racy (trace shMem n (innerProg4 mul add A B M wpr n rng) (·.fin) sched g (fun _ => .start)) := by
  obtain ⟨hrun, hf⟩ := phase_some h
  have hdone : ∀ t < n, q.2 t = .done := by
    intro t ht
    have := hf t ht
    unfold Inner.Ctl4.fin at this
    split at this
    · assumption
    · simp at this
  have hE : ∀ t x g, (innerProg4 mul add A B M wpr n rng t x).exec shMem g = Inner.step4 mul add A B M wpr n rng t g x :=
    exec_innerProg4 mul add A B M wpr n rng
  refine racy_of hs hu he ?_ ?_ ?_
  · intro t ht
    obtain ⟨g1, x, g2, x', e1, e2, e3, e4⟩ := trace_cross (m := shMem) (prog := innerProg4 mul add A B M wpr n rng) hE
      (fun c => match c with
        | .start | .offs _ _ | .last _ | .base => False
        | _ => True) t sched g _ _ _ hrun (by simp) (by rw [hdone t ht]; trivial)
    apply e4
    cases x with
    | base => simp only [innerProg4, hr t ht, Prog.accesses]; exact List.mem_cons_self
    | start =>
      simp only [Inner.step4] at e1
      obtain ⟨o, -, e1⟩ := bind_ok e1
      cases e1; exact absurd e3 (by simp)
    | offs i off =>
      simp only [Inner.step4] at e1
      split at e1
      · obtain ⟨o, -, e1⟩ := bind_ok e1
        obtain ⟨o, -, e1⟩ := bind_ok e1
        cases e1; exact absurd e3 (by simp)
      · cases e1; exact absurd e3 (by simp)
    | last off =>
      simp only [Inner.step4] at e1
      split at e1
      · obtain ⟨o, -, e1⟩ := bind_ok e1
        cases e1; exact absurd e3 (by simp)
      · cases e1; exact absurd e3 (by simp)
    | _ => exact absurd trivial e2
  · intro t ht i h1 h2
    obtain ⟨g1, x, g2, x', e1, e2, e3, e4⟩ := trace_cross (m := shMem) (prog := innerProg4 mul add A B M wpr n rng) hE
      (fun c => match c with
        | .start => False
        | .offs j _ => i < j
        | _ => True) t sched g _ _ _ hrun (by simp) (by rw [hdone t ht]; trivial)
    apply e4
    cases x with
    | start =>
      simp only [Inner.step4] at e1
      obtain ⟨o, -, e1⟩ := bind_ok e1
      cases e1
      have e3' : i < (rng t).1 := e3
      rw [hr t ht] at e3'
      simp only at e3'
      omega
    | offs j off =>
      have e2' : ¬ i < j := e2
      simp only [Inner.step4, hr t ht] at e1
      split at e1
      · next hj =>
        obtain ⟨o, -, e1⟩ := bind_ok e1
        obtain ⟨o, -, e1⟩ := bind_ok e1
        cases e1
        have e3' : i < j + 1 := e3
        have : i = j := by omega
        subst this
        simp only [innerProg4, hr t ht, if_pos hj]
        exact List.mem_cons_self
      · omega
    | _ => exact absurd trivial e2
  · obtain ⟨g1, x, g2, x', e1, e2, e3, e4⟩ := trace_cross (m := shMem) (prog := innerProg4 mul add A B M wpr n rng) hE
      (fun c => match c with
        | .start | .offs _ _ | .last _ => False
        | _ => True) (n - 1) sched g _ _ _ hrun (by simp) (by rw [hdone (n - 1) (by omega)]; trivial)
    apply e4
    cases x with
    | last off => simp only [innerProg4, if_true]; exact List.mem_cons_self
    | start =>
      simp only [Inner.step4] at e1
      obtain ⟨o, -, e1⟩ := bind_ok e1
      cases e1; exact absurd e3 (by simp)
    | offs i off =>
      simp only [Inner.step4] at e1
      split at e1
      · obtain ⟨o, -, e1⟩ := bind_ok e1
        obtain ⟨o, -, e1⟩ := bind_ok e1
        cases e1; exact absurd e3 (by simp)
      · cases e1; exact absurd e3 (by simp)
    | _ => exact absurd trivial e2

/-! ## Whole calls -/

/-- First row of thread `t`. -/
abbrev innerRowOf (A : CSR V) (B : CSC V) (M : CSR V) (n t : Nat) : Nat :=
  bnd (psum (Inner.workOf A B M)) (psum (Inner.workOf A B M) A.rows) A.rows n t

/-- Some thread other than the last one has no rows. -/
def InnerIdle (A : CSR V) (B : CSC V) (M : CSR V) (n : Nat) : Prop :=
  ∃ u, u + 1 < n ∧ innerRowOf A B M n u = innerRowOf A B M n (u + 1)

theorem conflicts_innerPrepare {n : Nat} {sch : Scheds} :
    ∀ tr ∈ innerTracesPrepare A B M n sch, Racy tr → 2 ≤ M.rows ∧ M.rows < n := by
  rintro tr htr ⟨x, hx, y, hy, hc⟩
  unfold innerTracesPrepare at htr
  rcases List.mem_cons.1 htr with rfl | htr
  · exfalso
    obtain ⟨i, -, rfl⟩ := List.mem_map.1 hx
    obtain ⟨j, -, rfl⟩ := List.mem_map.1 hy
    exact hc.1 hc.2.2.1
  · split at htr
    · exact conflicts_scan tr htr x hx y hy hc
    · cases htr

theorem racy_innerPrepare {n : Nat} {sch : Scheds} {r} (hp : Inner.prepare A B M n sch = .ok (some r))
    (h2 : 2 ≤ M.rows) (hn : M.rows < n) : ∃ tr ∈ innerTracesPrepare A B M n sch, Racy tr := by
  unfold Inner.prepare at hp
  obtain ⟨-, -, hp⟩ := bind_ok hp
  obtain ⟨⟨wpr, w⟩, hf, hp⟩ := bind_ok hp
  obtain ⟨s, hs, hp⟩ := bind_ok hp
  cases s with
  | none => cases hp
  | some cum =>
    obtain ⟨tr, h1, h2⟩ := racy_scan h2 hn hs
    refine ⟨tr, ?_, h2⟩
    unfold innerTracesPrepare
    rw [hf]
    exact List.mem_cons_of_mem _ h1

theorem innerRanges (A : CSR V) (B : CSC V) (M : CSR V) {n : Nat} :
    (∀ t < n, distributeWork (psum (Inner.workOf A B M) A.rows) (tab A.rows fun i => some (psum (Inner.workOf A B M) i)) A.rows n t =
      .ok (innerRowOf A B M n t, innerRowOf A B M n (t + 1))) ∧
    setup n (distributeWork (psum (Inner.workOf A B M) A.rows) (tab A.rows fun i => some (psum (Inner.workOf A B M) i)) A.rows n) =
      .ok ((List.range n).map fun t => (innerRowOf A B M n t, innerRowOf A B M n (t + 1))) := by
  have hdw : ∀ t < n, distributeWork (psum (Inner.workOf A B M) A.rows) (tab A.rows fun i => some (psum (Inner.workOf A B M) i))
      A.rows n t = .ok (innerRowOf A B M n t, innerRowOf A B M n (t + 1)) := fun t ht =>
    distributeWork_eq _ ht (fun i hi => has_tab hi) (fun i j h _ => psum_mono h)
  refine ⟨hdw, ?_⟩
  apply mapM_ok
  intro t ht
  exact hdw t (by simpa using ht)

/-- Local state of a thread at the beginning, one-phase driver. -/
def inner1Start (A : CSR V) (B : CSC V) (M : CSR V) (n t : Nat) : Inner.L1 V :=
  { row := innerRowOf A B M n t, stop := innerRowOf A B M n (t + 1), base := M.ptr (innerRowOf A B M n t),
    cur := M.ptr (innerRowOf A B M n t), beg := M.ptr (innerRowOf A B M n t), ctl := .row }

theorem inner1Setup (h : ValidC A B M) {n : Nat} (hn : 0 < n) : ∃ l0 ls1,
    setup n (Inner.init1 A M n (psum (Inner.workOf A B M) A.rows) (tab A.rows fun i => some (psum (Inner.workOf A B M) i))) =
      .ok (l0 :: ls1) ∧ ∀ t < n, (l0 :: ls1).getD t l0 = inner1Start A B M n t := by
  have hs : Split (innerRowOf A B M n) A.rows n := split_bnd _ _ A.rows hn
  have hls : setup n (Inner.init1 A M n (psum (Inner.workOf A B M) A.rows)
      (tab A.rows fun i => some (psum (Inner.workOf A B M) i))) = .ok ((List.range n).map (inner1Start A B M n)) := by
    apply mapM_ok
    intro t ht
    have ht' : t < n := by simpa using ht
    unfold Inner.init1
    rw [(innerRanges A B M).1 t ht']
    simp only [ok_bind]
    rw [CSR.rd_ptr h.wfM (h.ma ▸ hs.le t)]; rfl
  rw [hls]
  obtain ⟨m, rfl⟩ : ∃ m, n = m + 1 := ⟨n - 1, by omega⟩
  generalize hl0 : (List.range (m + 1)).map (inner1Start A B M (m + 1)) = ls0
  cases ls0 with
  | nil => simp [List.range_succ] at hl0
  | cons l0 ls1 =>
    refine ⟨l0, ls1, rfl, ?_⟩
    intro t ht
    rw [← hl0, list_getD_map_range _ _ ht]

/-- Local state of a thread at the beginning, two-phase driver. -/
def inner2Start (A : CSR V) (B : CSC V) (M : CSR V) (n t : Nat) : Inner.L2 :=
  { row := innerRowOf A B M n t, nvals := 0, stop := innerRowOf A B M n (t + 1) }

theorem inner2Setup (A : CSR V) (B : CSC V) (M : CSR V) {n : Nat} (hn : 0 < n) : ∃ l0 ls1,
    setup n (Inner.init2 A n (psum (Inner.workOf A B M) A.rows) (tab A.rows fun i => some (psum (Inner.workOf A B M) i))) =
      .ok (l0 :: ls1) ∧ ∀ t < n, (l0 :: ls1).getD t l0 = inner2Start A B M n t := by
  have hls : setup n (Inner.init2 A n (psum (Inner.workOf A B M) A.rows)
      (tab A.rows fun i => some (psum (Inner.workOf A B M) i))) = .ok ((List.range n).map (inner2Start A B M n)) := by
    apply mapM_ok
    intro t ht
    have ht' : t < n := by simpa using ht
    unfold Inner.init2
    rw [(innerRanges A B M).1 t ht']; rfl
  rw [hls]
  obtain ⟨m, rfl⟩ : ∃ m, n = m + 1 := ⟨n - 1, by omega⟩
  generalize hl0 : (List.range (m + 1)).map (inner2Start A B M (m + 1)) = ls0
  cases ls0 with
  | nil => simp [List.range_succ] at hl0
  | cons l0 ls1 =>
    refine ⟨l0, ls1, rfl, ?_⟩
    intro t ht
    rw [← hl0, list_getD_map_range _ _ ht]

theorem inner1_init (A : CSR V) (B : CSC V) (M : CSR V) {n : Nat} (hn : 0 < n) (exp : Nat → List (Nat × V)) : ∀ t < n,
    Inner.I1 M exp (innerRowOf A B M n) n t
      { rowNvals := List.replicate M.rows none, threadsNvals := List.replicate n none,
        tmpC := List.replicate M.nnz none, tmpV := List.replicate M.nnz none } (inner1Start A B M n t) := by
  intro t ht
  have hs : Split (innerRowOf A B M n) A.rows n := split_bnd _ _ A.rows hn
  have ho0 : ∀ t, Inner.off exp (innerRowOf A B M n) t (innerRowOf A B M n t) = 0 := fun t => by unfold Inner.off; omega
  exact { rnLen := by simp, tnLen := by simp, tcLen := by simp, tvLen := by simp, stop := rfl, base := rfl,
          lo := Nat.le_refl _, hi := hs.mono t ht,
          has := fun i h1 h2 => by simp only [inner1Start] at h2; omega,
          ctl := ⟨by simp only [inner1Start, ho0]; rfl, fun j hj => by simp only [inner1Start, ho0] at hj; omega,
            fun j hj => by simp only [inner1Start, ho0] at hj; omega⟩ }

theorem inner2_init (A : CSR V) (B : CSC V) (M : CSR V) {n : Nat} (hn : 0 < n) (exp : Nat → List (Nat × V)) : ∀ t < n,
    Inner.I2 M exp (innerRowOf A B M n) n t
      ({ rowNvals := List.replicate M.rows none, threadsNvals := List.replicate n none } : Sh V) (inner2Start A B M n t) := by
  intro t ht
  have hs : Split (innerRowOf A B M n) A.rows n := split_bnd _ _ A.rows hn
  exact { rnLen := by simp, tnLen := by simp, stop := rfl, lo := Nat.le_refl _, hi := hs.mono t ht, out := by simp [inner2Start],
          has := fun i h1 h2 => by simp only [inner2Start] at h2; omega, fin := fun h => by simp [inner2Start] at h }

theorem innerConflicts1p (mul add : V → V → V) (h : ValidC A B M) {nt dflt : Nat} (hn : 0 < setNumThreads nt dflt) (sch : Scheds)
    (ho : sch.flops.Perm (List.range A.rows)) :
    ∀ tr ∈ innerTraces1p mul add A B M nt dflt sch, Racy tr →
      (2 ≤ A.rows ∧ A.rows < setNumThreads nt dflt) ∨ InnerIdle A B M (setNumThreads nt dflt) := by
  rintro tr htr hrc
  have hR := Inner.rows1_ok mul add h
  generalize Inner.innerRow mul add A B M = exp at *
  unfold innerTraces1p at htr
  generalize setNumThreads nt dflt = n at *
  simp only at htr
  rcases List.mem_append.1 htr with htr | htr
  · have := conflicts_innerPrepare tr htr hrc
    rw [h.ma] at this
    exact Or.inl this
  right
  obtain ⟨x, hx, y, hy, hcf⟩ := hrc
  rcases Inner.prepare_ok h hn sch ho with ⟨hp, -⟩ | hp
  · rw [hp] at htr; cases htr
  rw [hp] at htr
  obtain ⟨l0, ls1, e1, hget⟩ := inner1Setup h hn
  simp only [e1, (innerRanges A B M).2] at htr
  have hs : Split (innerRowOf A B M n) A.rows n := split_bnd _ _ A.rows hn
  have hsM : Split (innerRowOf A B M n) M.rows n := by rw [h.ma]; exact hs
  have e3 := Inner.step1_ok (wpr := tab A.rows fun i => some (Inner.workOf A B M i)) (w := Inner.workOf A B M) h.wfM h.ma hR hsM
    (by rw [h.ma]; exact fun i hi => has_tab hi)
  have e4 : ∀ t < n, Inner.I1 M exp (innerRowOf A B M n) n t
      { rowNvals := List.replicate M.rows none, threadsNvals := List.replicate n none,
        tmpC := List.replicate M.nnz none, tmpV := List.replicate M.nnz none } ((l0 :: ls1).getD t l0) := fun t ht => by
    rw [hget t ht]; exact inner1_init A B M hn exp t ht
  have hlen : ∀ i < M.rows, lens exp i ≤ M.ptr (i + 1) - M.ptr i := fun i hi => hR.len i (h.ma ▸ hi)
  rcases List.mem_cons.1 htr with rfl | htr
  · have key := trace_own (exec_innerProg1 mul add A B M _) _ e3 (OwnBuf M (innerRowOf A B M n))
      (fun t g x ht hI _ => own_innerProg1 h.wfM hsM hlen ht hI) sch.first _ _ e4
    exact absurd hcf (no_conflict_buf h.wfM hsM (key x hx).1 (key y hy).1 (key x hx).2 (key y hy).2)
  rcases phase_inv _ _ e3 sch.first _ _ e4 with ⟨h1, -⟩ | ⟨g1, ls', h1, h2⟩
  · rw [h1] at htr; cases htr
  rw [h1] at htr
  have hd1 : ∀ t < n, Inner.I1 M exp (innerRowOf A B M n) n t g1 (ls' t) ∧ (ls' t).row = innerRowOf A B M n (t + 1) ∧
      Has g1.threadsNvals (tnv exp (innerRowOf A B M n)) t ∧
      Inner.TC M exp (innerRowOf A B M n) t (tnv exp (innerRowOf A B M n) t) g1 ∧
      Inner.TV M exp (innerRowOf A B M n) t (tnv exp (innerRowOf A B M n) t) g1 := by
    intro t ht
    obtain ⟨hf1, hI⟩ := h2 t ht
    refine ⟨hI, ?_⟩
    have hJ := hI.ctl
    unfold Inner.J1 at hJ
    unfold Inner.L1.fin at hf1
    split at hf1
    · rename_i hc; rw [hc] at hJ; exact hJ
    · simp at hf1
  have houts : setup n (fun t => Inner.readTmp g1 (ls' t).base t) =
      .ok ((List.range n).map fun t => seg exp (innerRowOf A B M n t) (innerRowOf A B M n (t + 1))) := by
    apply mapM_ok
    intro t ht
    have ht' : t < n := by simpa using ht
    obtain ⟨hI, _, d2, d3, d4⟩ := hd1 t ht'
    rw [hI.base]
    exact Inner.readTmp_ok (hs.mono t ht') d2 d3 d4
  obtain ⟨g2, e5, e6⟩ := initC_ok (exp := exp) (g := g1.toSh) hs
    (by
      intro i hi
      obtain ⟨t, ht, h3, h4⟩ := hs.row_cover hi
      obtain ⟨hI, hr, _⟩ := hd1 t ht
      exact hI.has i h3 (by rw [hr]; exact h4))
    (by
      intro t ht
      exact (hd1 t ht).2.2.1)
  simp only [houts, e5] at htr
  rcases List.mem_cons.1 htr with rfl | htr
  · have hr : ∀ t < n, (fun t => ((List.range n).map fun t => (innerRowOf A B M n t, innerRowOf A B M n (t + 1))).getD t
        (0, 0)) t = (innerRowOf A B M n t, innerRowOf A B M n (t + 1)) := by
      intro t ht; exact list_getD_map_range _ _ ht
    have key := trace_own (exec_prog3 A.rows n _ _) (I3 exp (innerRowOf A B M n) A.rows n)
      (step3_ok hs hr
        (outs := fun t => ((List.range n).map fun t => seg exp (innerRowOf A B M n t) (innerRowOf A B M n (t + 1))).getD t [])
        (by intro t ht; exact list_getD_map_range _ _ ht)) _ (fun t g x ht hI _ => own_prog3 hs hr ht hI)
      sch.second g2 (fun _ => .start) (fun t ht => ⟨e6, trivial⟩)
    exact idle_of_conflict hs (key x hx).1 (key y hy).1 (key x hx).2 (key y hy).2 hcf
  · cases htr

theorem innerRaces1p (mul add : V → V → V) (h : ValidC A B M) {zb : Bool} {nt dflt : Nat} (hn : 0 < setNumThreads nt dflt)
    (sch : Scheds) (ho : sch.flops.Perm (List.range A.rows)) {C : CSR V}
    (hret : Inner.spgemm1p mul add A B M zb nt dflt sch = .ok (some C))
    (hbad : (2 ≤ A.rows ∧ A.rows < setNumThreads nt dflt) ∨ InnerIdle A B M (setNumThreads nt dflt)) :
    ∃ tr ∈ innerTraces1p mul add A B M nt dflt sch, Racy tr := by
  unfold Inner.spgemm1p at hret
  unfold innerTraces1p
  generalize setNumThreads nt dflt = n at *
  simp only at hret ⊢
  obtain ⟨p, hp, hret⟩ := bind_ok hret
  cases p with
  | none => cases hret
  | some p =>
  rcases hbad with ⟨h2, h3⟩ | ⟨u, hu, he⟩
  · obtain ⟨tr, k1, k2⟩ := racy_innerPrepare hp (h.ma ▸ h2) (h.ma ▸ h3)
    exact ⟨tr, List.mem_append_left _ k1, k2⟩
  rcases Inner.prepare_ok h hn sch ho with ⟨h', -⟩ | h'
  · rw [h'] at hp; cases hp
  rw [h'] at hp ⊢
  cases hp
  obtain ⟨l0, ls1, e1, hget⟩ := inner1Setup h hn
  simp only [e1, (innerRanges A B M).2, ok_bind] at hret ⊢
  have hs : Split (innerRowOf A B M n) A.rows n := split_bnd _ _ A.rows hn
  obtain ⟨r, hr1, hret⟩ := bind_ok hret
  cases r with
  | none => cases hret
  | some r =>
  rw [hr1]
  obtain ⟨outs, ho', hret⟩ := bind_ok hret
  obtain ⟨g, hg, hret⟩ := bind_ok hret
  simp only [ho', hg]
  obtain ⟨q, hq, -⟩ := bind_ok hret
  cases q with
  | none => simp_all
  | some q =>
  exact ⟨_, List.mem_append_right _ (List.mem_cons_of_mem _ List.mem_cons_self),
    racy3 hs hn (by intro t ht; exact list_getD_map_range _ _ ht) hq hu he⟩

theorem innerConflicts2p (mul add : V → V → V) (h : ValidC A B M) {nt dflt : Nat} (hn : 0 < setNumThreads nt dflt) (sch : Scheds)
    (ho : sch.flops.Perm (List.range A.rows)) :
    ∀ tr ∈ innerTraces2p mul add A B M nt dflt sch, Racy tr →
      (2 ≤ A.rows ∧ A.rows < setNumThreads nt dflt) ∨ InnerIdle A B M (setNumThreads nt dflt) := by
  rintro tr htr hrc
  have hR := Inner.rows_ok mul add h
  generalize Inner.innerRow mul add A B M = exp at *
  unfold innerTraces2p at htr
  generalize setNumThreads nt dflt = n at *
  simp only at htr
  rcases List.mem_append.1 htr with htr | htr
  · have := conflicts_innerPrepare tr htr hrc
    rw [h.ma] at this
    exact Or.inl this
  right
  obtain ⟨x, hx, y, hy, hcf⟩ := hrc
  rcases Inner.prepare_ok h hn sch ho with ⟨hp, -⟩ | hp
  · rw [hp] at htr; cases htr
  rw [hp] at htr
  obtain ⟨l0, ls1, e1, hget⟩ := inner2Setup A B M hn
  simp only [e1, (innerRanges A B M).2] at htr
  have hs : Split (innerRowOf A B M n) A.rows n := split_bnd _ _ A.rows hn
  have hsM : Split (innerRowOf A B M n) M.rows n := by rw [h.ma]; exact hs
  have hf : ∀ i < A.rows, Has (tab A.rows fun i => some (Inner.workOf A B M i)) (Inner.workOf A B M) i := fun i hi => has_tab hi
  have e3 := Inner.step2_ok (wpr := tab A.rows fun i => some (Inner.workOf A B M i)) (w := Inner.workOf A B M) h.ma hR hsM
    (by rw [h.ma]; exact hf)
  have e4 : ∀ t < n, Inner.I2 M exp (innerRowOf A B M n) n t
      ({ rowNvals := List.replicate M.rows none, threadsNvals := List.replicate n none } : Sh V) ((l0 :: ls1).getD t l0) :=
    fun t ht => by rw [hget t ht]; exact inner2_init A B M hn exp t ht
  rcases List.mem_cons.1 htr with rfl | htr
  · have key := trace_own (μ := fun t x => innerRowOf A B M n (t + 1) + 1 - x.row) (exec_innerProg2 A B M _) _ e3
      (OwnA (innerRowOf A B M n)) (fun t g x ht hI _ => own_innerProg2 hI) sch.first _ _ e4
    exact absurd hcf (no_conflict_A hs (key x hx).1 (key y hy).1 (key x hx).2 (key y hy).2)
  rcases phase_inv _ (fun t (x : Inner.L2) => innerRowOf A B M n (t + 1) + 1 - x.row) e3 sch.first _ _ e4 with
    ⟨h1, -⟩ | ⟨g1, ls', h1, h2⟩
  · rw [h1] at htr; cases htr
  rw [h1] at htr
  obtain ⟨g2, e5, e6⟩ := initC_ok (exp := exp) (g := g1) hs
    (by
      intro i hi
      obtain ⟨t, ht, h3, h4⟩ := hs.row_cover hi
      obtain ⟨hf1, hI⟩ := h2 t ht
      exact hI.has i h3 (by rw [(hI.fin hf1).1]; exact h4))
    (by
      intro t ht
      obtain ⟨hf1, hI⟩ := h2 t ht
      exact (hI.fin hf1).2)
  have hrn2 : g2.rowNvals.length = A.rows := by
    have h5 := (h2 0 hn).2.rnLen
    have : g2.rowNvals = g1.rowNvals := by
      unfold initC at e5
      cases hacc : accumulate g1.threadsNvals n with
      | error e => rw [hacc] at e5; simp at e5
      | ok k => rw [hacc] at e5; simp only [ok_bind] at e5; injection e5 with e5; rw [← e5]
    rw [this, h5, h.ma]
  simp only [e5] at htr
  rcases List.mem_cons.1 htr with rfl | htr
  · have hr : ∀ t < n, (fun t => ((List.range n).map fun t => (innerRowOf A B M n t, innerRowOf A B M n (t + 1))).getD t
        (0, 0)) t = (innerRowOf A B M n t, innerRowOf A B M n (t + 1)) := by
      intro t ht; exact list_getD_map_range _ _ ht
    have key := trace_own (exec_innerProg4 mul add A B M _ n _) (Inner.I4 exp (innerRowOf A B M n) A.rows n)
      (Inner.step4_ok (wpr := tab A.rows fun i => some (Inner.workOf A B M i)) hR hs hf hr)
      (OwnC exp (innerRowOf A B M n) A.rows n) (fun t g x ht hI _ => own_innerProg4 hr ht hI) sch.second g2
      (fun _ => .start) (fun t ht => ⟨e6, hrn2, trivial⟩)
    exact idle_of_conflict_C hs (key x hx).1 (key y hy).1 (key x hx).2 (key y hy).2 hcf
  · cases htr

theorem innerRaces2p (mul add : V → V → V) (h : ValidC A B M) {zb : Bool} {nt dflt : Nat} (hn : 0 < setNumThreads nt dflt)
    (sch : Scheds) (ho : sch.flops.Perm (List.range A.rows)) {C : CSR V}
    (hret : Inner.spgemm2p mul add A B M zb nt dflt sch = .ok (some C))
    (hbad : (2 ≤ A.rows ∧ A.rows < setNumThreads nt dflt) ∨ InnerIdle A B M (setNumThreads nt dflt)) :
    ∃ tr ∈ innerTraces2p mul add A B M nt dflt sch, Racy tr := by
  unfold Inner.spgemm2p at hret
  unfold innerTraces2p
  generalize setNumThreads nt dflt = n at *
  simp only at hret ⊢
  obtain ⟨p, hp, hret⟩ := bind_ok hret
  cases p with
  | none => cases hret
  | some p =>
  rcases hbad with ⟨h2, h3⟩ | ⟨u, hu, he⟩
  · obtain ⟨tr, k1, k2⟩ := racy_innerPrepare hp (h.ma ▸ h2) (h.ma ▸ h3)
    exact ⟨tr, List.mem_append_left _ k1, k2⟩
  rcases Inner.prepare_ok h hn sch ho with ⟨h', -⟩ | h'
  · rw [h'] at hp; cases hp
  rw [h'] at hp ⊢
  cases hp
  obtain ⟨l0, ls1, e1, hget⟩ := inner2Setup A B M hn
  simp only [e1, (innerRanges A B M).2, ok_bind] at hret ⊢
  have hs : Split (innerRowOf A B M n) A.rows n := split_bnd _ _ A.rows hn
  obtain ⟨r, hr1, hret⟩ := bind_ok hret
  cases r with
  | none => cases hret
  | some r =>
  rw [hr1]
  obtain ⟨g, hg, hret⟩ := bind_ok hret
  simp only [hg]
  obtain ⟨q, hq, -⟩ := bind_ok hret
  cases q with
  | none => simp_all
  | some q =>
  exact ⟨_, List.mem_append_right _ (List.mem_cons_of_mem _ List.mem_cons_self),
    innerRacy4 hs hn (by intro t ht; exact list_getD_map_range _ _ ht) hq hu he⟩

/-! ## Balanced work -/

theorem lt_lb_iff {P : Nat → Nat} (hP : ∀ i j, i ≤ j → P i ≤ P j) (x : Nat) : ∀ {r i}, i < r → (i < lb P x r ↔ P i < x) := by
  intro r
  induction r with
  | zero => intro i h; omega
  | succ r ih =>
    intro i h
    unfold lb
    by_cases hx : P r < x
    · rw [if_pos hx]
      have := hP i r (by omega)
      omega
    · rw [if_neg hx]
      by_cases hir : i = r
      · subst hir
        have := lb_le P x i
        omega
      · exact ih (by omega)

theorem lb_zero (P : Nat → Nat) : ∀ r, lb P 0 r = 0 := by
  intro r
  induction r with
  | zero => rfl
  | succ r ih => unfold lb; rw [if_neg (by omega)]; exact ih

/-- If no row has more than the `n`-th part of the work then there are enough rows and every thread except perhaps the last one
gets some. -/
theorem balanced_cuts {f : Nat → Nat} {rows n : Nat} (hpos : 0 < psum f rows / n) (hbal : ∀ i < rows, f i ≤ psum f rows / n) :
    n ≤ rows ∧ ∀ t, t + 1 < n → bnd (psum f) (psum f rows) rows n t < bnd (psum f) (psum f rows) rows n (t + 1) := by
  generalize hww : psum f rows / n = W at *
  have hWn : n * W ≤ psum f rows := hww ▸ Nat.mul_div_le _ _
  have hslow : ∀ i ≤ rows, psum f i ≤ i * W := by
    intro i
    induction i with
    | zero => intro _; simp [psum]
    | succ i ih =>
      intro hi
      have e1 := ih (by omega)
      have e2 := hbal i (by omega)
      have : (i + 1) * W = i * W + W := Nat.succ_mul i W
      simp only [psum]; omega
  have hle : n ≤ rows := by
    rcases Nat.lt_or_ge rows n with h' | h'
    · exfalso
      have e1 := hslow rows (Nat.le_refl _)
      have e2 : rows * W < n * W := Nat.mul_lt_mul_of_pos_right h' hpos
      omega
    · exact h'
  refine ⟨hle, ?_⟩
  intro t ht
  have hspec : ∀ x i, i < rows → (i < lb (psum f) x rows ↔ psum f i < x) :=
    fun x i hi => lt_lb_iff (fun i j h => psum_mono h) x hi
  have hb : ∀ s, s < n → bnd (psum f) (psum f rows) rows n s = lb (psum f) (W * s) rows := by
    intro s hs'
    unfold bnd
    by_cases h0 : s = 0
    · subst h0
      rw [if_pos rfl, Nat.mul_zero, lb_zero]
    · rw [if_neg h0, if_neg (by omega), hww]
  rw [hb t (by omega), hb (t + 1) ht]
  obtain ⟨r, hrr⟩ : ∃ r, rows = r + 1 := ⟨rows - 1, by omega⟩
  have hin : lb (psum f) (W * t) rows < rows := by
    rcases Nat.lt_or_ge (lb (psum f) (W * t) rows) rows with h' | h'
    · exact h'
    · exfalso
      have e1 := (hspec (W * t) r (by omega)).1 (by omega)
      have e2 := hbal r (by omega)
      have e3 : psum f rows = psum f r + f r := by rw [hrr]; rfl
      have e4 : W * (t + 1) ≤ W * n := Nat.mul_le_mul_left _ (by omega)
      have e5 : W * (t + 1) = W * t + W := Nat.mul_succ W t
      have e6 : n * W = W * n := Nat.mul_comm _ _
      omega
  rw [hspec _ _ hin]
  have e5 : W * (t + 1) = W * t + W := Nat.mul_succ W t
  generalize hi : lb (psum f) (W * t) rows = i at hin ⊢
  cases i with
  | zero =>
    have : psum f 0 = 0 := rfl
    omega
  | succ i =>
    have e1 := (hspec (W * t) i (by omega)).1 (by omega)
    have e2 := hbal i (by omega)
    simp only [psum]; omega

end Verif.Model.Race
