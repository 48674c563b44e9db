import Verif.Model.Race
import Verif.Lemmas.Driver

/-! # Memory accesses of the threads: proofs -/

namespace Verif.Model.Race

open Scan (rdu start stop)

variable {V σ l α β : Type}

/-! ## Running a program is the step it stands for -/

theorem exec_lift (m : Mem V σ) (r : Res β) (k : β → Prog V α) (g : σ) :
    (Prog.lift r k).exec m g = r >>= fun b => (k b).exec m g := by
  cases r <;> rfl

theorem exec_ite (m : Mem V σ) (c : Prop) [Decidable c] (p q : Prog V α) (g : σ) :
    (if c then p else q).exec m g = if c then p.exec m g else q.exec m g := by
  split <;> rfl

theorem exec_sumLoads (m : Mem V σ) (a : Arr) (g : σ) (k : Nat → Prog V α) (cnt : Nat) : ∀ lo s,
    (sumLoads a lo cnt s k).exec m g = (forRange lo (lo + cnt) s fun i s => do
      let x ← rd (m.get g a) i
      let x ← use x
      .ok (s + x)) >>= fun s => (k s).exec m g := by
  induction cnt with
  | zero =>
    intro lo s
    rw [forRange_of_le (by omega)]; rfl
  | succ cnt ih =>
    intro lo s
    rw [forRange_step (by omega)]
    simp only [sumLoads, Prog.exec, exec_lift, ih]
    cases rd (m.get g a) lo with
    | error e => rfl
    | ok x =>
      cases x with
      | none => rfl
      | some x =>
        simp only [ok_bind, use_some]
        rw [show lo + 1 + cnt = lo + (cnt + 1) by omega]

theorem exec_progSum (src : List (Option Nat)) (size n t : Nat) (x : Bool) (g : List (Option Nat)) :
    (progSum src size n t x).exec arrMem g = Scan.stepSum src size n t g x := by
  unfold progSum Scan.stepSum
  simp only [exec_lift, Prog.exec]
  rfl

theorem exec_progWrite (src ps : List (Option Nat)) (size n t : Nat) (c : Scan.Ctl) (g : List (Option Nat)) :
    (progWrite src ps size n t c).exec arrMem g = Scan.stepWrite false src ps size n t g c := by
  unfold progWrite Scan.stepWrite
  cases c with
  | first => simp only [exec_lift, Prog.exec]; rfl
  | «at» i =>
    simp only [exec_lift, exec_ite, Prog.exec]
    split
    · show (rd g (i - 1) >>= _) = (rdu g (i - 1) >>= _)
      unfold rdu
      cases rd g (i - 1) with
      | error e => rfl
      | ok x => cases x <;> rfl
    · rfl
  | done => rfl

theorem exec_prog1 (alg : RowAlg V) (mul add : V → V → V) (A B M : CSR V) (fpr : List (Option Nat)) (t : Nat)
    (l : L1 alg.N V) (g : Sh V) :
    (prog1 alg mul add A B M fpr t l).exec shMem g = step1 alg mul add A B M fpr t g l := by
  unfold prog1 step1
  simp only [exec_lift, exec_ite, Prog.exec]
  rfl

theorem exec_prog2 (alg : RowAlg V) (A B M : CSR V) (fpr : List (Option Nat)) (t : Nat) (l : L2 alg.S) (g : Sh V) :
    (prog2 alg A B M fpr t l).exec shMem g = step2 alg A B M fpr t g l := by
  unfold prog2 step2 rdu
  simp only [exec_lift, exec_ite, Prog.exec, bind_assoc]
  rfl

theorem exec_prog3 (rows n : Nat) (rng : Nat → Nat × Nat) (outs : Nat → List (Nat × V)) (t : Nat) (c : Ctl3) (g : Sh V) :
    (prog3 rows n rng outs t c).exec shMem g = step3 rows n rng outs t g c := by
  unfold prog3 step3 rdu
  cases c <;> simp only [exec_lift, exec_ite, Prog.exec, exec_sumLoads, Nat.zero_add, bind_assoc] <;> rfl

theorem exec_prog4 (alg : RowAlg V) (mul add : V → V → V) (A B M : CSR V) (n : Nat) (rng : Nat → Nat × Nat) (t : Nat)
    (l : L4 alg.N V) (g : Sh V) :
    (prog4 alg mul add A B M n rng t l).exec shMem g = step4 alg mul add A B M n rng t g l := by
  unfold prog4 step4 rdu
  obtain ⟨c, acc⟩ := l
  cases c with
  | flushC r em cur =>
    cases em with
    | nil => rfl
    | cons x em => simp only [exec_lift, Prog.exec]; rfl
  | _ => simp only [exec_lift, exec_ite, Prog.exec, exec_sumLoads, Nat.zero_add, bind_assoc] <;> rfl

/-! ## Rule for traces -/

theorem trace_own {m : Mem V σ} {n : Nat} {prog : Nat → l → Prog V l} {step : Nat → σ → l → Res (σ × l)} {fin : l → Bool}
    (he : ∀ t x g, (prog t x).exec m g = step t g x) (I : Nat → σ → l → Prop) {μ : Nat → l → Nat}
    (hstep : ∀ t g x, t < n → I t g x → fin x = false → ∃ g' x', step t g x = .ok (g', x') ∧ I t g' x' ∧
      (fin x' = true ∨ μ t x' < μ t x) ∧ ∀ u y, u < n → u ≠ t → I u g y → I u g' y)
    (Own : Nat → Access → Prop)
    (hown : ∀ t g x, t < n → I t g x → fin x = false → ∀ a ∈ (prog t x).accesses m g, Own t a) :
    ∀ (sched : List Nat) (g : σ) (ls : Nat → l), (∀ t, t < n → I t g (ls t)) →
    ∀ e ∈ trace m n prog fin sched g ls, e.1 < n ∧ Own e.1 e.2 := by
  intro sched
  induction sched with
  | nil => intro g ls _ e he; cases he
  | cons t ts ih =>
    intro g ls h e hmem
    unfold trace at hmem
    by_cases hc : t < n ∧ fin (ls t) = false
    · rw [if_pos hc] at hmem
      obtain ⟨g1, x1, h1, h2, h3, h4⟩ := hstep t g (ls t) hc.1 (h t hc.1) hc.2
      rw [he, h1] at hmem
      rcases List.mem_append.1 hmem with hm | hm
      · obtain ⟨a, ha, rfl⟩ := List.mem_map.1 hm
        exact ⟨hc.1, hown t g (ls t) hc.1 (h t hc.1) hc.2 a ha⟩
      · refine ih g1 (upd ls t x1) ?_ e hm
        intro u hu
        by_cases hut : u = t
        · subst hut; simpa using h2
        · rw [upd_ne _ _ hut]; exact h4 u _ hu hut (h u hu)
    · rw [if_neg hc] at hmem
      exact ih g ls h e hmem

theorem accesses_lift_ok (m : Mem V σ) (b : β) (k : β → Prog V α) (g : σ) :
    (Prog.lift (.ok b) k).accesses m g = (k b).accesses m g := rfl

theorem mem_accesses_load {m : Mem V σ} {a : Arr} {i : Nat} {k : Option Nat → Prog V α} {g : σ} {x : Access}
    (h : x ∈ (Prog.load a i k).accesses m g) : x = ⟨a, i, false⟩ ∨ ∃ v, rd (m.get g a) i = .ok v ∧ x ∈ (k v).accesses m g := by
  simp only [Prog.accesses, List.mem_cons] at h
  rcases h with h | h
  · exact Or.inl h
  · right
    cases hr : rd (m.get g a) i with
    | error e => rw [hr] at h; cases h
    | ok v => rw [hr] at h; exact ⟨v, rfl, h⟩

theorem mem_accesses_store {m : Mem V σ} {a : Arr} {i v : Nat} {k : Prog V α} {g : σ} {x : Access}
    (h : x ∈ (Prog.store a i v k).accesses m g) : x = ⟨a, i, true⟩ ∨ ∃ g', x ∈ k.accesses m g' := by
  simp only [Prog.accesses, List.mem_cons] at h
  rcases h with h | h
  · exact Or.inl h
  · right
    split at h
    · exact ⟨_, h⟩
    · cases h

theorem mem_accesses_storeV {m : Mem V σ} {i : Nat} {v : V} {k : Prog V α} {g : σ} {x : Access}
    (h : x ∈ (Prog.storeV i v k).accesses m g) : x = ⟨.values, i, true⟩ ∨ ∃ g', x ∈ k.accesses m g' := by
  simp only [Prog.accesses, List.mem_cons] at h
  rcases h with h | h
  · exact Or.inl h
  · right
    split at h
    · exact ⟨_, h⟩
    · cases h

theorem mem_accesses_lift {m : Mem V σ} {r : Res β} {k : β → Prog V α} {g : σ} {x : Access}
    (h : x ∈ (Prog.lift r k).accesses m g) : ∃ b, r = .ok b ∧ x ∈ (k b).accesses m g := by
  cases r with
  | error e => cases h
  | ok b => exact ⟨b, rfl, h⟩

theorem mem_accesses_sumLoads {m : Mem V σ} {a : Arr} {g : σ} {k : Nat → Prog V α} {x : Access} {cnt : Nat} :
    ∀ {lo s}, x ∈ (sumLoads a lo cnt s k).accesses m g →
    (∃ i, lo ≤ i ∧ i < lo + cnt ∧ x = ⟨a, i, false⟩) ∨ ∃ s', x ∈ (k s').accesses m g := by
  induction cnt with
  | zero => intro lo s h; exact Or.inr ⟨s, h⟩
  | succ cnt ih =>
    intro lo s h
    unfold sumLoads at h
    rcases mem_accesses_load h with h | ⟨v, -, h⟩
    · exact Or.inl ⟨lo, by omega, by omega, h⟩
    · obtain ⟨y, -, h⟩ := mem_accesses_lift h
      rcases ih h with ⟨i, h1, h2, h3⟩ | h
      · exact Or.inl ⟨i, by omega, by omega, h3⟩
      · exact Or.inr h

theorem not_mem_ret {m : Mem V σ} {a : α} {g : σ} {x : Access} (h : x ∈ (Prog.ret a : Prog V α).accesses m g) : False := by
  cases h

/-! ## What each thread accesses -/

/-- First region of the scan. -/
def OwnSum (t : Nat) (a : Access) : Prop := a.arr = .partialSums ∧ a.idx = t

/-- Second region of the scan. -/
def OwnWrite (size n t : Nat) (a : Access) : Prop :=
  a.arr = .cumulativeWork ∧ start size n t ≤ a.idx ∧ (a.idx = start size n t ∨ a.idx < stop size n t)

/-- First part of the main region. -/
def OwnA (b : Nat → Nat) (t : Nat) (a : Access) : Prop :=
  (a.arr = .rowNvals ∧ b t ≤ a.idx ∧ a.idx < b (t + 1)) ∨ (a.arr = .threadsNvals ∧ a.idx = t)

/-- Second part of the main region. -/
def OwnB (exp : Nat → List (Nat × V)) (b : Nat → Nat) (rows n t : Nat) (a : Access) : Prop :=
  ((a.arr = .rowNvals ∨ a.arr = .threadsNvals) ∧ a.write = false) ∨
  (a.arr = .rowptr ∧ ((b t ≤ a.idx ∧ a.idx < b (t + 1)) ∨ (a.idx = rows ∧ t = n - 1))) ∨
  (a.arr = .rowptr ∧ a.write = false ∧ a.idx = b t) ∨
  ((a.arr = .colids ∨ a.arr = .values) ∧ psum (lens exp) (b t) ≤ a.idx ∧ a.idx < psum (lens exp) (b (t + 1)))

theorem own_prog1 {alg : RowAlg V} {mul add : V → V → V} {A B M : CSR V} {exp : Nat → List (Nat × V)} {b : Nat → Nat}
    {n : Nat} {Inv : Nat → alg.N → Prop} {fpr : List (Option Nat)} {t : Nat} {g : Sh V} {x : L1 alg.N V}
    (hI : I1 alg A B M exp b n Inv t g x) : ∀ a ∈ (prog1 alg mul add A B M fpr t x).accesses shMem g, OwnA b t a := by
  intro a ha
  have hlo := hI.lo
  unfold prog1 at ha
  split at ha
  · next hrow =>
    have hr1 : x.row < b (t + 1) := hI.stop ▸ hrow
    have key : OwnA b t ⟨.rowNvals, x.row, true⟩ := Or.inl ⟨rfl, hlo, hr1⟩
    obtain ⟨f, -, ha⟩ := mem_accesses_lift ha
    split at ha
    · obtain ⟨r, -, ha⟩ := mem_accesses_lift ha
      split at ha
      · rcases mem_accesses_store ha with rfl | ⟨g', ha⟩
        · exact key
        · cases ha
      · cases ha
    · rcases mem_accesses_store ha with rfl | ⟨g', ha⟩
      · exact key
      · cases ha
  · rcases mem_accesses_store ha with rfl | ⟨g', ha⟩
    · exact Or.inr ⟨rfl, rfl⟩
    · cases ha

theorem own_prog2 {alg : RowAlg V} {A B M : CSR V} {exp : Nat → List (Nat × V)} {b : Nat → Nat}
    {n : Nat} {Inv : Nat → alg.S → Prop} {fpr : List (Option Nat)} {t : Nat} {g : Sh V} {x : L2 alg.S}
    (hI : I2 alg A exp b n Inv t g x) : ∀ a ∈ (prog2 alg A B M fpr t x).accesses shMem g, OwnA b t a := by
  intro a ha
  have hlo := hI.lo
  unfold prog2 at ha
  split at ha
  · next hrow =>
    have hr1 : x.row < b (t + 1) := hI.stop ▸ hrow
    have key : ∀ w, OwnA b t ⟨.rowNvals, x.row, w⟩ := fun _ => Or.inl ⟨rfl, hlo, hr1⟩
    obtain ⟨f, -, ha⟩ := mem_accesses_lift ha
    split at ha
    · obtain ⟨r, -, ha⟩ := mem_accesses_lift ha
      rcases mem_accesses_store ha with rfl | ⟨g', ha⟩
      · exact key _
      · rcases mem_accesses_load ha with rfl | ⟨v, -, ha⟩
        · exact key _
        · obtain ⟨y, -, ha⟩ := mem_accesses_lift ha
          cases ha
    · rcases mem_accesses_store ha with rfl | ⟨g', ha⟩
      · exact key _
      · rcases mem_accesses_load ha with rfl | ⟨v, -, ha⟩
        · exact key _
        · obtain ⟨y, -, ha⟩ := mem_accesses_lift ha
          cases ha
  · rcases mem_accesses_store ha with rfl | ⟨g', ha⟩
    · exact Or.inr ⟨rfl, rfl⟩
    · cases ha

theorem own_prog3 {exp : Nat → List (Nat × V)} {b : Nat → Nat} {rows n : Nat} (hs : Split b rows n)
    {rng : Nat → Nat × Nat} {outs : Nat → List (Nat × V)} (hr : ∀ t < n, rng t = (b t, b (t + 1))) {t : Nat} (ht : t < n)
    {g : Sh V} {x : Ctl3} (hI : I3 exp b rows n t g x) :
    ∀ a ∈ (prog3 rows n rng outs t x).accesses shMem g, OwnB exp b rows n t a := by
  intro a ha
  obtain ⟨hB, hJ⟩ := hI
  have hbt := hs.mono t ht
  have hpm := psum_mono (f := lens exp) hbt
  have htn : tnv exp b t = psum (lens exp) (b (t + 1)) - psum (lens exp) (b t) := rfl
  have hread : ∀ v, rd g.threadsNvals t = .ok v → v = some (tnv exp b t) := by
    intro v hv
    rw [(hB.tn t ht).rd] at hv
    exact (Except.ok.inj hv).symm
  unfold prog3 at ha
  cases x with
  | start =>
    rcases mem_accesses_sumLoads ha with ⟨i, -, -, rfl⟩ | ⟨s, ha⟩
    · exact Or.inl ⟨Or.inr rfl, rfl⟩
    · cases ha
  | offs i off =>
    obtain ⟨h1, h2, h3, h4⟩ := hJ
    simp only [hr t ht] at ha
    split at ha
    · next hi =>
      rcases mem_accesses_store ha with rfl | ⟨g', ha⟩
      · exact Or.inr (Or.inl ⟨rfl, Or.inl ⟨h1, hi⟩⟩)
      · rcases mem_accesses_load ha with rfl | ⟨v, -, ha⟩
        · exact Or.inl ⟨Or.inl rfl, rfl⟩
        · obtain ⟨y, -, ha⟩ := mem_accesses_lift ha
          cases ha
    · cases ha
  | last off =>
    simp only at ha
    split at ha
    · next hl =>
      rcases mem_accesses_store ha with rfl | ⟨g', ha⟩
      · exact Or.inr (Or.inl ⟨rfl, Or.inr ⟨rfl, hl⟩⟩)
      · cases ha
    · cases ha
  | baseC =>
    rcases mem_accesses_load ha with rfl | ⟨v, -, ha⟩
    · exact Or.inr (Or.inr (Or.inl ⟨rfl, rfl, by rw [hr t ht]⟩))
    · cases ha
  | copyC base k =>
    obtain ⟨h1, h2, h3, h4⟩ := hJ
    rcases mem_accesses_load ha with rfl | ⟨v, hv, ha⟩
    · exact Or.inl ⟨Or.inr rfl, rfl⟩
    · rw [hread v hv] at ha
      obtain ⟨y, hy, ha⟩ := mem_accesses_lift ha
      have hy' : y = tnv exp b t := by simpa using hy.symm
      subst hy'
      split at ha
      · next hk =>
        rw [h2 (tnv_pos_lt hk hbt)] at ha
        obtain ⟨d, hd, ha⟩ := mem_accesses_lift ha
        have hd' : d = psum (lens exp) (b t) := by simpa using hd.symm
        subst hd'
        obtain ⟨z, -, ha⟩ := mem_accesses_lift ha
        rcases mem_accesses_store ha with rfl | ⟨g', ha⟩
        · exact Or.inr (Or.inr (Or.inr ⟨Or.inl rfl, by simp only; omega, by simp only; omega⟩))
        · cases ha
      · cases ha
  | baseV =>
    rcases mem_accesses_load ha with rfl | ⟨v, -, ha⟩
    · exact Or.inr (Or.inr (Or.inl ⟨rfl, rfl, by rw [hr t ht]⟩))
    · cases ha
  | copyV base k =>
    obtain ⟨h1, hC, h2, h3, h4⟩ := hJ
    rcases mem_accesses_load ha with rfl | ⟨v, hv, ha⟩
    · exact Or.inl ⟨Or.inr rfl, rfl⟩
    · rw [hread v hv] at ha
      obtain ⟨y, hy, ha⟩ := mem_accesses_lift ha
      have hy' : y = tnv exp b t := by simpa using hy.symm
      subst hy'
      split at ha
      · next hk =>
        rw [h2 (tnv_pos_lt hk hbt)] at ha
        obtain ⟨d, hd, ha⟩ := mem_accesses_lift ha
        have hd' : d = psum (lens exp) (b t) := by simpa using hd.symm
        subst hd'
        obtain ⟨z, -, ha⟩ := mem_accesses_lift ha
        rcases mem_accesses_storeV ha with rfl | ⟨g', ha⟩
        · exact Or.inr (Or.inr (Or.inr ⟨Or.inr rfl, by simp only; omega, by simp only; omega⟩))
        · cases ha
      · cases ha
  | done => cases ha

theorem own_prog4 {alg : RowAlg V} {mul add : V → V → V} {A B M : CSR V} {exp : Nat → List (Nat × V)} {b : Nat → Nat}
    {n : Nat} {Inv : Nat → alg.N → Prop} {rng : Nat → Nat × Nat} (hr : ∀ t < n, rng t = (b t, b (t + 1)))
    {t : Nat} (ht : t < n) {g : Sh V} {x : L4 alg.N V} (hI : I4 alg exp b A.rows n Inv t g x) :
    ∀ a ∈ (prog4 alg mul add A B M n rng t x).accesses shMem g, OwnB exp b A.rows n t a := by
  intro a ha
  obtain ⟨hB, hA, hJ⟩ := hI
  obtain ⟨ctl, acc⟩ := x
  unfold prog4 at ha
  have pos : ∀ {r k}, b t ≤ r → r < b (t + 1) → k < lens exp r →
      psum (lens exp) (b t) ≤ psum (lens exp) r + k ∧ psum (lens exp) r + k < psum (lens exp) (b (t + 1)) := by
    intro r k h1 h2 h3
    have e1 := psum_mono (f := lens exp) h1
    have e2 := psum_mono (f := lens exp) (show r + 1 ≤ b (t + 1) from h2)
    simp only [psum] at e2
    omega
  cases ctl with
  | start =>
    rcases mem_accesses_sumLoads ha with ⟨i, -, -, rfl⟩ | ⟨s, ha⟩
    · exact Or.inl ⟨Or.inr rfl, rfl⟩
    · cases ha
  | offs i off =>
    obtain ⟨h1, h2, h3, h4⟩ := hJ
    simp only [hr t ht] at ha
    split at ha
    · next hi =>
      rcases mem_accesses_store ha with rfl | ⟨g', ha⟩
      · exact Or.inr (Or.inl ⟨rfl, Or.inl ⟨h1, hi⟩⟩)
      · rcases mem_accesses_load ha with rfl | ⟨v, -, ha⟩
        · exact Or.inl ⟨Or.inl rfl, rfl⟩
        · obtain ⟨y, -, ha⟩ := mem_accesses_lift ha
          cases ha
    · cases ha
  | last off =>
    simp only at ha
    split at ha
    · next hl =>
      rcases mem_accesses_store ha with rfl | ⟨g', ha⟩
      · exact Or.inr (Or.inl ⟨rfl, Or.inr ⟨rfl, hl⟩⟩)
      · cases ha
    · cases ha
  | base =>
    rcases mem_accesses_load ha with rfl | ⟨v, -, ha⟩
    · exact Or.inr (Or.inr (Or.inl ⟨rfl, rfl, by rw [hr t ht]⟩))
    · cases ha
  | row r cur =>
    simp only at ha
    split at ha
    · rcases mem_accesses_load ha with rfl | ⟨v, -, ha⟩
      · exact Or.inl ⟨Or.inl rfl, rfl⟩
      · obtain ⟨y, -, ha⟩ := mem_accesses_lift ha
        split at ha
        · cases ha
        · obtain ⟨q, -, ha⟩ := mem_accesses_lift ha
          cases ha
    · cases ha
  | flushC r em cur =>
    obtain ⟨h1, h2, h3, k, h4, h5, h6, h7, h8⟩ := hJ
    cases em with
    | nil => cases ha
    | cons x em =>
      have hk : k < lens exp r := by
        have := congrArg List.length h5
        simp at this
        unfold lens; omega
      simp only [h6] at ha
      obtain ⟨d, hd, ha⟩ := mem_accesses_lift ha
      have hd' : d = psum (lens exp) r + k := by simpa using hd.symm
      subst hd'
      rcases mem_accesses_store ha with rfl | ⟨g', ha⟩
      · exact Or.inr (Or.inr (Or.inr ⟨Or.inl rfl, pos h2 h3 hk⟩))
      · cases ha
  | flushV r v em cur =>
    obtain ⟨h1, h2, h3, k, c, h4, h5, h6, h7, h8⟩ := hJ
    simp only [h6] at ha
    obtain ⟨d, hd, ha⟩ := mem_accesses_lift ha
    have hd' : d = psum (lens exp) r + k := by simpa using hd.symm
    subst hd'
    rcases mem_accesses_storeV ha with rfl | ⟨g', ha⟩
    · exact Or.inr (Or.inr (Or.inr ⟨Or.inr rfl, pos h2 h3 (lt_of_getElem? h4)⟩))
    · cases ha
  | done => cases ha

/-! ## Conflicts -/

theorem split_le {b : Nat → Nat} {rows n : Nat} (hs : Split b rows n) {s t : Nat} (hst : s ≤ t) (ht : t ≤ n) : b s ≤ b t := by
  induction t with
  | zero => have : s = 0 := by omega
            subst this; exact Nat.le_refl _
  | succ t ih =>
    rcases Nat.lt_or_ge s (t + 1) with h | h
    · exact Nat.le_trans (ih (by omega) (by omega)) (hs.mono t (by omega))
    · have : s = t + 1 := by omega
      subst this; exact Nat.le_refl _

theorem split_disj {b : Nat → Nat} {rows n : Nat} (hs : Split b rows n) {s t i : Nat} (h1 : s < n) (h2 : t < n)
    (h3 : b s ≤ i) (h4 : i < b (s + 1)) (h5 : b t ≤ i) (h6 : i < b (t + 1)) : s = t := by
  rcases Nat.lt_trichotomy s t with h | h | h
  · have := split_le hs (show s + 1 ≤ t from h) (by omega); omega
  · exact h
  · have := split_le hs (show t + 1 ≤ s from h) (by omega); omega

theorem psum_disj {b : Nat → Nat} {rows n : Nat} {f : Nat → Nat} (hs : Split b rows n) {s t i : Nat} (h1 : s < n) (h2 : t < n)
    (h3 : psum f (b s) ≤ i) (h4 : i < psum f (b (s + 1))) (h5 : psum f (b t) ≤ i) (h6 : i < psum f (b (t + 1))) : s = t := by
  rcases Nat.lt_trichotomy s t with h | h | h
  · have := psum_mono (f := f) (split_le hs (show s + 1 ≤ t from h) (by omega)); omega
  · exact h
  · have := psum_mono (f := f) (split_le hs (show t + 1 ≤ s from h) (by omega)); omega

theorem no_conflict_sum {x y : Nat × Access} (hx : OwnSum x.1 x.2) (hy : OwnSum y.1 y.2) : ¬ Conflict x y := by
  rintro ⟨h1, -, h2, -⟩
  have := hx.2
  have := hy.2
  omega

theorem start_block {size n t : Nat} : start size n t = t * (size / n) := rfl

theorem conflict_write {size n : Nat} {x y : Nat × Access} (hx1 : x.1 < n) (hy1 : y.1 < n) (hx : OwnWrite size n x.1 x.2)
    (hy : OwnWrite size n y.1 y.2) (hc : Conflict x y) : size < n ∧ x.2.idx = 0 := by
  obtain ⟨hne, -, hi, -⟩ := hc
  obtain ⟨-, a1, a2⟩ := hx
  obtain ⟨-, c1, c2⟩ := hy
  have hn : 0 < n := by omega
  by_cases hq : size / n = 0
  · have hlt : size < n := by
      rcases Nat.div_eq_zero_iff.1 hq with h | h
      · omega
      · exact h
    refine ⟨hlt, ?_⟩
    have hstart : ∀ t, start size n t = 0 := fun t => by rw [start_block, hq, Nat.mul_zero]
    have hstop : ∀ t, t + 1 ≠ n → stop size n t = 0 := fun t h => by unfold stop; rw [if_pos h, hq, Nat.mul_zero]
    rw [hstart] at a2 c2
    rcases a2 with h | h
    · exact h
    · rcases c2 with h' | h'
      · omega
      · by_cases e1 : x.1 + 1 = n
        · by_cases e2 : y.1 + 1 = n
          · omega
          · rw [hstop _ e2] at h'; omega
        · rw [hstop _ e1] at h; omega
  · exfalso
    have hq' : 0 < size / n := Nat.pos_of_ne_zero hq
    -- every block is non-empty
    have hblk : ∀ t < n, start size n t < stop size n t := by
      intro t ht
      unfold start stop
      split
      · exact Nat.mul_lt_mul_of_pos_right (by omega) hq'
      · calc t * (size / n) < n * (size / n) := Nat.mul_lt_mul_of_pos_right ht hq'
          _ ≤ size := Nat.mul_div_le _ _
    have b1 := hblk _ hx1
    have b2 := hblk _ hy1
    have hord : ∀ s t, s < t → t < n → stop size n s ≤ start size n t := by
      intro s t h1 h2
      unfold start stop
      rw [if_pos (by omega)]
      exact Nat.mul_le_mul_right _ h1
    rcases Nat.lt_trichotomy x.1 y.1 with h | h | h
    · have := hord _ _ h hy1; omega
    · exact hne h
    · have := hord _ _ h hx1; omega

theorem no_conflict_A {b : Nat → Nat} {rows n : Nat} (hs : Split b rows n) {x y : Nat × Access} (hx1 : x.1 < n) (hy1 : y.1 < n)
    (hx : OwnA b x.1 x.2) (hy : OwnA b y.1 y.2) : ¬ Conflict x y := by
  rintro ⟨h1, h2, h3, -⟩
  rcases hx with ⟨e1, a1, a2⟩ | ⟨e1, a1⟩ <;> rcases hy with ⟨e2, c1, c2⟩ | ⟨e2, c1⟩
  · exact h1 (split_disj hs hx1 hy1 a1 a2 (by omega) (by omega))
  · rw [e1, e2] at h2; cases h2
  · rw [e1, e2] at h2; cases h2
  · omega

/-- In the second part there is only one kind of conflict: a thread without rows reads a row pointer. -/
theorem conflict_B {exp : Nat → List (Nat × V)} {b : Nat → Nat} {rows n : Nat} (hs : Split b rows n) {x y : Nat × Access}
    (hx1 : x.1 < n) (hy1 : y.1 < n) (hx : OwnB exp b rows n x.1 x.2) (hy : OwnB exp b rows n y.1 y.2) (hc : Conflict x y) :
    x.2.arr = .rowptr ∧ ((x.2.write = false ∧ b x.1 = b (x.1 + 1)) ∨ (y.2.write = false ∧ b y.1 = b (y.1 + 1))) := by
  obtain ⟨h1, h2, h3, h4⟩ := hc
  have hx0 := hs.mono _ hx1
  have hy0 := hs.mono _ hy1
  have lx := hs.le (x.1 + 1)
  have ly := hs.le (y.1 + 1)
  have bl : ∀ t, t = n - 1 → t < n → b (t + 1) = rows := by
    intro t ht ht'
    have : t + 1 = n := by omega
    rw [this, hs.last]
  -- a write of another thread at the first row of a thread
  have key : ∀ u v i, u < n → v < n → u ≠ v → i = b v → ((b u ≤ i ∧ i < b (u + 1)) ∨ (i = rows ∧ u = n - 1)) → b v = b (v + 1) := by
    intro u v i hu hv huv hi h
    have := hs.mono v hv
    rcases Nat.lt_or_ge (b v) (b (v + 1)) with h' | h'
    · exfalso
      rcases h with ⟨e1, e2⟩ | ⟨e1, e2⟩
      · exact huv (split_disj hs hu hv e1 e2 (by omega) (by omega))
      · have := hs.le (v + 1); omega
    · omega
  rcases hx with ⟨e1, a1⟩ | ⟨e1, a1⟩ | ⟨e1, a1, a2⟩ | ⟨e1, a1, a2⟩ <;>
    rcases hy with ⟨e2, c1⟩ | ⟨e2, c1⟩ | ⟨e2, c1, c2⟩ | ⟨e2, c1, c2⟩
  · rw [a1, c1] at h4; simp at h4
  · rw [h2, e2] at e1; simp at e1
  · rw [h2, e2] at e1; simp at e1
  · rw [h2] at e1; rcases e1 with e | e <;> rcases e2 with e' | e' <;> rw [e] at e' <;> cases e'
  · rw [← h2, e1] at e2; simp at e2
  · exfalso
    rcases a1 with ⟨a1, a2⟩ | ⟨a1, a2⟩ <;> rcases c1 with ⟨c1, c2⟩ | ⟨c1, c2⟩
    · exact h1 (split_disj hs hx1 hy1 a1 a2 (by omega) (by omega))
    · omega
    · omega
    · omega
  · exact ⟨e1, Or.inr ⟨c1, key _ _ _ hx1 hy1 h1 (h3.trans c2) a1⟩⟩
  · rw [← h2, e1] at e2; simp at e2
  · rw [← h2, e1] at e2; simp at e2
  · exact ⟨e1, Or.inl ⟨a1, key _ _ _ hy1 hx1 (Ne.symm h1) (h3.symm.trans a2) c1⟩⟩
  · rw [a1, c1] at h4; simp at h4
  · rw [← h2, e1] at e2; simp at e2
  · rw [h2] at e1; rcases e1 with e | e <;> rcases e2 with e' | e' <;> rw [e] at e' <;> cases e'
  · rw [h2, e2] at e1; simp at e1
  · rw [h2, e2] at e1; simp at e1
  · exfalso
    exact h1 (psum_disj hs hx1 hy1 a1 a2 (by omega) (by omega))

end Verif.Model.Race
