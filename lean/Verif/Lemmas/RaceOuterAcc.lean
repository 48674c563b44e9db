import Verif.Lemmas.RaceConvAcc
import Verif.Lemmas.RaceAny

/-! # What the outer-product kernels and the prefix sum change is listed as written -/

namespace Verif.Model.RaceOuter
open RaceOld (Arr Access done)
open Outer (Glob Loc Out)
open RaceConv (Honest honest_bind honest_priv honest_loop honest_accesses loop_writes loopRun get_wr)

variable {V W σ α : Type}

/-- A cell that a region changes is listed as written by one of its threads. -/
theorem trace_writes {view : σ → Arr → Nat → W} {n : Nat} {prog : Nat → α → Prog σ α} {step : Nat → σ → α → Res (σ × α)} {fin : α → Bool}
    (h : ∀ t l, Honest view (prog t l)) (he : ∀ t l g, (prog t l).exec g = step t g l) :
    ∀ (sched : List Nat) (g : σ) (ls : Nat → α) (r : σ × (Nat → α)), runs n step fin sched g ls = .ok r →
      ∀ x k, view r.1 x k ≠ view g x k → ∃ t, t < n ∧ (t, ⟨x, k, true⟩) ∈ trace n prog fin sched g ls := by
  intro sched
  induction sched with
  | nil => intro g ls r e x k hne; cases e; exact absurd rfl hne
  | cons t ts ih =>
    intro g ls r e x k hne
    rw [runs] at e
    rw [trace]
    by_cases hc : t < n ∧ fin (ls t) = false
    · rw [if_pos hc] at e ⊢
      obtain ⟨y, h1, h2⟩ := Alias.bind_ok' e
      rw [he, h1]
      obtain ⟨g', l'⟩ := y
      dsimp only at h2 ⊢
      by_cases hy : view g' x k = view g x k
      · obtain ⟨u, hu, hm⟩ := ih _ _ _ h2 x k (by rwa [hy])
        exact ⟨u, hu, List.mem_append_right _ hm⟩
      · exact ⟨t, hc.1, List.mem_append_left _ (List.mem_map.2 ⟨_, honest_accesses (h t _) ((he t _ _).trans h1) x k hy, rfl⟩)⟩
    · rw [if_neg hc] at e ⊢
      exact ih _ _ _ e x k hne

theorem phase_writes {view : σ → Arr → Nat → W} {n : Nat} {prog : Nat → α → Prog σ α} {step : Nat → σ → α → Res (σ × α)} {fin : α → Bool}
    (h : ∀ t l, Honest view (prog t l)) (he : ∀ t l g, (prog t l).exec g = step t g l) {sched : List Nat} {g : σ} {ls : Nat → α}
    {r : σ × (Nat → α)} (hr : phase n step fin sched g ls = .ok (some r)) (x : Arr) (k : Nat) (hne : view r.1 x k ≠ view g x k) :
    ∃ t, t < n ∧ (t, ⟨x, k, true⟩) ∈ trace n prog fin sched g ls := by
  unfold phase at hr
  obtain ⟨y, h1, h2⟩ := Alias.bind_ok' hr
  obtain ⟨g', ls'⟩ := y
  dsimp only at h2
  split at h2
  · cases h2
    exact trace_writes h he _ _ _ _ h1 x k hne
  · cases h2

/-! ## The prefix sum -/

/-- `out` and `partial_sum` -/
def viewS (s : List Nat × List Nat) : Arr → Nat → Option Nat
  | .numbers, i => s.1[i]?
  | .thNnz, i => s.2[i]?
  | _, _ => none

theorem honest_getOut (i : Nat) : Honest viewS (getOut i) := by
  refine .op (fun g r h x k hne => ?_) (fun x => .ret x)
  obtain ⟨y, _, h⟩ := Alias.bind_ok' h
  cases h
  exact absurd rfl hne

theorem honest_getSum (i : Nat) : Honest viewS (getSum i) := by
  refine .op (fun g r h x k hne => ?_) (fun x => .ret x)
  obtain ⟨y, _, h⟩ := Alias.bind_ok' h
  cases h
  exact absurd rfl hne

theorem honest_putOut (i n : Nat) : Honest viewS (putOut i n) := by
  refine .op (fun g r h x k hne => ?_) (fun x => .ret ())
  obtain ⟨y, hy, h⟩ := Alias.bind_ok' h
  cases h
  cases x <;> first | exact absurd rfl hne | skip
  by_cases hk : i = k
  · subst hk; exact List.mem_cons_self
  · exact absurd (get_wr hy hk) hne

theorem honest_putSum (i n : Nat) : Honest viewS (putSum i n) := by
  refine .op (fun g r h x k hne => ?_) (fun x => .ret ())
  obtain ⟨y, hy, h⟩ := Alias.bind_ok' h
  cases h
  cases x <;> first | exact absurd rfl hne | skip
  by_cases hk : i = k
  · subst hk; exact List.mem_cons_self
  · exact absurd (get_wr hy hk) hne

theorem honest_scan1 (inp : List Nat) (N n t : Nat) (c : UtilScan.Ctl1) : Honest viewS (scanProg1 inp N n t c) := by
  cases c with
  | first => exact honest_bind (honest_putOut _ _) fun _ => .ret _
  | «at» i =>
    unfold scanProg1
    dsimp only
    split
    · exact honest_priv _
    split
    · exact honest_bind (honest_getOut _) fun _ => honest_bind (honest_priv _) fun _ => honest_bind (honest_putOut _ _) fun _ => .ret _
    · exact honest_bind (honest_getOut _) fun _ => honest_bind (honest_priv _) fun _ => honest_bind (honest_putSum _ _) fun _ => .ret _
  | done => exact .ret _

theorem honest_sum : ∀ (t j s : Nat), Honest viewS (sumProg j t s) := by
  intro t
  induction t with
  | zero => intro j s; exact .ret s
  | succ t ih => intro j s; exact honest_bind (honest_getSum j) fun x => ih _ _

theorem honest_scan2 (t : Nat) (x : Nat × Nat) : Honest viewS (scanProg2 t x) :=
  honest_bind (honest_sum _ _ _) fun _ => honest_bind (honest_getOut _) fun _ => honest_bind (honest_putOut _ _) fun _ => .ret _

/-! ## The products -/

/-- The blocks; the counters are accessed atomically. -/
def viewB (g : Glob V) : Arr → Nat → Option (Option (Nat × Nat × V))
  | .block b, i => g.blk[b]?.bind (·[i]?)
  | _, _ => none

theorem honest_flush (width b len : Nat) (buf : List (Option (Nat × Nat × V))) : Honest viewB (flushProg width b len buf) := by
  refine honest_bind ?_ fun p => honest_bind ?_ fun _ => honest_loop (fun j => honest_bind (honest_priv _) fun v => ?_) _ _
  · refine .op (fun g r h x k hne => ?_) (fun x => .ret x)
    obtain ⟨y, _, h⟩ := Alias.bind_ok' h
    obtain ⟨z, _, h⟩ := Alias.bind_ok' h
    cases h
    cases x <;> exact absurd rfl hne
  · refine .op (fun g r h x k hne => ?_) (fun x => .ret ())
    obtain ⟨y, _, h⟩ := Alias.bind_ok' h
    cases h
    exact absurd rfl hne
  · refine .op (fun g r h x k hne => ?_) (fun x => .ret ())
    obtain ⟨dst, h1, h⟩ := Alias.bind_ok' h
    obtain ⟨dst', h2, h⟩ := Alias.bind_ok' h
    obtain ⟨blk, h3, h⟩ := Alias.bind_ok' h
    cases h
    cases x <;> first | exact absurd rfl hne | skip
    rename_i b'
    by_cases hb : b = b'
    · subst hb
      by_cases hk : p + j = k
      · subst hk; exact List.mem_cons_self
      · refine (hne ?_).elim
        have hl := RaceDot.set_of_wr h3
        simp only [viewB, RaceDot.get_of_rd h1]
        rw [hl.2, List.getElem?_set_self hl.1]
        exact get_wr h2 hk
    · refine (hne ?_).elim
      simp only [viewB, get_wr h3 hb]

theorem honest_step (mul : V → V → V) (A : CSC V) (B : CSR V) (blk : Nat → Res Nat) (nb width : Nat) (asg : Nat → List Nat) (t : Nat)
    (l : Option (Loc V)) : Honest viewB (stepProg mul A B blk nb width asg t l) := by
  unfold stepProg
  split
  · exact honest_bind (honest_priv _) fun _ => .ret _
  split
  · refine honest_bind (honest_priv _) fun r => honest_bind ?_ fun _ => .ret _
    unfold afterProg
    split
    · exact honest_bind (honest_flush _ _ _ _) fun _ => honest_bind (honest_priv _) fun _ => .ret _
    · exact honest_bind (honest_priv _) fun _ => .ret _
  · exact honest_bind (honest_priv _) fun _ => honest_bind (honest_flush _ _ _ _) fun _ => .ret _

/-! ## The result -/

def viewO (o : Out V) : Arr → Nat → Option (Nat ⊕ Option Nat ⊕ Option V)
  | .rowNnz, i => o.byRow[i]?.map .inl
  | .numbers, i => o.colids[i]?.map (fun x => .inr (.inl x))
  | .values, i => o.values[i]?.map (fun x => .inr (.inr x))
  | _, _ => none

theorem honest_copy (cum nnz : List Nat) (vecs : List (List (Nat × Nat × V))) (b : Nat) : Honest viewO (copyProg cum nnz vecs b) := by
  refine honest_bind (honest_priv _) fun base => honest_bind (honest_priv _) fun _ => honest_bind (honest_priv _) fun _ =>
    honest_loop (fun j => honest_bind (honest_priv _) fun v => honest_bind ?_ fun _ => honest_bind ?_ fun _ => ?_) _ _
  · refine .op (fun g r h x k hne => ?_) (fun x => .ret ())
    obtain ⟨z, _, h⟩ := Alias.bind_ok' h
    obtain ⟨y, hy, h⟩ := Alias.bind_ok' h
    cases h
    cases x <;> first | exact absurd rfl hne | skip
    by_cases hk : v.1 = k
    · subst hk; exact List.mem_cons_of_mem _ List.mem_cons_self
    · exact (hne (by simp only [viewO, get_wr hy hk])).elim
  · refine .op (fun g r h x k hne => ?_) (fun x => .ret ())
    obtain ⟨y, hy, h⟩ := Alias.bind_ok' h
    cases h
    cases x <;> first | exact absurd rfl hne | skip
    by_cases hk : base + j = k
    · subst hk; exact List.mem_cons_self
    · exact (hne (by simp only [viewO, get_wr hy hk])).elim
  · refine .op (fun g r h x k hne => ?_) (fun x => .ret ())
    obtain ⟨y, hy, h⟩ := Alias.bind_ok' h
    cases h
    cases x <;> first | exact absurd rfl hne | skip
    by_cases hk : base + j = k
    · subst hk; exact List.mem_cons_self
    · exact (hne (by simp only [viewO, get_wr hy hk])).elim

/-- Every entry of the result is written by a thread that copies a block. -/
theorem finish_writes {A : CSC V} {B : CSR V} {n nb : Nat} {mem : List Nat} {s : List (List (Nat × Nat × V)) × List Nat} {sch : Outer.Sched} {C : CSR V}
    (h : Outer.finish A B n nb mem s sch = .ok (some C)) (who : Nat → Nat) :
    ∃ tr, copyTraces A.rows n nb who s sch.s1 sch.s2 sch.copy = [tr] ∧ ∀ k, k < C.nnz →
      (∃ b ∈ sch.copy, (who b, ⟨.numbers, k, true⟩) ∈ tr) ∧ (∃ b ∈ sch.copy, (who b, ⟨.values, k, true⟩) ∈ tr) := by
  unfold Outer.finish at h
  obtain ⟨r, h1, h⟩ := Alias.bind_ok' h
  rcases r with _ | cum
  · cases h
  obtain ⟨total, h2, h⟩ := Alias.bind_ok' h
  obtain ⟨_, _, h⟩ := Alias.bind_ok' h
  obtain ⟨o, h3, h⟩ := Alias.bind_ok' h
  obtain ⟨r, _, h⟩ := Alias.bind_ok' h
  rcases r with _ | rowptr
  · cases h
  obtain ⟨cs, h4, h⟩ := Alias.bind_ok' h
  obtain ⟨vs, h5, h⟩ := Alias.bind_ok' h
  cases h
  rw [← RaceConv.loopRun_eq (fun b o => exec_copyProg cum s.2 s.1 b o)] at h3
  have hw := loop_writes (honest_copy cum s.2 s.1) who _ _ _ h3
  refine ⟨_, by simp only [copyTraces, h1, done, h2], fun k hk => ⟨hw .numbers k fun e => ?_, hw .values k fun e => ?_⟩⟩
  · have hk' : k < total := hk
    simp only [viewO, List.getElem?_replicate, if_pos hk', Option.map_some] at e
    cases hx : o.colids[k]? with
    | none => rw [hx] at e; cases e
    | some x =>
      rw [hx] at e
      cases e
      obtain ⟨y, _, hy⟩ := Gen.mapM_get h4 hx
      cases hy
  · have hk' : k < total := hk
    simp only [viewO, List.getElem?_replicate, if_pos hk', Option.map_some] at e
    cases hx : o.values[k]? with
    | none => rw [hx] at e; cases e
    | some x =>
      rw [hx] at e
      cases e
      obtain ⟨y, _, hy⟩ := Gen.mapM_get h5 hx
      cases hy

end Verif.Model.RaceOuter
