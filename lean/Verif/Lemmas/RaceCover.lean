import Verif.Lemmas.RaceSound
import Verif.Lemmas.RaceGen

/-!
# The access lists of a call that returns contain the stores of its result
-/

namespace Verif.Model.Race
open Alias (bind_ok')

variable {V σ α K l : Type}

/-- What a region changes is listed as written. -/
theorem trace_writes {m : Mem V σ} {key : Arr → K} (L : Lawful m key) {n : Nat} {prog : Nat → l → Prog V l} {step : Nat → σ → l → Res (σ × l)}
    (hstep : ∀ t x g, (prog t x).exec m g = step t g x) (fin : l → Bool) : ∀ (sched : List Nat) {g : σ} {ls : Nat → l} {r : σ × (Nat → l)},
    runs n step fin sched g ls = .ok r →
    (∀ a k, (m.get r.1 a)[k]? ≠ (m.get g a)[k]? →
      ∃ t < n, ∃ a', key a' = key a ∧ (t, ⟨a', k, true⟩) ∈ trace m n prog fin sched g ls) ∧
    (∀ k, (m.getV r.1)[k]? ≠ (m.getV g)[k]? → ∃ t < n, (t, ⟨.values, k, true⟩) ∈ trace m n prog fin sched g ls) := by
  intro sched
  induction sched with
  | nil => intro g ls r h; cases h; exact ⟨fun _ _ h => absurd rfl h, fun _ h => absurd rfl h⟩
  | cons t ts ih =>
    intro g ls r h
    unfold runs at h
    unfold trace
    by_cases hc : t < n ∧ fin (ls t) = false
    · rw [if_pos hc] at h ⊢
      obtain ⟨s, h1, h2⟩ := bind_ok' h
      rw [← hstep] at h1
      obtain ⟨w1, w2⟩ := writes L (prog t (ls t)) h1
      obtain ⟨v1, v2⟩ := ih h2
      rw [h1]
      refine ⟨fun a k hne => ?_, fun k hne => ?_⟩
      · by_cases he : (m.get s.1 a)[k]? = (m.get g a)[k]?
        · obtain ⟨u, hu, a', e, hm⟩ := v1 a k (by rw [he]; exact hne)
          exact ⟨u, hu, a', e, List.mem_append_right _ hm⟩
        · obtain ⟨a', e, hm⟩ := w1 a k he
          exact ⟨t, hc.1, a', e, List.mem_append_left _ (List.mem_map.2 ⟨_, hm, rfl⟩)⟩
      · by_cases he : (m.getV s.1)[k]? = (m.getV g)[k]?
        · obtain ⟨u, hu, hm⟩ := v2 k (by rw [he]; exact hne)
          exact ⟨u, hu, List.mem_append_right _ hm⟩
        · exact ⟨t, hc.1, List.mem_append_left _ (List.mem_map.2 ⟨_, w2 k he, rfl⟩)⟩
    · rw [if_neg hc] at h ⊢
      exact ih h

theorem phase_runs {n : Nat} {step : Nat → σ → l → Res (σ × l)} {fin : l → Bool} {sched : List Nat} {g : σ} {ls : Nat → l}
    {r : σ × (Nat → l)} (h : phase n step fin sched g ls = .ok (some r)) : runs n step fin sched g ls = .ok r := by
  unfold phase at h
  obtain ⟨s, h1, h2⟩ := bind_ok' h
  rw [h1]
  split at h2
  split at h2 <;> cases h2
  rfl

theorem mapM_use {β : Type} : ∀ {xs : List (Option β)} {ys : List β}, xs.mapM use = .ok ys → ∀ k : Nat, xs[k]? ≠ some none := by
  intro xs
  induction xs with
  | nil => intro ys _ k; simp
  | cons x xs ih =>
    intro ys h k
    rw [List.mapM_cons] at h
    obtain ⟨y, h1, h2⟩ := bind_ok' h
    obtain ⟨zs, h3, _⟩ := bind_ok' h2
    cases k with
    | zero =>
      intro e
      simp only [List.getElem?_cons_zero, Option.some.injEq] at e
      subst e
      cases h1
    | succ k => simpa using ih h3 k

theorem mapM_len {β γ : Type} {f : β → Res γ} : ∀ {xs : List β} {ys : List γ}, xs.mapM f = .ok ys → ys.length = xs.length := by
  intro xs
  induction xs with
  | nil => intro ys h; cases h; rfl
  | cons x xs ih =>
    intro ys h
    rw [List.mapM_cons] at h
    obtain ⟨y, _, h2⟩ := bind_ok' h
    obtain ⟨zs, h3, h4⟩ := bind_ok' h2
    cases h4
    simp [ih h3]

/-- The last region of a call fills the arrays of the result. -/
theorem fills {n : Nat} {prog : Nat → l → Prog V l} {step : Nat → Sh V → l → Res (Sh V × l)}
    (hstep : ∀ t x g, (prog t x).exec shMem g = step t g x) {fin : l → Bool} {sched : List Nat} {g : Sh V} {ls : Nat → l}
    {r : Sh V × (Nat → l)} (h : phase n step fin sched g ls = .ok (some r)) {rows cols lo nnz : Nat} {zb : Bool} {C : CSR V}
    (hf : freeze rows cols zb r.1 = .ok C) (hp : ∀ k, lo ≤ k → k ≤ rows → g.rowptr[k]? = some none)
    (hc : g.colids = List.replicate nnz none) (hv : g.values = List.replicate nnz none) :
    (∀ k, lo ≤ k → k ≤ rows → ∃ t < n, (t, ⟨.rowptr, k, true⟩) ∈ trace shMem n prog fin sched g ls) ∧
    (∀ k < C.colids.length, ∃ t < n, (t, ⟨.colids, k, true⟩) ∈ trace shMem n prog fin sched g ls) ∧
    (∀ k < C.values.length, ∃ t < n, (t, ⟨.values, k, true⟩) ∈ trace shMem n prog fin sched g ls) := by
  obtain ⟨w1, w2⟩ := trace_writes lawful_sh hstep fin sched (phase_runs h)
  unfold freeze at hf
  obtain ⟨x, f1, hf⟩ := bind_ok' hf
  obtain ⟨y, f2, hf⟩ := bind_ok' hf
  obtain ⟨z, f3, hf⟩ := bind_ok' hf
  cases hf
  have rep : ∀ {β : Type} {xs : List (Option β)} {k : Nat}, k < xs.length → xs[k]? ≠ some none → xs[k]? ≠ (List.replicate nnz none)[k]? := by
    intro β xs k hk hx e
    rw [List.getElem?_replicate] at e
    split at e
    · exact hx e
    · rw [List.getElem?_eq_getElem hk] at e; cases e
  refine ⟨fun k h1 h2 => ?_, fun k hk => ?_, fun k hk => ?_⟩
  · obtain ⟨t, ht, a, e, hm⟩ := w1 .rowptr k (by
      show r.1.rowptr[k]? ≠ g.rowptr[k]?
      rw [hp k h1 h2]; exact mapM_use f1 k)
    cases e
    exact ⟨t, ht, hm⟩
  · obtain ⟨t, ht, a, e, hm⟩ := w1 .colids k (by
      show r.1.colids[k]? ≠ g.colids[k]?
      rw [hc]; exact rep (by rw [← mapM_len f2]; exact hk) (mapM_use f2 k))
    cases e
    exact ⟨t, ht, hm⟩
  · exact w2 k (by
      show r.1.values[k]? ≠ g.values[k]?
      rw [hv]; exact rep (by rw [← mapM_len f3]; exact hk) (mapM_use f3 k))

theorem initC_fresh {rows n : Nat} {g g' : Sh V} (h : initC rows n g = .ok g') :
    (∀ k, 0 ≤ k → k ≤ rows → g'.rowptr[k]? = some none) ∧
    ∃ nnz, g'.colids = List.replicate nnz none ∧ g'.values = List.replicate nnz none := by
  unfold initC at h
  obtain ⟨nnz, _, h⟩ := bind_ok' h
  cases h
  refine ⟨fun k _ hk => ?_, nnz, rfl, rfl⟩
  show (List.replicate (rows + 1) none)[k]? = _
  rw [List.getElem?_replicate, if_pos (by omega)]

theorem forRange_each {s : Type} {f : Nat → s → Res s} : ∀ {lo hi : Nat} {x y : s}, forRange lo hi x f = .ok y →
    ∀ i, lo ≤ i → i < hi → ∃ a b, f i a = .ok b := by
  intro lo hi
  induction hk : hi - lo generalizing lo with
  | zero => intro x y _ i h1 h2; omega
  | succ k ih =>
    intro x y h i h1 h2
    rw [forRange_step (by omega)] at h
    obtain ⟨b, e1, e2⟩ := bind_ok' h
    by_cases hi' : i = lo
    · subst hi'; exact ⟨x, b, e1⟩
    · exact ih (lo := lo + 1) (by omega) e2 i (by omega) h2

theorem accumulate_set {a : List (Option Nat)} {k x : Nat} (h : accumulate a k = .ok x) : ∀ i < k, ∃ v, a[i]? = some (some v) := by
  intro i hi
  unfold accumulate at h
  obtain ⟨c, d, e⟩ := forRange_each h i (Nat.zero_le i) hi
  obtain ⟨v, e1, e⟩ := bind_ok' e
  obtain ⟨w, e2, _⟩ := bind_ok' e
  have := RaceDot.get_of_rd e1
  cases v with
  | none => cases e2
  | some v => exact ⟨v, this⟩

/-- In the first part every thread leaves its number of entries. -/
theorem counts {m : Mem V σ} (L : Lawful m (id : Arr → Arr)) {n : Nat} {prog : Nat → l → Prog V l} {step : Nat → σ → l → Res (σ × l)}
    (hstep : ∀ t x g, (prog t x).exec m g = step t g x) {fin : l → Bool} {sched : List Nat} {g : σ} {ls : Nat → l}
    {r : σ × (Nat → l)} (h : phase n step fin sched g ls = .ok (some r)) {rows : Nat} {s s' : Sh V} (hi : initC rows n s = .ok s')
    (hs : s.threadsNvals = m.get r.1 .threadsNvals) (hg : m.get g .threadsNvals = List.replicate n none) :
    ∀ t < n, ∃ u < n, (u, ⟨.threadsNvals, t, true⟩) ∈ trace m n prog fin sched g ls := by
  intro t ht
  unfold initC at hi
  obtain ⟨nnz, e, _⟩ := bind_ok' hi
  obtain ⟨v, hv⟩ := accumulate_set e t ht
  obtain ⟨u, hu, a, ha, hm⟩ := (trace_writes L hstep fin sched (phase_runs h)).1 .threadsNvals t (by
    rw [← hs, hv, hg, List.getElem?_replicate, if_pos ht]
    simp)
  cases ha
  exact ⟨u, hu, hm⟩

/-- The accesses of the two parts of the main region contain the stores that a call with this result makes: the number of entries
of each of `n` threads in the first part, the row pointers from `lo` on, column indices and values in the second one. -/
def Stored (n lo rows : Nat) (C : CSR V) (first last : List (Nat × Access)) : Prop :=
  (∀ t < n, ∃ u < n, (u, ⟨.threadsNvals, t, true⟩) ∈ first) ∧
  (∀ k, lo ≤ k → k ≤ rows → ∃ t < n, (t, ⟨.rowptr, k, true⟩) ∈ last) ∧
  (∀ k < C.colids.length, ∃ t < n, (t, ⟨.colids, k, true⟩) ∈ last) ∧
  (∀ k < C.values.length, ∃ t < n, (t, ⟨.values, k, true⟩) ∈ last)

theorem stored1p {alg : RowAlg V} {mul add : V → V → V} {A B M : CSR V} {zb : Bool} {nt dflt : Nat} {sch : Scheds} {C : CSR V}
    (hret : spgemm1p alg mul add A B M zb nt dflt sch = .ok (some C)) :
    ∃ pre first last, traces1p alg mul add A B M nt dflt sch = pre ++ [first, last] ∧
      Stored (setNumThreads nt dflt) 0 A.rows C first last := by
  unfold spgemm1p at hret
  unfold traces1p
  generalize setNumThreads nt dflt = n at *
  simp only at hret ⊢
  obtain ⟨p, hp, hret⟩ := bind_ok' hret
  obtain _ | p := p
  · cases hret
  obtain ⟨ls, e1, hret⟩ := bind_ok' hret
  obtain ⟨rngs, e2, hret⟩ := bind_ok' hret
  rw [hp]
  simp only [e1, e2]
  obtain _ | ⟨l0, ls⟩ := ls
  · cases hret
  obtain ⟨r, hr1, hret⟩ := bind_ok' hret
  obtain _ | r := r
  · cases hret
  simp only [hr1]
  obtain ⟨g, hg, hret⟩ := bind_ok' hret
  simp only [hg]
  obtain ⟨q, hq, hret⟩ := bind_ok' hret
  obtain _ | q := q
  · cases hret
  obtain ⟨C', hC, hret⟩ := bind_ok' hret
  cases hret
  obtain ⟨f1, nnz, f2, f3⟩ := initC_fresh hg
  exact ⟨_, _, _, rfl, counts lawful_sh (exec_prog1 alg mul add A B M _) hr1 hg rfl rfl,
    fills (exec_prog3 A.rows n _ _) hq hC f1 f2 f3⟩

theorem stored2p {alg : RowAlg V} {mul add : V → V → V} {A B M : CSR V} {zb : Bool} {nt dflt : Nat} {sch : Scheds} {C : CSR V}
    (hret : spgemm2p alg mul add A B M zb nt dflt sch = .ok (some C)) :
    ∃ pre first last, traces2p alg mul add A B M nt dflt sch = pre ++ [first, last] ∧
      Stored (setNumThreads nt dflt) 0 A.rows C first last := by
  unfold spgemm2p at hret
  unfold traces2p
  generalize setNumThreads nt dflt = n at *
  simp only at hret ⊢
  obtain ⟨p, hp, hret⟩ := bind_ok' hret
  obtain _ | p := p
  · cases hret
  obtain ⟨ls, e1, hret⟩ := bind_ok' hret
  obtain ⟨rngs, e2, hret⟩ := bind_ok' hret
  rw [hp]
  simp only [e1, e2]
  obtain _ | ⟨l0, ls⟩ := ls
  · cases hret
  obtain ⟨r, hr1, hret⟩ := bind_ok' hret
  obtain _ | r := r
  · cases hret
  simp only [hr1]
  obtain ⟨g, hg, hret⟩ := bind_ok' hret
  simp only [hg]
  obtain ⟨q, hq, hret⟩ := bind_ok' hret
  obtain _ | q := q
  · cases hret
  obtain ⟨C', hC, hret⟩ := bind_ok' hret
  cases hret
  obtain ⟨f1, nnz, f2, f3⟩ := initC_fresh hg
  exact ⟨_, _, _, rfl, counts lawful_sh (exec_prog2 alg A B M _) hr1 hg rfl rfl,
    fills (exec_prog4 alg mul add A B M n _) hq hC f1 f2 f3⟩

theorem storedInner1p {mul add : V → V → V} {A : CSR V} {B : CSC V} {M : CSR V} {zb : Bool} {nt dflt : Nat} {sch : Scheds} {C : CSR V}
    (hret : Inner.spgemm1p mul add A B M zb nt dflt sch = .ok (some C)) :
    ∃ pre first last, innerTraces1p mul add A B M nt dflt sch = pre ++ [first, last] ∧
      Stored (setNumThreads nt dflt) 0 A.rows C first last := by
  unfold Inner.spgemm1p at hret
  unfold innerTraces1p
  generalize setNumThreads nt dflt = n at *
  simp only at hret ⊢
  obtain ⟨p, hp, hret⟩ := bind_ok' hret
  obtain _ | p := p
  · cases hret
  obtain ⟨ls, e1, hret⟩ := bind_ok' hret
  obtain ⟨rngs, e2, hret⟩ := bind_ok' hret
  rw [hp]
  simp only [e1, e2]
  obtain _ | ⟨l0, ls⟩ := ls
  · cases hret
  obtain ⟨r, hr1, hret⟩ := bind_ok' hret
  obtain _ | r := r
  · cases hret
  simp only [hr1]
  obtain ⟨outs, ho, hret⟩ := bind_ok' hret
  obtain ⟨g, hg, hret⟩ := bind_ok' hret
  simp only [ho, hg]
  obtain ⟨q, hq, hret⟩ := bind_ok' hret
  obtain _ | q := q
  · cases hret
  obtain ⟨C', hC, hret⟩ := bind_ok' hret
  cases hret
  obtain ⟨f1, nnz, f2, f3⟩ := initC_fresh hg
  exact ⟨_, _, _, rfl, counts lawful_buf (exec_innerProg1 mul add A B M _) hr1 hg rfl rfl,
    fills (exec_prog3 A.rows n _ _) hq hC f1 f2 f3⟩

theorem storedInner2p {mul add : V → V → V} {A : CSR V} {B : CSC V} {M : CSR V} {zb : Bool} {nt dflt : Nat} {sch : Scheds} {C : CSR V}
    (hret : Inner.spgemm2p mul add A B M zb nt dflt sch = .ok (some C)) :
    ∃ pre first last, innerTraces2p mul add A B M nt dflt sch = pre ++ [first, last] ∧
      Stored (setNumThreads nt dflt) 0 A.rows C first last := by
  unfold Inner.spgemm2p at hret
  unfold innerTraces2p
  generalize setNumThreads nt dflt = n at *
  simp only at hret ⊢
  obtain ⟨p, hp, hret⟩ := bind_ok' hret
  obtain _ | p := p
  · cases hret
  obtain ⟨ls, e1, hret⟩ := bind_ok' hret
  obtain ⟨rngs, e2, hret⟩ := bind_ok' hret
  rw [hp]
  simp only [e1, e2]
  obtain _ | ⟨l0, ls⟩ := ls
  · cases hret
  obtain ⟨r, hr1, hret⟩ := bind_ok' hret
  obtain _ | r := r
  · cases hret
  simp only [hr1]
  obtain ⟨g, hg, hret⟩ := bind_ok' hret
  simp only [hg]
  obtain ⟨q, hq, hret⟩ := bind_ok' hret
  obtain _ | q := q
  · cases hret
  obtain ⟨C', hC, hret⟩ := bind_ok' hret
  cases hret
  obtain ⟨f1, nnz, f2, f3⟩ := initC_fresh hg
  exact ⟨_, _, _, rfl, counts lawful_sh (exec_innerProg2 A B M _) hr1 hg rfl rfl,
    fills (exec_innerProg4 mul add A B M _ n _) hq hC f1 f2 f3⟩

theorem alloc_fresh {rows n : Nat} {g g' : Sh V} (h : Gen.alloc rows n g = .ok g') :
    (∀ k, 1 ≤ k → k ≤ rows → g'.rowptr[k]? = some none) ∧
    ∃ nnz, g'.colids = List.replicate nnz none ∧ g'.values = List.replicate nnz none := by
  unfold Gen.alloc at h
  obtain ⟨nnz, _, h⟩ := bind_ok' h
  obtain ⟨rp, hr, h⟩ := bind_ok' h
  cases h
  refine ⟨fun k h1 hk => ?_, nnz, rfl, rfl⟩
  show rp[k]? = _
  rw [RaceConv.get_wr hr (by omega), List.getElem?_replicate, if_pos (by omega)]

theorem storedGen {alg : Gen.Alg V} {mul add : V → V → V} {zero : V} {A B M : CSR V} {zb : Bool} {nt dflt : Nat} {sch : Scheds} {C : CSR V}
    (hret : Gen.heapSpGEMM alg mul add zero A B M zb nt dflt sch = .ok (some C)) :
    ∃ pre first last, Gen.traces alg mul add zero A B M nt dflt sch = pre ++ [first, last] ∧
      (∀ k, 1 ≤ k → k ≤ A.rows → ∃ t < setNumThreads nt dflt, (t, ⟨.rowptr, k, true⟩) ∈ last) ∧
      (∀ k < C.colids.length, ∃ t < setNumThreads nt dflt, (t, ⟨.colids, k, true⟩) ∈ last) ∧
      (∀ k < C.values.length, ∃ t < setNumThreads nt dflt, (t, ⟨.values, k, true⟩) ∈ last) := by
  unfold Gen.heapSpGEMM Gen.region at hret
  unfold Gen.traces
  generalize setNumThreads nt dflt = n at *
  simp only at hret ⊢
  obtain ⟨p, hp, hret⟩ := bind_ok' hret
  obtain _ | p := p
  · cases hret
  obtain ⟨rngs, e1, hret⟩ := bind_ok' hret
  obtain ⟨ls, e2, hret⟩ := bind_ok' hret
  rw [hp]
  simp only [e1, e2]
  obtain _ | ⟨l0, ls⟩ := ls
  · cases hret
  obtain ⟨r, hr1, hret⟩ := bind_ok' hret
  obtain _ | r := r
  · cases hret
  simp only [hr1]
  obtain ⟨g, hg, hret⟩ := bind_ok' hret
  simp only [hg]
  obtain ⟨q, hq, hret⟩ := bind_ok' hret
  obtain _ | q := q
  · cases hret
  obtain ⟨C', hC, hret⟩ := bind_ok' hret
  cases hret
  obtain ⟨f1, nnz, f2, f3⟩ := alloc_fresh hg
  exact ⟨[_], _, _, rfl, fills (exec_prog3 A.rows n _ _) hq hC f1 f2 f3⟩

end Verif.Model.Race
