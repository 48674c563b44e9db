import Verif.Lemmas.RaceCover
import Verif.Lemmas.RaceOldFree

/-!
# What the last region of an older kernel changes is listed as written
-/

namespace Verif.Model.RaceOld
open Alias (bind_ok')
open Race (phase_runs)

variable {V α β l : Type}

theorem trace_writes {n : Nat} {prog : Nat → l → Prog V l} {step : Nat → Mem V → l → Res (Mem V × l)}
    (hstep : ∀ t x g, (prog t x).exec g = step t g x) (fin : l → Bool) : ∀ (sched : List Nat) {g : Mem V} {ls : Nat → l}
    {r : Mem V × (Nat → l)}, runs n step fin sched g ls = .ok r →
    (∀ k, r.1.1[k]? ≠ g.1[k]? → ∃ t < n, (t, ⟨.numbers, k, true⟩) ∈ trace n prog fin sched g ls) ∧
    (∀ k, r.1.2[k]? ≠ g.2[k]? → ∃ t < n, (t, ⟨.values, k, true⟩) ∈ trace n prog fin sched g ls) := by
  intro sched
  induction sched with
  | nil => intro g ls r h; cases h; exact ⟨fun _ h => absurd rfl h, fun _ h => absurd rfl h⟩
  | cons t ts ih =>
    intro g ls r h
    unfold runs at h
    unfold trace
    by_cases hc : t < n ∧ fin (ls t) = false
    · rw [if_pos hc] at h ⊢
      obtain ⟨s, h1, h2⟩ := bind_ok' h
      rw [← hstep] at h1
      obtain ⟨w1, w2⟩ := writes (prog t (ls t)) h1
      obtain ⟨v1, v2⟩ := ih h2
      rw [h1]
      refine ⟨fun k hne => ?_, fun k hne => ?_⟩
      · by_cases he : s.1.1[k]? = g.1[k]?
        · obtain ⟨u, hu, hm⟩ := v1 k (by rw [he]; exact hne)
          exact ⟨u, hu, List.mem_append_right _ hm⟩
        · exact ⟨t, hc.1, List.mem_append_left _ (List.mem_map.2 ⟨_, w1 k he, rfl⟩)⟩
      · by_cases he : s.1.2[k]? = g.2[k]?
        · obtain ⟨u, hu, hm⟩ := v2 k (by rw [he]; exact hne)
          exact ⟨u, hu, List.mem_append_right _ hm⟩
        · exact ⟨t, hc.1, List.mem_append_left _ (List.mem_map.2 ⟨_, w2 k he, rfl⟩)⟩
    · rw [if_neg hc] at h ⊢
      exact ih h

theorem exec_blockProg {off : List Nat} {init : Nat → Nat → Nat → Res α} {prog : Nat → α → Prog V α}
    {row : Nat → Mem V → α → Res (Mem V × α)} (h : ∀ i a g, (prog i a).exec g = row i g a) (t : Nat) (x : Option (α × Nat × Nat))
    (g : Mem V) : (blockProg off init prog t x).exec g = blockStep off init row t g x := by
  cases x with
  | none =>
    unfold blockProg blockStep
    rw [exec_priv]
    cases rd off t with
    | error e => rfl
    | ok lo =>
      simp only [ok_bind]
      cases rd off (t + 1) with
      | error e => rfl
      | ok hi =>
        simp only [ok_bind]
        cases init t lo hi <;> rfl
  | some x =>
    unfold blockProg blockStep
    rw [exec_bind, h]
    rfl

theorem block_writes {n : Nat} {off : List Nat} {init : Nat → Nat → Nat → Res α} {prog : Nat → α → Prog V α}
    {row : Nat → Mem V → α → Res (Mem V × α)} (h : ∀ i a g, (prog i a).exec g = row i g a) {sched : List Nat} {g g' : Mem V} {xs : List α}
    (hb : blocks n off init row sched g = .ok (some (g', xs))) :
    (∀ k, g'.1[k]? ≠ g.1[k]? → ∃ t < n, (t, ⟨.numbers, k, true⟩) ∈ blockTrace n off init prog sched g) ∧
    (∀ k, g'.2[k]? ≠ g.2[k]? → ∃ t < n, (t, ⟨.values, k, true⟩) ∈ blockTrace n off init prog sched g) := by
  unfold blocks at hb
  obtain ⟨r, h1, h2⟩ := bind_ok' hb
  obtain _ | r := r
  · cases h2
  cases h2
  exact trace_writes (exec_blockProg h) blockFin sched (phase_runs h1)

theorem loop_writes {who : Nat → Nat} {prog : Nat → Prog V Unit} {step : Mem V → Nat → Res (Mem V)}
    (h : ∀ i g, (prog i).exec g = (step g i >>= fun g => .ok (g, ()))) : ∀ {order : List Nat} {g g' : Mem V},
    order.foldlM step g = .ok g' →
    (∀ k, g'.1[k]? ≠ g.1[k]? → ∃ i ∈ order, (who i, ⟨.numbers, k, true⟩) ∈ loopTrace who prog order g) ∧
    (∀ k, g'.2[k]? ≠ g.2[k]? → ∃ i ∈ order, (who i, ⟨.values, k, true⟩) ∈ loopTrace who prog order g) := by
  intro order
  induction order with
  | nil => intro g g' h; cases h; exact ⟨fun _ h => absurd rfl h, fun _ h => absurd rfl h⟩
  | cons i is ih =>
    intro g g' hf
    rw [List.foldlM_cons] at hf
    obtain ⟨s, h1, h2⟩ := bind_ok' hf
    have he : (prog i).exec g = .ok (s, ()) := by rw [h, h1]; rfl
    obtain ⟨w1, w2⟩ := writes (prog i) he
    obtain ⟨v1, v2⟩ := ih h2
    unfold loopTrace
    rw [he]
    refine ⟨fun k hne => ?_, fun k hne => ?_⟩
    · by_cases hx : s.1[k]? = g.1[k]?
      · obtain ⟨j, hj, hm⟩ := v1 k (by rw [hx]; exact hne)
        exact ⟨j, List.mem_cons_of_mem _ hj, List.mem_append_right _ hm⟩
      · exact ⟨i, List.mem_cons_self, List.mem_append_left _ (List.mem_map.2 ⟨_, w1 k hx, rfl⟩)⟩
    · by_cases hx : s.2[k]? = g.2[k]?
      · obtain ⟨j, hj, hm⟩ := v2 k (by rw [hx]; exact hne)
        exact ⟨j, List.mem_cons_of_mem _ hj, List.mem_append_right _ hm⟩
      · exact ⟨i, List.mem_cons_self, List.mem_append_left _ (List.mem_map.2 ⟨_, w2 k hx, rfl⟩)⟩

theorem ne_replicate {γ : Type} {xs : List γ} {m k : Nat} {d : γ} (hk : k < xs.length) (h : xs[k]? ≠ some d) :
    xs[k]? ≠ (List.replicate m d)[k]? := by
  intro e
  rw [List.getElem?_replicate] at e
  split at e
  · exact h e
  · rw [List.getElem?_eq_getElem hk] at e; cases e

theorem app3 {γ : Type} (x : List γ) (a b c : γ) : x ++ [a, b, c] = x ++ [a] ++ [b, c] := by simp

theorem done_ok (x : Option α) : done (.ok x) = x := rfl

/-- Column indices other than 0 and values other than `dflt` have been stored. -/
def Put (C : CSR V) (dflt : V) (tr : List (Nat × Access)) : Prop :=
  (∀ k < C.colids.length, C.colids[k]? ≠ some 0 → ∃ t, (t, ⟨.numbers, k, true⟩) ∈ tr) ∧
  (∀ k < C.values.length, C.values[k]? ≠ some dflt → ∃ t, (t, ⟨.values, k, true⟩) ∈ tr)

theorem stored_hash {sorted : Bool} {sortf : List (Nat × V) → List (Nat × V)} {mul add : V → V → V} {A B : CSR V} {dflt : V}
    {n nd : Nat} {w1 w2 : Nat → Nat} {tables : List Nat} {sch : HashMult.Sched} {C : CSR V}
    (h : HashMult.hashSpGEMM sorted sortf mul add A B dflt n nd sch = .ok (some C)) :
    ∃ pre count last, hashTraces sorted sortf mul add A B dflt n nd w1 w2 tables sch = pre ++ [count, last] ∧ Put C dflt last := by
  unfold HashMult.hashSpGEMM at h
  obtain ⟨p, e1, h⟩ := bind_ok' h
  obtain _ | p := p
  · cases h
  obtain ⟨tb, e2, h⟩ := bind_ok' h
  obtain ⟨r, e3, h⟩ := bind_ok' h
  obtain _ | ⟨rowNz, tb2⟩ := r
  · cases h
  obtain ⟨r, e4, h⟩ := bind_ok' h
  obtain _ | rowptr := r
  · cases h
  obtain ⟨nnz, e5, h⟩ := bind_ok' h
  obtain ⟨r, e6, h⟩ := bind_ok' h
  obtain _ | ⟨⟨cs, vs⟩, tb3⟩ := r
  · cases h
  cases h
  obtain ⟨b1, b2⟩ := block_writes (fun i a g => exec_numRow sorted sortf mul add dflt A B rowptr p.binId i a g) e6
  unfold hashTraces
  simp only [e1, e3, e4, done_ok, e2, e5]
  exact ⟨binTraces A B A.rows B.cols 8 n nd w1 w2 sch.bin ++ [_], _, _, app3 _ _ _ _,
    fun k hk hne => (b1 k (ne_replicate hk hne)).imp fun _ h => h.2, fun k hk hne => (b2 k (ne_replicate hk hne)).imp fun _ h => h.2⟩

theorem stored_twoPass {A B : CSR V} {dflt : V} {n nd : Nat} {init1 : Nat → Nat → Nat → Res α}
    {row1 : Nat → List Nat → α → Res (List Nat × α)} {prog1 : Nat → α → Prog V α} {init2 : Nat → Nat → Nat → Res β}
    {row2 : List Nat → Nat → Mem V → β → Res (Mem V × β)} {prog2 : List Nat → Nat → β → Prog V β}
    (he : ∀ rp i a g, (prog2 rp i a).exec g = row2 rp i g a) {sch : TwoPassSched} {C : CSR V}
    (h : twoPass A B dflt n nd init1 row1 init2 row2 sch = .ok (some C)) :
    ∃ count last, twoPassTraces A B dflt n nd init1 row1 prog1 init2 prog2 sch = [count, last] ∧ Put C dflt last := by
  unfold twoPass at h
  obtain ⟨p, e1, h⟩ := bind_ok' h
  obtain _ | p := p
  · cases h
  obtain ⟨r, e3, h⟩ := bind_ok' h
  obtain _ | ⟨rowNz, tb2⟩ := r
  · cases h
  obtain ⟨r, e4, h⟩ := bind_ok' h
  obtain _ | rowptr := r
  · cases h
  obtain ⟨nnz, e5, h⟩ := bind_ok' h
  obtain ⟨r, e6, h⟩ := bind_ok' h
  obtain _ | ⟨⟨cs, vs⟩, tb3⟩ := r
  · cases h
  cases h
  obtain ⟨b1, b2⟩ := block_writes (he rowptr) e6
  unfold twoPassTraces
  simp only [e1, e3, e4, done_ok, e5]
  exact ⟨_, _, rfl, fun k hk hne => (b1 k (ne_replicate hk hne)).imp fun _ h => h.2,
    fun k hk hne => (b2 k (ne_replicate hk hne)).imp fun _ h => h.2⟩

theorem stored_spa {mul add : V → V → V} {A B M : CSR V} {dflt : V} {n nd : Nat} {w1 w2 : Nat → Nat} {sch : TwoPassSched} {C : CSR V}
    (h : Spa.spaSpGEMM mul add A B M dflt n nd sch = .ok (some C)) :
    ∃ pre count last, spaTraces mul add A B M dflt n nd w1 w2 sch = pre ++ [count, last] ∧ Put C dflt last := by
  obtain ⟨count, last, e, hp⟩ := stored_twoPass (prog1 := spaCountRow A B M)
    (fun rp i a g => exec_spaFillRow mul add A B M rp i a g) h
  exact ⟨_, count, last, by unfold spaTraces; rw [e], hp⟩

theorem stored_mask {mul add : V → V → V} {A B M : CSR V} {dflt : V} {n nd : Nat} {w1 w2 : Nat → Nat} {team tables : List Nat}
    {sch : TwoPassSched} {C : CSR V} (h : LpMult.hashMask mul add A B M dflt n nd sch = .ok (some C)) :
    ∃ pre count last, maskTraces mul add A B M dflt n nd w1 w2 team tables sch = pre ++ [count, last] ∧ Put C dflt last := by
  obtain ⟨count, last, e, hp⟩ := stored_twoPass (prog1 := lpCountRow A B M)
    (fun rp i a g => exec_lpFillRow mul add dflt A B M rp i a g) h
  exact ⟨_ :: _, count, last, by unfold maskTraces lpTraces; rw [e]; rfl, hp⟩

theorem stored_wobin {mul add : V → V → V} {A B M : CSR V} {dflt : V} {nd : Nat} {w1 w2 : Nat → Nat} {order1 s1 s2 order2 : List Nat}
    {C : CSR V} (h : LpMult.hashMaskWobin mul add A B M dflt nd order1 s1 s2 order2 = .ok (some C)) :
    ∃ count last, wobinTraces mul add A B M dflt nd w1 w2 order1 s1 s2 order2 = [count, last] ∧ Put C dflt last := by
  unfold LpMult.hashMaskWobin at h
  obtain ⟨rowNz, e1, h⟩ := bind_ok' h
  obtain ⟨r, e4, h⟩ := bind_ok' h
  obtain _ | rowptr := r
  · cases h
  obtain ⟨nnz, e5, h⟩ := bind_ok' h
  obtain ⟨⟨cs, vs⟩, e6, h⟩ := bind_ok' h
  cases h
  obtain ⟨b1, b2⟩ := loop_writes (who := w2) (prog := wobinFill mul add dflt A B M rowptr) (fun i g => by
    unfold wobinFill
    rw [exec_priv_bind]
    cases LpMult.rowTable M i (dflt, false) with
    | error e => rfl
    | ok t =>
      simp only [ok_bind]
      rw [exec_bind, exec_lpFillRow]
      cases LpMult.fillRow mul add dflt A B M rowptr i g t <;> rfl) e6
  unfold wobinTraces
  simp only [e1, e4, done_ok, e5]
  exact ⟨_, _, rfl, fun k hk hne => (b1 k (ne_replicate hk hne)).elim fun i h => ⟨_, h.2⟩,
    fun k hk hne => (b2 k (ne_replicate hk hne)).elim fun i h => ⟨_, h.2⟩⟩

end Verif.Model.RaceOld
