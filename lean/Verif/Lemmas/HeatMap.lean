import Verif.Model.HeatMap
import Verif.SpecHeatMap
import Verif.Lemmas.MaskedAll
import Verif.Lemmas.Rmat
import Verif.Props.C57
import Verif.Props.C61
import Verif.Props.C77
import Mathlib.Data.List.ProdSigma

/-! # Lemmas for the benchmark on random matrices -/

namespace Verif.Model.HeatMap

open Verif.Spec
open Bench (Out seqAll Gives repeatCall makeEmpty newObj)
open MaskedAll (Good seqAll_good seq_good)

/-! ## Loops -/

theorem doubled_step {lo hi : Nat} (h0 : 0 < lo) (hhi : hi < 2 ^ 32) :
    doubled lo hi = if lo ≤ hi then lo :: doubled (lo * 2) hi else [] := by
  by_cases h : lo ≤ hi
  · rw [if_pos h]
    have e : doubled (lo * 2) hi = ((List.range 31 ++ [31]).map fun i => lo * 2 * 2 ^ i).filter fun x => decide (x ≤ hi) := rfl
    rw [e]
    unfold doubled
    rw [show List.range 32 = 0 :: (List.range 31).map (· + 1) from rfl, List.map_cons, List.map_map, List.filter_cons]
    rw [if_pos (by simpa using h), Nat.pow_zero, Nat.mul_one]
    congr 1
    rw [List.map_append, List.filter_append]
    have : ((List.map (fun i => lo * 2 * 2 ^ i) [31]).filter fun x => decide (x ≤ hi)) = [] := by
      simp only [List.map_cons, List.map_nil, List.filter_cons, List.filter_nil]
      rw [if_neg]
      simp only [decide_eq_true_eq]
      omega
    rw [this, List.append_nil]
    congr 1
    apply List.map_congr_left
    intro i _
    simp only [Function.comp_def]
    rw [Nat.pow_succ, Nat.mul_assoc, Nat.mul_comm 2]
  · rw [if_neg h]
    unfold doubled
    rw [List.filter_eq_nil_iff]
    intro x hx
    rw [List.mem_map] at hx
    obtain ⟨i, _, rfl⟩ := hx
    have : 1 ≤ 2 ^ i := Nat.one_le_two_pow
    have : lo * 1 ≤ lo * 2 ^ i := Nat.mul_le_mul_left _ this
    simp only [decide_eq_true_eq]
    omega

theorem mem_doubled {lo hi x : Nat} (h0 : 0 < lo) (h : x ∈ doubled lo hi) : 0 < x ∧ x ≤ hi := by
  unfold doubled at h
  rw [List.mem_filter, List.mem_map] at h
  obtain ⟨⟨i, _, rfl⟩, h⟩ := h
  exact ⟨Nat.mul_pos h0 (Nat.two_pow_pos _), by simpa using h⟩

theorem doublings_eq {hi : Nat} (hhi : hi < 2 ^ 31) : ∀ (k lo : Nat), 0 < lo → hi < lo * 2 ^ k → doublings hi (k + 1) lo = .ok (doubled lo hi) := by
  intro k
  induction k with
  | zero =>
    intro lo h0 h
    rw [doubled_step h0 (by omega), doublings, if_neg (by omega), if_neg (by omega)]
  | succ k ih =>
    intro lo h0 h
    rw [doubled_step h0 (by omega), doublings]
    by_cases hl : lo ≤ hi
    · rw [if_pos hl, if_pos hl, Nat.mod_eq_of_lt (by omega), ih (lo * 2) (by omega) (by rw [Nat.pow_succ] at h; rw [Nat.mul_assoc, Nat.mul_comm 2]; exact h)]
      rfl
    · rw [if_neg hl, if_neg hl]

theorem dimLoop_eq {E : Type} (body : Nat → Out E) {hi : Nat} (hhi : hi < 2 ^ 31) : ∀ (k lo : Nat), 0 < lo → hi < lo * 2 ^ k →
    dimLoop body hi (k + 1) lo = seqAll ((doubled lo hi).map body) := by
  intro k
  induction k with
  | zero =>
    intro lo h0 h
    rw [doubled_step h0 (by omega), dimLoop, if_neg (by omega), if_neg (by omega)]
    rfl
  | succ k ih =>
    intro lo h0 h
    rw [doubled_step h0 (by omega), dimLoop]
    by_cases hl : lo ≤ hi
    · rw [if_pos hl, if_pos hl, Nat.mod_eq_of_lt (by omega), ih (lo * 2) (by omega) (by rw [Nat.pow_succ] at h; rw [Nat.mul_assoc, Nat.mul_comm 2]; exact h)]
      rfl
    · rw [if_neg hl, if_neg hl]
      rfl

theorem fuel_enough {hi lo fuel : Nat} (hhi : hi < 2 ^ 31) (h0 : 0 < lo) (hf : 32 < fuel) : ∃ k, fuel = k + 1 ∧ hi < lo * 2 ^ k := by
  refine ⟨fuel - 1, by omega, ?_⟩
  have h1 : 2 ^ 32 ≤ 2 ^ (fuel - 1) := Nat.pow_le_pow_right (by omega) (by omega)
  have h2 : 1 * 2 ^ (fuel - 1) ≤ lo * 2 ^ (fuel - 1) := Nat.mul_le_mul_right _ h0
  omega

theorem scaleLoop_eq (s : Nat) (hs : s ≤ 31) : ∀ (fuel i : Nat), i ≤ s → s - i < fuel → scaleLoop (2 ^ s) fuel (2 ^ i) i = .ok s := by
  intro fuel
  induction fuel with
  | zero => intro i _ h; omega
  | succ fuel ih =>
    intro i hi hf
    unfold scaleLoop
    by_cases h : i = s
    · subst h
      rw [if_neg (by omega)]
    · have h1 : 2 ^ i < 2 ^ s := Nat.pow_lt_pow_right (by omega) (by omega)
      have h2 : 2 ^ (i + 1) ≤ 2 ^ 31 := Nat.pow_le_pow_right (by omega) (by omega)
      rw [if_pos h1, ← Nat.pow_succ, Nat.mod_eq_of_lt (by omega)]
      exact ih (i + 1) (by omega) (by omega)

/-- Parts that run one after the other, each with its own bound on the number of turns -/
theorem all_good {α E S : Type} {Adm : S → Prop} {FA : Nat → S → Prop} (mono : ∀ K K' s, K ≤ K' → FA K' s → FA K s) (l : List α)
    {f : α → S → Out E} {w : α → List E} (h : ∀ a ∈ l, ∃ K, ∀ s, Adm s → Good (FA K s) (w a) (f a s)) :
    ∃ K, ∀ s, Adm s → Good (FA K s) (l.flatMap w) (seqAll (l.map fun a => f a s)) := by
  induction l with
  | nil => exact ⟨0, fun s _ => .inl rfl⟩
  | cons a l ih =>
    obtain ⟨K1, h1⟩ := h a (by simp)
    obtain ⟨K2, h2⟩ := ih fun b hb => h b (by simp [hb])
    refine ⟨max K1 K2, fun s hs => ?_⟩
    exact seq_good (MaskedAll.Good.weaken (h1 s hs) (mono _ _ _ (Nat.le_max_left _ _)))
      (MaskedAll.Good.weaken (h2 s hs) (mono _ _ _ (Nat.le_max_right _ _)))

/-! ## Matrices and the positions of their entries -/

/-- The two forms of a matrix whose entries are at the positions `S` -/
structure Has (rows cols : Nat) (S : Finset (Nat × Nat)) (c : CSC Val) (r : CSR Val) : Prop where
  wfc : c.WF
  sortedC : c.SortedCols
  wf : r.WF
  sorted : r.SortedRows
  hrows : r.rows = rows
  hcols : r.cols = cols
  same : SameMat r c
  nnzc : c.nnz = r.nnz
  pos : ∀ p, p ∈ (triples r).map (fun t => (t.1, t.2.1)) ↔ p ∈ S

variable {rows cols : Nat} {S : Finset (Nat × Nat)} {c : CSC Val} {r : CSR Val}

theorem triplesC_length {V : Type} {c : CSC V} (h : c.WF) : (triplesC c).length = c.nnz := by
  rw [show c.nnz = (Dot.asRows c).nnz from rfl, ← Bench.triples_length (Dot.asRows_wf h)]
  unfold triplesC triples
  rw [List.length_flatMap, List.length_flatMap]
  congr 1
  refine List.map_congr_left fun j _ => ?_
  rw [List.length_map, List.length_map]
  rfl

theorem has_of_csc (h : c.WF) (hs : c.SortedCols) (hr : c.rows = rows) (hc : c.cols = cols)
    (hp : ∀ p, p ∈ (triplesC c).map (fun t => (t.1, t.2.1)) ↔ p ∈ S) : ∃ r, Conv.csrOfCsc 0 c = .ok r ∧ Has rows cols S c r := by
  obtain ⟨r, e, h1, h2, h3, h4, -, h6, h7⟩ := Props.C21_csc_to_csr (0 : Val) h
  refine ⟨r, e, h, hs, h1, h6 fun j hj => (hs j hj).imp Nat.ne_of_lt, h2.trans hr, h3.trans hc, h7, ?_, fun p => ?_⟩
  · rw [← Bench.triples_length h1, h4.length_eq, triplesC_length h]
  · rw [(h4.map _).mem_iff]
    exact hp p

theorem Has.nodup (h : Has rows cols S c r) : ((triples r).map fun t => (t.1, t.2.1)).Nodup :=
  Bench.triples_nodup h.wf (Graph.nodup_of_sorted h.sorted)

theorem Has.toFinset (h : Has rows cols S c r) : ((triples r).map fun t => (t.1, t.2.1)).toFinset = S := by
  ext p
  rw [List.mem_toFinset]
  exact h.pos p

theorem Has.nnz (h : Has rows cols S c r) : r.nnz = S.card := by
  rw [← h.toFinset, List.toFinset_card_of_nodup h.nodup, List.length_map, Bench.triples_length h.wf]

theorem product_map {α β α' β' : Type} (f : α → α') (g : β → β') (l : List α) (m : List β) :
    (l.map f) ×ˢ (m.map g) = (l ×ˢ m).map (Prod.map f g) := by
  induction l with
  | nil => rfl
  | cons a l ih =>
    rw [List.map_cons, List.product_cons, List.product_cons, List.map_append, ih]
    congr 1
    rw [List.map_map, List.map_map]
    rfl

/-- The number of products from the positions -/
theorem pairings_meetings {k n : Nat} {T : Finset (Nat × Nat)} {c' : CSC Val} {r' : CSR Val} (h : Has rows k S c r) (h' : Has k n T c' r') :
    pairings (triples r) (triples r') = meetings S T := by
  unfold meetings
  rw [← h.toFinset, ← h'.toFinset]
  have e : pairings (triples r) (triples r') =
      ((((triples r).map fun t => (t.1, t.2.1)) ×ˢ ((triples r').map fun t => (t.1, t.2.1))).filter fun p => decide (p.1.2 = p.2.1)).length := by
    unfold pairings
    rw [product_map, List.filter_map, List.length_map]
    rfl
  rw [e, ← List.toFinset_card_of_nodup (List.Nodup.filter _ (List.Nodup.product h.nodup h'.nodup))]
  congr 1
  ext p
  simp only [List.mem_toFinset, List.mem_filter, Finset.mem_filter, Finset.mem_product, decide_eq_true_eq]
  rw [show (p ∈ ((triples r).map fun t => (t.1, t.2.1)) ×ˢ ((triples r').map fun t => (t.1, t.2.1))) ↔ _ from List.pair_mem_product (x := p.1) (y := p.2)]

/-! ## One line -/

theorem flops_eq {A B : CSR Val} (hA : A.WF) (hB : B.WF) (hAB : A.cols = B.rows) {dimMax : Nat} (hd : A.rows ≤ dimMax) {order : List Nat}
    (ho : order.Perm (List.range A.rows)) : flops dimMax A B order = .ok (pairings (triples A) (triples B) % 2 ^ 32) := by
  unfold flops
  obtain ⟨s, e, h1, h2⟩ := foldlM_inv (f := fun (s : List (Option Nat) × Nat) i => (do
      let f ← Wid.flopsRow (2 ^ 32) A B i
      let fpr ← wr s.1 i (some f)
      .ok (fpr, (s.2 + f) % 2 ^ 32) : Res (List (Option Nat) × Nat)))
    (fun pre s => s.1.length = dimMax ∧ s.2 = (pre.map (Bin.nprod A B)).sum % 2 ^ 32) order (List.replicate dimMax none, 0)
    ⟨by simp, by simp⟩ (by
      intro pre i post s e hs
      have hi : i < A.rows := List.mem_range.1 (ho.mem_iff.1 (by rw [e]; simp))
      rw [Wid.flopsRow_sim, flopsRow_eq hA hB hAB hi]
      have e1 : (Except.map (fun x => x % 2 ^ 32) (.ok (visits A B i).length : Res Nat)) = .ok (Bin.nprod A B i % 2 ^ 32) := rfl
      rw [e1, ok_bind, wr_of_lt (by rw [hs.1]; omega), ok_bind]
      refine ⟨_, rfl, by rw [List.length_set]; exact hs.1, ?_⟩
      simp only []
      rw [hs.2, List.map_append, List.sum_append, List.map_singleton, List.sum_singleton, ← Nat.add_mod])
  rw [e, ok_bind, h2, (ho.map _).sum_eq, sum_map_range, Flops.pairings_rows hA hAB]

theorem addAC : AssocComm (fun x y : Val => x + y) := ⟨UInt64.add_assoc, UInt64.add_comm⟩

variable {F : Type}

/-- Each call on the matrices computes some matrix. -/
theorem call_computes (env : Env F) {m k n : Nat} {SA SB SM : Finset (Nat × Nat)} {cA cB cM : CSC Val} {A B M : CSR Val} (hA : Has m k SA cA A)
    (hB : Has k n SB cB B) (hM : Has m n SM cM M) (hm : 0 < m) (hmW : m < 2 ^ 32) (hk : k < 2 ^ 32) (hn : n < 2 ^ 32) (hSA : SA.card < 2 ^ 32)
    (hSB : SB.card < 2 ^ 32) (hSM : SM.card < 2 ^ 32) {nthreads : Nat} (ht : 0 < nthreads) (zb : Bool) (alg : Option Kind) (ha : alg ∈ algs) :
    ∃ C, Computes (call env nthreads A cB B M zb alg) m nthreads C := by
  have hv : Valid A B M := ⟨hA.wf, hB.wf, hM.wf, ⟨hA.hcols.trans hB.hrows.symm, hM.hrows.trans hA.hrows.symm, hM.hcols.trans hB.hcols.symm⟩,
    by rw [hA.hrows]; exact hm⟩
  have hst : setNumThreads nthreads env.dflt = nthreads := by
    unfold setNumThreads
    rw [if_neg (by omega)]
  have hnd := Graph.nodup_of_sorted hM.sorted
  cases alg with
  | none =>
    have hvC : ValidC A cB M := ⟨hA.wf, hB.wfc, hM.wf, by rw [hA.hcols, hB.same.rows, hB.hrows], hM.hrows.trans hA.hrows.symm,
      by rw [hM.hcols, hB.same.cols, hB.hcols], by rw [hA.hrows]; exact hm, hA.sorted, hB.sortedC⟩
    obtain ⟨C, h1, _⟩ := Props.C78_one_phase (W := 2 ^ 32) (fun x y : Val => x * y) (fun x y => x + y) hvC hnd
      ⟨by rw [hA.hrows]; exact hmW, by rw [hA.hcols]; exact hk, by rw [hB.same.cols, hB.hcols]; exact hn, by rw [hA.nnz]; exact hSA,
        by rw [hB.nnzc, hB.nnz]; exact hSB, by rw [hM.nnz]; exact hSM⟩ zb (nt := nthreads) (dflt := env.dflt) (by rw [hst]; exact ht)
    rw [hst, hA.hrows] at h1
    exact ⟨C, h1⟩
  | some kd =>
    have hreq : kd.compl = false ∧ kd.Req (fun x y : Val => x + y) A B M := by
      simp only [algs, List.mem_cons, List.not_mem_nil, or_false, Option.some.injEq, reduceCtorEq, false_or] at ha
      rcases ha with rfl | rfl | rfl | rfl | rfl
      · exact ⟨rfl, hnd⟩
      · exact ⟨rfl, hnd⟩
      · exact ⟨rfl, hB.sorted, hM.sorted⟩
      · exact ⟨rfl, addAC, hB.sorted, hM.sorted, .inl (Nat.le_refl _)⟩
      · exact ⟨rfl, addAC, hB.sorted, hM.sorted, .inr (.inl rfl)⟩
    obtain ⟨C, h1, _⟩ := Props.C77_masked (W := 2 ^ 32) kd hreq.1 false (fun x y : Val => x * y) (fun x y => x + y) hv hreq.2
      ⟨by rw [hA.hrows]; exact hmW, by rw [hA.hcols]; exact hk, by rw [hB.hcols]; exact hn, by rw [hA.nnz]; exact hSA,
        by rw [hB.nnz]; exact hSB, by rw [hM.nnz]; exact hSM⟩ (Graph.nodup_of_sorted hA.sorted) zb (nt := nthreads) (dflt := env.dflt)
        (by rw [hst]; exact ht)
    rw [hst, hA.hrows] at h1
    exact ⟨C, h1⟩

theorem computes_gives {call : Scheds → Res (Option (CSR Val))} {m n : Nat} {C : CSR Val} (h : Computes call m n C) :
    ∃ K, ∀ s, Admissible m s → Gives (Fair n K s) C (call s) := by
  obtain ⟨K, hK⟩ := h.live
  refine ⟨K, fun s hs => ?_⟩
  by_cases hf : Fair n K s
  · exact .inl (hK s hs hf)
  · rcases h.safe s hs with e | e
    · exact .inr ⟨hf, e⟩
    · exact .inl e

theorem fair_mono {n K K' : Nat} {s : Scheds} (h : K ≤ K') (hf : Fair n K' s) : Fair n K s := fun t ht => by
  obtain ⟨h1, h2, h3, h4⟩ := hf t ht
  exact ⟨by omega, by omega, by omega, by omega⟩

theorem repeat_some {σ : Type} {st : Prop} {f : CSR Val → σ → Res (Option (CSR Val))} : ∀ (ss : List σ) (C0 : CSR Val),
    (∀ s ∈ ss, ∀ C', ∃ C, Gives st C (f C' s)) → ∃ C, Gives st C (repeatCall f ss C0) := by
  intro ss
  induction ss with
  | nil => intro C0 _; exact ⟨C0, .inl rfl⟩
  | cons s ss ih =>
    intro C0 h
    unfold repeatCall
    obtain ⟨C, e | ⟨hs, e⟩⟩ := h s (by simp) C0
    · rw [e, ok_bind]
      exact ih C fun s hs => h s (by simp [hs])
    · rw [e, ok_bind]
      exact ⟨C0, .inr ⟨hs, rfl⟩⟩

theorem run_good (env : Env F) (a : Args) {m k n : Nat} {SA SB SM : Finset (Nat × Nat)} {cA cB cM : CSC Val} {A B M : CSR Val} (hA : Has m k SA cA A)
    (hB : Has k n SB cB B) (hM : Has m n SM cM M) (hm : 0 < m) (hmW : m < 2 ^ 32) (hk : k < 2 ^ 32) (hn : n < 2 ^ 32) (hSA : SA.card < 2 ^ 32)
    (hSB : SB.card < 2 ^ 32) (hSM : SM.card < 2 ^ 32) (ht : 0 < a.nthreads) (alg : Option Kind) (ha : alg ∈ algs) :
    ∃ K, ∀ sch : Nat → Scheds, (∀ i, Admissible m (sch i)) →
      Good (∀ i, Fair a.nthreads K (sch i)) ([] : List (List Nat)) ⟨[], run env a A cB B M alg sch⟩ := by
  obtain ⟨C0, h0⟩ := call_computes env hA hB hM hm hmW hk hn hSA hSB hSM ht false alg ha
  obtain ⟨C1, h1⟩ := call_computes env hA hB hM hm hmW hk hn hSA hSB hSM ht true alg ha
  obtain ⟨K0, hK0⟩ := computes_gives h0
  obtain ⟨K1, hK1⟩ := computes_gives h1
  refine ⟨max K0 K1, fun sch hs => ?_⟩
  obtain ⟨C, hC⟩ := repeat_some (st := ∀ i, Fair a.nthreads (max K0 K1) (sch i))
    (f := fun C => call env a.nthreads A cB B M (makeEmpty C).zerobased alg) ((List.range (a.witer + a.niter)).map sch) newObj (by
      intro s hs' C'
      rw [List.mem_map] at hs'
      obtain ⟨i, _, rfl⟩ := hs'
      cases (makeEmpty C').zerobased with
      | false => exact ⟨_, MaskedAll.Gives.weaken (hK0 _ (hs i)) fun hh => fair_mono (Nat.le_max_left _ _) (hh i)⟩
      | true => exact ⟨_, MaskedAll.Gives.weaken (hK1 _ (hs i)) fun hh => fair_mono (Nat.le_max_right _ _) (hh i)⟩)
  unfold run
  rcases hC with e | ⟨h1, e⟩
  · rw [e]
    exact .inl rfl
  · rw [e]
    exact .inr ⟨h1, rfl, List.prefix_refl _⟩

/-- The schedules fit to the rows of the matrices. -/
def AllAdm (a : Args) (calls : Calls) : Prop := ∀ d i j k g c, Admissible (a.rowsA d) (calls d i j k g c)

/-- All threads get `K` turns in each call. -/
def AllFair (a : Args) (K : Nat) (calls : Calls) : Prop := ∀ d i j k g c, Fair a.nthreads K (calls d i j k g c)

theorem allFair_mono (a : Args) (K K' : Nat) (calls : Calls) (h : K ≤ K') (hf : AllFair a K' calls) : AllFair a K calls :=
  fun d i j k g c => fair_mono h (hf d i j k g c)

theorem cell_good (env : Env F) (a : Args) (ord : Orders) {dim : Nat} {SA SB SM : Finset (Nat × Nat)} {cA cB cM : CSC Val} {A B M : CSR Val}
    (hA : Has (a.rowsA dim) dim SA cA A) (hB : Has dim dim SB cB B) (hM : Has (a.rowsA dim) dim SM cM M) (hm : 0 < a.rowsA dim)
    (hmW : a.rowsA dim < 2 ^ 32) (hd : dim < 2 ^ 32) (hrow : a.rowsA dim ≤ a.dimMax) (hSA : SA.card < 2 ^ 32) (hSB : SB.card < 2 ^ 32)
    (hSM : SM.card < 2 ^ 32) (ht : 0 < a.nthreads) {As Bs Ms : List Mat} {x y z iA iB iM : Nat} (eA : As[iA]? = some (cA, A, x))
    (eB : Bs[iB]? = some (cB, B, y)) (eM : Ms[iM]? = some (cM, M, z)) (ho : (ord.flops dim iA iB iM).Perm (List.range (a.rowsA dim))) :
    ∃ K, ∀ calls, AllAdm a calls → Good (AllFair a K calls)
      [(if a.sameAB then [dim, x] else [dim, x, y]) ++ [z, meetings SA SB % 2 ^ 32]] (cell env a ord dim As Bs Ms calls iA iB iM) := by
  obtain ⟨K, hK⟩ := all_good (Adm := AllAdm a) (FA := AllFair a) (allFair_mono a) algs.zipIdx (E := List Nat) (w := fun _ => [])
    (f := fun x calls => ⟨[], run env a A cB B M x.1 (calls dim iA iB iM x.2)⟩) (by
      intro x hx
      have hx' : x.1 ∈ algs := by
        have := List.mem_map_of_mem (f := Prod.fst) hx
        rwa [List.zipIdx_map_fst] at this
      obtain ⟨K, hK⟩ := run_good env a hA hB hM hm hmW hd hd hSA hSB hSM ht x.1 hx'
      exact ⟨K, fun calls hc => MaskedAll.Good.weaken (hK _ fun i => hc _ _ _ _ _ _) fun hf i => hf _ _ _ _ _ _⟩)
  refine ⟨K, fun calls hc => ?_⟩
  have hf := flops_eq hA.wf hB.wf (hA.hcols.trans hB.hrows.symm) (dimMax := a.dimMax) (by rw [hA.hrows]; exact hrow)
    (order := ord.flops dim iA iB iM) (by rw [hA.hrows]; exact ho)
  rw [pairings_meetings hA hB] at hf
  unfold cell
  rw [rd_of_getElem? eA, ok_bind, rd_of_getElem? eB, ok_bind, rd_of_getElem? eM, ok_bind]
  simp only [hf, ok_bind]
  have h1 := hK calls hc
  rw [List.flatMap_eq_nil_iff.2 (by simp)] at h1
  have := seq_good (st := AllFair a K calls) (w := [(if a.sameAB then [dim, x] else [dim, x, y]) ++ [z, meetings SA SB % 2 ^ 32]])
    (a := ⟨[(if a.sameAB then [dim, x] else [dim, x, y]) ++ [z, meetings SA SB % 2 ^ 32]], .ok (some ())⟩) (.inl rfl) h1
  rwa [List.append_nil] at this

/-! ## All lines of a dimension -/

/-- The matrices for a list of degrees -/
structure Made (rows cols : Nat) (pat : Nat → Finset (Nat × Nat)) (degs : List Nat) (L : List Mat) : Prop where
  len : L.length = degs.length
  has : ∀ i (h : i < degs.length), ∃ c r, L[i]? = some (c, r, degs[i]) ∧ Has rows cols (pat degs[i]) c r

theorem mapM_forall {α β : Type} {f : α → Res β} {P : α → β → Prop} : ∀ l : List α, (∀ x ∈ l, ∃ y, f x = .ok y ∧ P x y) →
    ∃ ys, l.mapM f = .ok ys ∧ List.Forall₂ P l ys := by
  intro l
  induction l with
  | nil => intro _; exact ⟨[], rfl, .nil⟩
  | cons x l ih =>
    intro h
    obtain ⟨y, e, hy⟩ := h x (by simp)
    obtain ⟨ys, e', hys⟩ := ih fun z hz => h z (by simp [hz])
    exact ⟨y :: ys, by rw [List.mapM_cons, e, ok_bind, e', ok_bind]; rfl, .cons hy hys⟩

/-- A matrix by columns whose entries are at the positions `S` -/
structure HasC (rows cols : Nat) (S : Finset (Nat × Nat)) (c : CSC Val) : Prop where
  wf : c.WF
  sorted : c.SortedCols
  hrows : c.rows = rows
  hcols : c.cols = cols
  pos : ∀ p, p ∈ (triplesC c).map (fun t => (t.1, t.2.1)) ↔ p ∈ S

theorem create_made (env : Env F) (source : Source) (orders : Nat → List Nat) {pat : Nat → Finset (Nat × Nat)} {nrows ncols degMin degMax : Nat}
    (hf : 32 < env.fuel) (h0 : 0 < degMin) (hmax : degMax < 2 ^ 31)
    (h : ∀ deg ∈ doubled degMin degMax, ∀ i, ∃ c, matrix env source (orders i) nrows ncols deg = .ok c ∧ HasC nrows ncols (pat deg) c) :
    ∃ L, create env source orders nrows ncols degMin degMax = .ok L ∧ Made nrows ncols pat (doubled degMin degMax) L := by
  obtain ⟨k, ek, hk⟩ := fuel_enough hmax h0 hf
  unfold create
  rw [ek, doublings_eq hmax k degMin h0 hk, ok_bind]
  obtain ⟨L, e, hL⟩ := mapM_forall (f := fun x : Nat × Nat => (do
      let c ← matrix env source (orders x.2) nrows ncols x.1
      let r ← Conv.csrOfCsc 0 c
      .ok (c, r, x.1) : Res Mat)) (P := fun x y => ∃ c r, y = (c, r, x.1) ∧ Has nrows ncols (pat x.1) c r) (doubled degMin degMax).zipIdx (by
    intro x hx
    have hx' : x.1 ∈ doubled degMin degMax := by
      have := List.mem_map_of_mem (f := Prod.fst) hx
      rwa [List.zipIdx_map_fst] at this
    obtain ⟨c, e, hc⟩ := h x.1 hx' x.2
    obtain ⟨r, e', hr⟩ := has_of_csc hc.wf hc.sorted hc.hrows hc.hcols hc.pos
    exact ⟨(c, r, x.1), by rw [e, ok_bind, e', ok_bind], c, r, rfl, hr⟩)
  refine ⟨L, e, ?_, fun i hi => ?_⟩
  · rw [← hL.length_eq, List.length_zipIdx]
  · have hi' : i < (doubled degMin degMax).zipIdx.length := by rw [List.length_zipIdx]; exact hi
    have hi2 : i < L.length := by rw [← hL.length_eq]; exact hi'
    obtain ⟨c, r, e1, h1⟩ := (List.forall₂_iff_get.1 hL).2 i hi' hi2
    simp only [List.get_eq_getElem, List.getElem_zipIdx] at e1 h1
    exact ⟨c, r, by rw [List.getElem?_eq_getElem hi2, e1], h1⟩

theorem flatMap_index {α β : Type} (l : List α) (d : α) (g : α → List β) : ((List.range l.length).flatMap fun i => g (l.getD i d)) = l.flatMap g := by
  have : (List.range l.length).map (fun i => l.getD i d) = l := by
    apply List.ext_getElem
    · simp
    · intro i h1 h2
      simp [List.getD_eq_getElem?_getD, h2]
  conv => rhs; rw [← this]
  rw [List.flatMap_map]

theorem map_index {α β : Type} (l : List α) (d : α) (g : α → β) : ((List.range l.length).flatMap fun i => [g (l.getD i d)]) = l.map g := by
  rw [flatMap_index l d fun x => [g x]]
  induction l with
  | nil => rfl
  | cons a l ih => rw [List.flatMap_cons, ih]; rfl

theorem zip_index {β : Type} (l m : List Nat) (hlm : l.length ≤ m.length) (g : Nat → Nat → List β) :
    ((List.range l.length).flatMap fun i => g (l.getD i 0) (m.getD i 0)) = (l.zip m).flatMap fun p => g p.1 p.2 := by
  have : (List.range l.length).map (fun i => (l.getD i 0, m.getD i 0)) = l.zip m := by
    apply List.ext_getElem
    · simp [hlm]
    · intro i h1 h2
      have h3 : i < l.length := by simpa using h1
      have h4 : i < m.length := by omega
      simp [List.getD_eq_getElem?_getD, h3, h4]
  rw [← this, List.flatMap_map]

theorem dimBody_good (env : Env F) (a : Args) (ord : Orders) {dim : Nat} {patA patB patM : Nat → Finset (Nat × Nat)} {as bs ms : List Nat}
    {As Bs Ms : List Mat} (hA : Made (a.rowsA dim) dim patA as As) (hB : Made dim dim patB bs Bs) (hM : Made (a.rowsA dim) dim patM ms Ms)
    (hc : createAll env a ord dim = .ok (As, Bs, Ms)) (hm : 0 < a.rowsA dim)
    (hmW : a.rowsA dim < 2 ^ 32) (hd : dim < 2 ^ 32) (hrow : a.rowsA dim ≤ a.dimMax) (hSA : ∀ x ∈ as, (patA x).card < 2 ^ 32)
    (hSB : ∀ x ∈ bs, (patB x).card < 2 ^ 32) (hSM : ∀ x ∈ ms, (patM x).card < 2 ^ 32) (ht : 0 < a.nthreads)
    (ho : ∀ i j k, (ord.flops dim i j k).Perm (List.range (a.rowsA dim))) (hsame : a.sameAB = true → as.length ≤ bs.length ∨ bs = []) :
    ∃ K, ∀ calls, AllAdm a calls → Good (AllFair a K calls)
      (heatLines a.sameAB dim as bs ms fun x y => meetings (patA x) (patB y)) (dimBody env a ord calls dim) := by
  have key : ∀ iA < as.length, ∀ iB < bs.length, ∃ K, ∀ calls, AllAdm a calls → Good (AllFair a K calls)
      (ms.map fun z => (if a.sameAB then [dim, as.getD iA 0] else [dim, as.getD iA 0, bs.getD iB 0]) ++
        [z, meetings (patA (as.getD iA 0)) (patB (bs.getD iB 0)) % 2 ^ 32])
      (seqAll ((List.range Ms.length).map fun iM => cell env a ord dim As Bs Ms calls iA iB iM)) := by
    intro iA hiA iB hiB
    rw [← map_index ms 0, hM.len]
    refine all_good (allFair_mono a) (List.range ms.length) fun iM hiM => ?_
    have hiM := List.mem_range.1 hiM
    obtain ⟨cA, A, eA, gA⟩ := hA.has iA hiA
    obtain ⟨cB, B, eB, gB⟩ := hB.has iB hiB
    obtain ⟨cM, M, eM, gM⟩ := hM.has iM hiM
    rw [show as.getD iA 0 = as[iA] by simp [List.getD_eq_getElem?_getD, hiA], show bs.getD iB 0 = bs[iB] by simp [List.getD_eq_getElem?_getD, hiB],
      show ms.getD iM 0 = ms[iM] by simp [List.getD_eq_getElem?_getD, hiM]]
    exact cell_good env a ord gA gB gM hm hmW hd hrow (hSA _ (List.getElem_mem _)) (hSB _ (List.getElem_mem _)) (hSM _ (List.getElem_mem _)) ht eA eB eM
      (ho iA iB iM)
  unfold dimBody
  rw [hc]
  simp only []
  unfold heatLines
  by_cases hs : a.sameAB = true
  · rw [if_pos hs]
    simp only [hs, if_true] at key
    rw [hs]
    rcases hsame hs with hl | hl
    · rw [← zip_index as bs hl (fun x y => ms.map fun z => [dim, x, z, meetings (patA x) (patB y) % 2 ^ 32]), hA.len]
      refine all_good (allFair_mono a) (List.range as.length) fun iA hiA => ?_
      have hiA := List.mem_range.1 hiA
      obtain ⟨K, hK⟩ := key iA hiA iA (by omega)
      refine ⟨K, fun calls hc => ?_⟩
      unfold indicesB
      rw [if_pos rfl, if_pos (by rw [hB.len]; omega)]
      have := seqAll_good (st := AllFair a K calls) [iA] (w := fun _ => ms.map fun z =>
          [dim, as.getD iA 0] ++ [z, meetings (patA (as.getD iA 0)) (patB (bs.getD iA 0)) % 2 ^ 32])
        (f := fun iB => seqAll ((List.range Ms.length).map fun iM => cell env a ord dim As Bs Ms calls iA iB iM)) (fun i hi => by rw [List.mem_singleton.1 hi]; exact hK calls hc)
      rwa [List.flatMap_singleton] at this
    · subst hl
      have hBs : Bs.length = 0 := hB.len
      rw [List.zip_nil_right, List.flatMap_nil]
      refine ⟨0, fun calls _ => ?_⟩
      have := seqAll_good (st := AllFair a 0 calls) (List.range As.length) (w := fun _ => ([] : List (List Nat)))
        (f := fun iA => seqAll ((indicesB true Bs.length iA).map fun iB =>
          seqAll ((List.range Ms.length).map fun iM => cell env a ord dim As Bs Ms calls iA iB iM))) (fun i _ => by
            unfold indicesB
            rw [hBs]
            exact .inl rfl)
      rwa [List.flatMap_eq_nil_iff.2 (by simp)] at this
  · have hs' : a.sameAB = false := by simpa using hs
    rw [if_neg hs]
    simp only [hs', Bool.false_eq_true, if_false] at key
    rw [hs', ← flatMap_index as 0, hA.len]
    refine all_good (allFair_mono a) (List.range as.length) fun iA hiA => ?_
    rw [← flatMap_index bs 0]
    unfold indicesB
    rw [if_neg (by simp), hB.len]
    exact all_good (allFair_mono a) (List.range bs.length) fun iB hiB => key iA (List.mem_range.1 hiA) iB (List.mem_range.1 hiB)

/-! ## Matrices of the first kind -/

theorem er_has (env : Env F) (hT : SortsTriples env.sortT) (hC : SortsBy Prod.fst env.sortC) {rows cols deg : Nat}
    (hrnd : ∀ i, (env.rnd rows cols i).1 < rows ∧ (env.rnd rows cols i).2 < cols) (h0 : 0 < rows * deg) (hlt : rows * deg < 2 ^ 32) {order : List Nat}
    (ho : order.Perm (List.range cols)) : ∃ c, erMatrix env order rows cols deg = .ok c ∧ HasC rows cols (drawn (env.rnd rows cols) (rows * deg)) c := by
  unfold erMatrix
  rw [Nat.mod_eq_of_lt hlt]
  have hne : (tab (rows * deg) fun i => ((env.rnd rows cols i).1, (env.rnd rows cols i).2, (1 : Val))) ≠ [] := by
    intro h
    have := congrArg List.length h
    rw [tab_length, List.length_nil] at this
    omega
  obtain ⟨l, d, e, h1, h2, h3⟩ := Props.C62_partial hT _ hne
  have hmem : ∀ t, t ∈ (tab (rows * deg) fun i => ((env.rnd rows cols i).1, (env.rnd rows cols i).2, (1 : Val))) ↔
      ∃ i < rows * deg, t = ((env.rnd rows cols i).1, (env.rnd rows cols i).2, 1) := by
    intro t
    unfold tab
    rw [List.mem_map]
    simp only [List.mem_range, eq_comm]
  have e' : Tuples.randomTriples env.sortT 1 (fun i => (env.rnd rows cols i).1) (fun i => (env.rnd rows cols i).2) (rows * deg) = .ok (l, d) := e
  rw [e', ok_bind, if_pos (by simp only []; omega)]
  have hb : ∀ t ∈ l.take d, t.1 < rows ∧ t.2.1 < cols := by
    intro t ht
    obtain ⟨i, _, rfl⟩ := (hmem t).1 (h3.sub t ht)
    exact hrnd i
  obtain ⟨c, g1, g2, g3, g4, -, g6, -, g8⟩ := Props.C47_triples hC (0 : Val) (l.take d) rows cols order ho hb
  refine ⟨c, g1, g2, g8 (h3.sorted.imp ?_), g3, g4, fun p => ?_⟩
  · rintro x y (h | ⟨h, h'⟩) hxy
    · have := (Prod.mk.inj hxy).1; omega
    · have := (Prod.mk.inj hxy).2; omega
  · rw [(g6.map _).mem_iff, List.mem_map]
    unfold drawn
    rw [Finset.mem_image]
    constructor
    · rintro ⟨t, ht, rfl⟩
      obtain ⟨i, hi, rfl⟩ := (hmem t).1 (h3.sub t ht)
      exact ⟨i, Finset.mem_range.2 hi, rfl⟩
    · rintro ⟨i, hi, rfl⟩
      obtain ⟨t, ht, e⟩ := h3.cover _ ((hmem _).2 ⟨i, Finset.mem_range.1 hi, rfl⟩)
      exact ⟨t, ht, e⟩

theorem drawn_card (rnd : Nat → Nat × Nat) (k : Nat) : (drawn rnd k).card ≤ k := by
  unfold drawn
  exact Finset.card_image_le.trans (by simp)

/-! ## R-MAT matrices -/

theorem sum1_some {V : Type} (add : V → V → V) (l : List V) : (∃ v, sum1 add l = some v) ↔ l ≠ [] := by
  cases l <;> simp [sum1]

theorem rmat_has (env : Env F) (hE : SortsEdges env.sortE) (hr : ∀ i, 0 ≤ env.st.s2 i ∧ env.st.s2 i < 1) {s deg : Nat} (hs : s ≤ 31)
    (hf : 32 < env.fuel) (hdeg : 0 < deg) {G : List (Nat × Nat × Int)} (hG : Rmat.rmat env.ar env.par env.st s deg env.fuel = .ok G) :
    ∃ c, rmatMatrix env (2 ^ s) deg = .ok c ∧ HasC (2 ^ s) (2 ^ s) (edgePos G) c ∧ (edgePos G).card ≤ 2 ^ s * deg := by
  have hg : IsRandomGraph (2 ^ s) (2 ^ s * deg) 0 100 G := by
    obtain ⟨es, he, _⟩ := Rmat.graphGen_perm (o := Rmat.getParams) rfl rfl rfl (by simp) hG
    obtain ⟨G', e, hG'⟩ := Rmat.graphGen_sound (o := Rmat.getParams) rfl rfl rfl (by decide) (by decide) hr (n := 2 ^ s) (by simp)
      (Nat.pow_le_pow_right (by omega) (by omega)) he
    unfold Rmat.rmat at hG
    rw [e] at hG
    injection hG with hG
    rw [← hG]
    exact hG'
  have hne : G ≠ [] := by
    intro h
    have hc := hg.count
    rw [h] at hc
    simp only [List.length_nil] at hc
    have : 0 < 2 ^ s * deg := Nat.mul_pos (Nat.two_pow_pos _) hdeg
    omega
  obtain ⟨c, e, hc⟩ := Props.C57_csc_partial addAC hE (0 : Val) (2 ^ s) (G.map fun e => (e.1, e.2.1, UInt64.ofNat e.2.2.toNat)) (by simpa using hne)
    (List.pairwise_map.2 hg.sorted) (by
      intro x hx
      obtain ⟨y, hy, rfl⟩ := List.mem_map.1 hx
      exact hg.ends y hy)
  refine ⟨c, ?_, ⟨hc.wf, ?_, hc.rows, hc.cols, fun p => ?_⟩, ?_⟩
  · unfold rmatMatrix
    have := scaleLoop_eq s hs env.fuel 0 (by omega) (by omega)
    rw [Nat.pow_zero] at this
    rw [this, ok_bind, hG, ok_bind]
    exact e
  · intro j hj
    exact hc.sorted j (by rwa [hc.cols] at hj)
  · have hw : ∀ i j, (∃ v, sum1 (fun x y : Val => x + y) (weights (G.map fun e => (e.1, e.2.1, UInt64.ofNat e.2.2.toNat)) i j) = some v) ↔
        (i, j) ∈ edgePos G := by
      intro i j
      rw [sum1_some]
      unfold weights edgePos
      rw [List.mem_toFinset, List.mem_map, ne_eq, List.map_eq_nil_iff, List.filter_eq_nil_iff]
      simp only [List.mem_map, decide_eq_true_eq]
      constructor
      · intro h
        by_contra hn
        apply h
        rintro x ⟨y, hy, rfl⟩ hx
        exact hn ⟨y, hy, Prod.ext hx.1 hx.2⟩
      · rintro ⟨y, hy, e⟩ h
        exact h _ ⟨y, hy, rfl⟩ ⟨(Prod.mk.inj e).1, (Prod.mk.inj e).2⟩
    have hlt : ∀ i j, (i, j) ∈ edgePos G → j < 2 ^ s := by
      intro i j h
      unfold edgePos at h
      rw [List.mem_toFinset, List.mem_map] at h
      obtain ⟨y, hy, e⟩ := h
      have := (hg.ends y hy).2
      rwa [(Prod.mk.inj e).2] at this
    obtain ⟨i, j⟩ := p
    rw [← hw]
    unfold triplesC
    simp only [List.mem_map, List.mem_flatMap, List.mem_range, hc.cols]
    constructor
    · rintro ⟨t, ⟨j', hj', ⟨i', v⟩, hx, rfl⟩, e⟩
      obtain ⟨rfl, rfl⟩ := Prod.mk.inj e
      exact ⟨v, (hc.entries _ hj' _ _).1 hx⟩
    · rintro ⟨v, hv⟩
      have hj := hlt i j ((hw i j).1 ⟨v, hv⟩)
      exact ⟨(i, j, v), ⟨j, hj, (i, v), (hc.entries _ hj _ _).2 hv, rfl⟩, rfl⟩
  · unfold edgePos
    refine (List.toFinset_card_le _).trans ?_
    rw [List.length_map, hg.count]

/-! ## The program -/

theorem main_good (env : Env F) (a : Args) (ord : Orders) {patA patB patM : Nat → Nat → Finset (Nat × Nat)}
    (hf : 32 < env.fuel) (hs : a.source ≠ .other) (ht : 0 < a.nthreads) (hdim : 0 < a.dimMin) (hdA : 0 < a.dAMin) (hdB : 0 < a.dBMin) (hdM : 0 < a.dMMin)
    (hdim' : a.dimMax < 2 ^ 31) (hdA' : a.dAMax < 2 ^ 31) (hdB' : a.dBMax < 2 ^ 31) (hdM' : a.dMMax < 2 ^ 31)
    (hrow : ∀ d, d ∈ doubled a.dimMin a.dimMax → 0 < a.rowsA d ∧ a.rowsA d ≤ d)
    (hA : ∀ d ∈ doubled a.dimMin a.dimMax, ∀ deg ∈ doubled a.dAMin a.dAMax, (patA d deg).card < 2 ^ 32 ∧
      ∀ i, ∃ c, matrix env a.source (ord.cols d 0 i) (a.rowsA d) d deg = .ok c ∧ HasC (a.rowsA d) d (patA d deg) c)
    (hB : ∀ d ∈ doubled a.dimMin a.dimMax, ∀ deg ∈ doubled a.dBMin a.dBMax, (patB d deg).card < 2 ^ 32 ∧
      ∀ i, ∃ c, matrix env a.source (ord.cols d 1 i) d d deg = .ok c ∧ HasC d d (patB d deg) c)
    (hM : ∀ d ∈ doubled a.dimMin a.dimMax, ∀ deg ∈ doubled a.dMMin a.dMMax, (patM d deg).card < 2 ^ 32 ∧
      ∀ i, ∃ c, matrix env a.source (ord.cols d 2 i) (a.rowsA d) d deg = .ok c ∧ HasC (a.rowsA d) d (patM d deg) c)
    (ho : ∀ d i j k, (ord.flops d i j k).Perm (List.range (a.rowsA d)))
    (hsame : a.sameAB = true → (doubled a.dAMin a.dAMax).length ≤ (doubled a.dBMin a.dBMax).length ∨ doubled a.dBMin a.dBMax = []) :
    ∃ K, ∀ calls, AllAdm a calls → Good (AllFair a K calls)
      ((doubled a.dimMin a.dimMax).flatMap fun d => heatLines a.sameAB d (doubled a.dAMin a.dAMax) (doubled a.dBMin a.dBMax) (doubled a.dMMin a.dMMax)
        fun x y => meetings (patA d x) (patB d y)) (main env a ord calls) := by
  have hm : ∀ calls, main env a ord calls = seqAll ((doubled a.dimMin a.dimMax).map (dimBody env a ord calls)) := by
    intro calls
    unfold main
    obtain ⟨k, ek, hk⟩ := fuel_enough hdim' hdim hf
    rw [ek]
    exact dimLoop_eq _ hdim' k a.dimMin hdim hk
  simp only [hm]
  refine all_good (allFair_mono a) _ fun d hd => ?_
  obtain ⟨As, eA, gA⟩ := create_made env a.source (ord.cols d 0) hf hdA hdA' fun deg h => (hA d hd deg h).2
  obtain ⟨Bs, eB, gB⟩ := create_made env a.source (ord.cols d 1) hf hdB hdB' fun deg h => (hB d hd deg h).2
  obtain ⟨Ms, eM, gM⟩ := create_made env a.source (ord.cols d 2) hf hdM hdM' fun deg h => (hM d hd deg h).2
  have hdle : d ≤ a.dimMax := by
    unfold doubled at hd
    simpa using (List.mem_filter.1 hd).2
  have hr := hrow d hd
  refine dimBody_good env a ord gA gB gM ?_ hr.1 (by omega) (by omega) (by omega) (fun x h => (hA d hd x h).1) (fun x h => (hB d hd x h).1)
    (fun x h => (hM d hd x h).1) ht (ho d) hsame
  unfold createAll
  rw [if_neg hs, eA, ok_bind, eB, ok_bind, eM, ok_bind]

/-! ## Failures -/

theorem doublings_iff {lo hi : Nat} : ∀ (fuel i : Nat),
    (∃ l, doublings hi fuel (lo * 2 ^ i % 2 ^ 32) = .ok l) ↔ ∃ j, i ≤ j ∧ j < i + fuel ∧ hi < lo * 2 ^ j % 2 ^ 32 := by
  intro fuel
  induction fuel with
  | zero =>
    intro i
    constructor
    · rintro ⟨l, h⟩; simp [doublings] at h
    · rintro ⟨j, h, h', _⟩; omega
  | succ fuel ih =>
    intro i
    have e : lo * 2 ^ i % 2 ^ 32 * 2 % 2 ^ 32 = lo * 2 ^ (i + 1) % 2 ^ 32 := by
      rw [Nat.mod_mul_mod, pow_succ]
      congr 1
      ring
    unfold doublings
    by_cases h : lo * 2 ^ i % 2 ^ 32 ≤ hi
    · rw [if_pos h, e]
      have := ih (i + 1)
      constructor
      · rintro ⟨l, hl⟩
        cases hd : doublings hi fuel (lo * 2 ^ (i + 1) % 2 ^ 32) with
        | error e => rw [hd] at hl; cases hl
        | ok r =>
          obtain ⟨j, h1, h2, h3⟩ := this.1 ⟨r, hd⟩
          exact ⟨j, by omega, by omega, h3⟩
      · rintro ⟨j, h1, h2, h3⟩
        have hne : j ≠ i := by rintro rfl; omega
        obtain ⟨r, hr⟩ := this.2 ⟨j, by omega, by omega, h3⟩
        exact ⟨_, by rw [hr]; rfl⟩
    · rw [if_neg h]
      exact ⟨fun _ => ⟨i, le_rfl, by omega, by omega⟩, fun _ => ⟨_, rfl⟩⟩

theorem doublings_zero (hi fuel : Nat) : doublings hi fuel 0 = .error .diverge := by
  induction fuel with
  | zero => rfl
  | succ fuel ih =>
    unfold doublings
    rw [if_pos (Nat.zero_le _), Nat.zero_mul, Nat.zero_mod, ih]
    rfl

theorem doublings_only {hi : Nat} (hhi : hi < 2 ^ 31) : ∀ (fuel lo : Nat) (l : List Nat), 0 < lo → doublings hi fuel lo = .ok l → l = doubled lo hi := by
  intro fuel
  induction fuel with
  | zero => intro lo l _ h; simp [doublings] at h
  | succ fuel ih =>
    intro lo l h0 h
    rw [doubled_step h0 (by omega)]
    unfold doublings at h
    by_cases hle : lo ≤ hi
    · rw [if_pos hle] at h ⊢
      rw [Nat.mod_eq_of_lt (by omega)] at h
      obtain ⟨r, hr, h⟩ := MatObj.bind_eq_ok h
      injection h with h
      rw [← h, ih _ _ (by omega) hr]
    · rw [if_neg hle] at h ⊢
      injection h with h
      exact h.symm

theorem doublings_error : ∀ (hi fuel lo : Nat) (e : Err), doublings hi fuel lo = .error e → e = .diverge := by
  intro hi fuel
  induction fuel with
  | zero => intro lo e h; simp [doublings] at h; exact h.symm
  | succ fuel ih =>
    intro lo e h
    unfold doublings at h
    split at h
    · cases hd : doublings hi fuel (lo * 2 % 2 ^ 32) with
      | error e' =>
        rw [hd] at h
        injection h with h
        rw [← h]
        exact ih _ _ hd
      | ok r => rw [hd] at h; cases h
    · cases h

theorem seq_ok {E : Type} {a b : Out E} (h : (a.seq b).status = .ok (some ())) : a.status = .ok (some ()) ∧ b.status = .ok (some ()) := by
  unfold Out.seq at h
  split at h
  · next e => exact ⟨e, h⟩
  · next hn => exact absurd h hn

theorem seqAll_ok {E : Type} : ∀ (l : List (Out E)), (seqAll l).status = .ok (some ()) → ∀ a ∈ l, a.status = .ok (some ()) := by
  intro l
  induction l with
  | nil => intro _ a ha; simp at ha
  | cons b l ih =>
    intro h a ha
    obtain ⟨h1, h2⟩ := seq_ok h
    rcases List.mem_cons.1 ha with rfl | ha
    · exact h1
    · exact ih h2 a ha

theorem seq_error {E : Type} (e : Err) (b : Out E) : (⟨[], .error e⟩ : Out E).seq b = ⟨[], .error e⟩ := rfl

theorem dimLoop_ends {E : Type} (body : Nat → Out E) {lo hi : Nat} : ∀ (fuel i : Nat),
    (dimLoop body hi fuel (lo * 2 ^ i % 2 ^ 32)).status = .ok (some ()) → ∃ j, hi < lo * 2 ^ j % 2 ^ 32 := by
  intro fuel
  induction fuel with
  | zero => intro i h; simp [dimLoop] at h
  | succ fuel ih =>
    intro i h
    have e : lo * 2 ^ i % 2 ^ 32 * 2 % 2 ^ 32 = lo * 2 ^ (i + 1) % 2 ^ 32 := by
      rw [Nat.mod_mul_mod, pow_succ]
      congr 1
      ring
    unfold dimLoop at h
    by_cases hle : lo * 2 ^ i % 2 ^ 32 ≤ hi
    · rw [if_pos hle, e] at h
      exact ih _ (seq_ok h).2
    · exact ⟨i, by omega⟩

theorem mapM_length {α β : Type} {f : α → Res β} : ∀ {l : List α} {ys : List β}, l.mapM f = .ok ys → ys.length = l.length := by
  intro l
  induction l with
  | nil => intro ys h; injection h with h; rw [← h]; rfl
  | cons x l ih =>
    intro ys h
    rw [List.mapM_cons] at h
    obtain ⟨y, _, h⟩ := MatObj.bind_eq_ok h
    obtain ⟨zs, hz, h⟩ := MatObj.bind_eq_ok h
    injection h with h
    rw [← h, List.length_cons, List.length_cons, ih hz]

theorem create_length (env : Env F) {source : Source} {orders : Nat → List Nat} {nrows ncols degMin degMax : Nat} (h0 : 0 < degMin) (hmax : degMax < 2 ^ 31)
    {L : List Mat} (h : create env source orders nrows ncols degMin degMax = .ok L) : L.length = (doubled degMin degMax).length := by
  unfold create at h
  obtain ⟨l, hl, h⟩ := MatObj.bind_eq_ok h
  rw [doublings_only hmax _ _ _ h0 hl] at h
  have := mapM_length h
  rw [this, List.length_zipIdx]

end Verif.Model.HeatMap
