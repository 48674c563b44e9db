import Verif.Model.OuterMain
import Verif.Lemmas.SampleGen
import Verif.Props.C91
import Verif.Props.C83

/-! # Lemmas for the sample programs for outer products -/

namespace Verif.Model.OuterMain

open Verif.Spec Verif.Model.Bench Verif.Model.SampleMain
open Verif.Model.MaskedAll (Good seq_good product_filterMap flatMap_bucket)

/-! ## Entries of the product -/

section
variable {R : Type} [Semiring R]

/-- A sum of the products of the pairs of entries is the entry of the product. -/
theorem sum_iff {TA TB es fs : List (Nat × Nat × R)} (hp : TA.Perm es) (hq : TB.Perm fs) {i j : Nat} {c : List R}
    (hc : ((TA ×ˢ TB).filterMap fun p => if p.1.1 = i ∧ p.1.2.1 = p.2.1 ∧ p.2.2.1 = j then some (p.1.2.2 * p.2.2.2) else none).Perm c) (v : R) :
    sum1 (fun x y => x + y) c = some v ↔ (∃ k, Stored es i k ∧ Stored fs k j) ∧ v = productAt es fs i j := by
  have hsum : productAt es fs i j = c.sum := by
    unfold productAt
    exact ((hp.product hq).filterMap _).sum_eq.symm.trans hc.sum_eq
  have hne : (∃ k, Stored es i k ∧ Stored fs k j) ↔ c ≠ [] := by
    have : c ≠ [] ↔ ∃ x, x ∈ c := ⟨fun h => List.exists_mem_of_ne_nil _ h, fun ⟨x, hx⟩ => List.ne_nil_of_mem hx⟩
    rw [this]
    simp only [← hc.mem_iff, List.mem_filterMap]
    constructor
    · rintro ⟨k, ⟨e, he, e'⟩, f, hf, f'⟩
      have hpair : (e, f) ∈ TA ×ˢ TB := List.mem_product.2 ⟨hp.mem_iff.2 he, hq.mem_iff.2 hf⟩
      obtain ⟨rfl, rfl⟩ := Prod.mk.inj e'
      obtain ⟨h3, rfl⟩ := Prod.mk.inj f'
      exact ⟨_, (e, f), hpair, if_pos ⟨rfl, h3.symm, rfl⟩⟩
    · rintro ⟨x, ⟨e, f⟩, hpair, hx⟩
      obtain ⟨he, hf⟩ := List.mem_product.1 hpair
      split at hx
      · rename_i hc
        exact ⟨e.2.1, ⟨e, hp.mem_iff.1 he, by rw [← hc.1]⟩, f, hq.mem_iff.1 hf, by rw [hc.2.1, ← hc.2.2]⟩
      · cases hx
  rw [hne, hsum]
  have hs := Props.sum1_add c
  constructor
  · intro h2
    refine ⟨fun h0 => ?_, ((hs v).2 h2).symm⟩
    rw [h0] at h2
    cases h2
  · rintro ⟨h0, rfl⟩
    cases c with
    | nil => exact absurd rfl h0
    | cons a l =>
      have : sum1 (fun x y : R => x + y) (a :: l) = some (l.foldl (fun x y => x + y) a) := rfl
      rw [this, (hs _).2 this]

theorem contribs_outerPairs {A : CSC R} {B : CSR R} (hAB : A.cols = B.rows) (i j : Nat) :
    ((triplesC A ×ˢ triples B).filterMap fun p => if p.1.1 = i ∧ p.1.2.1 = p.2.1 ∧ p.2.2.1 = j then some (p.1.2.2 * p.2.2.2) else none) =
      contribsOuter (fun x y => x * y) A B i j := by
  rw [product_filterMap]
  unfold triplesC contribsOuter
  rw [List.flatMap_assoc]
  apply Conv.flatMap_congr_mem
  intro k hk
  have hk := List.mem_range.1 hk
  rw [List.flatMap_map]
  apply Conv.flatMap_congr_mem
  intro ra _
  rw [← Graph.bucket_triples B (hAB ▸ hk)]
  unfold Conv.bucket
  rw [List.filterMap_filterMap]
  refine List.filterMap_congr fun b _ => ?_
  by_cases h1 : b.1 = k
  · simp [h1]
  · simp [h1, Ne.symm h1]

theorem outer_entries {A : CSC R} {B C : CSR R} (hAB : A.cols = B.rows) {es fs : List (Nat × Nat × R)} (hA : A.WF) (hp : (triplesC A).Perm es)
    (hq : (triples B).Perm fs) (h : IsOuterProduct (fun x y => x * y) (fun x y => x + y) A B C) : ProductEntries es fs (triples C) where
  nodup := triples_nodup h.wf fun i hi => (h.sorted i hi).imp fun hh => Nat.ne_of_lt hh
  mem := by
    intro i j v
    rw [Graph.mem_triples, h.rows]
    by_cases hi : i < A.rows
    · rw [h.entries i hi, ← sum_iff hp hq (.of_eq (contribs_outerPairs hAB i j))]
      exact ⟨fun h => h.2, fun h => ⟨hi, h⟩⟩
    · constructor
      · exact fun h => absurd h.1 hi
      · rintro ⟨⟨k, ⟨e, he, e'⟩, -⟩, -⟩
        exfalso
        obtain ⟨rfl, rfl⟩ := Prod.mk.inj e'
        exact hi (Flops.col_lt hA (mem_triplesC.1 (hp.mem_iff.2 (show (e.1, e.2.1, e.2.2) ∈ es from he))).2)

end

/-! ## Shuffled columns -/

variable {V : Type}

theorem flip_wf {A : CSC V} (h : A.WF) : (flipM A).WF := Reorder.asRows_wf.2 h

theorem flip_perm {A : CSC V} {es : List (Nat × Nat × V)} (hp : (triplesC A).Perm es) :
    (triples (flipM A)).Perm (es.map fun e => (e.2.1, e.1, e.2.2)) := by
  have := hp.map fun e => (e.2.1, e.1, e.2.2)
  rw [flip_triples, List.map_map] at this
  have e : ((fun e : Nat × Nat × V => (e.2.1, e.1, e.2.2)) ∘ fun e : Nat × Nat × V => (e.2.1, e.1, e.2.2)) = id := rfl
  rwa [e, List.map_id] at this

theorem stored_flip {es : List (Nat × Nat × V)} {i j : Nat} : Stored (es.map fun e => (e.2.1, e.1, e.2.2)) j i ↔ Stored es i j := by
  constructor
  · rintro ⟨_, he, e⟩
    obtain ⟨f, hf, rfl⟩ := List.mem_map.1 he
    obtain ⟨rfl, rfl⟩ := Prod.mk.inj e
    exact ⟨f, hf, rfl⟩
  · rintro ⟨f, hf, e⟩
    obtain ⟨rfl, rfl⟩ := Prod.mk.inj e
    exact ⟨_, List.mem_map.2 ⟨f, hf, rfl⟩, rfl⟩

theorem col_ne_nil {A : CSC V} (hA : A.WF) {es : List (Nat × Nat × V)} (hp : (triplesC A).Perm es) (h : ∀ j < A.cols, ∃ i, Stored es i j) :
    ∀ j < A.cols, A.col j ≠ [] :=
  row_ne_nil (flip_wf hA) (flip_perm hp) fun j hj => (h j hj).imp fun _ => stored_flip.2

theorem col_eq_nil {A : CSC V} (hA : A.WF) {es : List (Nat × Nat × V)} (hp : (triplesC A).Perm es) {j : Nat} (hj : j < A.cols) (h : ∀ i, ¬ Stored es i j) :
    A.col j = [] :=
  row_eq_nil (flip_wf hA) (flip_perm hp) hj fun i hi => h i (stored_flip.1 hi)

theorem triplesC_perm {A C : CSC V} (hc : C.cols = A.cols) (h : ∀ j < A.cols, (C.col j).Perm (A.col j)) : (triplesC C).Perm (triplesC A) := by
  unfold triplesC
  rw [hc]
  exact Conv.flatMap_perm_congr _ _ _ fun j hj => (h j (List.mem_range.1 hj)).map _

theorem shuffleC_fails (rnd : Nat → Nat) {A : CSC V} (h : A.WF) {j : Nat} (hj : j < A.cols) (he : A.col j = []) (C : CSC V) :
    Reorder.shuffleIdsC true rnd A ≠ .ok C := by
  obtain ⟨e, h1⟩ := Props.C58_violated_empty_row rnd (A := flipM A) (flip_wf h) hj he
  intro hC
  unfold Reorder.shuffleIdsC at hC
  unfold Reorder.shuffleIds at h1
  obtain ⟨x, h2, -⟩ := MatObj.bind_eq_ok hC
  have h2' : (List.range (flipM A).rows).foldlM (Reorder.shuffleRow true rnd (flipM A).rowptr) ((flipM A).colids, (flipM A).values) = .ok x := h2
  rw [h2'] at h1
  cases h1

/-! ## Counts per column -/

theorem count_lt {W : Nat} {A : CSC V} {B : CSR V} (hAB : A.cols = B.rows) {es fs : List (Nat × Nat × V)} (hp : (triplesC A).Perm es) (hq : (triples B).Perm fs)
    (h : ∀ k, (es.countP fun e => decide (e.2.1 = k)) * (fs.countP fun f => decide (k = f.1)) < W) :
    ∀ k < A.cols, (A.col k).length * (B.row k).length < W := by
  intro k hk
  rw [← Flops.countP_col A hk, ← Flops.countP_row B (hAB ▸ hk), hp.countP_eq, hq.countP_eq]
  exact h k

/-- The products of the columns of one thread are some of all products. -/
theorem part_le {A : CSC V} {B : CSR V} (hAB : A.cols = B.rows) {es fs : List (Nat × Nat × V)} (hp : (triplesC A).Perm es) (hq : (triples B).Perm fs) {n t : Nat}
    {cs : Nat → List Nat} (h : ((List.range n).flatMap cs).Perm (List.range A.cols)) (ht : t < n) :
    ((cs t).map fun k => (A.col k).length * (B.row k).length).sum ≤ pairings es fs := by
  rw [← Flops.pairings_perm hp hq, ← Flops.pairings_mixed A hAB]
  have h1 := (h.map fun k => (A.col k).length * (B.row k).length).sum_eq
  rw [← h1]
  have hmem : t ∈ List.range n := List.mem_range.2 ht
  generalize List.range n = l at hmem
  clear h h1
  induction l with
  | nil => cases hmem
  | cons a l ih =>
    rw [List.flatMap_cons, List.map_append, List.sum_append]
    rcases List.mem_cons.1 hmem with rfl | hm
    · omega
    · have := ih hm
      omega

/-! ## The first part -/

variable {F : Type} {env : Sample.Env V F} {neg : V → V} {args : List (List Char)} {oA oB oF : List Nat} {rA rB : Nat → Nat} {m k n : Nat}
  {es fs : List (Nat × Nat × V)}

theorem setup_ok (both : Bool) (hs : SortsBy Prod.fst env.sortf) (h : Input env neg args oA oB m k es k n fs) (hA : ∀ j < k, ∃ i, Stored es i j)
    (hB : ∀ i < k, ∃ j, Stored fs i j) (hoF : oF.Perm (List.range k))
    (hc : ∀ k, (es.countP fun e => decide (e.2.1 = k)) * (fs.countP fun f => decide (k = f.1)) < 2 ^ 31) :
    ∃ A B, setup both env args oA oB oF rA rB = .ok (some (A, B, 2 * pairings es fs)) ∧ A.WF ∧ A.rows = m ∧ A.cols = k ∧ (triplesC A).Perm es ∧
      B.WF ∧ B.rows = k ∧ B.cols = n ∧ (triples B).Perm fs := by
  obtain ⟨-, Ac, Bc, e, w1, r1, c1, p1, w2, r2, c2, p2, -⟩ := h.read hs
  obtain ⟨B, eB, wB, rB', cB, pB, -⟩ := Props.C21_csc_to_csr (env.ofInt 0) w2
  obtain ⟨A₀, eA, -⟩ := Props.C21_csc_to_csr (env.ofInt 0) w1
  obtain ⟨A', eA', wA', rA', cA', hA'⟩ := Props.C58_shuffle_csc_partial (signed := true) rA w1 fun _ => col_ne_nil w1 p1 (by rw [c1]; exact hA)
  obtain ⟨B', eB', hB'⟩ := Props.C58_shuffle_partial (signed := true) rB wB fun _ => row_ne_nil wB (pB.trans p2) (by rw [rB', r2]; exact hB)
  have pA' := (triplesC_perm cA' hA').trans p1
  have pB' := (triples_perm hB').trans (pB.trans p2)
  have hAB : A'.cols = B'.rows := (cA'.trans c1).trans (hB'.rows.trans (rB'.trans r2)).symm
  refine ⟨A', B', ?_, wA', rA'.trans r1, cA'.trans c1, pA', hB'.wf, hB'.rows.trans (rB'.trans r2), hB'.cols.trans (cB.trans c2), pB'⟩
  have hf := (Props.C83_mixed_partial (W := 2 ^ 31) wA' hB'.wf hAB (order := oF) (by rw [cA', c1]; exact hoF) (count_lt hAB pA' pB' hc)).1
  rw [Flops.pairings_perm pA' pB'] at hf
  have hb : (if both then (do let _ ← Conv.csrOfCsc (env.ofInt 0) Ac; .ok ()) else .ok () : Res Unit) = .ok () := by
    cases both
    · rfl
    · rw [if_pos rfl, eA, ok_bind]
  unfold setup
  rw [e]
  simp only [ok_bind, eB, hb, eA', eB', hf]

theorem setup_fails (both : Bool) (hs : SortsBy Prod.fst env.sortf) {m' n' : Nat} (h : Input env neg args oA oB m k es m' n' fs)
    (he : (¬ ∀ j < k, ∃ i, Stored es i j) ∨ ¬ ∀ i < m', ∃ j, Stored fs i j) (x : Option (CSC V × CSR V × Nat)) :
    setup both env args oA oB oF rA rB ≠ .ok x := by
  obtain ⟨-, Ac, Bc, e, w1, r1, c1, p1, w2, r2, c2, p2, -⟩ := h.read hs
  obtain ⟨B, eB, wB, rB', cB, pB, -⟩ := Props.C21_csc_to_csr (env.ofInt 0) w2
  intro hx
  unfold setup at hx
  rw [e] at hx
  simp only [ok_bind, eB] at hx
  obtain ⟨_, -, hx⟩ := MatObj.bind_eq_ok hx
  obtain ⟨A', h1, hx⟩ := MatObj.bind_eq_ok hx
  obtain ⟨B', h2, hx⟩ := MatObj.bind_eq_ok hx
  rcases he with he | he
  · push Not at he
    obtain ⟨j, hj, hn⟩ := he
    exact shuffleC_fails rA w1 (c1 ▸ hj) (col_eq_nil w1 p1 (c1 ▸ hj) hn) A' h1
  · push Not at he
    obtain ⟨i, hi, hn⟩ := he
    have hi' : i < B.rows := by rw [rB', r2]; exact hi
    obtain ⟨e, he⟩ := Props.C58_violated_empty_row rB wB hi' (row_eq_nil wB (pB.trans p2) hi' hn)
    rw [he] at h2
    cases h2

/-! ## Arguments -/

theorem blocks_ok {a b : List Char} {nb width : Nat} (h5 : args[5]? = some a) (h6 : args[6]? = some b) (ha : Numeral a nb) (hb : Numeral b width) :
    blocks args = .ok (some (nb % 2 ^ 16, width % 2 ^ 16)) := by
  unfold blocks rd
  rw [h5, h6]
  have key : ∀ {a : List Char} {x : Nat}, Numeral a x → u16 (ReadIO.atoi a) = x % 2 ^ 16 := by
    intro a x h
    have := ReadIO.atoi_digits (ReadIO.numeral_digits h) (r := []) (by intro c hc; cases hc)
    rw [List.append_nil] at this
    rw [this]
    unfold u16
    omega
  simp only [ok_bind, key ha, key hb]

/-! ## Calls -/

theorem seqAll_one {E : Type} (o : Out E) : seqAll [o] = o := by
  obtain ⟨ev, s⟩ := o
  show Out.seq ⟨ev, s⟩ ⟨[], .ok (some ())⟩ = _
  rcases s with e | _ | _
  · rfl
  · rfl
  · unfold Out.seq
    simp

theorem calls_give {σ α : Type} {st : Prop} {f : σ → Res (Option α)} {x : α} {sch : Nat → σ} (h : ∀ i < 16, Gives st x (f (sch i))) :
    Gives st x (lastOf f (sch 0) ((List.range 15).map fun i => sch (i + 1))) := by
  refine lastOf_gives _ _ fun s' hs' => ?_
  rcases List.mem_cons.1 hs' with rfl | hs'
  · exact h 0 (by decide)
  · obtain ⟨i, hi, rfl⟩ := List.mem_map.1 hs'
    exact h _ (by have := List.mem_range.1 hi; omega)

/-- If the first call does not return, there is no result. -/
theorem calls_fail {σ α : Type} {f : σ → Res (Option α)} {sch : Nat → σ} (h : ∀ x, f (sch 0) ≠ .ok (some x)) (x : α) :
    lastOf f (sch 0) ((List.range 15).map fun i => sch (i + 1)) ≠ .ok (some x) := by
  intro hx
  change (f (sch 0) >>= _) = _ at hx
  cases e : f (sch 0) with
  | error e' => rw [e] at hx; cases hx
  | ok r =>
    cases r with
    | none => rw [e] at hx; cases hx
    | some C' => exact h C' e

end Verif.Model.OuterMain
