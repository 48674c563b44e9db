import Verif.Model.NumaMain
import Verif.Lemmas.OuterMain
import Verif.Lemmas.OuterRange
import Verif.Props.C61
import Mathlib.Data.Finset.Card

/-! # Lemmas for the sample program that multiplies two halves -/

namespace Verif.Model.NumaMain

open Verif.Spec Verif.Model.Bench Verif.Model.SampleMain Verif.Model.OuterMain
open Verif.Model.MaskedAll (Good seq_good)

/-! ## The halves as lists -/

section
variable {V : Type}

theorem upper_piece {p : Nat} (es : List (Nat × Nat × V)) :
    (es.filter fun t => decide (InPiece p 2 0 t.1)).map (fun t => (t.1 % p, t.2)) = upperRows p es := by
  unfold upperRows
  have : (fun t : Nat × Nat × V => decide (InPiece p 2 0 t.1)) = fun t => decide (t.1 < p) := by
    funext t
    simp [InPiece]
  rw [this]
  refine (List.map_congr_left (g := id) fun t ht => ?_).trans (List.map_id _)
  rw [List.mem_filter, decide_eq_true_eq] at ht
  simp only [id, Nat.mod_eq_of_lt ht.2]

theorem lower_piece {p : Nat} (es : List (Nat × Nat × V)) :
    (es.filter fun t => decide (InPiece p 2 1 t.1)).map (fun t => (t.1 % p, t.2)) = lowerRows p es := by
  unfold lowerRows
  have : (fun t : Nat × Nat × V => decide (InPiece p 2 1 t.1)) = fun t => decide (p ≤ t.1) := by
    funext t
    simp [InPiece]
  rw [this]

theorem upper_perm {p : Nat} {es fs : List (Nat × Nat × V)} (h : es.Perm fs) : (upperRows p es).Perm (upperRows p fs) := h.filter _

theorem lower_perm {p : Nat} {es fs : List (Nat × Nat × V)} (h : es.Perm fs) : (lowerRows p es).Perm (lowerRows p fs) := (h.filter _).map _

theorem stored_upper {p i k : Nat} {es : List (Nat × Nat × V)} : Stored (upperRows p es) i k ↔ i < p ∧ Stored es i k := by
  unfold Stored upperRows
  simp only [List.mem_filter, decide_eq_true_eq]
  constructor
  · rintro ⟨e, ⟨he, h1⟩, h2⟩
    obtain ⟨rfl, rfl⟩ := Prod.mk.inj h2
    exact ⟨h1, e, he, rfl⟩
  · rintro ⟨h1, e, he, h2⟩
    obtain ⟨rfl, rfl⟩ := Prod.mk.inj h2
    exact ⟨e, ⟨he, h1⟩, rfl⟩

theorem stored_lower {p i k : Nat} {es : List (Nat × Nat × V)} : Stored (lowerRows p es) i k ↔ ∃ i', p ≤ i' ∧ i' % p = i ∧ Stored es i' k := by
  unfold Stored lowerRows
  simp only [List.mem_map, List.mem_filter, decide_eq_true_eq]
  constructor
  · rintro ⟨_, ⟨e, ⟨he, h1⟩, rfl⟩, h2⟩
    obtain ⟨rfl, rfl⟩ := Prod.mk.inj h2
    exact ⟨e.1, h1, rfl, e, he, rfl⟩
  · rintro ⟨i', h1, rfl, e, he, h2⟩
    obtain ⟨rfl, rfl⟩ := Prod.mk.inj h2
    exact ⟨_, ⟨e, ⟨he, h1⟩, rfl⟩, rfl⟩

end

/-! ## Numbers of entries -/

section
variable {R : Type} [Semiring R] {es fs P U L : List (Nat × Nat × R)}

theorem pos_mem (h : ProductEntries es fs P) {i j : Nat} : (i, j) ∈ P.map (fun e => (e.1, e.2.1)) ↔ ∃ k, Stored es i k ∧ Stored fs k j := by
  rw [List.mem_map]
  constructor
  · rintro ⟨⟨i', j', v⟩, he, h2⟩
    obtain ⟨rfl, rfl⟩ := Prod.mk.inj h2
    exact ((h.mem _ _ _).1 he).1
  · intro hk
    exact ⟨(i, j, productAt es fs i j), (h.mem _ _ _).2 ⟨hk, rfl⟩, rfl⟩

/-- Where an entry of the product goes: the half, the row there, the column -/
def place (p : Nat) (x : Nat × Nat) : Bool × Nat × Nat := (decide (x.1 < p), x.1 % p, x.2)

/-- The positions of the product -/
def posSet (P : List (Nat × Nat × R)) : Finset (Nat × Nat) := (P.map fun e => (e.1, e.2.1)).toFinset

theorem posSet_card (h : ProductEntries es fs P) : (posSet P).card = P.length := by
  unfold posSet
  rw [List.toFinset_card_of_nodup h.nodup, List.length_map]

theorem halves_card {p : Nat} (h : ProductEntries es fs P) (hU : ProductEntries (upperRows p es) fs U) (hL : ProductEntries (lowerRows p es) fs L) :
    ((posSet P).image (place p)).card = U.length + L.length := by
  have e : (posSet P).image (place p) = ((posSet U).image fun x => (true, x)) ∪ (posSet L).image fun x => (false, x) := by
    ext ⟨b, i, j⟩
    simp only [Finset.mem_image, Finset.mem_union, posSet, List.mem_toFinset]
    constructor
    · rintro ⟨⟨i', j'⟩, hm, hx⟩
      rw [pos_mem h] at hm
      obtain ⟨k, h1, h2⟩ := hm
      unfold place at hx
      simp only [Prod.mk.injEq] at hx
      obtain ⟨rfl, rfl, rfl⟩ := hx
      by_cases hi : i' < p
      · refine .inl ⟨(i', j'), (pos_mem hU).2 ⟨k, stored_upper.2 ⟨hi, h1⟩, h2⟩, ?_⟩
        simp [hi, Nat.mod_eq_of_lt hi]
      · refine .inr ⟨(i' % p, j'), (pos_mem hL).2 ⟨k, stored_lower.2 ⟨i', by omega, rfl, h1⟩, h2⟩, ?_⟩
        simp [hi]
    · rintro (⟨⟨i', j'⟩, hm, hx⟩ | ⟨⟨i', j'⟩, hm, hx⟩)
      · simp only [Prod.mk.injEq] at hx
        obtain ⟨rfl, rfl, rfl⟩ := hx
        obtain ⟨k, h1, h2⟩ := (pos_mem hU).1 hm
        obtain ⟨hi, h1⟩ := stored_upper.1 h1
        refine ⟨(i', j'), (pos_mem h).2 ⟨k, h1, h2⟩, ?_⟩
        simp [place, hi, Nat.mod_eq_of_lt hi]
      · simp only [Prod.mk.injEq] at hx
        obtain ⟨rfl, rfl, rfl⟩ := hx
        obtain ⟨k, h1, h2⟩ := (pos_mem hL).1 hm
        obtain ⟨r, hr, rfl, h3⟩ := stored_lower.1 h1
        refine ⟨(r, j'), (pos_mem h).2 ⟨k, h3, h2⟩, ?_⟩
        simp [place, Nat.not_lt.2 hr]
  rw [e, Finset.card_union_of_disjoint, Finset.card_image_of_injective _ (Prod.mk_right_injective true), Finset.card_image_of_injective _ (Prod.mk_right_injective false),
    posSet_card hU, posSet_card hL]
  rw [Finset.disjoint_left]
  simp only [Finset.mem_image]
  rintro x ⟨_, -, rfl⟩ ⟨_, -, h⟩
  cases h

/-- If the second half has at most `p` rows, no entry is lost. -/
theorem halves_eq {p : Nat} (h : ProductEntries es fs P) (hU : ProductEntries (upperRows p es) fs U) (hL : ProductEntries (lowerRows p es) fs L)
    (hm : ∀ e ∈ es, e.1 < 2 * p) : U.length + L.length = P.length := by
  rw [← halves_card h hU hL, ← posSet_card h]
  refine Finset.card_image_of_injOn ?_
  have key : ∀ x ∈ posSet P, x.1 < 2 * p := by
    rintro ⟨i, j⟩ hx
    obtain ⟨k, ⟨e, he, h1⟩, -⟩ := (pos_mem h).1 (List.mem_toFinset.1 hx)
    obtain ⟨rfl, rfl⟩ := Prod.mk.inj h1
    exact hm e he
  rintro ⟨i, j⟩ hx ⟨i', j'⟩ hy hxy
  have h1 := key _ hx
  have h2 := key _ hy
  simp only [place, Prod.mk.injEq, decide_eq_decide] at hxy
  obtain ⟨ha, hb, rfl⟩ := hxy
  dsimp only at h1 h2
  have hdiv : ∀ x, x < 2 * p → ¬ x < p → x % p = x - p := by
    intro x hx hn
    rw [Nat.mod_eq_sub_mod (by omega), Nat.mod_eq_of_lt (by omega)]
  by_cases hi : i < p
  · rw [Nat.mod_eq_of_lt hi, Nat.mod_eq_of_lt (ha.1 hi)] at hb
    rw [hb]
  · rw [hdiv i h1 hi, hdiv i' h2 (fun h => hi (ha.2 h))] at hb
    have : ¬ i' < p := fun h => hi (ha.2 h)
    have : i = i' := by omega
    rw [this]

/-- If two rows of the second half get the same number, entries in the same column are counted once. -/
theorem halves_lt {p : Nat} (h : ProductEntries es fs P) (hU : ProductEntries (upperRows p es) fs U) (hL : ProductEntries (lowerRows p es) fs L)
    {i i' j : Nat} (h1 : p ≤ i) (h2 : i < i') (h3 : i % p = i' % p) (h4 : ∃ k, Stored es i k ∧ Stored fs k j) (h5 : ∃ k, Stored es i' k ∧ Stored fs k j) :
    U.length + L.length < P.length := by
  rw [← halves_card h hU hL, ← posSet_card h]
  refine lt_of_le_of_ne Finset.card_image_le fun hc => ?_
  rw [Finset.card_image_iff] at hc
  have hx : ((i, j) : Nat × Nat) ∈ (posSet P : Set (Nat × Nat)) := List.mem_toFinset.2 ((pos_mem h).2 h4)
  have hy : ((i', j) : Nat × Nat) ∈ (posSet P : Set (Nat × Nat)) := List.mem_toFinset.2 ((pos_mem h).2 h5)
  have := hc hx hy (by simp [place, h3, Nat.not_lt.2 h1, Nat.not_lt.2 (Nat.le_trans h1 (Nat.le_of_lt h2))])
  have := (Prod.mk.inj this).1
  omega

end

/-! ## The first part -/

section
variable {V F : Type} {env : Sample.Env V F} {neg : V → V} {args : List (List Char)} {oA oB oF oL oR : List Nat} {rA rB : Nat → Nat} {m k n : Nat}
  {es fs : List (Nat × Nat × V)}

theorem entry_lt {A : CSR V} (hA : A.WF) (hp : (triples A).Perm es) : ∀ e ∈ es, e.1 < A.rows ∧ e.2.1 < A.cols := by
  rintro ⟨i, j, v⟩ he
  have := Graph.mem_triples.1 (hp.mem_iff.2 he)
  exact ⟨this.1, CSR.row_lt hA this.2⟩

/-- The first part up to the constructors of the halves -/
theorem setup_any (hs : SortsBy Prod.fst env.sortf) (h : Input env neg args oA oB m k es k n fs) (hA : ∀ j < k, ∃ i, Stored es i j)
    (hB : ∀ i < k, ∃ j, Stored fs i j) (h2 : 2 ≤ k) :
    ∃ (ts : List (Nat × Nat × V)) (A : CSC V) (B : CSR V), ts.Perm es ∧ A.WF ∧ A.cols = k ∧ (triplesC A).Perm es ∧ B.WF ∧ B.rows = k ∧ B.cols = n ∧ (triples B).Perm fs ∧
      (∀ e ∈ ts, e.1 < m ∧ e.2.1 < k) ∧ ∀ L R, Conv.cscOfTriples env.sortf oL (env.ofInt 0) (upperRows (k / 2) ts) (m / 2) k = .ok L →
        Conv.cscOfTriples env.sortf oR (env.ofInt 0) (lowerRows (k / 2) ts) (m / 2) k = .ok R →
        setup env args oA oB oL oR rA rB = .ok (some ⟨upperRows (k / 2) ts, lowerRows (k / 2) ts, L, R, A, B⟩) := by
  obtain ⟨-, Ac, Bc, e, w1, r1, c1, p1, w2, r2, c2, p2, -⟩ := h.read hs
  obtain ⟨B, eB, wB, rB', cB, pB, -⟩ := Props.C21_csc_to_csr (env.ofInt 0) w2
  obtain ⟨A₀, eA, wA, rA0, cA0, pA, -⟩ := Props.C21_csc_to_csr (env.ofInt 0) w1
  obtain ⟨A', eA', wA', -, cA', hA'⟩ := Props.C58_shuffle_csc_partial (signed := true) rA w1 fun _ => col_ne_nil w1 p1 (by rw [c1]; exact hA)
  obtain ⟨B', eB', hB'⟩ := Props.C58_shuffle_partial (signed := true) rB wB fun _ => row_ne_nil wB (pB.trans p2) (by rw [rB', r2]; exact hB)
  have pA' := (triplesC_perm cA' hA').trans p1
  have pB' := (triples_perm hB').trans (pB.trans p2)
  have hlt := entry_lt wA (List.Perm.refl _)
  have er : A₀.rows = m := rA0.trans r1
  have ec : A₀.cols = k := cA0.trans c1
  rw [er, ec] at hlt
  have e2 : Tuples.splitCsr A₀ 2 = .ok [upperRows (k / 2) (triples A₀), lowerRows (k / 2) (triples A₀)] := by
    rw [Tuples.splitCsr_ok wA (by decide) (by rw [ec]; exact h2), ec]
    show Except.ok [_, _] = _
    beta_reduce
    rw [upper_piece, lower_piece]
  refine ⟨triples A₀, A', B', pA.trans p1, wA', cA'.trans c1, pA', hB'.wf, hB'.rows.trans (rB'.trans r2), hB'.cols.trans (cB.trans c2), pB', hlt, fun L R eL eR => ?_⟩
  unfold setup
  rw [e]
  simp only [ok_bind, eB, eA, eA', eB', e2, er, ec, rd, List.getElem?_cons_zero, List.getElem?_cons_succ, eL, eR]

/-- The rows of the lower half are in range. -/
theorem lower_lt {r : Nat} (hp : 0 < k / 2) (h1 : k / 2 ≤ r) (h2 : r < m) : r % (k / 2) < m / 2 := by
  have := Nat.mod_lt r hp
  by_cases hk : k / 2 ≤ m / 2
  · omega
  · rw [Nat.mod_eq_sub_mod h1, Nat.mod_eq_of_lt (by omega)]
    omega

theorem lower_bounds {ts : List (Nat × Nat × V)} (hp : 0 < k / 2) (hlt : ∀ e ∈ ts, e.1 < m ∧ e.2.1 < k) : ∀ t ∈ lowerRows (k / 2) ts, t.1 < m / 2 ∧ t.2.1 < k := by
  intro t ht
  obtain ⟨t, ht', rfl⟩ := List.mem_map.1 ht
  obtain ⟨ht', h3⟩ := List.mem_filter.1 ht'
  obtain ⟨h1, h2⟩ := hlt t ht'
  exact ⟨lower_lt hp (of_decide_eq_true h3) h1, h2⟩

theorem setup_ok (hs : SortsBy Prod.fst env.sortf) (h : Input env neg args oA oB m k es k n fs) (hA : ∀ j < k, ∃ i, Stored es i j)
    (hB : ∀ i < k, ∃ j, Stored fs i j) (hoL : oL.Perm (List.range k)) (hoR : oR.Perm (List.range k)) (h2 : 2 ≤ k) (hin : ∀ e ∈ es, e.1 < k / 2 → e.1 < m / 2) :
    ∃ x : Halves V, setup env args oA oB oL oR rA rB = .ok (some x) ∧ x.up.length = (upperRows (k / 2) es).length ∧ x.low.length = (lowerRows (k / 2) es).length ∧
      x.left.WF ∧ x.left.rows = m / 2 ∧ x.left.cols = k ∧ (triplesC x.left).Perm (upperRows (k / 2) es) ∧
      x.right.WF ∧ x.right.rows = m / 2 ∧ x.right.cols = k ∧ (triplesC x.right).Perm (lowerRows (k / 2) es) ∧
      x.A.WF ∧ x.A.cols = k ∧ (triplesC x.A).Perm es ∧ x.B.WF ∧ x.B.rows = k ∧ x.B.cols = n ∧ (triples x.B).Perm fs ∧ ∀ e ∈ es, e.1 < m := by
  obtain ⟨ts, A', B', q, wA', cA', pA', wB', rB', cB', pB', hlt, hset⟩ := setup_any (oL := oL) (oR := oR) (rA := rA) (rB := rB) hs h hA hB h2
  obtain ⟨L, eL, wL, rL, cL, -, pL, -⟩ := Props.C47_triples hs (env.ofInt 0) (upperRows (k / 2) ts) (m / 2) k oL hoL fun t ht => by
    obtain ⟨ht, h3⟩ := List.mem_filter.1 ht
    exact ⟨hin t (q.mem_iff.1 ht) (of_decide_eq_true h3), (hlt t ht).2⟩
  obtain ⟨R, eR, wR, rR, cR, -, pR, -⟩ := Props.C47_triples hs (env.ofInt 0) (lowerRows (k / 2) ts) (m / 2) k oR hoR (lower_bounds (by omega) hlt)
  exact ⟨_, hset L R eL eR, (upper_perm q).length_eq, (lower_perm q).length_eq, wL, rL, cL, pL.trans (upper_perm q), wR, rR, cR, pR.trans (lower_perm q),
    wA', cA', pA', wB', rB', cB', pB', fun e he => (hlt e (q.mem_iff.2 he)).1⟩

/-- Without the condition the first half is a matrix with rows out of range. -/
theorem setup_wide (hs : SortsBy Prod.fst env.sortf) (h : Input env neg args oA oB m k es k n fs) (hA : ∀ j < k, ∃ i, Stored es i j)
    (hB : ∀ i < k, ∃ j, Stored fs i j) (hoL : oL.Perm (List.range k)) (hoR : oR.Perm (List.range k)) (h2 : 2 ≤ k) :
    ∃ x : Halves V, setup env args oA oB oL oR rA rB = .ok (some x) ∧ x.up.length = (upperRows (k / 2) es).length ∧ x.low.length = (lowerRows (k / 2) es).length ∧
      CSC.WF { x.left with rows := k / 2 } ∧ x.left.rows = m / 2 ∧ x.left.cols = k ∧ (triplesC x.left).Perm (upperRows (k / 2) es) ∧
      x.A.WF ∧ x.A.cols = k ∧ (triplesC x.A).Perm es ∧ x.B.WF ∧ x.B.rows = k ∧ x.B.cols = n ∧ (triples x.B).Perm fs := by
  obtain ⟨ts, A', B', q, wA', cA', pA', wB', rB', cB', pB', hlt, hset⟩ := setup_any (oL := oL) (oR := oR) (rA := rA) (rB := rB) hs h hA hB h2
  have hup : ∀ t ∈ upperRows (k / 2) ts, t.1 < k / 2 ∧ t.2.1 < k := fun t ht => by
    obtain ⟨ht, h3⟩ := List.mem_filter.1 ht
    exact ⟨of_decide_eq_true h3, (hlt t ht).2⟩
  obtain ⟨L', eL', wL, -, cL, -, pL, -⟩ := Props.C47_triples hs (env.ofInt 0) (upperRows (k / 2) ts) (k / 2) k oL hoL hup
  have eL := Conv.cscOfTriples_eq hs (env.ofInt 0) (upperRows (k / 2) ts) (m / 2) k oL hoL fun t ht => (hup t ht).2
  have eL2 := Conv.cscOfTriples_eq hs (env.ofInt 0) (upperRows (k / 2) ts) (k / 2) k oL hoL fun t ht => (hup t ht).2
  rw [eL'] at eL2
  injection eL2 with eL2
  subst eL2
  obtain ⟨R, eR, -⟩ := Props.C47_triples hs (env.ofInt 0) (lowerRows (k / 2) ts) (m / 2) k oR hoR (lower_bounds (by omega) hlt)
  exact ⟨_, hset _ R eL eR, (upper_perm q).length_eq, (lower_perm q).length_eq, wL, rfl, rfl, pL.trans (upper_perm q),
    wA', cA', pA', wB', rB', cB', pB'⟩

theorem setup_fails (hs : SortsBy Prod.fst env.sortf) {m' n' : Nat} (h : Input env neg args oA oB m k es m' n' fs)
    (he : (¬ ∀ j < k, ∃ i, Stored es i j) ∨ ¬ ∀ i < m', ∃ j, Stored fs i j) (x : Option (Halves V)) : setup env args oA oB oL oR rA rB ≠ .ok x := by
  obtain ⟨-, Ac, Bc, e, w1, r1, c1, p1, w2, r2, c2, p2, -⟩ := h.read hs
  obtain ⟨B, eB, wB, rB', cB, pB, -⟩ := Props.C21_csc_to_csr (env.ofInt 0) w2
  intro hx
  unfold setup at hx
  rw [e] at hx
  simp only [ok_bind, eB] at hx
  obtain ⟨_, -, hx⟩ := MatObj.bind_eq_ok hx
  obtain ⟨A', h1, hx⟩ := MatObj.bind_eq_ok hx
  obtain ⟨B', h2, hx⟩ := MatObj.bind_eq_ok hx
  rcases he with he | he
  · push Not at he
    obtain ⟨j, hj, hn⟩ := he
    exact shuffleC_fails rA w1 (c1 ▸ hj) (col_eq_nil w1 p1 (c1 ▸ hj) hn) A' h1
  · push Not at he
    obtain ⟨i, hi, hn⟩ := he
    have hi' : i < B.rows := by rw [rB', r2]; exact hi
    obtain ⟨e, he⟩ := Props.C58_violated_empty_row rB wB hi' (row_eq_nil wB (pB.trans p2) hi' hn)
    rw [he] at h2
    cases h2

/-- With less than two columns the size of a piece is 0. -/
theorem setup_narrow (hs : SortsBy Prod.fst env.sortf) {m' n' : Nat} (h : Input env neg args oA oB m k es m' n' fs) (hA : ∀ j < k, ∃ i, Stored es i j)
    (hB : ∀ i < m', ∃ j, Stored fs i j) (h2 : k < 2) (hm : 0 < m) : setup env args oA oB oL oR rA rB = .error .divzero := by
  obtain ⟨-, Ac, Bc, e, w1, r1, c1, p1, w2, r2, c2, p2, -⟩ := h.read hs
  obtain ⟨B, eB, wB, rB', cB, pB, -⟩ := Props.C21_csc_to_csr (env.ofInt 0) w2
  obtain ⟨A₀, eA, wA, rA0, cA0, pA, -⟩ := Props.C21_csc_to_csr (env.ofInt 0) w1
  obtain ⟨A', eA', -⟩ := Props.C58_shuffle_csc_partial (signed := true) rA w1 fun _ => col_ne_nil w1 p1 (by rw [c1]; exact hA)
  obtain ⟨B', eB', -⟩ := Props.C58_shuffle_partial (signed := true) rB wB fun _ => row_ne_nil wB (pB.trans p2) (by rw [rB', r2]; exact hB)
  have e2 : Tuples.splitCsr A₀ 2 = .error .divzero := by
    unfold Tuples.splitCsr
    rw [Outer.div_ok (by decide), ok_bind, cA0, c1, Nat.div_eq_of_lt h2, rA0, r1, forRange_step hm]
    rfl
  unfold setup
  rw [e]
  simp only [ok_bind, eB, eA, eA', eB', e2]
  rfl

/-- An entry of the first half and the row of the second matrix give a product. -/
theorem product_of {mul : V → V → V} {A : CSC V} {B : CSR V} (hp : (triplesC A).Perm es) (wB : B.WF) (hq : (triples B).Perm fs) (hAB : A.cols = B.rows)
    (hB : ∀ i < B.rows, ∃ j, Stored fs i j) {e : Nat × Nat × V} (he : e ∈ es) : ∃ t ∈ Outer.prods mul A B (List.range A.cols), t.1 = e.1 := by
  obtain ⟨i, c, v⟩ := e
  obtain ⟨hc, hv⟩ := mem_triplesC.1 (hp.mem_iff.2 he)
  have hne := row_ne_nil wB hq hB c (hAB ▸ hc)
  obtain ⟨⟨j, u⟩, hj⟩ := List.exists_mem_of_ne_nil _ hne
  refine ⟨(i, j, mul v u), ?_, rfl⟩
  unfold Outer.prods Outer.prodsOf
  exact List.mem_flatMap.2 ⟨c, List.mem_range.2 hc, List.mem_flatMap.2 ⟨(i, v), hv, List.mem_map.2 ⟨(j, u), hj, rfl⟩⟩⟩

theorem sections_gives {α : Type} {st : Prop} {l r : Res (Option α)} {a b : α} (hl : Gives st a l) (hr : Gives st b r) : Gives st (a, b) (sections l r) := by
  unfold sections
  rcases hl with e | ⟨h, e⟩
  · rw [e, ok_bind]
    dsimp only
    rcases hr with e | ⟨h, e⟩
    · rw [e, ok_bind]
      exact .inl rfl
    · rw [e, ok_bind]
      exact .inr ⟨h, rfl⟩
  · rw [e, ok_bind]
    exact .inr ⟨h, rfl⟩

theorem sections_fail {α : Type} {l r : Res (Option α)} (h : ∀ a, l ≠ .ok (some a)) (x : α × α) : sections l r ≠ .ok (some x) := by
  unfold sections
  cases l with
  | error e => intro h; cases h
  | ok o =>
    cases o with
    | none => intro h; cases h
    | some a => exact absurd rfl (h a)

end

end Verif.Model.NumaMain
