import Verif.Model.ProfileMain
import Verif.Lemmas.OuterProfile
import Verif.Lemmas.NumaMain

/-! # Lemmas for the sample programs that measure the outer-product kernels -/

namespace Verif.Model.ProfileMain

open Verif.Spec Verif.Model.Bench Verif.Model.SampleMain
open Verif.Model.NumaMain (upper_perm lower_perm upper_piece lower_piece lower_bounds entry_lt pos_mem posSet posSet_card stored_upper)

/-! ## The upper part -/

section
variable {V : Type}

theorem pairings_append (es es' fs : List (Nat × Nat × V)) : pairings (es ++ es') fs = pairings es fs + pairings es' fs := by
  rw [Flops.pairings_left, Flops.pairings_left, Flops.pairings_left, List.map_append, List.sum_append]

theorem upper_split (p : Nat) (es fs : List (Nat × Nat × V)) :
    pairings es fs = pairings (upperRows p es) fs + pairings (es.filter fun e => !decide (e.1 < p)) fs := by
  rw [← pairings_append]
  exact Flops.pairings_perm (List.filter_append_perm (fun e : Nat × Nat × V => decide (e.1 < p)) es).symm (.refl _)

theorem pairings_pos {es fs : List (Nat × Nat × V)} : 0 < pairings es fs ↔ ∃ e ∈ es, ∃ f ∈ fs, e.2.1 = f.1 := by
  unfold pairings
  rw [List.length_pos_iff_exists_mem]
  constructor
  · rintro ⟨⟨e, f⟩, h⟩
    obtain ⟨h, h'⟩ := List.mem_filter.1 h
    obtain ⟨h1, h2⟩ := List.mem_product.1 h
    exact ⟨e, h1, f, h2, by simpa using h'⟩
  · rintro ⟨e, he, f, hf, h⟩
    exact ⟨(e, f), List.mem_filter.2 ⟨List.mem_product.2 ⟨he, hf⟩, by simpa using h⟩⟩

theorem upper_eq {p : Nat} {es fs : List (Nat × Nat × V)} (h : ∀ e ∈ es, ∀ f ∈ fs, e.2.1 = f.1 → e.1 < p) : pairings (upperRows p es) fs = pairings es fs := by
  rw [upper_split p es fs]
  have : ¬ 0 < pairings (es.filter fun e => !decide (e.1 < p)) fs := by
    rw [pairings_pos]
    rintro ⟨e, he, f, hf, h'⟩
    obtain ⟨he, h1⟩ := List.mem_filter.1 he
    have := h e he f hf h'
    simp [this] at h1
  omega

theorem upper_lt {p : Nat} {es fs : List (Nat × Nat × V)} {e f : Nat × Nat × V} (he : e ∈ es) (hf : f ∈ fs) (h : e.2.1 = f.1) (hp : p ≤ e.1) :
    pairings (upperRows p es) fs < pairings es fs := by
  rw [upper_split p es fs]
  have : 0 < pairings (es.filter fun e => !decide (e.1 < p)) fs :=
    pairings_pos.2 ⟨e, List.mem_filter.2 ⟨he, by simpa using hp⟩, f, hf, h⟩
  omega

theorem countP_filter_lt {m k : Nat} (h : k < m) (fs : List (Nat × Nat × V)) :
    (fs.filter fun f => decide (f.1 < m)).countP (fun f => decide (k = f.1)) = fs.countP fun f => decide (k = f.1) := by
  rw [List.countP_filter]
  refine List.countP_congr fun f _ => ?_
  by_cases hf : k = f.1
  · subst hf
    simp [h]
  · simp [hf]

/-- The rows of the second factor behind those that the columns of the first meet do not matter. -/
theorem pairings_first (m : Nat) (es fs : List (Nat × Nat × V)) :
    pairings (firstColumns m es) (upperRows m fs) = pairings (firstColumns m es) fs := by
  rw [Flops.pairings_left, Flops.pairings_left]
  refine congrArg List.sum (List.map_congr_left fun e he => ?_)
  exact countP_filter_lt (by simpa using (List.mem_filter.1 he).2) fs

theorem firstColumns_lt {p : Nat} {es fs : List (Nat × Nat × V)} {e f : Nat × Nat × V} (he : e ∈ es) (hf : f ∈ fs) (h : e.2.1 = f.1) (hp : p ≤ e.2.1) :
    pairings (firstColumns p es) fs < pairings es fs := by
  have hsplit : pairings es fs = pairings (firstColumns p es) fs + pairings (es.filter fun e => !decide (e.2.1 < p)) fs := by
    rw [← pairings_append]
    exact Flops.pairings_perm (List.filter_append_perm (fun e : Nat × Nat × V => decide (e.2.1 < p)) es).symm (.refl _)
  have : 0 < pairings (es.filter fun e => !decide (e.2.1 < p)) fs :=
    pairings_pos.2 ⟨e, List.mem_filter.2 ⟨he, by simpa using hp⟩, f, hf, h⟩
  omega

theorem stored_first {m : Nat} {es : List (Nat × Nat × V)} {i k : Nat} : Stored (firstColumns m es) i k ↔ k < m ∧ Stored es i k := by
  unfold Stored firstColumns
  constructor
  · rintro ⟨e, he, h⟩
    obtain ⟨he, hm⟩ := List.mem_filter.1 he
    obtain ⟨rfl, rfl⟩ := Prod.mk.inj h
    exact ⟨by simpa using hm, e, he, rfl⟩
  · rintro ⟨hm, e, he, h⟩
    obtain ⟨rfl, rfl⟩ := Prod.mk.inj h
    exact ⟨e, List.mem_filter.2 ⟨he, by simpa using hm⟩, rfl⟩

end

section
variable {R : Type} [Semiring R] {es fs P U : List (Nat × Nat × R)} {p : Nat}

theorem productAt_first (m : Nat) (es fs : List (Nat × Nat × R)) (i j : Nat) :
    productAt (firstColumns m es) (upperRows m fs) i j = productAt (firstColumns m es) fs i j := by
  have key : ∀ es fs : List (Nat × Nat × R), productAt es fs i j =
      (es.flatMap fun e => fs.filterMap fun f => if e.1 = i ∧ e.2.1 = f.1 ∧ f.2.1 = j then some (e.2.2 * f.2.2) else none).sum := by
    intro es fs
    unfold productAt
    congr 1
    induction es with
    | nil => rfl
    | cons e es ih =>
      rw [List.product_cons, List.filterMap_append, ih, List.flatMap_cons, List.filterMap_map]
      rfl
  rw [key, key]
  refine congrArg List.sum (List.flatMap_congr fun e he => ?_)
  have hm : e.2.1 < m := by simpa using (List.mem_filter.1 he).2
  unfold upperRows
  rw [List.filterMap_filter]
  refine List.filterMap_congr fun f _ => ?_
  by_cases hf : e.2.1 = f.1
  · rw [if_pos (by rw [← hf]; simpa using hm)]
  · rw [if_neg (c := e.1 = i ∧ _) (fun h => hf h.2.1)]
    split <;> rfl

theorem product_first {m : Nat} {P : List (Nat × Nat × R)} (h : ProductEntries (firstColumns m es) (upperRows m fs) P) : ProductEntries (firstColumns m es) fs P where
  nodup := h.nodup
  mem := by
    intro i j v
    rw [h.mem, productAt_first]
    refine and_congr_left fun _ => exists_congr fun k => ?_
    rw [stored_first, stored_upper]
    constructor
    · rintro ⟨h1, h2⟩
      exact ⟨h1, h2.2⟩
    · rintro ⟨h1, h2⟩
      exact ⟨h1, h1.1, h2⟩

theorem upper_subset (h : ProductEntries es fs P) (hU : ProductEntries (upperRows p es) fs U) : posSet U ⊆ posSet P := by
  rintro ⟨i, j⟩ hx
  obtain ⟨k, h1, h2⟩ := (pos_mem hU).1 (List.mem_toFinset.1 hx)
  exact List.mem_toFinset.2 ((pos_mem h).2 ⟨k, (stored_upper.1 h1).2, h2⟩)

theorem upper_count (h : ProductEntries es fs P) (hU : ProductEntries (upperRows p es) fs U) (hall : ∀ e ∈ es, ∀ f ∈ fs, e.2.1 = f.1 → e.1 < p) : U.length = P.length := by
  rw [← posSet_card h, ← posSet_card hU]
  congr 1
  refine Finset.Subset.antisymm (upper_subset h hU) ?_
  rintro ⟨i, j⟩ hx
  obtain ⟨k, h1, h2⟩ := (pos_mem h).1 (List.mem_toFinset.1 hx)
  refine List.mem_toFinset.2 ((pos_mem hU).2 ⟨k, stored_upper.2 ⟨?_, h1⟩, h2⟩)
  obtain ⟨e, he, h1⟩ := h1
  obtain ⟨f, hf, h2⟩ := h2
  obtain ⟨rfl, rfl⟩ := Prod.mk.inj h1
  obtain ⟨h3, rfl⟩ := Prod.mk.inj h2
  exact hall e he f hf h3.symm

theorem upper_count_lt (h : ProductEntries es fs P) (hU : ProductEntries (upperRows p es) fs U) {e f : Nat × Nat × R} (he : e ∈ es) (hf : f ∈ fs) (hk : e.2.1 = f.1)
    (hp : p ≤ e.1) : U.length < P.length := by
  rw [← posSet_card h, ← posSet_card hU]
  refine Finset.card_lt_card ⟨upper_subset h hU, fun hc => ?_⟩
  have hm : ((e.1, f.2.1) : Nat × Nat) ∈ posSet P := List.mem_toFinset.2 ((pos_mem h).2 ⟨e.2.1, ⟨e, he, rfl⟩, f, hf, by rw [hk]⟩)
  obtain ⟨k, h1, -⟩ := (pos_mem hU).1 (List.mem_toFinset.1 (hc hm))
  have := (stored_upper.1 h1).1
  omega

end

/-! ## Arguments -/

theorem blocks_ok {args : List (List Char)} {a b : List Char} {nb width : Nat} (h5 : args[5]? = some a) (h6 : args[6]? = some b) (ha : Numeral a nb) (hb : Numeral b width) :
    blocks args = .ok (some (nb, width)) := by
  unfold blocks rd
  rw [h5, h6]
  have key : ∀ {a : List Char} {x : Nat}, Numeral a x → ReadIO.atoi a = x := by
    intro a x h
    have := ReadIO.atoi_digits (ReadIO.numeral_digits h) (r := []) (by intro c hc; cases hc)
    rwa [List.append_nil] at this
  simp only [ok_bind, key ha, key hb]
  rw [if_neg (by omega)]
  rfl

/-! ## The first part -/

section
variable {V F : Type} {env : Sample.Env V F} {neg : V → V} {args : List (List Char)} {oA oB oF oL oR : List Nat} {m k n : Nat} {es fs : List (Nat × Nat × V)}

theorem setup_ok (hs : SortsBy Prod.fst env.sortf) (h : Input env neg args oA oB m k es k n fs) (hoL : oL.Perm (List.range k)) (hoR : oR.Perm (List.range k)) (h2 : 2 ≤ k) :
    ∃ x : Parts V, setup env args oA oB oL oR = .ok (some x) ∧
      x.A.WF ∧ x.A.rows = m ∧ x.A.cols = k ∧ (triplesC x.A).Perm es ∧ x.B.WF ∧ x.B.rows = k ∧ x.B.cols = n ∧ (triples x.B).Perm fs ∧
      x.left.rows = m / 2 ∧ x.left.cols = k ∧ (triplesC x.left).Perm (upperRows (k / 2) es) ∧ CSC.WF { x.left with rows := k / 2 } ∧
      ((∀ e ∈ es, e.1 < k / 2 → e.1 < m / 2) → x.left.WF) := by
  obtain ⟨-, Ac, Bc, e, w1, r1, c1, p1, w2, r2, c2, p2, -⟩ := h.read hs
  obtain ⟨B, eB, wB, rB', cB, pB, -⟩ := Props.C21_csc_to_csr (env.ofInt 0) w2
  obtain ⟨A₀, eA, wA, rA0, cA0, pA, -⟩ := Props.C21_csc_to_csr (env.ofInt 0) w1
  have hlt := entry_lt wA (List.Perm.refl _)
  have er : A₀.rows = m := rA0.trans r1
  have ec : A₀.cols = k := cA0.trans c1
  rw [er, ec] at hlt
  have q : (triples A₀).Perm es := pA.trans p1
  have e2 : Tuples.splitCsr A₀ 2 = .ok [upperRows (k / 2) (triples A₀), lowerRows (k / 2) (triples A₀)] := by
    rw [Tuples.splitCsr_ok wA (by decide) (by rw [ec]; exact h2), ec]
    show Except.ok [_, _] = _
    beta_reduce
    rw [upper_piece, lower_piece]
  have hup : ∀ t ∈ upperRows (k / 2) (triples A₀), t.1 < k / 2 ∧ t.2.1 < k := fun t ht => by
    obtain ⟨ht, h3⟩ := List.mem_filter.1 ht
    exact ⟨of_decide_eq_true h3, (hlt t ht).2⟩
  obtain ⟨L', eL', wL, -, cL, -, pL, -⟩ := Props.C47_triples hs (env.ofInt 0) (upperRows (k / 2) (triples A₀)) (k / 2) k oL hoL hup
  have eL := Conv.cscOfTriples_eq hs (env.ofInt 0) (upperRows (k / 2) (triples A₀)) (m / 2) k oL hoL fun t ht => (hup t ht).2
  have eL2 := Conv.cscOfTriples_eq hs (env.ofInt 0) (upperRows (k / 2) (triples A₀)) (k / 2) k oL hoL fun t ht => (hup t ht).2
  rw [eL'] at eL2
  injection eL2 with eL2
  subst eL2
  obtain ⟨R, eR, -⟩ := Props.C47_triples hs (env.ofInt 0) (lowerRows (k / 2) (triples A₀)) (m / 2) k oR hoR (lower_bounds (by omega) hlt)
  obtain ⟨L, eL, er2, ec2, wL, pL⟩ : ∃ L, Conv.cscOfTriples env.sortf oL (env.ofInt 0) (upperRows (k / 2) (triples A₀)) (m / 2) k = .ok L ∧ L.rows = m / 2 ∧ L.cols = k ∧
      CSC.WF { L with rows := k / 2 } ∧ (triplesC L).Perm (upperRows (k / 2) (triples A₀)) := ⟨_, eL, rfl, rfl, wL, pL⟩
  refine ⟨⟨L, Ac, B⟩, ?_, w1, r1, c1, p1, wB, rB'.trans r2, cB.trans c2, pB.trans p2, er2, ec2, pL.trans (upper_perm q), wL, fun hin => ?_⟩
  rotate_left
  · obtain ⟨L3, eL3, w3, -⟩ := Props.C47_triples hs (env.ofInt 0) (upperRows (k / 2) (triples A₀)) (m / 2) k oL hoL fun t ht => by
      obtain ⟨ht', h3⟩ := List.mem_filter.1 ht
      exact ⟨hin t (q.mem_iff.1 ht') (of_decide_eq_true h3), (hlt t ht').2⟩
    rw [eL] at eL3
    injection eL3 with eL3
    subst eL3
    exact w3
  · unfold setup
    rw [e]
    simp only [ok_bind, eB, eA, e2, er, ec, rd, List.getElem?_cons_zero, List.getElem?_cons_succ, eR, eL]

/-- With less than two columns the size of a piece is 0. -/
theorem setup_narrow (hs : SortsBy Prod.fst env.sortf) {m' n' : Nat} (h : Input env neg args oA oB m k es m' n' fs) (h2 : k < 2) (hm : 0 < m) :
    setup env args oA oB oL oR = .error .divzero := by
  obtain ⟨-, Ac, Bc, e, w1, r1, c1, p1, w2, r2, c2, p2, -⟩ := h.read hs
  obtain ⟨B, eB, wB, rB', cB, pB, -⟩ := Props.C21_csc_to_csr (env.ofInt 0) w2
  obtain ⟨A₀, eA, wA, rA0, cA0, pA, -⟩ := Props.C21_csc_to_csr (env.ofInt 0) w1
  have e2 : Tuples.splitCsr A₀ 2 = .error .divzero := by
    unfold Tuples.splitCsr
    rw [Outer.div_ok (by decide), ok_bind, cA0, c1, Nat.div_eq_of_lt h2, rA0, r1, forRange_step hm]
    rfl
  unfold setup
  rw [e]
  simp only [ok_bind, eB, eA, e2]
  rfl

theorem setup2_ok (hs : SortsBy Prod.fst env.sortf) (h : Input env neg args oA oB m k es k n fs) :
    ∃ A B, setup2 env args oA oB = .ok (some (A, B)) ∧
      A.WF ∧ A.rows = m ∧ A.cols = k ∧ (triplesC A).Perm es ∧ B.WF ∧ B.rows = k ∧ B.cols = n ∧ (triples B).Perm fs := by
  obtain ⟨-, Ac, Bc, e, w1, r1, c1, p1, w2, r2, c2, p2, -⟩ := h.read hs
  obtain ⟨B, eB, wB, rB', cB, pB, -⟩ := Props.C21_csc_to_csr (env.ofInt 0) w2
  refine ⟨Ac, B, ?_, w1, r1, c1, p1, wB, rB'.trans r2, cB.trans c2, pB.trans p2⟩
  unfold setup2
  rw [e]
  simp only [ok_bind, eB]

theorem flops_ok {A : CSC V} {B : CSR V} {H : Nat} (wA : CSC.WF { A with rows := H }) (wB : B.WF) (hAB : A.cols = B.rows) (pA : (triplesC A).Perm es) (pB : (triples B).Perm fs)
    (hoF : oF.Perm (List.range A.cols)) (hc : ∀ k, (es.countP fun e => decide (e.2.1 = k)) * (fs.countP fun f => decide (k = f.1)) < 2 ^ 31) :
    flops A B oF = .ok (some (2 * pairings es fs)) := by
  have hf := (Props.C83_mixed_partial (W := 2 ^ 31) wA wB hAB (order := oF) hoF (OuterMain.count_lt hAB pA pB hc)).1
  change Flops.cscCsr (2 ^ 31) A B oF = .ok (2 * pairings (triplesC A) (triples B)) at hf
  rw [Flops.pairings_perm pA pB] at hf
  unfold flops
  rw [hf, ok_bind]

end

end Verif.Model.ProfileMain

namespace Verif.Model.Profile

open Verif.Spec
open Outer (merged prods region_ok foldlM_reach flopCol_reach copyBlock_reach mem_merged prods_row key_lt div_ok)

variable {V : Type}

/-- A stage does not return a result if there is a product in a row out of range. -/
theorem stage_range {mul add : V → V → V} {A : CSC V} {B : CSR V} {H : Nat} (w : CSC.WF { A with rows := H }) (hH : H ≤ 2 ^ 22) (wB : B.WF) (hc : B.cols ≤ 2 ^ 32)
    (hab : A.cols = B.rows) {n nb width : Nat}
    (hnb : 0 < nb) (hw : 0 < width) {sortf : (Nat × Nat × V → Nat) → List (Nat × Nat × V) → List (Nat × Nat × V)} (hs : SortsBy32 sortf) {sch : Sched}
    (ho1 : sch.base.flop.Perm (List.range A.cols)) (hasg : ((List.range n).flatMap sch.base.asg).Perm (List.range A.cols)) (ho2 : sch.base.sort.Perm (List.range nb))
    (ho3 : sch.base.copy.Perm (List.range nb)) (ho4 : sch.merge.Perm (List.range nb)) {t : Nat × Nat × V} (ht : t ∈ Outer.prods mul A B (List.range A.cols)) (hr : A.rows ≤ t.1)
    (mem : List Nat) (C : CSR V × Nat) : stage mul add sortf A B n nb width mem sch ≠ .ok (some C) := by
  intro h
  unfold stage at h
  obtain ⟨npb, hp, h⟩ := MatObj.bind_eq_ok h
  obtain ⟨flops, hfl, h⟩ := MatObj.bind_eq_ok h
  obtain ⟨_, -, h⟩ := MatObj.bind_eq_ok h
  obtain ⟨_, -, h⟩ := MatObj.bind_eq_ok h
  have h64 := perBlock_ge hnb hp
  have hfl0 : sch.base.flop.foldlM (flopCol A B npb) (List.replicate nb 0) = sch.base.flop.foldlM (Outer.flopCol A B npb) (List.replicate nb 0) := by
    congr 1
    funext fl i
    refine flopCol_same (fun r hr => ?_) fl
    have : r < H := w.inBounds r hr
    rw [Nat.div_lt_iff_lt_mul (by omega)]
    have : 2 ^ 16 * 64 ≤ 2 ^ 16 * npb := Nat.mul_le_mul_left _ h64
    omega
  rw [hfl0] at hfl
  -- all rows belong to blocks
  have hrow : ∀ r ∈ A.rowids, 0 < npb ∧ r / npb < nb := by
    obtain ⟨-, h2⟩ := foldlM_reach (fun fl : List Nat => fl.length = nb) (fun _ _ _ hf h => (flopCol_reach hf h).1) (List.length_replicate ..) hfl
    intro r hm
    obtain ⟨j, hj, rfl⟩ := List.mem_iff_getElem.1 hm
    obtain ⟨c, hc, h3, h4⟩ : ∃ c < A.cols, A.ptr c ≤ j ∧ j < A.ptr (c + 1) := by
      refine cover_of w.ptrFirst A.cols j ?_
      have h1 : A.ptr A.cols = A.nnz := w.ptrLast
      have h2 : A.rowids.length = A.nnz := w.rowLen
      change j < A.ptr A.cols
      rw [h1, ← h2]
      exact hj
    obtain ⟨s, s', hs, h5⟩ := h2 c (ho1.mem_iff.2 (List.mem_range.2 hc))
    obtain ⟨r, hr, h6⟩ := (flopCol_reach hs h5).2 (A.ptr c) (A.ptr (c + 1)) (Inner.rd_cptr w (Nat.le_of_lt hc)) (Inner.rd_cptr w hc) j h3 h4
    rw [rd_of_lt hj] at hr
    injection hr with hr
    rw [hr]
    exact h6
  have hpp : 0 < npb := by omega
  have hv : ValidOuter { A with rows := nb * npb } B := ⟨{ w with inBounds := fun r hr => (Nat.div_lt_iff_lt_mul hpp).1 (hrow r hr).2 }, wB, hab⟩
  have hpb : ∀ r < nb * npb, r / npb < nb := fun r hr => (Nat.div_lt_iff_lt_mul hpp).2 hr
  have e1 := Outer.flops_eq mul hv hpp hpb ho1
  have e2 := region_ok (mul := mul) (width := width) (flops := flops) hv (fun r _ => div_ok hpp) hpb hw hasg sch.base.main (Except.ok.inj (hfl.symm.trans e1))
  change (phase n (Outer.step mul A B (fun r => Tuples.div r npb) nb width sch.base.asg) (Outer.fin nb) sch.base.main _ _ = .ok none ∧ _) ∨
    ∃ g ls L, phase n (Outer.step mul A B (fun r => Tuples.div r npb) nb width sch.base.asg) (Outer.fin nb) sch.base.main _ _ = .ok (some (g, ls)) ∧ _ at e2
  rcases e2 with ⟨e, -⟩ | ⟨g, ls, L, e, hg, hL⟩
  · rw [e, ok_bind] at h
    cases h
  · rw [e, ok_bind] at h
    have hmem : ∀ b < nb, ∀ t ∈ L b, t ∈ Outer.prods mul A B (List.range A.cols) := fun b hb t ht => by
      rw [(hL b hb).mem_iff] at ht
      exact (List.mem_filter.1 ht).1
    obtain ⟨J, eJ⟩ := sortMerge_ok add (hs _ (key_lt npb)) hg (fun b hb t ht => by have := (prods_row hv (hmem b hb t ht)).2; omega) ho2 ho4
    simp only at h
    rw [eJ, ok_bind] at h
    obtain ⟨D, h, h'⟩ := MatObj.bind_eq_ok h
    cases D with
    | none => cases h'
    | some D =>
    unfold Outer.finish at h
    obtain ⟨cum, -, h⟩ := MatObj.bind_eq_ok h
    cases cum with
    | none => cases h
    | some cum =>
      simp only at h
      obtain ⟨total, -, h⟩ := MatObj.bind_eq_ok h
      obtain ⟨_, -, h⟩ := MatObj.bind_eq_ok h
      obtain ⟨o, ho, -⟩ := MatObj.bind_eq_ok h
      obtain ⟨-, h2⟩ := foldlM_reach (fun o : Outer.Out V => o.byRow.length = A.rows) (fun _ _ _ hf h => (copyBlock_reach hf h).1) (List.length_replicate ..) ho
      have hb := hpb _ (prods_row (mul := mul) hv ht).1
      obtain ⟨s, s', hs', h5⟩ := h2 (t.1 / npb) (ho3.mem_iff.2 (List.mem_range.2 hb))
      have hm : t ∈ sortf (Outer.key npb) (L (t.1 / npb)) := by
        rw [((hs _ (key_lt npb)).perm _).mem_iff, (hL _ hb).mem_iff]
        exact List.mem_filter.2 ⟨ht, by simp⟩
      obtain ⟨y, hy, hy1, -⟩ := mem_merged add hm
      obtain ⟨i, hi, rfl⟩ := List.mem_iff_getElem.1 hy
      obtain ⟨z, hz, hz2⟩ := (copyBlock_reach hs' h5).2 _ _ (rd_tab hb) (rd_tab hb) i hi
      rw [rd_of_lt (by rw [List.length_append]; omega), List.getElem_append_left hi] at hz
      injection hz with hz
      rw [← hz] at hz2
      omega

end Verif.Model.Profile
