import Mathlib.Data.Multiset.Bind
import Verif.Lemmas.SampleMain
import Verif.Props.C95

/-! # Lemmas for the sample programs with generated matrices or files -/

namespace Verif.Model.SampleMain

open Verif.Spec Verif.Model.Bench Verif.Model.Sample
open Verif.Model.MaskedAll (Ker Good seq_good seq_done seq_stop seqAll_good seqAll_append SchAdm SchFair masked_entries masked_unique product_filterMap flatMap_bucket)

variable {V F E : Type} {st : Prop}

/-! ## Input -/

/-- The two graphs that the generator returns, one after the other, for `2 ^ scale` vertices and `2 ^ scale * factor` edges -/
def Generated (env : Env V F) (kind : List Char) (scale factor : Nat) (GA GB : List (Nat × Nat × Int)) : Prop :=
  let q := if kind = "rmat".toList then env.parRmat else env.parEr
  Rmat.graphGen env.ar Rmat.getParams q env.st (2 ^ scale) (2 ^ scale * factor) env.fuel = .ok GA ∧
    Rmat.graphGen env.ar Rmat.getParams (parAfter env.ar env.st q (2 ^ scale) (2 ^ scale * factor) env.fuel 0 0 q) env.st (2 ^ scale) (2 ^ scale * factor) env.fuel = .ok GB

/-- The input of the program: two text files or two binary files that describe the matrices, or the weight matrices of two random graphs -/
inductive Input (env : Env V F) (neg : V → V) : List (List Char) → List Nat → List Nat → Nat → Nat → List (Nat × Nat × V) → Nat → Nat → List (Nat × Nat × V) → Prop where
  | text (a1 a2 a3 : List Char) (rest : List (List Char)) (oA oB : List Nat) (m n m' n' : Nat) (es fs : List (Nat × Nat × V)) (h1 : a1 ≠ "gen".toList)
      (h2 : a1 ≠ "binary".toList) (hn : HasStem a2) (hA : Props.GoodText env.ofInt neg (env.text a2) m n es)
      (hB : Props.GoodText env.ofInt neg (env.text a3) m' n' fs) (oA' : oA.Perm (List.range n)) (oB' : oB.Perm (List.range n')) :
      Input env neg (a1 :: a2 :: a3 :: rest) oA oB m n es m' n' fs
  | binary (a2 a3 : List Char) (rest : List (List Char)) (oA oB : List Nat) (m n m' n' : Nat) (es fs : List (Nat × Nat × V))
      (hA : Props.GoodBinary env.decV env.si env.sv (env.bin a2) m n es) (hB : Props.GoodBinary env.decV env.si env.sv (env.bin a3) m' n' fs)
      (oA' : oA.Perm (List.range n)) (oB' : oB.Perm (List.range n')) : Input env neg ("binary".toList :: a2 :: a3 :: rest) oA oB m n es m' n' fs
  | gen (a2 a3 a4 : List Char) (rest : List (List Char)) (oA oB : List Nat) (scale factor : Nat) (GA GB : List (Nat × Nat × Int)) (es fs : List (Nat × Nat × V))
      (h3 : Numeral a3 scale) (h4 : Numeral a4 factor) (hf : factor ≠ 0) (ha : AssocComm env.add) (hE : SortsEdges env.sortE) (hG : Generated env a2 scale factor GA GB)
      (hGA : IsRandomGraph (2 ^ scale) (2 ^ scale * factor) 0 100 GA) (hGB : IsRandomGraph (2 ^ scale) (2 ^ scale * factor) 0 100 GB)
      (hA : GraphEntries env.add (GA.map fun e => (e.1, e.2.1, env.ofInt e.2.2)) es) (hB : GraphEntries env.add (GB.map fun e => (e.1, e.2.1, env.ofInt e.2.2)) fs) :
      Input env neg ("gen".toList :: a2 :: a3 :: a4 :: rest) oA oB (2 ^ scale) (2 ^ scale) es (2 ^ scale) (2 ^ scale) fs

theorem graph_mat {env : Env V F} (ha : AssocComm env.add) (hs : SortsEdges env.sortE) {n m : Nat} {G : List (Nat × Nat × Int)} (hG : IsRandomGraph n m 0 100 G)
    (hm : m ≠ 0) : ∃ C, ofGraph env n G = .ok C ∧ C.WF ∧ C.rows = n ∧ C.cols = n ∧ C.SortedCols ∧
      GraphEntries env.add (G.map fun e => (e.1, e.2.1, env.ofInt e.2.2)) (triplesC C) := by
  have hb : ∀ x ∈ G.map fun e => (e.1, e.2.1, env.ofInt e.2.2), x.1 < n ∧ x.2.1 < n := by
    intro x hx
    obtain ⟨y, hy, rfl⟩ := List.mem_map.1 hx
    exact hG.ends y hy
  obtain ⟨C, e, h⟩ := Props.C57_csc_partial ha hs (env.ofInt 0) n (G.map fun e => (e.1, e.2.1, env.ofInt e.2.2)) (by
      intro h0
      have := congrArg List.length h0
      rw [List.length_map, hG.count] at this
      exact hm this)
    (by
      rw [List.pairwise_map]
      exact hG.sorted) hb
  have hsc : C.SortedCols := fun j hj => h.sorted j (h.cols ▸ hj)
  have hmem : ∀ i j v, (i, j, v) ∈ triplesC C ↔ j < C.cols ∧ (i, v) ∈ C.col j := by
    intro i j v
    unfold triplesC
    simp only [List.mem_flatMap, List.mem_range, List.mem_map, Prod.mk.injEq]
    constructor
    · rintro ⟨j', hj', x, hx, rfl, rfl, rfl⟩
      exact ⟨hj', hx⟩
    · rintro ⟨hj, hv⟩
      exact ⟨j, hj, (i, v), hv, rfl, rfl, rfl⟩
  refine ⟨C, e, h.wf, h.rows, h.cols, hsc, ?_, ?_⟩
  · obtain ⟨C', e', -, -, -, h1, -⟩ := Props.ofGraph_ok ha hs hG hm
    unfold ofGraph at e'
    rw [e] at e'
    obtain rfl := Except.ok.inj e'
    exact h1
  · intro i j v
    rw [hmem]
    constructor
    · rintro ⟨hj, hv⟩
      exact (h.entries j (h.cols ▸ hj) i v).1 hv
    · intro hv
      have hj : j < n := by
        have hne : weights (G.map fun e => (e.1, e.2.1, env.ofInt e.2.2)) i j ≠ [] := by
          intro h0
          rw [h0] at hv
          cases hv
        obtain ⟨x, hx⟩ := List.exists_mem_of_ne_nil _ hne
        unfold weights at hx
        obtain ⟨y, hy, -⟩ := List.mem_map.1 hx
        obtain ⟨hy, hd⟩ := List.mem_filter.1 hy
        have := hb y hy
        have := (of_decide_eq_true hd).2
        omega
      exact ⟨h.cols ▸ hj, (h.entries j hj i v).2 hv⟩

theorem graph_perm {add : V → V → V} {edges es es' : List (Nat × Nat × V)} (h : GraphEntries add edges es) (h' : GraphEntries add edges es') : es.Perm es' := by
  rw [List.perm_ext_iff_of_nodup (.of_map _ h.nodup) (.of_map _ h'.nodup)]
  rintro ⟨i, j, v⟩
  rw [h.mem, h'.mem]

theorem gen_input {env : Env V F} (a2 : List Char) {a3 a4 : List Char} (rest : List (List Char)) (oA oB : List Nat) {scale factor : Nat} (h3 : Numeral a3 scale)
    (h4 : Numeral a4 factor) : setInput env ("gen".toList :: a2 :: a3 :: a4 :: rest) oA oB = (do
      let q := if a2 = "rmat".toList then env.parRmat else env.parEr
      let g1 ← Rmat.graphGen env.ar Rmat.getParams q env.st (2 ^ scale) (2 ^ scale * factor) env.fuel
      let A ← ofGraph env (2 ^ scale) g1
      let q2 := parAfter env.ar env.st q (2 ^ scale) (2 ^ scale * factor) env.fuel 0 0 q
      let g2 ← Rmat.graphGen env.ar Rmat.getParams q2 env.st (2 ^ scale) (2 ^ scale * factor) env.fuel
      let B ← ofGraph env (2 ^ scale) g2
      .ok (A, B)) := by
  have d3 := ReadIO.atoi_digits (ReadIO.numeral_digits h3) (r := []) (by intro c hc; cases hc)
  have d4 := ReadIO.atoi_digits (ReadIO.numeral_digits h4) (r := []) (by intro c hc; cases hc)
  rw [List.append_nil] at d3 d4
  generalize hq : (if a2 = "rmat".toList then env.parRmat else env.parEr) = q
  have e0 : setInput env ("gen".toList :: a2 :: a3 :: a4 :: rest) oA oB = generate env q scale factor := by
    unfold setInput
    simp only [rd, List.getElem?_cons_zero, List.getElem?_cons_succ, ok_bind]
    rw [if_pos trivial, hq, d3, d4]
  rw [e0]
  unfold generate
  rw [if_neg (by omega)]
  simp only [Int.toNat_natCast]
  rw [if_neg (by omega)]

theorem generate_ok {env : Env V F} (ha : AssocComm env.add) (hE : SortsEdges env.sortE) {a2 a3 a4 : List Char} {rest : List (List Char)} (oA oB : List Nat)
    {scale factor : Nat} (h3 : Numeral a3 scale) (h4 : Numeral a4 factor) (hf : factor ≠ 0) {GA GB : List (Nat × Nat × Int)} (hG : Generated env a2 scale factor GA GB)
    (hGA : IsRandomGraph (2 ^ scale) (2 ^ scale * factor) 0 100 GA) (hGB : IsRandomGraph (2 ^ scale) (2 ^ scale * factor) 0 100 GB) :
    ∃ A B, setInput env ("gen".toList :: a2 :: a3 :: a4 :: rest) oA oB = .ok (A, B) ∧ A.WF ∧ A.rows = 2 ^ scale ∧ A.cols = 2 ^ scale ∧ A.SortedCols ∧
      GraphEntries env.add (GA.map fun e => (e.1, e.2.1, env.ofInt e.2.2)) (triplesC A) ∧ B.WF ∧ B.rows = 2 ^ scale ∧ B.cols = 2 ^ scale ∧
      GraphEntries env.add (GB.map fun e => (e.1, e.2.1, env.ofInt e.2.2)) (triplesC B) := by
  have hm : 2 ^ scale * factor ≠ 0 := Nat.mul_ne_zero (by simp) hf
  obtain ⟨A, fA, wA, rA, cA, sA, gA⟩ := graph_mat ha hE hGA hm
  obtain ⟨B, fB, wB, rB, cB, -, gB⟩ := graph_mat ha hE hGB hm
  refine ⟨A, B, ?_, wA, rA, cA, sA, gA, wB, rB, cB, gB⟩
  obtain ⟨eA, eB⟩ := hG
  have e1 := gen_input (env := env) a2 rest oA oB h3 h4
  generalize (if a2 = "rmat".toList then env.parRmat else env.parEr) = q at e1 eA eB
  dsimp only at e1
  rw [e1, eA, ok_bind, fA, ok_bind]
  simp only [eB, ok_bind, fB]

theorem sorted_of {A : CSC V} (hA : A.WF) (h : ∀ j < A.cols, (A.colRows j).Pairwise (· ≤ ·)) {es : List (Nat × Nat × V)} (hp : (triplesC A).Perm es)
    (hn : (es.map fun e => (e.1, e.2.1)).Nodup) : A.SortedCols := by
  intro j hj
  have h2 := Props.cols_nodup hA (((hp.map _).nodup_iff).2 hn) j hj
  exact ((h j hj).and h2).imp fun ⟨a, b⟩ => Nat.lt_of_le_of_ne a b

theorem Input.read {env : Env V F} {neg : V → V} {args : List (List Char)} {oA oB : List Nat} {m n m' n' : Nat} {es fs : List (Nat × Nat × V)}
    (h : Input env neg args oA oB m n es m' n' fs) (hs : SortsBy Prod.fst env.sortf) :
    ¬ args.length < 3 ∧ ∃ A B, setInput env args oA oB = .ok (A, B) ∧ A.WF ∧ A.rows = m ∧ A.cols = n ∧ (triplesC A).Perm es ∧ B.WF ∧ B.rows = m' ∧ B.cols = n' ∧
      (triplesC B).Perm fs ∧ ((es.map fun e => (e.1, e.2.1)).Nodup → A.SortedCols) := by
  cases h with
  | text a1 a2 a3 rest _ _ _ _ _ _ _ _ h1 h2 hn hA hB oA' oB' =>
    refine ⟨by simp, ?_⟩
    obtain ⟨t, es', text, e, g1, g2, g3, g4, g5, rfl⟩ := hA.good
    obtain ⟨A, i1, i2, i3, i4, i5, i6⟩ := Props.C65_partial neg hs g1 g2 g3 g4 g5 oA'
    obtain ⟨B, k1, k2, k3, k4, k5⟩ := hB.read hs oB'
    obtain ⟨x, hx⟩ := inputName_ok hn
    refine ⟨A, B, ?_, i2, i3, i4, i5, k2, k3, k4, k5, sorted_of i2 (i4 ▸ i6) i5⟩
    unfold setInput
    simp only [rd, List.getElem?_cons_zero, List.getElem?_cons_succ, ok_bind]
    rw [if_neg h1, if_neg h2, e, i1, ok_bind, k1, ok_bind, hx, ok_bind]
  | binary a2 a3 rest _ _ _ _ _ _ _ _ hA hB oA' oB' =>
    refine ⟨by simp, ?_⟩
    obtain ⟨es', tail, e, h1, h2, h3, h4, h5, h6, h7, h8, rfl⟩ := hA.good
    obtain ⟨A, i1, i2, i3, i4, i5, i6⟩ := Props.C68_partial hs (env.ofInt 0) env.decV h1 h2 h3 h4 h5 h6 h7 h8 tail oA'
    obtain ⟨B, k1, k2, k3, k4, k5⟩ := hB.read hs (env.ofInt 0) oB'
    refine ⟨A, B, ?_, i2, i3, i4, i5, k2, k3, k4, k5, sorted_of i2 (i4 ▸ i6) i5⟩
    exact Props.input_binary (by rw [e]; exact i1) k1
  | gen a2 a3 a4 rest _ _ scale factor GA GB _ _ h3 h4 hf ha hE hG hGA hGB hA hB =>
    obtain ⟨A, B, e, wA, rA, cA, sA, gA, wB, rB, cB, gB⟩ := generate_ok ha hE oA oB (rest := rest) h3 h4 hf hG hGA hGB
    exact ⟨by simp, A, B, e, wA, rA, cA, graph_perm gA hA, wB, rB, cB, graph_perm gB hB, fun _ => sA⟩

/-- The generator gives two random graphs or does not end. -/
theorem generated_or {env : Env V F} (neg : V → V) (ha : AssocComm env.add) (hE : SortsEdges env.sortE) (hr : ∀ i, 0 ≤ env.st.s2 i ∧ env.st.s2 i < 1)
    {a2 a3 a4 : List Char} (rest : List (List Char)) (oA oB : List Nat) {scale factor : Nat} (h3 : Numeral a3 scale) (h4 : Numeral a4 factor) (hsc : scale ≤ 32)
    (hf : factor ≠ 0) :
    (∃ GA GB es fs, IsRandomGraph (2 ^ scale) (2 ^ scale * factor) 0 100 GA ∧ IsRandomGraph (2 ^ scale) (2 ^ scale * factor) 0 100 GB ∧
      GraphEntries env.add (GA.map fun e => (e.1, e.2.1, env.ofInt e.2.2)) es ∧ GraphEntries env.add (GB.map fun e => (e.1, e.2.1, env.ofInt e.2.2)) fs ∧
      Input env neg ("gen".toList :: a2 :: a3 :: a4 :: rest) oA oB (2 ^ scale) (2 ^ scale) es (2 ^ scale) (2 ^ scale) fs) ∨
      setInput env ("gen".toList :: a2 :: a3 :: a4 :: rest) oA oB = .error .diverge := by
  have hpos : 2 ^ scale ≠ 0 := by simp
  have hle : 2 ^ scale ≤ 2 ^ 32 := Nat.pow_le_pow_right (by omega) hsc
  have hm : 2 ^ scale * factor ≠ 0 := Nat.mul_ne_zero hpos hf
  have e1 := gen_input (env := env) a2 rest oA oB h3 h4
  generalize hq : (if a2 = "rmat".toList then env.parRmat else env.parEr) = q at e1
  dsimp only at e1
  rcases Props.C89_partial env.ar Rmat.getParams rfl rfl rfl (by decide) (by decide) q env.st hr hpos hle (2 ^ scale * factor) env.fuel with ⟨GA, eA, hGA⟩ | eA
  · obtain ⟨A, fA, -, -, -, -, gA⟩ := graph_mat ha hE hGA hm
    rcases Props.C89_partial env.ar Rmat.getParams rfl rfl rfl (by decide) (by decide)
      (parAfter env.ar env.st q (2 ^ scale) (2 ^ scale * factor) env.fuel 0 0 q) env.st hr hpos hle (2 ^ scale * factor) env.fuel with ⟨GB, eB, hGB⟩ | eB
    · obtain ⟨B, fB, -, -, -, -, gB⟩ := graph_mat ha hE hGB hm
      refine .inl ⟨GA, GB, _, _, hGA, hGB, gA, gB, .gen _ _ _ _ _ _ _ _ GA GB _ _ h3 h4 hf ha hE ?_ hGA hGB gA gB⟩
      unfold Generated
      rw [hq]
      exact ⟨eA, eB⟩
    · right
      rw [e1, eA, ok_bind, fA, ok_bind]
      simp only [eB]
      rfl
  · right
    rw [e1, eA]
    rfl

/-! ## Rearranged rows -/

theorem triples_perm {A C : CSR V} (h : SameRows A C) : (triples C).Perm (triples A) := by
  unfold triples
  rw [h.rows]
  exact Conv.flatMap_perm_congr _ _ _ fun i hi => (h.perm i (List.mem_range.1 hi)).map _

/-- Each row has an entry. -/
theorem row_ne_nil {A : CSR V} (hA : A.WF) {es : List (Nat × Nat × V)} (hp : (triples A).Perm es) (h : ∀ i < A.rows, ∃ j, Stored es i j) :
    ∀ i < A.rows, A.row i ≠ [] := by
  intro i hi h0
  obtain ⟨j, hj⟩ := h i hi
  have := (stored_iff hA hp hi).2 hj
  rw [← CSR.row_map_fst hA, h0] at this
  cases this

theorem row_eq_nil {A : CSR V} (hA : A.WF) {es : List (Nat × Nat × V)} (hp : (triples A).Perm es) {i : Nat} (hi : i < A.rows) (h : ∀ j, ¬ Stored es i j) :
    A.row i = [] := by
  rw [List.eq_nil_iff_forall_not_mem]
  rintro ⟨j, v⟩ hx
  refine h j ((stored_iff hA hp hi).1 ?_)
  rw [← CSR.row_map_fst hA]
  exact List.mem_map.2 ⟨_, hx, rfl⟩

theorem byRows {C : CSR V} (hC : C.WF) (h : C.SortedRows) : ByRows (triples C) := by
  unfold ByRows triples
  rw [List.pairwise_flatMap]
  constructor
  · intro i hi
    have := h i (List.mem_range.1 hi)
    rw [← CSR.row_map_fst hC, List.pairwise_map] at this
    rw [List.pairwise_map]
    exact this.imp fun h => .inr ⟨rfl, h⟩
  · refine List.pairwise_lt_range.imp ?_
    intro a b hab x hx y hy
    obtain ⟨_, -, rfl⟩ := List.mem_map.1 hx
    obtain ⟨_, -, rfl⟩ := List.mem_map.1 hy
    exact .inl hab

theorem byRows_unique {P P' : List (Nat × Nat × V)} (h : P.Perm P') (s : ByRows P) (s' : ByRows P') : P = P' := by
  refine h.eq_of_pairwise ?_ s s'
  intro a b _ _ h1 h2
  omega

/-! ## Products by columns -/

/-- The matrix with rows for columns -/
def flipM (A : CSC V) : CSR V :=
  { rows := A.cols, cols := A.rows, nnz := A.nnz, rowptr := A.colptr, colids := A.rowids, values := A.values, zerobased := A.zerobased }

theorem flip_row (A : CSC V) (j : Nat) : (flipM A).row j = A.col j := rfl

theorem flip_triples (A : CSC V) : triplesC A = (triples (flipM A)).map fun e => (e.2.1, e.1, e.2.2) := by
  unfold triplesC triples
  rw [List.map_flatMap]
  simp only [List.map_map]
  rfl

theorem mem_triplesC {A : CSC V} {i j : Nat} {v : V} : (i, j, v) ∈ triplesC A ↔ j < A.cols ∧ (i, v) ∈ A.col j := by
  rw [flip_triples, List.mem_map]
  constructor
  · rintro ⟨⟨a, b, c⟩, h, e⟩
    obtain ⟨rfl, rfl, rfl⟩ : b = i ∧ a = j ∧ c = v := by simpa using e
    exact Graph.mem_triples.1 h
  · intro h
    exact ⟨(j, i, v), Graph.mem_triples.2 h, rfl⟩

theorem swap_product {α β γ : Type} (g : α → β → Option γ) (l : List α) (m : List β) :
    (l.flatMap fun a => m.filterMap fun b => g a b).Perm (m.flatMap fun b => l.filterMap fun a => g a b) := by
  have h1 : ∀ {α β : Type} (l : List α) (m : List β) (g : α → β → Option γ), ((l.flatMap fun a => m.filterMap fun b => g a b : List γ) : Multiset γ) =
      (l : Multiset α).bind fun a => (m : Multiset β).bind fun b => ((g a b).toList : Multiset γ) := by
    intro α β l m g
    have : ∀ a, m.filterMap (fun b => g a b) = m.flatMap fun b => (g a b).toList := by
      intro a
      induction m with
      | nil => rfl
      | cons b m ih => rw [List.flatMap_cons, ← ih]; cases h : g a b <;> simp [h]
    simp only [this, ← Multiset.coe_bind]
  rw [← Multiset.coe_eq_coe, h1, h1, Multiset.bind_bind]

section
variable {R : Type} [Semiring R]

theorem contribs_colPairs {A B : CSC R} (hB : B.WF) (hAB : A.cols = B.rows) (i : Nat) {j : Nat} (hj : j < B.cols) :
    ((triplesC A ×ˢ triplesC B).filterMap fun p => if p.1.1 = i ∧ p.1.2.1 = p.2.1 ∧ p.2.2.1 = j then some (p.1.2.2 * p.2.2.2) else none).Perm
      (contribsByCol (fun x y => x * y) A B i j) := by
  rw [product_filterMap]
  refine (swap_product (fun a b : Nat × Nat × R => if a.1 = i ∧ a.2.1 = b.1 ∧ b.2.1 = j then some (a.2.2 * b.2.2) else none) _ _).trans (.of_eq ?_)
  rw [flip_triples B, List.flatMap_map]
  have : ∀ b : Nat × Nat × R, ((triplesC A).filterMap fun a => if a.1 = i ∧ a.2.1 = b.2.1 ∧ b.1 = j then some (a.2.2 * b.2.2) else none) =
      if b.1 = j then (triplesC A).filterMap (fun a => if a.1 = i ∧ a.2.1 = b.2.1 then some (a.2.2 * b.2.2) else none) else [] := by
    intro b
    by_cases h : b.1 = j
    · simp [h]
    · rw [if_neg h, List.filterMap_eq_nil_iff]
      intro a _
      rw [if_neg fun hh => h hh.2.2]
  simp only [this]
  rw [flatMap_bucket j fun x : Nat × R => (triplesC A).filterMap (fun a => if a.1 = i ∧ a.2.1 = x.1 then some (a.2.2 * x.2) else none),
    Graph.bucket_triples (flipM B) hj, flip_row]
  unfold contribsByCol
  apply Conv.flatMap_congr_mem
  intro x hx
  have hx' : x.1 < A.cols := hAB ▸ Flops.col_lt hB hx
  rw [← flip_row A, ← Graph.bucket_triples (flipM A) hx', flip_triples]
  unfold Conv.bucket
  rw [List.filterMap_filterMap, List.filterMap_map]
  refine List.filterMap_congr fun a _ => ?_
  by_cases h1 : a.1 = x.1
  · simp [h1]
  · simp [h1]

theorem col_entries {A B C : CSC R} (hA : A.WF) (hB : B.WF) (hAB : A.cols = B.rows) {es fs : List (Nat × Nat × R)} (hp : (triplesC A).Perm es)
    (hq : (triplesC B).Perm fs) (h : IsColProduct (fun x y => x * y) (fun x y => x + y) A B C) : ProductEntries es fs (triplesC C) where
  nodup := by
    rw [flip_triples, List.map_map]
    have h1 : ((triples (flipM C)).map fun e => (e.1, e.2.1)).Nodup := by
      unfold triples
      rw [List.map_flatMap, List.nodup_flatMap]
      constructor
      · intro j hj
        have := h.sorted j (List.mem_range.1 hj)
        rw [List.map_map]
        have hcol : C.colRows j = ((flipM C).row j).map Prod.fst := by rw [flip_row, Inner.col_map_fst h.wf]
        rw [hcol, List.pairwise_map] at this
        unfold List.Nodup
        rw [List.pairwise_map]
        refine this.imp ?_
        intro a b hab e
        have := (Prod.mk.inj e).2
        simp only at this
        omega
      · refine List.pairwise_lt_range.imp ?_
        intro a b hab x hx hy
        simp only [List.map_map] at hx hy
        obtain ⟨_, -, rfl⟩ := List.mem_map.1 hx
        obtain ⟨_, -, e⟩ := List.mem_map.1 hy
        have : b = a := (Prod.mk.inj e).1
        omega
    have h2 : (triples (flipM C)).map ((fun e : Nat × Nat × R => (e.1, e.2.1)) ∘ fun e => (e.2.1, e.1, e.2.2)) =
        ((triples (flipM C)).map fun e => (e.1, e.2.1)).map Prod.swap := by rw [List.map_map]; rfl
    rw [h2]
    exact h1.map Prod.swap_injective
  mem := by
    intro i j v
    rw [mem_triplesC, h.cols]
    by_cases hj : j < B.cols
    · rw [h.entries j hj]
      have hperm := contribs_colPairs (A := A) hB hAB i hj
      have hsum : productAt es fs i j = (contribsByCol (fun x y => x * y) A B i j).sum := by
        unfold productAt
        exact ((hp.product hq).filterMap _).sum_eq.symm.trans hperm.sum_eq
      have hne : (∃ k, Stored es i k ∧ Stored fs k j) ↔ contribsByCol (fun x y => x * y) A B i j ≠ [] := by
        have : contribsByCol (fun x y => x * y) A B i j ≠ [] ↔ ∃ x, x ∈ contribsByCol (fun x y => x * y) A B i j :=
          ⟨fun h => List.exists_mem_of_ne_nil _ h, fun ⟨x, hx⟩ => List.ne_nil_of_mem hx⟩
        rw [this]
        simp only [← hperm.mem_iff, List.mem_filterMap]
        constructor
        · rintro ⟨k, ⟨e, he, e'⟩, f, hf, f'⟩
          have hpair : (e, f) ∈ triplesC A ×ˢ triplesC B := List.mem_product.2 ⟨hp.mem_iff.2 he, hq.mem_iff.2 hf⟩
          obtain ⟨rfl, rfl⟩ := Prod.mk.inj e'
          obtain ⟨h3, rfl⟩ := Prod.mk.inj f'
          exact ⟨_, (e, f), hpair, if_pos ⟨rfl, h3.symm, rfl⟩⟩
        · rintro ⟨x, ⟨e, f⟩, hpair, hx⟩
          obtain ⟨he, hf⟩ := List.mem_product.1 hpair
          split at hx
          · rename_i hc
            exact ⟨e.2.1, ⟨e, hp.mem_iff.1 he, by rw [← hc.1]⟩, f, hq.mem_iff.1 hf, by rw [hc.2.1, ← hc.2.2]⟩
          · cases hx
      rw [hne, hsum]
      have hs := Props.sum1_add (contribsByCol (fun x y => x * y) A B i j)
      constructor
      · rintro ⟨-, h2⟩
        refine ⟨fun h0 => ?_, ((hs v).2 h2).symm⟩
        rw [h0] at h2
        cases h2
      · rintro ⟨h0, rfl⟩
        refine ⟨hj, ?_⟩
        cases hc : contribsByCol (fun x y => x * y) A B i j with
        | nil => exact absurd hc h0
        | cons a l =>
          rw [hc] at hs
          have : sum1 (fun x y : R => x + y) (a :: l) = some (l.foldl (fun x y => x + y) a) := rfl
          rw [this, (hs _).2 this]
    · constructor
      · exact fun h => absurd h.1 hj
      · rintro ⟨⟨k, -, f, hf, f'⟩, -⟩
        exfalso
        obtain ⟨-, rfl⟩ := Prod.mk.inj f'
        exact hj (mem_triplesC.1 (hq.mem_iff.2 (show (f.1, f.2.1, f.2.2) ∈ fs from hf))).1

/-- The turns that `HeapSpGEMM` needs -/
def HeapFair (n K : Nat) (s : Sch) : Prop := ∀ t < n, K ≤ s.heap.main.count t ∧ K ≤ s.heap.copy.count t

theorem heap_gives {A B : CSC R} (h : ValidCols A B) (hpos : 0 < B.cols) (hsmall : B.cols + 1 < 2 ^ 17) {tnum : Nat} (ht : 0 < tnum) :
    ∃ C, IsColProduct (fun x y => x * y) (fun x y => x + y) A B C ∧ ∀ s : Sch, s.heap.Adm B.cols tnum → Gives (HeapFair tnum (B.cols + 2) s) C
      (HeapMult.heapSpGEMM (fun x y => x * y) (fun x y => x + y) 0 A B tnum s.heap) := by
  obtain ⟨C, h1, h2⟩ := Props.C54_heap_partial (fun x y : R => x * y) (fun x y => x + y) ⟨add_assoc, add_comm⟩ 0 h hpos hsmall ht
  refine ⟨C, h1, fun s hadm => ?_⟩
  rcases h2 s.heap hadm with ⟨e, t, ht', h⟩ | e
  · refine .inr ⟨fun hf => ?_, e⟩
    have := hf t ht'
    omega
  · exact .inl e

/-! ## Parts of the programs -/

/-- A part of a program with a masked kernel for the square of a matrix at its own positions -/
theorem square_block {A : CSR R} (hA : A.WF) (hsq : A.rows = A.cols) {es L : List (Nat × Nat × R)} (hp : (triples A).Perm es) (hL : MaskedEntries es es es L)
    (name : List Char) (x : Ker) (Bc : CSC R) {tnum : Nat} (iters : Nat)
    (hC : ∃ C, IsMaskedSet (fun x y => x * y) (fun x y => x + y) A A A C ∧ ∃ K, ∀ C0 : CSR R, ∀ s, SchAdm A.rows tnum s →
      Gives (SchFair tnum K s) C (x.call A A A Bc tnum C0 s)) :
    ∃ K, ∀ s : Nat → Sch, (∀ i, SchAdm A.rows tnum (s i).mask) → Good (∀ i, SchFair tnum K (s i).mask) [.result name tnum L.length]
      (block name (fun C s => x.call A A A Bc tnum C s.mask) iters tnum s) := by
  obtain ⟨C, hC, K, hK⟩ := hC
  refine ⟨K, fun s hadm => ?_⟩
  have hl : C.nnz = L.length := by
    rw [← triples_length hC.wf]
    exact (masked_unique (masked_entries hA hA hA hsq.symm rfl hp hp hp hC) hL).length_eq
  rw [← hl]
  exact block_good iters tnum (fun C0 _ _ i => MaskedAll.Gives.weaken (hK C0 _ (hadm i)) fun hh => hh i) hC.wf.zero

theorem hash_block {A : CSR R} (hA : A.WF) (hsq : A.rows = A.cols) (hpos : 0 < A.rows) (hsmall : A.rows + 1 < 2 ^ 17) {es L : List (Nat × Nat × R)}
    (hp : (triples A).Perm es) (hL : MaskedEntries es es es L) (name : List Char) (Bc : CSC R) {tnum : Nat} (ht : 0 < tnum) (iters : Nat) :
    ∃ K, ∀ s : Nat → Sch, (∀ i, SchAdm A.rows tnum (s i).mask) → Good (∀ i, SchFair tnum K (s i).mask) [.result name tnum L.length]
      (block name (fun C s => Ker.hash.call A A A Bc tnum C s.mask) iters tnum s) := by
  refine square_block hA hsq hp hL name .hash Bc iters ?_
  obtain ⟨C, h1, h2⟩ := Props.C31_hash_partial (fun x y : R => x * y) (fun x y => x + y) ⟨hA, hA, hA, ⟨hsq.symm, rfl, rfl⟩, hpos⟩ hsmall 0 ht tnum
  refine ⟨C, h1, A.rows + 2, fun C0 s hs => MaskedAll.of_two (h2 s.two hs.two) fun hf t ht' hp => ?_⟩
  have := hf.two t ht'
  omega

theorem wobin_block {A : CSR R} (hA : A.WF) (hsq : A.rows = A.cols) (hpos : 0 < A.rows) (hsmall : A.rows + 1 < 2 ^ 17) {es L : List (Nat × Nat × R)}
    (hp : (triples A).Perm es) (hL : MaskedEntries es es es L) (name : List Char) (Bc : CSC R) (tnum : Nat) (iters : Nat) :
    ∃ K, ∀ s : Nat → Sch, (∀ i, SchAdm A.rows tnum (s i).mask) → Good (∀ i, SchFair tnum K (s i).mask) [.result name tnum L.length]
      (block name (fun C s => Ker.wobin.call A A A Bc tnum C s.mask) iters tnum s) := by
  refine square_block hA hsq hp hL name .wobin Bc iters ?_
  obtain ⟨C, h1, h2⟩ := Props.C31_wobin_partial (fun x y : R => x * y) (fun x y => x + y) ⟨hA, hA, hA, ⟨hsq.symm, rfl, rfl⟩, hpos⟩ hsmall 0 tnum
  exact ⟨C, h1, 0, fun C0 s hs => .inl (h2 _ _ _ _ hs.order1 hs.order2)⟩

theorem hashBlock_good {sortf : List (Nat × R) → List (Nat × R)} (hs : SortsBy Prod.fst sortf) {A B : CSR R} (hA : A.WF) (hB : B.WF)
    (hAB : A.cols = B.rows) (hpos : 0 < A.rows) (hsmall : A.rows + 1 < 2 ^ 17) {es fs P : List (Nat × Nat × R)} (hp : (triples A).Perm es)
    (hq : (triples B).Perm fs) (hP : ProductEntries es fs P) (hby : ByRows P) {tnum : Nat} (ht : 0 < tnum) :
    ∃ C : CSR R, C.values = P.map (fun e => e.2.2) ∧ C.nnz = P.length ∧ ∀ s : Sch, HashMult.Adm A.rows tnum s.hash →
      Gives (HashFair tnum (A.rows + 2) s) C (hash true sortf A B tnum s) := by
  obtain ⟨C, hC, hg⟩ := hash_gives true hs hA hB hAB hpos hsmall ht
  have e := byRows_unique (product_unique (product_entries hA hB hAB hp hq hC) hP) (byRows hC.wf (hC.sorted rfl)) hby
  refine ⟨C, ?_, ?_, hg⟩
  · rw [← e, (MatObj.triples_snd hC.wf).2]
  · rw [← e, triples_length hC.wf]

end

end Verif.Model.SampleMain
