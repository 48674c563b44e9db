import Verif.Lemmas.TriCnt
import Verif.Lemmas.SumAll
import Verif.Props.C65

/-! # C69: triangle counting without GraphBLAS -/

namespace Verif.Props

open Verif.Model Verif.Model.TriCnt
open _root_.Verif.Spec (undirected SortsDown Splits SortsGreater SortsBy triangles)
open _root_.Verif.Spec (graphOf MMText Describes IntVal Lines fullEntries Sym)
open _root_.Verif.Spec (Algo Computes IsLower Relabelled triples triplesC SameMat)

variable {n : Nat} {R : Type} [Semiring R]

/-- What the program makes of the matrix: the count is right for the matrix that comes out of the preprocessing. -/
theorem tri_square' {A : CSC R} (h : A.WF) (hr : A.rows = n) (hc : A.cols = n) (hnz : 0 < A.nnz)
    {sortP : List (Nat × Nat) → List (Nat × Nat)} (hP : SortsGreater sortP)
    {sortT : List (Nat × Nat × R) → List (Nat × Nat × R)} (hT : SortsDown sortT)
    {sortf : List (Nat × R) → List (Nat × R)} (hs : SortsBy Prod.fst sortf) {order : List Nat} (ho : order.Perm (List.range n)) :
    ∃ (L : CSC R) (X : CSR R), preprocess sortP sortT sortf order 0 1 A = .ok L ∧ Conv.csrOfCsc 0 L = .ok X ∧
      L.WF ∧ L.SortedCols ∧ X.WF ∧ X.rows = n ∧ X.cols = n ∧ X.SortedRows ∧ SameMat X L ∧ X.nnz ≤ A.nnz ∧
      (∀ t ∈ triples X, t.2.2 = 0 ∨ t.2.2 = 1) ∧
      Graph.reduce (maskedMat (fun x y => x * y) (fun x y => x + y) X X X true) = (triangles (undirected n A) : R) ∧
      (undirected n A ≠ ⊥ → ∀ t ∈ triples X, t.2.2 = 1) ∧ (undirected n A = ⊥ → ∀ t ∈ triples X, t.2.2 = 0) ∧
      (undirected n A ≠ ⊥ → ∃ σ : Equiv.Perm (Fin n), IsLower ((undirected n A).comap σ.symm) X) := by
  obtain ⟨L, σ, p, hσ, e, w, lr, lc, ln, ls, hL⟩ := preprocess_ok h hr hc hnz hP hT hs ho (0 : R) 1
  have hnd : ∀ j < L.cols, (L.colRows j).Nodup := fun j hj => (ls j hj).imp fun hab => Nat.ne_of_lt hab
  obtain ⟨X, e2, xw, xr, xc, xp, -, xs, xm⟩ := C21_csc_to_csr (0 : R) w
  have xs := xs hnd
  have hn : X.nnz ≤ A.nnz := by
    have := Conv.csrOfCsc_eq (0 : R) w
    rw [e2] at this
    rw [Except.ok.inj this]
    refine Nat.le_trans (Nat.le_of_eq ?_) ln
    exact (Conv.psum_cnt (Conv.items L) (Conv.items_lt w)).trans (Conv.items_length w)
  have hinj : ∀ u v : Fin n, p u = p v → u = v := by
    intro u v e
    rw [hσ, hσ] at e
    exact σ.injective (Fin.ext e)
  have hlt : ∀ j r, r ∈ A.colRows j → r < n := fun j r hr' => hr ▸ h.inBounds r (mem_slice hr')
  refine ⟨L, X, e, e2, w, ls, xw, xr.trans lr, xc.trans lc, xs, xm, hn, ?_, ?_⟩
  · intro t ht
    rcases hL with ⟨-, hL⟩ | hL
    · rw [(hL t).1 (xp.mem_iff.1 ht)]; exact Or.inl rfl
    · obtain ⟨_, _, _, _, h1, _⟩ := mem_lows.1 ((hL t).1 (xp.mem_iff.1 ht))
      exact Or.inr h1
  rcases hL with ⟨h0, hL⟩ | hL
  · -- no edges
    rw [reduce_zero xw fun t ht => by rw [(hL t).1 (xp.mem_iff.1 ht)]]
    have hno : ∀ u v, ¬ (undirected n A).Adj u v := by
      have key : ∀ u v : Fin n, u ≠ v → u.val ∉ A.colRows v := by
        intro u v hne hm
        have hp : p u ≠ p v := fun e => hne (hinj _ _ e)
        have : (max (p u) (p v), min (p u) (p v), (1 : R)) ∈ lows 1 p A n :=
          mem_lows.2 ⟨v, v.2, u, hm, rfl, by simp only; omega, by simp only; omega⟩
        rw [h0] at this
        cases this
      rintro u v ⟨hne, hm | hm⟩
      · exact key u v hne hm
      · exact key v u hne.symm hm
    have : triangles (undirected n A) = 0 := by
      unfold triangles
      have : {s : Finset (Fin n) | (undirected n A).IsNClique 3 s} = ∅ := by
        ext s
        simp only [Set.mem_setOf_eq, Set.mem_empty_iff_false, iff_false]
        intro hs
        obtain ⟨a, b, c, hab, -⟩ := SimpleGraph.is3Clique_iff.1 hs
        exact hno a b hab
      rw [this, Set.ncard_empty]
    have hbot : undirected n A = ⊥ := by
      ext u v
      simp [hno u v]
    exact ⟨by rw [this, Nat.cast_zero], fun hne => absurd hbot hne, fun _ t ht => by rw [(hL t).1 (xp.mem_iff.1 ht)], fun hne => absurd hbot hne⟩
  · have hones : ∀ t ∈ triples X, t.2.2 = 1 := by
      intro t ht
      obtain ⟨_, _, _, _, h1, _⟩ := mem_lows.1 ((hL t).1 (xp.mem_iff.1 ht))
      exact h1
    have hrel : Relabelled (undirected n A) ((undirected n A).comap σ.symm) σ := by
      intro u v
      simp
    have hlow : IsLower ((undirected n A).comap σ.symm) X := by
      refine ⟨xw, xr.trans lr, xc.trans lc, xs, fun i j => ?_⟩
      have h1 : j.val ∈ X.rowCols i ↔ ∃ v, (i.val, j.val, v) ∈ triples X := by
        rw [← CSR.row_map_fst xw, List.mem_map]
        constructor
        · rintro ⟨⟨a, v⟩, ha, hv⟩
          simp only at hv
          subst hv
          exact ⟨v, Graph.mem_triples.2 ⟨by rw [xr, lr]; exact i.2, ha⟩⟩
        · rintro ⟨v, hv⟩
          exact ⟨(j.val, v), (Graph.mem_triples.1 hv).2, rfl⟩
      rw [h1]
      simp only [xp.mem_iff, hL, mem_lows]
      have hi : p (σ.symm i) = i := by rw [hσ]; simp
      have hj : p (σ.symm j) = j := by rw [hσ]; simp
      have find : ∀ (a : Nat) (ha : a < n) (b : Fin n), b.val = p a → (σ.symm b).val = a := by
        intro a ha b hb
        have : σ.symm b = ⟨a, ha⟩ := by
          rw [Equiv.symm_apply_eq]
          exact Fin.ext (by rw [hb, ← hσ])
        rw [this]
      rw [SimpleGraph.comap_adj]
      constructor
      · rintro ⟨v, c, hcn, r, hrc, -, hji, hor⟩
        refine ⟨hji, fun e => absurd (σ.symm.injective e) (Fin.ne_of_gt hji), ?_⟩
        rcases hor with ⟨h1, h2⟩ | ⟨h1, h2⟩
        · left
          rw [find r (hlt _ _ hrc) i h1, find c hcn j h2]
          exact hrc
        · right
          rw [find c hcn i h1, find r (hlt _ _ hrc) j h2]
          exact hrc
      · rintro ⟨hji, -, hm | hm⟩
        · exact ⟨1, σ.symm j, (σ.symm j).2, _, hm, rfl, hji, Or.inl ⟨hi.symm, hj.symm⟩⟩
        · exact ⟨1, σ.symm i, (σ.symm i).2, _, hm, rfl, hji, Or.inr ⟨hi.symm, hj.symm⟩⟩
    refine ⟨?_, fun _ => hones, fun hbot t ht => ?_, fun _ => ⟨σ, hlow⟩⟩
    · rw [maskedMat_ones xw (by rw [xr, xc, lr, lc]) hones, Graph.reduce_sq xw xs (xr.trans lr) (xc.trans lc), Graph.lower_total hlow,
        Graph.triangles_relabelled hrel]
    · obtain ⟨c, hcn, r, hrc, -, hlt', hor⟩ := mem_lows.1 ((hL t).1 (xp.mem_iff.1 ht))
      have hadj : (undirected n A).Adj ⟨r, hlt _ _ hrc⟩ ⟨c, hcn⟩ := by
        refine ⟨fun e => ?_, Or.inl hrc⟩
        have e := congrArg Fin.val e
        simp only at e
        subst e
        omega
      rw [hbot] at hadj
      exact hadj.elim

/-- The part of the above that is used most. -/
theorem tri_square {A : CSC R} (h : A.WF) (hr : A.rows = n) (hc : A.cols = n) (hnz : 0 < A.nnz)
    {sortP : List (Nat × Nat) → List (Nat × Nat)} (hP : SortsGreater sortP)
    {sortT : List (Nat × Nat × R) → List (Nat × Nat × R)} (hT : SortsDown sortT)
    {sortf : List (Nat × R) → List (Nat × R)} (hs : SortsBy Prod.fst sortf) {order : List Nat} (ho : order.Perm (List.range n)) :
    ∃ (L : CSC R) (X : CSR R), preprocess sortP sortT sortf order 0 1 A = .ok L ∧ Conv.csrOfCsc 0 L = .ok X ∧
      L.WF ∧ L.SortedCols ∧ X.WF ∧ X.rows = n ∧ X.cols = n ∧ X.SortedRows ∧ SameMat X L ∧ X.nnz ≤ A.nnz ∧
      (∀ t ∈ triples X, t.2.2 = 0 ∨ t.2.2 = 1) ∧
      Graph.reduce (maskedMat (fun x y => x * y) (fun x y => x + y) X X X true) = (triangles (undirected n A) : R) := by
  obtain ⟨L, X, h1, h2, h3, h4, h5, h6, h7, h8, h9, h10, h11, h12, -⟩ := tri_square' h hr hc hnz hP hT hs ho
  exact ⟨L, X, h1, h2, h3, h4, h5, h6, h7, h8, h9, h10, h11, h12⟩

/-- C69, for matrices with at least one stored entry: the program returns the number of triangles of the undirected graph of the matrix, for
every square matrix (with entries in any order, on the diagonal, on one side or both, repeated, with any values), for every algorithm
without complement, one- or two-phase, any thread count, any schedule and any distribution of the final sum. The values may be of any
semiring `R` (for the integers modulo `2^64` this says that the count modulo `2^64` is returned). The case without entries is
`C69_violated_empty`. -/
theorem C69_triangle_count_partial {A : CSC R} (h : A.WF) (hr : A.rows = n) (hc : A.cols = n) (hnz : 0 < A.nnz)
    {sortP : List (Nat × Nat) → List (Nat × Nat)} (hP : SortsGreater sortP)
    {sortT : List (Nat × Nat × R) → List (Nat × Nat × R)} (hT : SortsDown sortT)
    {sortf : List (Nat × R) → List (Nat × R)} (hs : SortsBy Prod.fst sortf) {order : List Nat} (ho : order.Perm (List.range n))
    {a : Algo} (ha : Graph.Usable a A.nnz) (two : Bool) {nt dflt : Nat} (ht : 0 < setNumThreads nt dflt)
    {parts : Nat → List (List Nat)} (hp : ∀ k, Splits k (parts k)) :
    Returns (triCount sortP sortT sortf order a two A nt dflt parts) n (setNumThreads nt dflt) (triangles (undirected n A) : R) := by
  obtain ⟨L, X, e1, e2, lw, ls, xw, xr, xc, xs, xm, xn, -, hred⟩ := tri_square h hr hc hnz hP hT hs ho
  have hn : 0 < n := by
    have : 0 < A.rowids.length := by rw [h.rowLen]; exact hnz
    have := h.inBounds _ (List.getElem_mem this)
    omega
  have hcomp := algo_computes a two (fun x y : R => x * y) (fun x y => x + y) (Bc := L)
    (⟨xw, xw, xw, ⟨xc.trans xr.symm, rfl, rfl⟩, xr ▸ hn⟩ : Spec.Valid X X X)
    (req_square' Graph.assocComm_add xs lw ls xm (ha.mono xn)) true ht
  unfold algoMat at hcomp
  rw [ha.1, if_neg (by simp), xr] at hcomp
  generalize hC : maskedMat (fun x y => x * y) (fun x y => x + y) X X X true = C at hcomp hred
  have hCw : C.WF := hC ▸ maskedMat_wf xw
  have hsum : SumAll.sumall (fun s v => s + v) (fun s t => s + t) (0 : R) id C.values (parts C.nnz) = .ok (triangles (undirected n A) : R) := by
    rw [SumAll.sumall_acc (acc := fun s v : R => s + v) (f := id) (fun _ _ => rfl) id (by rw [hCw.valLen]; exact hp _), List.map_id]
    exact congrArg _ hred
  have e : ∀ sch r, a.call two (fun x y => x * y) (fun x y => x + y) X X L X true nt dflt sch = .ok r →
      triCount sortP sortT sortf order a two A nt dflt parts sch = .ok (r.map fun C => C.values.sum) ∨ r ≠ none ∧ r ≠ some C := by
    intro sch r hr'
    by_cases hrC : r = some C
    · left
      unfold triCount countWith
      rw [e1, ok_bind, e2, ok_bind]
      simp only [hr', ok_bind, hrC, hsum, ok_bind, Option.map_some]
      rw [← hred]
      rfl
    · cases r with
      | none =>
        left
        unfold triCount countWith
        rw [e1, ok_bind, e2, ok_bind]
        simp only [hr', ok_bind]
        rfl
      | some C' => exact Or.inr ⟨by simp, hrC⟩
  have ev : C.values.sum = (triangles (undirected n A) : R) := hred
  constructor
  · intro sch hsch
    rcases hcomp.safe sch hsch with h | h
    · rcases e _ _ h with e | ⟨e, -⟩
      · exact .inl e
      · exact absurd rfl e
    · rcases e _ _ h with e | ⟨-, e⟩
      · exact .inr (by rw [e, ← ev]; rfl)
      · exact absurd rfl e
  · obtain ⟨K, hK⟩ := hcomp.live
    refine ⟨K, fun sch hsch hf => ?_⟩
    rcases e _ _ (hK sch hsch hf) with e | ⟨-, e⟩
    · rw [e, ← ev]; rfl
    · exact absurd rfl e

theorem colRows_iff {V : Type} {A : CSC V} (h : A.WF) {u v : Nat} (hv : v < A.cols) :
    u ∈ A.colRows v ↔ ∃ e ∈ triplesC A, (e.1, e.2.1) = (u, v) := by
  rw [← Inner.col_map_fst h, List.mem_map]
  simp only [triplesC, List.mem_flatMap, List.mem_range, List.mem_map]
  constructor
  · rintro ⟨x, hx, rfl⟩
    exact ⟨(x.1, v, x.2), ⟨v, hv, x, hx, rfl⟩, rfl⟩
  · rintro ⟨_, ⟨j, -, x, hx, rfl⟩, e⟩
    obtain ⟨rfl, rfl⟩ := Prod.mk.inj e
    exact ⟨x, hx, rfl⟩

/-- Adding mirror images does not change the graph. -/
theorem undirected_eq {V : Type} {A : CSC V} (h : A.WF) (hc : A.cols = n) (neg : V → V) (s : Sym) {es : List (Nat × Nat × V)}
    (hp : (triplesC A).Perm (fullEntries neg s es)) : undirected n A = graphOf n es := by
  have key : ∀ u v : Nat, u ≠ v → ((∃ e ∈ fullEntries neg s es, (e.1, e.2.1) = (u, v)) ∨ (∃ e ∈ fullEntries neg s es, (e.1, e.2.1) = (v, u)) ↔
      ∃ e ∈ es, (e.1, e.2.1) = (u, v) ∨ (e.1, e.2.1) = (v, u)) := by
    intro u v _
    have gen : ∀ f : V → V, ((∃ e ∈ es ++ (es.filter fun e => decide (e.1 ≠ e.2.1)).map (fun e => (e.2.1, e.1, f e.2.2)), (e.1, e.2.1) = (u, v)) ∨
        (∃ e ∈ es ++ (es.filter fun e => decide (e.1 ≠ e.2.1)).map (fun e => (e.2.1, e.1, f e.2.2)), (e.1, e.2.1) = (v, u)) ↔
      ∃ e ∈ es, (e.1, e.2.1) = (u, v) ∨ (e.1, e.2.1) = (v, u)) := by
      intro f
      constructor
      · rintro (⟨e, he, hh⟩ | ⟨e, he, hh⟩)
        · rcases List.mem_append.1 he with he | he
          · exact ⟨e, he, Or.inl hh⟩
          · obtain ⟨x, hx, rfl⟩ := List.mem_map.1 he
            obtain ⟨h1, h2⟩ := Prod.mk.inj hh
            exact ⟨x, List.mem_of_mem_filter hx, Or.inr (by rw [Prod.mk.injEq]; exact ⟨h2, h1⟩)⟩
        · rcases List.mem_append.1 he with he | he
          · exact ⟨e, he, Or.inr hh⟩
          · obtain ⟨x, hx, rfl⟩ := List.mem_map.1 he
            obtain ⟨h1, h2⟩ := Prod.mk.inj hh
            exact ⟨x, List.mem_of_mem_filter hx, Or.inl (by rw [Prod.mk.injEq]; exact ⟨h2, h1⟩)⟩
      · rintro ⟨e, he, hh | hh⟩
        · exact Or.inl ⟨e, List.mem_append_left _ he, hh⟩
        · exact Or.inr ⟨e, List.mem_append_left _ he, hh⟩
    cases s with
    | general =>
      simp only [fullEntries]
      constructor
      · rintro (⟨e, he, hh⟩ | ⟨e, he, hh⟩)
        · exact ⟨e, he, Or.inl hh⟩
        · exact ⟨e, he, Or.inr hh⟩
      · rintro ⟨e, he, hh | hh⟩
        · exact Or.inl ⟨e, he, hh⟩
        · exact Or.inr ⟨e, he, hh⟩
    | symmetric => exact gen id
    | skew => exact gen neg
  ext u v
  have c1 := colRows_iff h (u := u.val) (v := v.val) (hc ▸ v.2)
  have c2 := colRows_iff h (u := v.val) (v := u.val) (hc ▸ u.2)
  simp only [hp.mem_iff] at c1 c2
  simp only [undirected, graphOf, c1, c2]
  constructor
  · rintro ⟨hne, hh⟩
    exact ⟨hne, (key u v fun e => hne (Fin.ext e)).1 hh⟩
  · rintro ⟨hne, hh⟩
    exact ⟨hne, (key u v fun e => hne (Fin.ext e)).2 hh⟩

/-- C69, the whole program: for every file (with lines of at most 255 characters) that describes a square matrix with at least one entry,
whatever its symmetry, its comments and its values, the program returns the number of triangles of the graph of its entries. -/
theorem C69_program_partial {ofInt : Int → R} {t : MMText} {es : List (Nat × Nat × R)}
    (hd : Describes (IntVal ofInt) (ofInt 1) t n n es) (hls : ∀ l ∈ t.lines, l.length ≤ 255) {text : List Char} (hl : Lines t.lines text)
    (hne : es ≠ []) {sortP : List (Nat × Nat) → List (Nat × Nat)} (hP : SortsGreater sortP)
    {sortT : List (Nat × Nat × R) → List (Nat × Nat × R)} (hT : SortsDown sortT)
    {sortf : List (Nat × R) → List (Nat × R)} (hs : SortsBy Prod.fst sortf) {order order' : List Nat} (ho : order.Perm (List.range n))
    (ho' : order'.Perm (List.range n)) {a : Algo} (ha : Graph.Usable a (2 * es.length)) (two : Bool) {nt dflt : Nat}
    (ht : 0 < setNumThreads nt dflt) {parts : Nat → List (List Nat)} (hp : ∀ k, Splits k (parts k)) :
    Returns (program ofInt order' sortP sortT sortf order a two (some text) nt dflt parts) n (setNumThreads nt dflt)
      (triangles (graphOf n es) : R) := by
  obtain ⟨A, e, hw, hr, hc, hperm, -⟩ := ascii_run (fun v => v) hs (.of_describes hd) hls (fun _ => rfl) hl ho'
  have hG := undirected_eq (n := n) hw hc _ _ hperm
  have hlen : A.nnz = (fullEntries (fun v : R => v) (if ReadIO.symFlag t then Sym.symmetric else .general) es).length := by
    rw [← hperm.length_eq]
    have : triplesC A = (Conv.items A).map fun x => (x.1, x.2.1, x.2.2) := by
      unfold Conv.items triplesC
      rw [List.map_flatMap]
      simp only [List.map_map]
      rfl
    rw [this, List.length_map, Conv.items_length hw]
  have hpos : 0 < es.length := List.length_pos_iff.2 hne
  have hb : 0 < A.nnz ∧ A.nnz ≤ 2 * es.length := by
    have hf := List.length_filter_le (fun e : Nat × Nat × R => decide (e.1 ≠ e.2.1)) es
    rw [hlen]
    split
    · simp only [fullEntries, List.length_append, List.length_map]
      omega
    · simp only [fullEntries]
      omega
  have := C69_triangle_count_partial hw hr hc hb.1 hP hT hs ho (ha.mono hb.2) two ht hp
  rw [hG] at this
  have hprog : program ofInt order' sortP sortT sortf order a two (some text) nt dflt parts =
      triCount sortP sortT sortf order a two A nt dflt parts := by
    funext sch
    unfold program
    rw [e, ok_bind]
  rw [hprog]
  exact this

/-- The preprocessing of a matrix without stored entries reads a triple that is not there. -/
theorem preprocess_empty {V : Type} [Zero V] [One V] {A : CSC V} (h : A.WF) (hnz : A.nnz = 0)
    {sortP : List (Nat × Nat) → List (Nat × Nat)} {sortT : List (Nat × Nat × V) → List (Nat × Nat × V)} (hT : SortsDown sortT)
    {sortf : List (Nat × V) → List (Nat × V)} {order : List Nat} : preprocess sortP sortT sortf order 0 1 A = .error .oob := by
  obtain ⟨f, hf⟩ := countRows_ok h
  have hcol : ∀ i < A.cols, ∀ s, lowerCol 1 (sortP (tab A.rows fun i => (f i, i))) A i s = .ok s := by
    intro i hi s
    have := Inner.cptr_le_nnz h (j := i + 1) hi
    have := h.ptrMono i hi
    unfold lowerCol
    rw [Inner.rd_cptr h (by omega), ok_bind, Inner.rd_cptr h (by omega), ok_bind, forRange_of_le (by omega)]
  have hloop : forRange 0 A.cols (List.replicate A.nnz ((0 : Nat), (0 : Nat), (0 : V)), 0)
      (lowerCol 1 (sortP (tab A.rows fun i => (f i, i))) A) = .ok (List.replicate A.nnz (0, 0, 0), 0) := by
    obtain ⟨s, e, rfl⟩ := forRange_inv (body := lowerCol 1 (sortP (tab A.rows fun i => (f i, i))) A)
      (P := fun _ s => s = (List.replicate A.nnz (0, 0, 0), 0)) 0 A.cols (Nat.zero_le _) _ rfl
      (fun k s _ hk hs => ⟨s, hcol k hk s, hs⟩)
    exact e
  have hs0 : sortT ([] : List (Nat × Nat × V)) = [] := List.length_eq_zero_iff.1 (hT.perm []).length_eq
  unfold preprocess
  rw [hf, ok_bind, hloop, ok_bind, hnz]
  simp only [Conv.sortRange, slice, List.replicate_zero, List.drop_nil, List.take_nil, List.length_nil, Nat.le_refl, and_self, if_true,
    hs0, List.append_nil, ok_bind]
  rw [forRange_of_le (by omega), ok_bind]
  rfl

/-- C69, violated: for a matrix without stored entries the program reads a triple that is not there, whatever the sizes. -/
theorem C69_violated_empty {V : Type} [Zero V] [One V] [Add V] [Mul V] {A : CSC V} (h : A.WF) (hnz : A.nnz = 0)
    {sortP : List (Nat × Nat) → List (Nat × Nat)} {sortT : List (Nat × Nat × V) → List (Nat × Nat × V)} (hT : SortsDown sortT)
    {sortf : List (Nat × V) → List (Nat × V)} {order : List Nat} (a : Algo) (two : Bool) (nt dflt : Nat) (parts : Nat → List (List Nat))
    (sch : Scheds) : triCount sortP sortT sortf order a two A nt dflt parts sch = .error .oob := by
  unfold triCount countWith
  rw [preprocess_empty h hnz hT]
  rfl

/-! ## Examples -/

/-- Triangles 0-1-2 and 1-2-3; entries above and below the diagonal, on it, and repeated -/
def exTri : CSC Nat := { rows := 4, cols := 4, nnz := 8, colptr := [0, 1, 4, 6, 8], rowids := [2, 0, 0, 1, 1, 3, 1, 3], values := [7, 0, 1, 2, 3, 4, 5, 6] }

theorem exTri_wf : exTri.WF := ⟨rfl, rfl, rfl, by decide, rfl, rfl, rfl, by decide⟩

def sortTriples (l : List (Nat × Nat × Nat)) : List (Nat × Nat × Nat) :=
  l.mergeSort fun a b => decide (b.1 < a.1 ∨ b.1 = a.1 ∧ b.2.1 ≤ a.2.1)

theorem sortTriples_ok : SortsDown sortTriples where
  perm := fun l => List.mergeSort_perm l _
  sorted := fun l => (List.pairwise_mergeSort (by intro a b c; simp only [decide_eq_true_eq]; omega)
    (by intro a b; simp only [Bool.or_eq_true, decide_eq_true_eq]; omega) l).imp fun h => by
      have := of_decide_eq_true h
      unfold Spec.PosLt
      omega

theorem splits_one (k : Nat) : Splits k [List.range k] := by simp [Splits]

example := C69_triangle_count_partial exTri_wf rfl rfl (by decide) sortPairs_ok sortTriples_ok (isort_sorts Prod.fst) (order := [1, 0, 3, 2])
  (by decide) (usable_hash _) true (nt := 3) (dflt := 1) (by decide) splits_one

instance : DecidableRel (undirected 4 exTri).Adj := fun u v =>
  inferInstanceAs (Decidable (u ≠ v ∧ (u.val ∈ exTri.colRows v ∨ v.val ∈ exTri.colRows u)))

/-- The example has two triangles. -/
example : triangles (undirected 4 exTri) = 2 := by
  have : {s : Finset (Fin 4) | (undirected 4 exTri).IsNClique 3 s} = {{0, 1, 2}, {1, 2, 3}} := by
    ext s
    have : ∀ s : Finset (Fin 4), (undirected 4 exTri).IsNClique 3 s ↔ s = {0, 1, 2} ∨ s = {1, 2, 3} := by decide +kernel
    simpa using this s
  rw [triangles, this, Set.ncard_pair]
  decide

theorem symFile_nat : Describes (IntVal Int.toNat) (Int.toNat 1) comFile 2 2 [(1, 0, 1)] where
  noNewline := by decide +kernel
  size := .mk ['2'] ['2'] ['1'] 2 2 1 (.digit 2 (by decide)) (.digit 2 (by decide)) (.digit 1 (by decide))
  entries := .cons (.pattern ['2'] ['1'] 1 0 (.digit 2 (by decide)) (.digit 1 (by decide))) .nil
  inBounds := by decide
  square := fun _ => rfl

example := C69_program_partial (R := Nat) symFile_nat (by decide +kernel)
  (text := Spec.banner .pattern .general ++ "\n%not symmetric\n2 2 1\n2 1\n".toList) (.inl ⟨[], by decide +kernel⟩) (by decide)
  sortPairs_ok sortTriples_ok (isort_sorts Prod.fst) (order := [1, 0]) (order' := [0, 1]) (by decide) (by decide) (usable_hash _) true (nt := 3) (dflt := 1)
  (by decide) splits_one

def exNone : CSC Nat := { rows := 3, cols := 3, nnz := 0, colptr := [0, 0, 0, 0], rowids := [], values := [] }

example (sch : Scheds) := C69_violated_empty (A := exNone) ⟨rfl, rfl, rfl, by decide, rfl, rfl, rfl, by decide⟩ rfl (sortP := sortPairs)
  sortTriples_ok (sortf := isort Prod.fst) (order := [0, 1, 2]) (.gen .hash) true 3 1 (fun k => [List.range k]) sch

end Verif.Props
