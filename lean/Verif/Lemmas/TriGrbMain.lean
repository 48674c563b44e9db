import Verif.Model.TriGrbMain
import Verif.Lemmas.GrbBase
import Verif.Lemmas.Relabel
import Verif.SpecTriGrb
import Verif.Props.C82

/-! # Lemmas for the triangle counting program with GraphBLAS -/

namespace Verif.Model.TriGrb

open Verif.Spec Verif.Model.Bench
open Verif.Model.MaskedAll (Sch SchAdm SchFair Good)
open Verif.Model.TriMain (Yields of_gives runCalls_yields masked_common)
open Verif.Model.Grb (Ker Rep kernel_gives opsRow opsRow_ok multOps mxm_eq sq_masked psum_eq_sum)

variable {n : Nat}

/-! ## Counting -/

theorem ncard_pairs {q : Fin n → Fin n → Prop} : {p : Fin n × Fin n | q p.1 p.2}.ncard = ∑ i, {j | q i j}.ncard := by
  classical
  have h1 : {p : Fin n × Fin n | q p.1 p.2} = ↑(Finset.univ.filter fun p : Fin n × Fin n => q p.1 p.2) := by ext; simp
  rw [h1, Set.ncard_coe_finset, Finset.card_filter, Fintype.sum_prod_type]
  refine Finset.sum_congr rfl fun i _ => ?_
  have h2 : {j | q i j} = ↑(Finset.univ.filter fun j => q i j) := by ext; simp
  rw [h2, Set.ncard_coe_finset, Finset.card_filter]

/-- The entries of the matrix are the pairs of a relation. -/
structure Dir {V : Type} (r : Fin n → Fin n → Prop) (X : CSR V) : Prop where
  wf : X.WF
  rows : X.rows = n
  cols : X.cols = n
  nodup : X.NodupRows
  adj : ∀ i j : Fin n, j.val ∈ X.rowCols i ↔ r i j

section
variable {V : Type} {r : Fin n → Fin n → Prop} {X : CSR V}

theorem Dir.length (h : Dir r X) (i : Fin n) : (X.rowCols i).length = {j | r i j}.ncard := by
  have := Graph.length_filter_eq (n := n) (h.nodup i (h.rows ▸ i.2)) (fun x hx => h.cols ▸ CSR.rowCols_lt h.wf hx) fun _ => true
  simp only [and_true] at this
  rw [List.filter_true] at this
  rw [this]
  congr 1
  ext j
  exact h.adj i j

theorem Dir.nnz (h : Dir r X) : X.nnz = {p : Fin n × Fin n | r p.1 p.2}.ncard := by
  rw [Graph.nnz_eq_psum h.wf, h.rows, psum_eq_sum, ncard_pairs]
  exact Finset.sum_congr rfl fun i _ => h.length i

theorem Dir.multOps (h : Dir r X) {order : List Nat} (ho : order.Perm (List.range n)) :
    multOps X X order = .ok {p : Fin n × Fin n × Fin n | r p.1 p.2.1 ∧ r p.2.1 p.2.2}.ncard := by
  have h1 : Grb.multOps X X order = .ok ((order.map fun i => ((X.rowCols i).map fun j => (X.rowCols j).length).sum).sum) := by
    unfold Grb.multOps
    refine foldlM_desc (fun pre => (pre.map fun i => ((X.rowCols i).map fun j => (X.rowCols j).length).sum).sum) _ ?_
    intro pre a post hl
    have ha : a < n := List.mem_range.1 (ho.subset (by rw [hl]; simp))
    rw [opsRow_ok h.wf h.wf (h.cols.trans h.rows.symm) (h.rows ▸ ha), List.map_append, List.sum_append]
    simp
  rw [h1, (ho.map _).sum_eq, Graph.sum_range_eq, Graph.ncard_triples (p := fun i j k => r i j ∧ r j k)]
  congr 1
  refine Finset.sum_congr rfl fun i _ => ?_
  rw [Graph.sum_list_eq (n := n) (h.nodup i (h.rows ▸ i.2)) fun x hx => h.cols ▸ CSR.rowCols_lt h.wf hx]
  refine Finset.sum_congr rfl fun j _ => ?_
  by_cases hj : j.val ∈ X.rowCols i
  · rw [if_pos hj, h.length]
    congr 1
    ext k
    simp [(h.adj i j).1 hj]
  · rw [if_neg hj]
    symm
    rw [Set.ncard_eq_zero (Set.toFinite _), Set.eq_empty_iff_forall_notMem]
    rintro k ⟨hk, -⟩
    exact hj ((h.adj i j).2 hk)

end

section
variable {R : Type} [Semiring R] {r : Fin n → Fin n → Prop} {X : CSR R}

/-- The masked square has an entry where the relation holds directly and in two steps. -/
theorem Dir.square (h : Dir r X) : Dir (fun i k => r i k ∧ ∃ j, r i j ∧ r j k) (Graph.sq X) := by
  have hm := sq_masked h.wf h.nodup
  refine ⟨hm.wf, h.rows, h.cols, hm.nodup, fun i k => ?_⟩
  have hdot : dot (fun _ _ => 1) (fun x y => x + y) X X i k ≠ none ↔ ∃ j, r i j ∧ r j k := by
    unfold dot
    rw [Graph.contribs_const h.wf h.wf h.cols (h.cols.trans h.rows.symm) h.nodup h.nodup (1 : R) (h.rows ▸ i.2) k]
    have hset : {j : Fin n | j.val ∈ X.rowCols i ∧ k.val ∈ X.rowCols j} = {j | r i j ∧ r j k} := by
      ext j
      exact and_congr (h.adj i j) (h.adj j k)
    rw [hset]
    have hz : {j | r i j ∧ r j k}.ncard ≠ 0 ↔ ∃ j, r i j ∧ r j k := by
      rw [Ne, Set.ncard_eq_zero (Set.toFinite _), ← Ne, ← Set.nonempty_iff_ne_empty]
      rfl
    rw [← hz]
    cases {j | r i j ∧ r j k}.ncard with
    | zero => simp [sum1]
    | succ m => simp [sum1, List.replicate_succ]
  rw [← CSR.row_map_fst hm.wf, List.mem_map, ← hdot, ← h.adj]
  constructor
  · rintro ⟨⟨j, v⟩, hx, hj⟩
    obtain ⟨h1, h2⟩ := (hm.entries i (h.rows ▸ i.2) _ _).1 hx
    dsimp only at hj
    subst hj
    exact ⟨h1, by rw [h2]; simp⟩
  · rintro ⟨h1, h2⟩
    obtain ⟨v, hv⟩ := Option.ne_none_iff_exists'.1 h2
    exact ⟨(k.val, v), (hm.entries i (h.rows ▸ i.2) _ _).2 ⟨h1, hv⟩, rfl⟩

end

/-! ## Renumbering -/

theorem relabel_edges {G : SimpleGraph (Fin n)} : {p : Fin n × Fin n | p.2 < p.1 ∧ G.Adj p.1 p.2}.ncard = edges G := by
  unfold edges
  refine Set.ncard_congr (fun p _ => s(p.1, p.2)) ?_ ?_ ?_
  · intro p hp
    exact hp.2
  · rintro ⟨a, b⟩ ⟨c, d⟩ h1 h2 he
    have h1 : b < a := h1.1
    have h2 : d < c := h2.1
    rcases Sym2.eq_iff.1 he with ⟨rfl, rfl⟩ | ⟨rfl, rfl⟩
    · rfl
    · exact absurd (h1.trans h2) (lt_irrefl _)
  · intro s
    induction s using Sym2.ind with
    | _ a b =>
      intro hs
      have hs : G.Adj a b := hs
      rcases lt_or_gt_of_ne hs.ne with h | h
      · exact ⟨(b, a), ⟨h, hs.symm⟩, Sym2.eq_swap⟩
      · exact ⟨(a, b), ⟨h, hs⟩, rfl⟩

section
variable {G G' : SimpleGraph (Fin n)} {σ : Equiv.Perm (Fin n)} (h : Relabelled G G' σ) (hσ : ∀ u v, σ v < σ u ↔ below G u v)
include h hσ

theorem lower_iff (u v : Fin n) : σ v < σ u ∧ G'.Adj (σ u) (σ v) ↔ G.Adj u v ∧ below G u v := by
  rw [hσ, h, and_comm]

theorem rising_eq : {p : Fin n × Fin n × Fin n | (p.2.1 < p.1 ∧ G'.Adj p.1 p.2.1) ∧ p.2.2 < p.2.1 ∧ G'.Adj p.2.1 p.2.2}.ncard = rising G := by
  refine (Set.ncard_congr (fun p _ => (σ p.1, σ p.2.1, σ p.2.2)) ?_ ?_ ?_).symm
  · rintro ⟨u, v, w⟩ ⟨h1, h2⟩
    exact ⟨(lower_iff h hσ u v).2 h1, (lower_iff h hσ v w).2 h2⟩
  · rintro ⟨u, v, w⟩ ⟨u', v', w'⟩ - - he
    simpa using he
  · rintro ⟨u, v, w⟩ ⟨h1, h2⟩
    obtain ⟨u, rfl⟩ := σ.surjective u
    obtain ⟨v, rfl⟩ := σ.surjective v
    obtain ⟨w, rfl⟩ := σ.surjective w
    exact ⟨(u, v, w), ⟨(lower_iff h hσ u v).1 h1, (lower_iff h hσ v w).1 h2⟩, rfl⟩

theorem bridged_eq : {p : Fin n × Fin n | (p.2 < p.1 ∧ G'.Adj p.1 p.2) ∧ ∃ v, (v < p.1 ∧ G'.Adj p.1 v) ∧ p.2 < v ∧ G'.Adj v p.2}.ncard = bridged G := by
  refine (Set.ncard_congr (fun p _ => (σ p.1, σ p.2)) ?_ ?_ ?_).symm
  · rintro ⟨u, w⟩ ⟨h1, v, h2, h3⟩
    exact ⟨(lower_iff h hσ u w).2 h1, σ v, (lower_iff h hσ u v).2 h2, (lower_iff h hσ v w).2 h3⟩
  · rintro ⟨u, w⟩ ⟨u', w'⟩ - - he
    simpa using he
  · rintro ⟨u, w⟩ ⟨h1, v, h2, h3⟩
    obtain ⟨u, rfl⟩ := σ.surjective u
    obtain ⟨v, rfl⟩ := σ.surjective v
    obtain ⟨w, rfl⟩ := σ.surjective w
    exact ⟨(u, w), ⟨(lower_iff h hσ u w).1 h1, v, (lower_iff h hσ u v).1 h2, (lower_iff h hσ v w).1 h3⟩, rfl⟩

end

/-! ## The multiplications -/

section
variable {R : Type} [Semiring R]

/-- What the program computes with: the lower triangle -/
structure Ready (G : SimpleGraph (Fin n)) (L : CSR R) : Prop where
  pos : 0 < n
  wf : L.WF
  rows : L.rows = n
  cols : L.cols = n
  sorted : L.SortedRows
  nnz : L.nnz = edges G
  entries : (Graph.sq L).nnz = bridged G
  sum : Graph.reduce (Graph.sq L) = (triangles G : R)

theorem Ready.common {G : SimpleGraph (Fin n)} {L C : CSR R} (h : Ready G L) (hC : IsMaskedSet (fun _ _ => 1) (fun x y => x + y) L L L C) :
    C.nnz = bridged G ∧ Graph.reduce C = (triangles G : R) ∧ C.rows = L.rows ∧ C.cols = L.rows := by
  obtain ⟨h1, h2, -⟩ := masked_common (fun _ => []) (fun _ => rfl) hC (sq_masked h.wf (Graph.nodup_of_sorted h.sorted))
  exact ⟨h1.trans h.entries, h2.trans h.sum, hC.rows, hC.cols.trans (h.cols.trans h.rows.symm)⟩

/-- A matrix whose arrays have no room at the end is taken over as it is. -/
theorem pack_wf {C : CSR R} (h : C.WF) : Grb.pack C = C := by
  unfold Grb.pack
  rw [h.ptrLast, List.take_of_length_le (by rw [h.colLen]), List.take_of_length_le (by rw [h.valLen])]

/-- Room at the end of the arrays is left out. -/
theorem pack_outOf (rows cols nnz0 : Nat) (zero : R) (exp : Nat → List (Nat × R)) :
    Grb.pack (Dot.outOf rows cols nnz0 zero exp) = Dot.outOf rows cols 0 zero exp := by
  have hp : (Dot.outOf rows cols nnz0 zero exp).ptr (Dot.outOf rows cols nnz0 zero exp).rows = psum (lens exp) rows :=
    ofRows_ptr rows cols true _ (Nat.le_refl _)
  have hl : (seg exp 0 rows).length = psum (lens exp) rows := by
    have := seg_length exp (Nat.zero_le rows)
    simpa [psum] using this
  unfold Grb.pack
  rw [hp]
  unfold Dot.outOf ofRows
  simp [hl]

/-- Every algorithm computes the masked product, whatever is in the object for the result, if room at the end of the arrays is left out. -/
theorem kernel_yields {G : SimpleGraph (Fin n)} {L : CSR R} (h : Ready G L) {k : Ker} (hk : k ≠ .poly) (hfit : k.Fits L.nnz) (hsmall : k.bins → n + 1 < 2 ^ 17)
    {tnum : Nat} (ht : 0 < tnum) :
    ∃ K, ∀ s, SchAdm n tnum s → ∀ C0 : CSR R, C0.zerobased = true →
      Yields (SchFair tnum K s) (fun C => C.zerobased = true ∧ C.rows = L.rows ∧ C.cols = L.rows ∧
        IsMaskedSet (fun _ _ => 1) (fun x y => x + y) L L L (Grb.pack C)) (k.call L (Graph.toCsc L) tnum tnum C0 s) := by
  have hnd := Graph.nodup_of_sorted h.sorted
  obtain ⟨C, hC, -, K, hK⟩ := kernel_gives h.pos h.wf h.rows h.cols hnd (k := k) (fun _ => h.sorted) hk hfit hsmall ht (dflt := tnum)
    (newObj : CSR R) rfl rfl
  by_cases hno : k = .nohash
  · subst hno
    have hv : Valid L L L := Props.valid_self h.wf (h.rows.trans h.cols.symm) (h.rows ▸ h.pos)
    have xm := Graph.sameMat_toCsc (X := L)
    have hrun := fun (s : Sch) (hs : SchAdm n tnum s) (nnz0 : Nat) => Dot.innerNohash_ok (mul := fun _ _ : R => 1) (add := fun x y => x + y) (zero := 0)
      (validC_of hv xm h.sorted Graph.toCsc_wf (Graph.toCsc_sorted h.wf hnd)) (fun c hc => by rw [xm.cols]; exact h.wf.inBounds c hc)
      (h.rows ▸ hsmall rfl) ht tnum nnz0 (sch := s.dot) (h.rows ▸ hs.dot)
    have hCo : C = Dot.outOf L.rows L.cols 0 0 (Dot.expRow (fun _ _ : R => 1) (fun x y => x + y) 0 L (Graph.toCsc L) L) := by
      obtain ⟨s, hs, hf⟩ := Props.schedule_exists n tnum (max K (n + 2))
      rcases hK s hs with e | ⟨hn, -⟩
      · rcases hrun s hs 0 with ⟨-, t, htt, hh⟩ | e'
        · have := (hf.mono (Nat.le_max_right _ _)).dot t htt
          have := h.rows
          omega
        · have e : Dot.innerNohash (fun _ _ : R => 1) (fun x y => x + y) 0 L (Graph.toCsc L) L tnum tnum 0 s.dot = .ok (some C) := e
          rw [e'] at e
          injection e with e
          injection e with e
          exact e.symm
      · exact absurd (hf.mono (Nat.le_max_left _ _)) hn
    refine ⟨n + 2, fun s hs C0 h0 => ?_⟩
    rcases hrun s hs C0.nnz with ⟨e, t, htt, hh⟩ | e
    · refine .inr ⟨fun hf => ?_, e⟩
      have := hf.dot t htt
      have := h.rows
      omega
    · refine .inl ⟨_, e, rfl, rfl, h.cols.trans h.rows.symm, ?_⟩
      rw [pack_outOf, ← hCo]
      exact hC
  · refine ⟨K, fun s hs C0 h0 => ?_⟩
    have e : k.call L (Graph.toCsc L) tnum tnum C0 s = k.call L (Graph.toCsc L) tnum tnum newObj s := by
      cases k with
      | nohash => exact absurd rfl hno
      | _ =>
        unfold Ker.call
        try rw [h0]
        try rfl
    rw [e]
    refine of_gives (hK s hs) ⟨hC.wf.zero, hC.rows, hC.cols.trans (h.cols.trans h.rows.symm), ?_⟩
    rw [pack_wf hC.wf]
    exact hC

def Method.bins : Method → Bool
  | .grb => false
  | .msp k => k.bins

def Method.Fits (nnz : Nat) : Method → Prop
  | .grb => True
  | .msp k => k ≠ .poly ∧ k.Fits nnz

theorem calls_pos {e : Env} (h : e.warmup = some 0 → e.inner ≠ some 0) : 0 < e.warmupIters + e.innerIters := by
  unfold Env.warmupIters Env.innerIters
  revert h
  cases e.warmup with
  | none => intro _; rcases e.inner with _ | _ | _ | c <;> simp
  | some w => rcases e.inner with _ | _ | c <;> rcases w with _ | w <;> simp

/-- The line of an algorithm, for one number of threads -/
theorem runThreads_good {e : Env} (hpos : 0 < e.warmupIters + e.innerIters) (file : List Char) {G : SimpleGraph (Fin n)} {L : CSR R} (h : Ready G L) {a : List Char × Method}
    {name : List Char} (hname : processName a.1 = .ok name) (ha : a.2.Fits L.nnz) (hsmall : a.2.bins → n + 1 < 2 ^ 17) {tnum : Nat} (ht : 0 < tnum) :
    ∃ K, ∀ sch : Nat → Sch, (∀ i, SchAdm n tnum (sch i)) → Good (∀ i, SchFair tnum K (sch i))
      [.log (getFileName file) name tnum (bridged G) (triangles G : R)] (runThreads e file L (Graph.toCsc L) a tnum sch) := by
  obtain ⟨nm, m⟩ := a
  have hres : ∃ K, ∀ sch : Nat → Sch, (∀ i, SchAdm n tnum (sch i)) →
      Yields (∀ i, SchFair tnum K (sch i)) (IsMaskedSet (fun _ _ => 1) (fun x y => x + y) L L L) (m.result e L (Graph.toCsc L) tnum sch) := by
    cases m with
    | grb =>
      refine ⟨0, fun sch _ => .inl ⟨_, rfl, ?_⟩⟩
      rw [if_neg (by omega), mxm_eq h.wf]
      exact sq_masked h.wf (Graph.nodup_of_sorted h.sorted)
    | msp k =>
      obtain ⟨K, hK⟩ := kernel_yields h ha.1 ha.2 hsmall ht
      refine ⟨K, fun sch hadm => ?_⟩
      have hy : Yields (∀ i, SchFair tnum K (sch i)) (fun C => C.zerobased = true ∧ C.rows = L.rows ∧ C.cols = L.rows ∧
          IsMaskedSet (fun _ _ => 1) (fun x y => x + y) L L L (Grb.pack C))
          (runCalls (k.call L (Graph.toCsc L) tnum tnum) ((List.range e.warmupIters).map sch) ((List.range e.innerIters).map fun i => sch (e.warmupIters + i))) := by
        unfold runCalls
        rcases TriMain.repeat_yields (st := ∀ i, SchFair tnum K (sch i)) (f := k.call L (Graph.toCsc L) tnum tnum) (P := fun C => C.zerobased = true)
          (Q := fun C => C.zerobased = true ∧ C.rows = L.rows ∧ C.cols = L.rows ∧ IsMaskedSet (fun _ _ => 1) (fun x y => x + y) L L L (Grb.pack C))
          (fun C hC => hC.1) ((List.range e.warmupIters).map sch) newObj rfl (fun s hs C' hC' => by
            obtain ⟨i, -, rfl⟩ := List.mem_map.1 hs
            exact (hK _ (hadm i) C' hC').weaken (fun hf => hf i) fun _ h => h) with ⟨C, e1, hC⟩ | ⟨hs, e1⟩
        · rw [e1, ok_bind]
          rcases Nat.eq_zero_or_pos e.innerIters with h0 | h0
          · rw [h0]
            exact .inl ⟨C, rfl, hC.2 (by simp; omega)⟩
          · refine (TriMain.repeat_yields (f := fun C => k.call L (Graph.toCsc L) tnum tnum (makeEmpty C)) (P := fun C => C.zerobased = true)
              (Q := fun C => C.zerobased = true ∧ C.rows = L.rows ∧ C.cols = L.rows ∧ IsMaskedSet (fun _ _ => 1) (fun x y => x + y) L L L (Grb.pack C))
              (fun C hC => hC.1) ((List.range e.innerIters).map fun i => sch (e.warmupIters + i)) C hC.1 (fun s hs C' hC' => by
                obtain ⟨i, -, rfl⟩ := List.mem_map.1 hs
                exact (hK _ (hadm _) (makeEmpty C') hC').weaken (fun hf => hf _) fun _ h => h)).weaken id fun _ h => h.2 (by simp; omega)
        · rw [e1, ok_bind]
          exact .inr ⟨hs, rfl⟩
      unfold Method.result
      dsimp only
      rcases hy with ⟨C, e1, -, hr, hc, hC⟩ | ⟨hn, e1⟩
      · rw [e1, ok_bind]
        dsimp only
        rw [check, if_pos (by simpa using ⟨hr, hc⟩), ok_bind]
        exact .inl ⟨_, rfl, hC⟩
      · rw [e1, ok_bind]
        exact .inr ⟨hn, rfl⟩
  obtain ⟨K, hK⟩ := hres
  refine ⟨K, fun sch hadm => ?_⟩
  unfold runThreads
  rcases hK sch hadm with ⟨C, e1, hC⟩ | ⟨hn, e1⟩
  · obtain ⟨h1, h2, -⟩ := h.common hC
    rw [e1]
    dsimp only
    dsimp only at hname
    rw [hname, h1, h2]
    exact .inl rfl
  · rw [e1]
    exact .inr ⟨hn, rfl, List.nil_prefix⟩

end

end Verif.Model.TriGrb
