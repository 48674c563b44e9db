import Verif.Model.GrbBase
import Verif.Lemmas.Truss
import Verif.Lemmas.TriMain
import Verif.SpecTruss
import Verif.Props.C65
import Mathlib.Combinatorics.SimpleGraph.DegreeSum

/-! # What the two programs with GraphBLAS share: reading, counting, multiplying -/

namespace Verif.Model.Grb

open Verif.Spec Verif.Model.Bench Verif.Model.MaskedAll

variable {V : Type}

/-! ## Reading -/

/-- The positions and values of a function, in ascending order -/
def scan (c : Nat) (g : Nat → Option V) : List (Nat × V) := (List.range c).filterMap fun j => (g j).map fun v => (j, v)

theorem scan_sublist (c : Nat) (g : Nat → Option V) : ((scan c g).map Prod.fst).Sublist (List.range c) := filterMap_fst_sublist _

theorem mem_scan {c : Nat} {g : Nat → Option V} {j : Nat} : j ∈ (scan c g).map Prod.fst ↔ j < c ∧ g j ≠ none := by
  unfold scan
  rw [List.mem_map]
  constructor
  · rintro ⟨x, hx, rfl⟩
    rw [List.mem_filterMap] at hx
    obtain ⟨j, hj, e⟩ := hx
    cases hg : g j with
    | none => rw [hg] at e; simp at e
    | some v =>
      rw [hg] at e
      simp only [Option.map_some, Option.some.injEq] at e
      subst e
      exact ⟨List.mem_range.1 hj, by rw [hg]; simp⟩
  · rintro ⟨hj, hg⟩
    cases hv : g j with
    | none => exact absurd hv hg
    | some v => exact ⟨(j, v), List.mem_filterMap.2 ⟨j, List.mem_range.2 hj, by rw [hv]; rfl⟩, rfl⟩

theorem scan_lt {c : Nat} {g : Nat → Option V} : ∀ x ∈ scan c g, x.1 < c := fun x hx => (mem_scan.1 (List.mem_map_of_mem hx)).1

theorem lookup_ne_none {l : List (Nat × V)} {j : Nat} : l.lookup j ≠ none ↔ j ∈ l.map Prod.fst := by
  rw [ne_eq, List.lookup_eq_none_iff, List.mem_map]
  push Not
  constructor
  · rintro ⟨x, hx, e⟩
    exact ⟨x, hx, by simpa using (by simpa using e : j = x.1).symm⟩
  · rintro ⟨x, hx, rfl⟩
    exact ⟨x, hx, by simp⟩

/-- The value made of tuples with the same position -/
def joined (dup : V → V → V) : List (Nat × Nat × V) → Option V
  | [] => none
  | t :: ts => some (ts.foldl (fun x t => dup x t.2.2) t.2.2)

theorem build_eq (dup : V → V → V) (rows cols : Nat) (ts : List (Nat × Nat × V)) : ∃ g : Nat → Nat → Option V,
    build dup rows cols ts = ofRows rows cols true (fun i => scan cols (g i)) ∧ ∀ i j, g i j ≠ none ↔ ∃ t ∈ ts, t.1 = i ∧ t.2.1 = j := by
  refine ⟨fun i j => joined dup (ts.filter fun t => decide (t.1 = i ∧ t.2.1 = j)), ?_, ?_⟩
  · unfold build scan
    congr 1
    funext i
    congr 1
    funext j
    beta_reduce
    generalize ts.filter (fun t => decide (t.1 = i ∧ t.2.1 = j)) = l
    cases l <;> rfl
  · intro i j
    have : (∃ t ∈ ts, t.1 = i ∧ t.2.1 = j) ↔ ts.filter (fun t => decide (t.1 = i ∧ t.2.1 = j)) ≠ [] := by
      rw [ne_eq, List.filter_eq_nil_iff]
      push Not
      simp
    rw [this]
    beta_reduce
    generalize ts.filter (fun t => decide (t.1 = i ∧ t.2.1 = j)) = l
    cases l <;> simp [joined]

theorem addTransposed_eq (op : V → V → V) (A : CSR V) : ∃ g : Nat → Nat → Option V,
    addTransposed op A = ofRows A.rows A.cols true (fun i => scan A.cols (g i)) ∧
    ∀ i j, g i j ≠ none ↔ j ∈ (A.row i).map Prod.fst ∨ i ∈ (A.row j).map Prod.fst := by
  refine ⟨fun i j => match entry A i j, entry A j i with
    | some x, some y => some (op x y)
    | some x, none => some x
    | none, some y => some y
    | none, none => none, ?_, ?_⟩
  · unfold addTransposed scan
    congr 1
    funext i
    congr 1
    funext j
    beta_reduce
    generalize entry A i j = a, entry A j i = b
    rcases a with _ | x <;> rcases b with _ | y <;> rfl
  · intro i j
    rw [← lookup_ne_none, ← lookup_ne_none]
    change _ ↔ entry A i j ≠ none ∨ entry A j i ≠ none
    beta_reduce
    generalize entry A i j = a, entry A j i = b
    rcases a with _ | x <;> rcases b with _ | y <;> simp

theorem scan_wf (rows cols : Nat) (g : Nat → Nat → Option V) : (ofRows rows cols true fun i => scan cols (g i)).WF :=
  ofRows_wf _ _ _ _ rfl fun _ _ => scan_lt

theorem scan_sorted (rows cols : Nat) (g : Nat → Nat → Option V) : (ofRows rows cols true fun i => scan cols (g i)).SortedRows := by
  intro i hi
  have hi : i < rows := hi
  rw [ofRows_rowCols _ _ _ _ hi]
  exact List.pairwise_lt_range.sublist (scan_sublist _ _)

/-- The file is read as the adjacency matrix of the graph of its entries. -/
theorem read_ok {ofInt : Int → V} (fresh : Nat → Int × Int × V) (rnd : Nat → V) (min plus : V → V → V) {t : MMText} {n : Nat}
    {es : List (Nat × Nat × V)} (h : Describes (IntVal ofInt) (ofInt 1) t n n es) (hs : ∀ l ∈ t.lines, l.length ≤ 255) {text : List Char}
    (hl : Lines t.lines text) : ∃ A, read fresh ofInt rnd min plus (some text) = .ok A ∧ Represents (graphOf n es) A := by
  obtain ⟨es', F, hpos, -, -, he, hperm⟩ := Props.triples_run (fun v => v) fresh true rnd true (.of_describes h) hs hl
  have et : ReadIO.toNats (((n : Int), (n : Int)), F.map Props.castE) = .ok ((n, n), F) := by
    unfold ReadIO.toNats
    rw [if_pos]
    · simp [Props.castE, Function.comp_def]
    · refine ⟨by simp, by simp, ?_⟩
      intro t ht
      rw [List.mem_map] at ht
      obtain ⟨x, _, rfl⟩ := ht
      simp [Props.castE]
  obtain ⟨g, hg, hg'⟩ := build_eq min n n F
  obtain ⟨g2, hg2, hg2'⟩ := addTransposed_eq plus (build min n n F)
  have hread : read fresh ofInt rnd min plus (some text) = .ok (addTransposed plus (build min n n F)) := by
    unfold read ReadIO.readTriples
    rw [he, ok_bind, et, ok_bind]
    have : (build min n n F).rows = (build min n n F).cols := rfl
    simp only [this, if_true]
  refine ⟨_, hread, ?_⟩
  rw [hg2]
  have hrc : (build min n n F).rows = n ∧ (build min n n F).cols = n := ⟨rfl, rfl⟩
  -- positions of the tuples
  have hes : ∀ u v : Nat, (∃ e ∈ es', (e.1, e.2.1) = (u, v)) ↔ ∃ e ∈ es, (e.1, e.2.1) = (u, v) := by
    intro u v
    have : (u, v) ∈ es'.map (fun e => (e.1, e.2.1)) ↔ (u, v) ∈ es.map (fun e => (e.1, e.2.1)) := by rw [hpos]
    simpa only [List.mem_map] using this
  have hF : ∀ u v : Nat, u ≠ v → ((∃ t ∈ F, t.1 = u ∧ t.2.1 = v) ∨ (∃ t ∈ F, t.1 = v ∧ t.2.1 = u) ↔
      ∃ e ∈ es, (e.1, e.2.1) = (u, v) ∨ (e.1, e.2.1) = (v, u)) := by
    intro u v huv
    have key : (∃ t ∈ F, t.1 = u ∧ t.2.1 = v) ∨ (∃ t ∈ F, t.1 = v ∧ t.2.1 = u) ↔
        (∃ e ∈ es', (e.1, e.2.1) = (u, v)) ∨ (∃ e ∈ es', (e.1, e.2.1) = (v, u)) := by
      simp only [hperm.mem_iff, Prod.mk.injEq]
      split
      · simp only [fullEntries, List.mem_append, List.mem_map, List.mem_filter]
        constructor
        · rintro (⟨t, ht | ⟨e, ⟨⟨he, -⟩, -⟩, rfl⟩, h1, h2⟩ | ⟨t, ht | ⟨e, ⟨⟨he, -⟩, -⟩, rfl⟩, h1, h2⟩)
          · exact .inl ⟨t, ht.1, h1, h2⟩
          · exact .inr ⟨e, he, h2, h1⟩
          · exact .inr ⟨t, ht.1, h1, h2⟩
          · exact .inl ⟨e, he, h2, h1⟩
        · rintro (⟨e, he, h1, h2⟩ | ⟨e, he, h1, h2⟩)
          · exact .inl ⟨e, .inl ⟨he, by simp only [Bool.true_and, Bool.not_eq_true', decide_eq_false_iff_not]; omega⟩, h1, h2⟩
          · exact .inr ⟨e, .inl ⟨he, by simp only [Bool.true_and, Bool.not_eq_true', decide_eq_false_iff_not]; omega⟩, h1, h2⟩
      · simp only [fullEntries, List.mem_filter]
        constructor
        · rintro (⟨t, ht, h1, h2⟩ | ⟨t, ht, h1, h2⟩)
          · exact .inl ⟨t, ht.1, h1, h2⟩
          · exact .inr ⟨t, ht.1, h1, h2⟩
        · rintro (⟨e, he, h1, h2⟩ | ⟨e, he, h1, h2⟩)
          · exact .inl ⟨e, ⟨he, by simp only [Bool.true_and, Bool.not_eq_true', decide_eq_false_iff_not]; omega⟩, h1, h2⟩
          · exact .inr ⟨e, ⟨he, by simp only [Bool.true_and, Bool.not_eq_true', decide_eq_false_iff_not]; omega⟩, h1, h2⟩
    rw [key, hes, hes]
    constructor
    · rintro (⟨e, he, h1⟩ | ⟨e, he, h1⟩)
      · exact ⟨e, he, .inl h1⟩
      · exact ⟨e, he, .inr h1⟩
    · rintro ⟨e, he, h1 | h1⟩
      · exact .inl ⟨e, he, h1⟩
      · exact .inr ⟨e, he, h1⟩
  have hdiag : ∀ t ∈ F, t.1 ≠ t.2.1 := by
    intro t ht
    rw [hperm.mem_iff] at ht
    revert ht
    split
    · simp only [fullEntries, List.mem_append, List.mem_map, List.mem_filter]
      rintro (⟨-, h1⟩ | ⟨e, ⟨-, h1⟩, rfl⟩)
      · simpa using h1
      · have : e.1 ≠ e.2.1 := by simpa using h1
        exact this.symm
    · simp only [fullEntries, List.mem_filter]
      rintro ⟨-, h1⟩
      simpa using h1
  refine ⟨scan_wf _ _ _, hrc.1, hrc.2, scan_sorted _ _ _, ?_⟩
  intro i j
  have hrow : ∀ u v : Fin n, v.val ∈ ((build min n n F).row u).map Prod.fst ↔ ∃ t ∈ F, t.1 = u.val ∧ t.2.1 = v.val := by
    intro u v
    rw [hg, ofRows_row _ _ _ _ u.2, mem_scan, hg']
    exact and_iff_right v.2
  rw [ofRows_rowCols _ _ _ _ (by rw [hrc.1]; exact i.2), mem_scan, hg2', hrow, hrow, hrc.2, and_iff_right j.2]
  show _ ↔ i ≠ j ∧ _
  by_cases hij : i = j
  · subst hij
    simp only [ne_eq, not_true_eq_false, false_and, iff_false, or_self]
    rintro ⟨t, ht, h1, h2⟩
    exact hdiag t ht (h1.trans h2.symm)
  · rw [hF i j (fun h => hij (Fin.ext h)), and_iff_right hij]

/-! ## Counting -/

/-- `X` is the adjacency matrix of `G`; the rows need not be sorted. -/
structure Rep {n : Nat} (G : SimpleGraph (Fin n)) (X : CSR V) : Prop where
  wf : X.WF
  rows : X.rows = n
  cols : X.cols = n
  nodup : X.NodupRows
  adj : ∀ i j : Fin n, j.val ∈ X.rowCols i ↔ G.Adj i j

theorem Rep.of {n : Nat} {G : SimpleGraph (Fin n)} {X : CSR V} (h : Represents G X) : Rep G X :=
  ⟨h.wf, h.rows, h.cols, Graph.nodup_of_sorted h.sorted, h.adj⟩

variable {n : Nat} {G : SimpleGraph (Fin n)} {X : CSR V}

theorem Rep.degree (h : Rep G X) (i : Fin n) : (X.rowCols i).length = degree G i := by
  have := Graph.length_filter_eq (n := n) (h.nodup i (h.rows ▸ i.2)) (fun x hx => h.cols ▸ CSR.rowCols_lt h.wf hx) fun _ => true
  simp only [and_true] at this
  rw [List.filter_true] at this
  rw [this]
  unfold Spec.degree
  congr 1
  ext j
  exact h.adj i j

theorem psum_eq_sum (f : Nat → Nat) : ∀ n, psum f n = ∑ i : Fin n, f i
  | 0 => rfl
  | n + 1 => by rw [psum, psum_eq_sum f n, Fin.sum_univ_castSucc]; rfl

theorem degree_eq [DecidableRel G.Adj] (i : Fin n) : degree G i = G.degree i := by
  unfold degree
  rw [← SimpleGraph.card_neighborFinset_eq_degree, ← Set.ncard_coe_finset]
  congr 1
  ext j
  simp

/-- The number of entries is twice the number of edges. -/
theorem Rep.nnz (h : Rep G X) : X.nnz = 2 * edges G := by
  classical
  rw [Graph.nnz_eq_psum h.wf, h.rows, psum_eq_sum]
  simp only [h.degree, degree_eq]
  rw [SimpleGraph.sum_degrees_eq_twice_card_edges]
  unfold edges
  rw [← SimpleGraph.coe_edgeFinset, Set.ncard_coe_finset]

theorem opsRow_ok {A B : CSR V} (hA : A.WF) (hB : B.WF) (hc : A.cols = B.rows) {i : Nat} (hi : i < A.rows) :
    opsRow A B i = .ok ((A.rowCols i).map fun j => (B.rowCols j).length).sum := by
  unfold opsRow
  rw [CSR.rd_ptr hA (Nat.le_of_lt hi), CSR.rd_ptr hA hi]
  simp only [ok_bind]
  rw [forRange_eq_slice (L := A.colids) (g := fun s c => .ok (s + (B.rowCols c).length)) (by rw [hA.colLen]; exact CSR.ptr_le_nnz hA hi)]
  · show (A.rowCols i).foldlM _ 0 = _
    refine foldlM_desc (fun pre => (pre.map fun j => (B.rowCols j).length).sum) _ ?_
    intro pre a post _
    rw [List.map_append, List.sum_append]
    simp
  · intro j hj _ _ s
    have hin : A.colids[j] < B.rows := by
      rw [← hc]; exact hA.inBounds _ (List.getElem_mem hj)
    rw [rd_of_lt hj]
    simp only [ok_bind, CSR.rd_ptr hB hin, CSR.rd_ptr hB (Nat.le_of_lt hin), CSR.rowCols_length hB hin]

theorem sum_list_eq {l : List Nat} (hl : l.Nodup) (hlt : ∀ x ∈ l, x < n) (f : Nat → Nat) [DecidablePred fun k : Fin n => k.val ∈ l] :
    (l.map f).sum = ∑ k : Fin n, if k.val ∈ l then f k else 0 := by
  have h1 : (l.map f).sum = ∑ x ∈ l.toFinset, f x := by
    rw [List.sum_toFinset _ hl]
  rw [h1, ← Finset.sum_filter]
  symm
  refine Finset.sum_bij (fun k _ => k.val) ?_ ?_ ?_ ?_
  · intro k hk
    simpa using hk
  · intro a _ b _ e
    exact Fin.ext e
  · intro x hx
    have hx := List.mem_toFinset.1 hx
    exact ⟨⟨x, hlt x hx⟩, by simpa using hx, rfl⟩
  · intro _ _
    rfl

theorem multOps_ok (h : Rep G X) {order : List Nat} (ho : order.Perm (List.range n)) : multOps X X order = .ok (walks G) := by
  classical
  have h1 : multOps X X order = .ok ((order.map fun i => ((X.rowCols i).map fun j => (X.rowCols j).length).sum).sum) := by
    unfold multOps
    refine foldlM_desc (fun pre => (pre.map fun i => ((X.rowCols i).map fun j => (X.rowCols j).length).sum).sum) _ ?_
    intro pre a post hl
    have ha : a < n := List.mem_range.1 (ho.subset (by rw [hl]; simp))
    rw [opsRow_ok h.wf h.wf (h.cols.trans h.rows.symm) (h.rows ▸ ha), List.map_append, List.sum_append]
    simp
  rw [h1, (ho.map _).sum_eq]
  congr 1
  have h2 := sum_list_eq (n := n) List.nodup_range (fun x hx => List.mem_range.1 hx) fun i => ((X.rowCols i).map fun j => (X.rowCols j).length).sum
  rw [h2]
  have h3 : ∀ i : Fin n, ((X.rowCols i).map fun j => (X.rowCols j).length).sum = ∑ j : Fin n, if G.Adj i j then degree G j else 0 := by
    intro i
    rw [sum_list_eq (n := n) (h.nodup i (h.rows ▸ i.2)) (fun x hx => h.cols ▸ CSR.rowCols_lt h.wf hx) fun j => (X.rowCols j).length]
    refine Finset.sum_congr rfl fun j _ => ?_
    rw [h.degree]
    simp only [h.adj]
  simp only [List.mem_range, Fin.is_lt, if_true, h3]
  rw [Finset.sum_comm]
  unfold walks
  refine Finset.sum_congr rfl fun j _ => ?_
  rw [← Finset.sum_filter, Finset.sum_const, smul_eq_mul, pow_two]
  congr 1
  unfold degree
  rw [← Set.ncard_coe_finset]
  congr 1
  ext i
  simp [SimpleGraph.adj_comm]

/-! ## Multiplying -/

section
variable {R : Type} [Semiring R]

/-- Kernels with the partition of the older code -/
def Ker.bins : Ker → Bool
  | .nohash | .spa | .wobin | .hash => true
  | _ => false

/-- Kernels for which the order of the columns in a row does not matter -/
def Ker.anyOrder : Ker → Bool
  | .spa | .wobin | .hash => true
  | _ => false

/-- The row algorithms fit the number of entries -/
def Ker.Fits (nnz : Nat) : Ker → Prop
  | .lib a _ => Graph.Usable a nnz
  | _ => True

theorem Ker.Fits.mono {k : Ker} {m n : Nat} (h : k.Fits n) (hmn : m ≤ n) : k.Fits m := by
  cases k with
  | lib a two => exact Graph.Usable.mono h hmn
  | _ => trivial

theorem old_call (k : Props.OldKind) (two : Bool) (X : CSR R) (L : CSC R) (zb : Bool) (tnum dflt : Nat) (s : Scheds) :
    driver k.alg two X zb tnum dflt s = (Algo.gen k.now).call two (fun _ _ => 1) (fun x y => x + y) X X L X zb tnum dflt s := by
  unfold driver
  rw [Props.old_eq]
  cases two <;> rfl

theorem sq_masked {X : CSR R} (h : X.WF) (hn : X.NodupRows) : IsMaskedSet (fun _ _ => 1) (fun x y => x + y) X X X (Graph.sq X) :=
  masked_set (maskedMat_wf h) (maskedMat_isMasked rfl true hn)

theorem sq_sorted {X : CSR R} (hs : X.SortedRows) : (Graph.sq X).SortedRows := by
  intro i hi
  have hi : i < X.rows := hi
  unfold Graph.sq maskedMat
  rw [ofRows_rowCols _ _ _ _ hi]
  exact (hs i hi).sublist (maskedRow_sublist _ _ _ _ _ _)

theorem mxm_eq {X : CSR R} (h : X.WF) : mxm X = Graph.sq X := by
  unfold mxm Graph.sq maskedMat
  refine TriCnt.ofRows_congr fun i _ => ?_
  unfold maskedRow
  rw [← CSR.row_map_fst h, List.filterMap_map]
  rfl

theorem setNum {tnum dflt : Nat} (ht : 0 < tnum) : setNumThreads tnum dflt = tnum := by
  unfold setNumThreads
  rw [if_neg (by omega)]

/-- Every multiplication but the last one computes the masked product. -/
theorem kernel_gives {n : Nat} {X : CSR R} (hpos : 0 < n) (hw : X.WF) (hr : X.rows = n) (hc : X.cols = n) (hnd : X.NodupRows) {k : Ker}
    (hs : k.anyOrder = false → X.SortedRows) (hk : k ≠ .poly) (hfit : k.Fits X.nnz) (hsmall : k.bins → n + 1 < 2 ^ 17) {tnum dflt : Nat}
    (ht : 0 < tnum) (C0 : CSR R) (hz : C0.zerobased = true) (h0 : C0.nnz = 0) :
    ∃ C, IsMaskedSet (fun _ _ => 1) (fun x y => x + y) X X X C ∧ (k.anyOrder = false → k ≠ .nohash → C.SortedRows) ∧
      ∃ K, ∀ s, SchAdm n tnum s → Gives (SchFair tnum K s) C (k.call X (Graph.toCsc X) tnum dflt C0 s) := by
  have hv : Valid X X X := Props.valid_self hw (hr.trans hc.symm) (hr ▸ hpos)
  have lib : ∀ {a : Algo} (_ : Graph.Usable a X.nnz) (_ : X.SortedRows) (two : Bool), ∃ C, IsMaskedSet (fun _ _ => 1) (fun x y => x + y) X X X C ∧ C.SortedRows ∧
      ∃ K, ∀ s, SchAdm n tnum s → Gives (SchFair tnum K s) C
        (a.call two (fun _ _ => 1) (fun x y => x + y) X X (Graph.toCsc X) X true tnum dflt s.gen) := by
    intro a ha hso two
    have := Graph.square_computes (a := a) two hw hso (hc.trans hr.symm) (hr ▸ hpos) ha (nt := tnum) (dflt := dflt) (by rw [setNum ht]; exact ht)
    rw [hr, setNum ht] at this
    exact ⟨_, sq_masked hw hnd, sq_sorted hso, of_computes this⟩
  have old : ∀ (o : Props.OldKind) (_ : X.SortedRows) (two : Bool), ∃ C, IsMaskedSet (fun _ _ => 1) (fun x y => x + y) X X X C ∧ C.SortedRows ∧
      ∃ K, ∀ s, SchAdm n tnum s → Gives (SchFair tnum K s) C (driver o.alg two X true tnum dflt s.gen) := by
    intro o hso two
    obtain ⟨C, h1, h2, K, hK⟩ := lib (TriMain.old_usable o X.nnz) hso two
    refine ⟨C, h1, h2, K, fun s hs => ?_⟩
    rw [old_call o two X (Graph.toCsc X)]
    exact hK s hs
  cases k with
  | poly => exact absurd rfl hk
  | lib a two =>
    obtain ⟨C, h1, h2, h3⟩ := lib hfit (hs rfl) two
    refine ⟨C, h1, fun _ _ => h2, ?_⟩
    unfold Ker.call
    rw [hz]
    exact h3
  | msa1Old two =>
    obtain ⟨C, h1, h2, h3⟩ := old .msa1 (hs rfl) two
    refine ⟨C, h1, fun _ _ => h2, ?_⟩
    unfold Ker.call
    rw [hz]
    exact h3
  | msa2Old two =>
    obtain ⟨C, h1, h2, h3⟩ := old .msa2 (hs rfl) two
    refine ⟨C, h1, fun _ _ => h2, ?_⟩
    unfold Ker.call
    rw [hz]
    exact h3
  | heapOld v two =>
    obtain ⟨C, h1, h2, h3⟩ := old (.heap v) (hs rfl) two
    refine ⟨C, h1, fun _ _ => h2, ?_⟩
    unfold Ker.call
    rw [hz]
    exact h3
  | spa =>
    obtain ⟨C, h1, -, h3⟩ := Props.C31_spa_partial (fun _ _ => (1 : R)) (fun x y => x + y) hv (hr ▸ hsmall rfl) 0 ht dflt
    have e : (fun a b : R => b + a) = fun a b => a + b := by
      funext a b
      exact add_comm b a
    rw [e] at h1
    rw [hr] at h3
    exact ⟨C, h1, fun h => Bool.noConfusion h, n + 2, fun s hs => of_two (h3 s.two hs.two) fun hf t htt hh => by
      have := hf.two t htt
      omega⟩
  | hash =>
    obtain ⟨C, h1, h3⟩ := Props.C31_hash_partial (fun _ _ => (1 : R)) (fun x y => x + y) hv (hr ▸ hsmall rfl) 0 ht dflt
    rw [hr] at h3
    exact ⟨C, h1, fun h => Bool.noConfusion h, n + 2, fun s hs => of_two (h3 s.two hs.two) fun hf t htt hh => by
      have := hf.two t htt
      omega⟩
  | wobin =>
    obtain ⟨C, h1, h3⟩ := Props.C31_wobin_partial (fun _ _ => (1 : R)) (fun x y => x + y) hv (hr ▸ hsmall rfl) 0 dflt
    rw [hr] at h3
    exact ⟨C, h1, fun h => Bool.noConfusion h, 0, fun s hs => .inl (h3 _ _ _ _ hs.order1 hs.order2)⟩
  | nohash =>
    have hso := hs rfl
    have xm := Graph.sameMat_toCsc (X := X)
    have ls := Graph.toCsc_sorted hw hnd
    obtain ⟨C, h1, h2, h3⟩ := Props.C53_inner_partial (fun _ _ => (1 : R)) (fun x y => x + y) 0 (fun _ _ => zero_add _)
      (validC_of hv xm hso Graph.toCsc_wf ls) hnd (fun c hc => by rw [xm.cols]; exact hw.inBounds c hc) (hr ▸ hsmall rfl) ht dflt
    rw [hr] at h3
    refine ⟨C, ⟨h2, h1.rows, h1.cols.trans xm.cols, ?_, h1.nodup⟩, fun _ h => absurd rfl h, n + 2, fun s hs => ?_⟩
    · intro i hi j v
      rw [h1.entries i hi]
      refine and_congr_right fun hj => ?_
      rw [dotC_eq _ _ hw Graph.toCsc_wf hw hv.shapes.ab xm hnd ls (CSR.rowCols_lt hw hj)]
    · unfold Ker.call
      dsimp only
      rw [h0]
      exact of_two (h3 s.dot hs.dot) fun hf t htt hh => by
        have := hf.dot t htt
        omega

end

end Verif.Model.Grb
