import Verif.Lemmas.TriMain
import Verif.Props.C82

/-! # C84: the triangle counting program with its modes -/

namespace Verif.Props

open Verif.Model Verif.Model.Bench Verif.Spec
open _root_.Verif.Model.TriMain (Ker Square Adm FairSch Yields runAlg kernel_yields intersect_yields runAlg_good masked_common selection_common selection_values)
open _root_.Verif.Model.MaskedAll (Good Starts seq_done seq_stop seq_good seqAll_good seqAll_append masked_set starts_seq)

variable {R : Type} [Semiring R] {n : Nat}

/-! ## The algorithms of a mode -/

def shownOf (a : List Char × Ker) : List Char := match processName a.1 with | .ok x => x | .error _ => []

/-- The row algorithms of the program -/
def okKer : Ker → Bool
  | .lib (.gen (.heap d)) _ => d ≤ 512 || d == 2 ^ 64 - 1
  | .lib a _ => !a.compl
  | .poly => false
  | _ => true

theorem okKer_fits {k : Ker} (h : okKer k = true) {nnz : Nat} (hnz : nnz + 512 < 2 ^ 64) : k ≠ .poly ∧ k.Fits nnz := by
  cases k with
  | poly => cases h
  | lib a two =>
    refine ⟨by simp, ?_⟩
    show Graph.Usable a nnz
    cases a with
    | inner => exact ⟨rfl, fun d hd => by cases hd⟩
    | gen g =>
      cases g <;> first
        | (refine ⟨by simpa [okKer] using h, fun d hd => by cases hd⟩)
        | skip
      rename_i d
      refine ⟨rfl, fun d' hd => ?_⟩
      cases hd
      simp only [okKer, Bool.or_eq_true, decide_eq_true_eq, beq_iff_eq] at h
      omega
  | _ => exact ⟨by simp, trivial⟩

def triModes : List (List Char) := binModes ++ ["heap".toList, "all1p".toList, "all2p".toList]

theorem algs_other {mode : List Char} (h : mode ∉ triModes) : TriMain.algs mode = [] ∧ triNames mode = [] := by
  simp only [triModes, binModes, List.mem_append, List.mem_cons, List.not_mem_nil, or_false, not_or] at h
  obtain ⟨⟨h1, h2, h3, h4, h5, h6⟩, h7, h8, h9⟩ := h
  constructor
  · unfold TriMain.algs
    rw [if_neg (by tauto), if_neg (by tauto), if_neg (by tauto), if_neg (by tauto), if_neg (by tauto), if_neg (by tauto), if_neg (by tauto)]
    rfl
  · have h12 : ¬(mode = "inner".toList ∨ mode = "dot".toList) := by tauto
    unfold triNames
    simp only [if_neg h12, if_neg h3, if_neg h4, if_neg h5, if_neg h6, if_neg h7, if_neg h8, if_neg h9]

theorem modes_all {P : List Char → Prop} (h : ∀ m ∈ triModes, P m) (h0 : ∀ m, m ∉ triModes → P m) (m : List Char) : P m := by
  by_cases hm : m ∈ triModes
  · exact h m hm
  · exact h0 m hm

theorem tri_names (mode : List Char) : (TriMain.algs mode).map (fun a => processName a.1) = (triNames mode).map .ok := by
  revert mode
  refine modes_all (P := fun mode => (TriMain.algs mode).map (fun a => processName a.1) = (triNames mode).map .ok) ?_ ?_
  · decide +kernel
  · intro m hm
    rw [(algs_other hm).1, (algs_other hm).2]
    rfl

theorem tri_kinds (mode : List Char) : ∀ a ∈ TriMain.algs mode, (mode ≠ "all1p".toList → okKer a.2 = true) ∧ (a.2.bins = true → mode ∈ binModes) ∧
    (a.2 = .intersect ↔ shownOf a = "HashIntersect".toList) := by
  revert mode
  refine modes_all (P := fun mode => ∀ a ∈ TriMain.algs mode, (mode ≠ "all1p".toList → okKer a.2 = true) ∧ (a.2.bins = true → mode ∈ binModes) ∧
    (a.2 = .intersect ↔ shownOf a = "HashIntersect".toList)) ?_ ?_
  · decide +kernel
  · intro m hm
    rw [(algs_other hm).1]
    intro a ha
    cases ha

theorem names_shown (mode : List Char) : (∀ a ∈ TriMain.algs mode, processName a.1 = .ok (shownOf a)) ∧ (TriMain.algs mode).map shownOf = triNames mode := by
  have h := tri_names mode
  constructor
  · intro a ha
    have hm : processName a.1 ∈ (TriMain.algs mode).map (fun a => processName a.1) := List.mem_map_of_mem ha
    rw [h] at hm
    obtain ⟨x, -, e⟩ := List.mem_map.1 hm
    unfold shownOf
    rw [← e]
  · have h2 := congrArg (List.map fun r : Res (List Char) => match r with | .ok x => x | .error _ => []) h
    rw [List.map_map, List.map_map] at h2
    have e : ((fun r : Res (List Char) => match r with | .ok x => x | .error _ => []) ∘ Except.ok) = (id : List Char → List Char) := rfl
    rw [e, List.map_id] at h2
    exact h2

/-! ## The inputs -/

/-- A call of the program: the file describes the square matrix with the entries `es` (with lines of at most 255 characters), the sorting functions
sort, the loops run over all columns, the threads of the final sum share its iterations, and there is at least one thread and one timed
iteration. -/
structure TriCalled (ofInt : Int → R) (o : TriMain.Orders R) (e : Env) (file : Option (List Char)) (tnum n : Nat) (es : List (Nat × Nat × R)) : Prop where
  file : ∃ t text, file = some text ∧ Describes (IntVal ofInt) (ofInt 1) t n n es ∧ (∀ l ∈ t.lines, l.length ≤ 255) ∧ Lines t.lines text
  sortf : SortsBy Prod.fst o.sortf
  sortP : SortsGreater o.sortP
  sortT : SortsDown o.sortT
  read : o.read.Perm (List.range n)
  make : o.make.Perm (List.range n)
  flop : o.flop.Perm (List.range n)
  parts : ∀ k, Splits k (o.parts k)
  pos : 0 < tnum
  iters : e.inner ≠ some 0

variable {ofInt : Int → R} {o : TriMain.Orders R} {e : Env} {file : Option (List Char)} {tnum : Nat} {es : List (Nat × Nat × R)}

theorem TriCalled.read_ok (h : TriCalled ofInt o e file tnum n es) :
    ∃ A, ReadIO.readASCII o.sortf o.read ofInt file = .ok A ∧ A.WF ∧ A.rows = n ∧ A.cols = n ∧ undirected n A = graphOf n es ∧
      es.length ≤ A.nnz ∧ A.nnz ≤ 2 * es.length := by
  obtain ⟨t, text, rfl, hd, hls, hl⟩ := h.file
  obtain ⟨A, e, hw, hr, hc, hperm, -⟩ := ascii_run (fun v => v) h.sortf (.of_describes hd) hls (fun _ => rfl) hl h.read
  have hlen : A.nnz = (fullEntries (fun v : R => v) (if ReadIO.symFlag t then Sym.symmetric else .general) es).length := by
    rw [← hperm.length_eq]
    have : triplesC A = (Conv.items A).map fun x => (x.1, x.2.1, x.2.2) := by
      unfold Conv.items triplesC
      rw [List.map_flatMap]
      simp only [List.map_map]
      rfl
    rw [this, List.length_map, Conv.items_length hw]
  refine ⟨A, e, hw, hr, hc, undirected_eq (n := n) hw hc _ _ hperm, ?_⟩
  have hf := List.length_filter_le (fun e : Nat × Nat × R => decide (e.1 ≠ e.2.1)) es
  rw [hlen]
  split
  · simp only [fullEntries, List.length_append, List.length_map]
    omega
  · simp only [fullEntries]
    omega

/-- What comes before the first round -/
theorem TriCalled.setup (h : TriCalled ofInt o e file tnum n es) (hne : es ≠ []) :
    ∃ L X, TriMain.setup ofInt o file = .ok (L, X) ∧ Square n X L ∧ X.nnz ≤ 2 * es.length ∧
      (maskedMat (fun x y => x * y) (fun x y => x + y) X X X true).values.sum = (triangles (graphOf n es) : R) ∧
      (graphOf n es ≠ ⊥ → ∀ t ∈ triples X, t.2.2 = 1) ∧ (graphOf n es = ⊥ → ∀ t ∈ triples X, t.2.2 = 0) ∧
      (graphOf n es ≠ ⊥ → ∃ σ : Equiv.Perm (Fin n), IsLower ((graphOf n es).comap σ.symm) X) := by
  obtain ⟨A, e0, hw, hr, hc, hg, hb1, hb2⟩ := h.read_ok
  have hpos : 0 < es.length := List.length_pos_iff.2 hne
  obtain ⟨L, X, e1, e2, lw, ls, xw, xr, xc, xs, xm, xn, -, hred, h1, h2, h3⟩ := tri_square' hw hr hc (by omega) h.sortP h.sortT h.sortf h.make
  have hn : 0 < n := by
    have : 0 < A.rowids.length := by rw [hw.rowLen]; omega
    have := hw.inBounds _ (List.getElem_mem this)
    omega
  rw [hg] at hred h1 h2 h3
  have hf := Flops.cscCsc_eq lw lw (by rw [xm.rows, xm.cols, xr, xc]) (order := o.flop) (by rw [xm.cols, xc]; exact h.flop)
  refine ⟨L, X, ?_, ⟨hn, xw, lw, xr, xc, xs, ls, xm⟩, by omega, hred, h1, h2, h3⟩
  unfold TriMain.setup
  simp only [e0, e1, e2, hf, ok_bind]

/-! ## The lines -/

/-- The line for the algorithm `name` -/
noncomputable def triLine (n : Nat) (es : List (Nat × Nat × R)) (path : List Char) (tnum z : Nat) (s : R) (c c' : Nat × Nat × Nat) (name : List Char) :
    Line R :=
  { file := getFileName path, name := name, threads := tnum, nnz := z, sum := if name = "HashIntersect".toList then s else (triangles (graphOf n es) : R), check := if name = "HashIntersect".toList then c' else c }

theorem exists_bound {α : Type} {P : α → Nat → Prop} (mono : ∀ a K K', K ≤ K' → P a K → P a K') (l : List α) (h : ∀ a ∈ l, ∃ K, P a K) :
    ∃ K, ∀ a ∈ l, P a K := by
  induction l with
  | nil => exact ⟨0, fun a ha => by cases ha⟩
  | cons a l ih =>
    obtain ⟨K1, h1⟩ := h a (by simp)
    obtain ⟨K2, h2⟩ := ih fun b hb => h b (by simp [hb])
    refine ⟨max K1 K2, fun b hb => ?_⟩
    rcases List.mem_cons.1 hb with rfl | hb
    · exact mono _ _ _ (Nat.le_max_left _ _) h1
    · exact mono _ _ _ (Nat.le_max_right _ _) (h2 b hb)

/-- The sum printed for the intersection -/
theorem isect_line {X : CSR R} {L : CSC R} (h : Square n X L) (enc : R → List UInt8)
    (h1 : graphOf n es ≠ ⊥ → ∀ t ∈ triples X, t.2.2 = 1) (h2 : graphOf n es = ⊥ → ∀ t ∈ triples X, t.2.2 = 0) {D : CSR R}
    (hD : IsMaskedSet (fun x y => x * y) (fun x y => x + y) X X X D) :
    ∃ (s : R) (c' : Nat × Nat × Nat), (graphOf n es = ⊥ → s = 0) ∧ (graphOf n es ≠ ⊥ → s = (D.nnz : R)) ∧ c'.1 = (Checksum.checksum enc 8 D).1 ∧
      c'.2.2 = (Checksum.checksum enc 8 D).2.2 ∧
      ∀ C, IsSelection (fun x y => x * y) (fun x y => x + y) X X X C → C.nnz = D.nnz ∧ C.values.sum = s ∧ Checksum.checksum enc 8 C = c' := by
  by_cases hb : graphOf n es = ⊥
  · refine ⟨0, ((Checksum.checksum enc 8 D).1, Checksum.calculateChecksum ((List.replicate D.nnz (0 : R)).flatMap enc), (Checksum.checksum enc 8 D).2.2),
      fun _ => rfl, fun h => absurd hb h, rfl, rfl, fun C hC => ?_⟩
    obtain ⟨e1, e2, e3⟩ := selection_common enc h.wX hC hD
    have ev := selection_values rfl (h2 hb) hC
    refine ⟨e1, by rw [ev]; simp, Prod.ext e2 (Prod.ext ?_ e3)⟩
    show Checksum.calculateChecksum (C.values.flatMap enc) = _
    rw [ev, e1]
  · refine ⟨(D.nnz : R), ((Checksum.checksum enc 8 D).1, Checksum.calculateChecksum ((List.replicate D.nnz (1 : R)).flatMap enc), (Checksum.checksum enc 8 D).2.2),
      fun h => absurd h hb, fun _ => rfl, rfl, rfl, fun C hC => ?_⟩
    obtain ⟨e1, e2, e3⟩ := selection_common enc h.wX hC hD
    have ev := selection_values rfl (h1 hb) hC
    refine ⟨e1, by rw [ev, e1]; simp, Prod.ext e2 (Prod.ext ?_ e3)⟩
    show Checksum.calculateChecksum (C.values.flatMap enc) = _
    rw [ev, e1]

/-- There are at most as many entries below the diagonal as entries in the file. -/
theorem lower_le {X : CSR R} {σ : Equiv.Perm (Fin n)} (h : IsLower ((graphOf n es).comap σ.symm) X) : X.nnz ≤ es.length := by
  have key : ∀ t ∈ triples X, ∃ e ∈ es, ∃ (hi : t.1 < n) (hj : t.2.1 < n), t.2.1 < t.1 ∧
      ((e.1, e.2.1) = ((σ.symm ⟨t.1, hi⟩).val, (σ.symm ⟨t.2.1, hj⟩).val) ∨ (e.1, e.2.1) = ((σ.symm ⟨t.2.1, hj⟩).val, (σ.symm ⟨t.1, hi⟩).val)) := by
    intro t ht
    obtain ⟨hi, hm⟩ := Graph.mem_triples.1 ht
    have hi' := h.rows ▸ hi
    have hj' := h.cols ▸ CSR.row_lt h.wf hm
    have hc : t.2.1 ∈ X.rowCols t.1 := by
      rw [← CSR.row_map_fst h.wf]
      exact List.mem_map_of_mem hm
    obtain ⟨hlt, -, e, he, hor⟩ := (h.adj ⟨t.1, hi'⟩ ⟨t.2.1, hj'⟩).1 hc
    exact ⟨e, he, hi', hj', hlt, hor⟩
  have hinj : ((triples X).map fun t => (t.1, t.2.1)).Nodup := Bench.triples_nodup h.wf (Graph.nodup_of_sorted h.sorted)
  rw [← Bench.triples_length h.wf]
  -- the unordered pairs of old numbers
  let f : Nat × Nat × R → Sym2 Nat := fun t =>
    if hh : t.1 < n ∧ t.2.1 < n then s((σ.symm ⟨t.1, hh.1⟩).val, (σ.symm ⟨t.2.1, hh.2⟩).val) else s(0, 0)
  have hnd : ((triples X).map f).Nodup := by
    refine List.Nodup.map_on ?_ (.of_map _ hinj)
    intro a ha b hb hab
    obtain ⟨_, _, ai, aj, alt, -⟩ := key a ha
    obtain ⟨_, _, bi, bj, blt, -⟩ := key b hb
    simp only [f, dif_pos (And.intro ai aj), dif_pos (And.intro bi bj), Sym2.eq_iff] at hab
    have inj : ∀ {x y : Nat} (hx : x < n) (hy : y < n), (σ.symm ⟨x, hx⟩).val = (σ.symm ⟨y, hy⟩).val → x = y := by
      intro x y hx hy e
      exact congrArg Fin.val (σ.symm.injective (Fin.ext e))
    have hpos : (a.1, a.2.1) = (b.1, b.2.1) := by
      rcases hab with ⟨e1, e2⟩ | ⟨e1, e2⟩
      · rw [inj _ _ e1, inj _ _ e2]
      · have := inj _ _ e1
        have := inj _ _ e2
        omega
    exact List.inj_on_of_nodup_map hinj ha hb hpos
  have hsub : (triples X).map f ⊆ es.map fun e => s(e.1, e.2.1) := by
    intro x hx
    obtain ⟨t, ht, rfl⟩ := List.mem_map.1 hx
    obtain ⟨e, he, hi, hj, -, hor⟩ := key t ht
    refine List.mem_map.2 ⟨e, he, ?_⟩
    simp only [f, dif_pos (And.intro hi hj), Sym2.eq_iff]
    rcases hor with e | e
    · exact .inl (Prod.mk.inj e)
    · exact .inr (Prod.mk.inj e)
  have := (List.subperm_of_subset hnd hsub).length_le
  rwa [List.length_map, List.length_map] at this

/-- The number of entries of the product and the number of triangles -/
theorem nnz_triangles {X : CSR R} {L : CSC R} (h : Square n X L) (h1 : graphOf n es ≠ ⊥ → ∀ t ∈ triples X, t.2.2 = 1)
    (h3 : graphOf n es ≠ ⊥ → ∃ σ : Equiv.Perm (Fin n), IsLower ((graphOf n es).comap σ.symm) X) (hb : graphOf n es ≠ ⊥) {D : CSR R}
    (hD : D = maskedMat (fun x y => x * y) (fun x y => x + y) X X X true) :
    D.nnz ≤ es.length ∧ D.nnz ≤ triangles (graphOf n es) ∧ (D.nnz = 0 → triangles (graphOf n es) = 0) := by
  obtain ⟨σ, hlow⟩ := h3 hb
  refine ⟨Nat.le_trans ?_ (lower_le hlow), ?_⟩
  · have hM := maskedMat_isMasked (mul := fun x y : R => x * y) (add := fun x y => x + y) (A := X) (B := X) (M := X) rfl true (Graph.nodup_of_sorted h.sX)
    rw [← hD] at hM
    have hw : D.WF := hD ▸ maskedMat_wf h.wX
    refine nnz_le_of_rows hw h.wX hM.rows fun i hi => ?_
    rw [← List.length_map (f := Prod.fst), CSR.row_map_fst hw, ← List.length_map (f := Prod.fst) (as := X.row i), CSR.row_map_fst h.wX]
    refine (List.subperm_of_subset (hM.nodup i hi) fun j hj => ?_).length_le
    rw [← CSR.row_map_fst hw, List.mem_map] at hj
    obtain ⟨⟨j', v⟩, hx, rfl⟩ := hj
    exact ((hM.entries i (hM.rows ▸ hi) _ _).1 hx).1
  have hrel : Relabelled (graphOf n es) ((graphOf n es).comap σ.symm) σ := by
    intro u v
    simp
  have hw : D.WF := hD ▸ maskedMat_wf h.wX
  have hDr : D.rows = n := by rw [hD]; exact h.rows
  rw [TriCnt.maskedMat_ones h.wX (h.cols.trans h.rows.symm) (h1 hb)] at hD
  rw [← Graph.triangles_relabelled hrel, ← Graph.lower_total hlow]
  have hlen : D.nnz = ((List.range n).map fun i => (D.row i).length).sum := by
    rw [← hw.valLen, TriMain.values_eq hw, List.length_flatMap, hDr]
    simp
  have key : ∀ l : List Nat, ∀ f : Nat → Nat, ((l.filterMap fun j => if f j = 0 then none else some (j, (f j : R))).length ≤ (l.map f).sum) ∧
      ((l.filterMap fun j => if f j = 0 then none else some (j, (f j : R))).length = 0 → (l.map f).sum = 0) := by
    intro l f
    induction l with
    | nil => simp
    | cons a l ih =>
      by_cases ha : f a = 0
      · simp only [List.filterMap_cons, ha, if_true, List.map_cons, List.sum_cons, Nat.zero_add]
        exact ih
      · simp only [List.filterMap_cons, ha, if_false, List.map_cons, List.sum_cons, List.length_cons]
        constructor
        · have := ih.1
          omega
        · intro h
          omega
  have hrow : ∀ i < n, (D.row i).length ≤ ((X.rowCols i).map fun j => Graph.mid n X i j).sum ∧
      ((D.row i).length = 0 → ((X.rowCols i).map fun j => Graph.mid n X i j).sum = 0) := by
    intro i hi
    rw [hD, Graph.sq_row h.wX h.sX h.rows h.cols hi]
    exact key _ _
  rw [hlen]
  have tot : ∀ m ≤ n, ((List.range m).map fun i => (D.row i).length).sum ≤ ((List.range m).map fun i => ((X.rowCols i).map fun j => Graph.mid n X i j).sum).sum ∧
      (((List.range m).map fun i => (D.row i).length).sum = 0 → ((List.range m).map fun i => ((X.rowCols i).map fun j => Graph.mid n X i j).sum).sum = 0) := by
    intro m
    induction m with
    | zero => intro _; simp
    | succ m ih =>
      intro hm
      have h1 := ih (by omega)
      have h2 := hrow m hm
      simp only [List.range_succ, List.map_append, List.sum_append, List.map_cons, List.map_nil, List.sum_cons, List.sum_nil, Nat.add_zero]
      constructor
      · omega
      · intro h
        rw [h1.2 (by omega), h2.2 (by omega)]
  exact tot n (Nat.le_refl _)

/-- One algorithm: its line, for any schedule in which no thread is starved. -/
theorem alg_good (h : TriCalled ofInt o e file tnum n es) {X : CSR R} {L : CSC R} (hX : Square n X L) (hnnz : X.nnz + 512 < 2 ^ 64)
    {enc : R → List UInt8} (heven : ∀ v, (enc v).length % 2 = 0) {mode : List Char} (hsmall : mode ∈ binModes → n + 1 < 2 ^ 17) {D : CSR R}
    (hD : IsMaskedSet (fun x y => x * y) (fun x y => x + y) X X X D) (hsum : D.values.sum = (triangles (graphOf n es) : R)) {s : R} {c' : Nat × Nat × Nat}
    (hsel : ∀ C, IsSelection (fun x y => x * y) (fun x y => x + y) X X X C → C.nnz = D.nnz ∧ C.values.sum = s ∧ Checksum.checksum enc 8 C = c')
    (path : List Char) {a : List Char × Ker} (ha : a ∈ TriMain.algs mode) (hok : okKer a.2 = true) :
    ∃ K, ∀ sch : Nat → TriMain.Sch, (∀ i, Adm n tnum (sch i)) →
      Good (∀ i, FairSch tnum K (sch i)) [triLine n es path tnum D.nnz s (Checksum.checksum enc 8 D) c' (shownOf a)]
        (runAlg enc o e path tnum L X a sch) := by
  obtain ⟨-, hbin, hint⟩ := tri_kinds mode a ha
  have hname := (names_shown mode).1 a ha
  obtain ⟨hpoly, hfit⟩ := okKer_fits hok hnnz
  by_cases hi : a.2 = .intersect
  · have hsm : n + 1 < 2 ^ 17 := hsmall (hbin (by rw [hi]; rfl))
    refine ⟨n + 2, fun sch hadm => ?_⟩
    have := runAlg_good (enc := enc) h.parts h.iters path hname (L := L) (X := X) (tnum := tnum) (st := ∀ i, FairSch tnum (n + 2) (sch i)) (sch := sch)
      (Q := IsSelection (fun x y => x * y) (fun x y => x + y) X X X) (fun C hC => hC.wf) (fun i C0 _ => by
        have := intersect_yields hX h.sortf hsm h.pos (sch i) (hadm i) C0
        rw [hi]
        exact ⟨this.weaken (fun hf => hf i) fun C hC => hC.wf.zero, fun _ => this.weaken (fun hf => hf i) fun C hC => hC⟩) hsel
    unfold triLine
    rw [if_pos (hint.1 hi), if_pos (hint.1 hi)]
    exact this
  · obtain ⟨K, hK⟩ := kernel_yields hX o.sortf hpoly hi hfit (fun hb => hsmall (hbin hb)) h.pos
    refine ⟨K, fun sch hadm => ?_⟩
    have := runAlg_good (enc := enc) h.parts h.iters path hname (L := L) (X := X) (tnum := tnum) (st := ∀ i, FairSch tnum K (sch i)) (sch := sch)
      (Q := IsMaskedSet (fun x y => x * y) (fun x y => x + y) X X X) (fun C hC => hC.wf) (fun i C0 h0 => by
        have := hK (sch i) (hadm i) C0 h0
        exact ⟨this.1.weaken (fun hf => hf i) fun C hC => hC, fun hz => (this.2 hz).weaken (fun hf => hf i) fun C hC => hC⟩)
      (fun C hC => by
        obtain ⟨e1, e2, e3⟩ := masked_common enc heven hC hD
        exact ⟨e1, e2.trans hsum, e3⟩)
    unfold triLine
    rw [if_neg fun hh => hi (hint.2 hh), if_neg fun hh => hi (hint.2 hh)]
    exact this

/-- Algorithms one after the other -/
theorem algs_good (h : TriCalled ofInt o e file tnum n es) {X : CSR R} {L : CSC R} (hX : Square n X L) (hnnz : X.nnz + 512 < 2 ^ 64)
    {enc : R → List UInt8} (heven : ∀ v, (enc v).length % 2 = 0) {mode : List Char} (hsmall : mode ∈ binModes → n + 1 < 2 ^ 17) {D : CSR R}
    (hD : IsMaskedSet (fun x y => x * y) (fun x y => x + y) X X X D) (hsum : D.values.sum = (triangles (graphOf n es) : R)) {s : R} {c' : Nat × Nat × Nat}
    (hsel : ∀ C, IsSelection (fun x y => x * y) (fun x y => x + y) X X X C → C.nnz = D.nnz ∧ C.values.sum = s ∧ Checksum.checksum enc 8 C = c')
    (path : List Char) {l : List ((List Char × Ker) × Nat)} (hl : ∀ a ∈ l, a.1 ∈ TriMain.algs mode ∧ okKer a.1.2 = true) :
    ∃ K, ∀ sch : Nat × Nat → TriMain.Sch, (∀ i, Adm n tnum (sch i)) →
      Good (∀ i, FairSch tnum K (sch i)) (l.map fun a => triLine n es path tnum D.nnz s (Checksum.checksum enc 8 D) c' (shownOf a.1))
        (seqAll (l.map fun a => runAlg enc o e path tnum L X a.1 fun k => sch (a.2, k))) := by
  obtain ⟨K, hK⟩ := exists_bound (P := fun (a : (List Char × Ker) × Nat) K => ∀ sch : Nat → TriMain.Sch, (∀ i, Adm n tnum (sch i)) →
      Good (∀ i, FairSch tnum K (sch i)) [triLine n es path tnum D.nnz s (Checksum.checksum enc 8 D) c' (shownOf a.1)]
        (runAlg enc o e path tnum L X a.1 sch))
    (fun a K K' hKK hP sch hadm => MaskedAll.Good.weaken (hP sch hadm) fun hf i => (hf i).mono hKK) l
    (fun a ha => alg_good h hX hnnz heven hsmall hD hsum hsel path (hl a ha).1 (hl a ha).2)
  refine ⟨K, fun sch hadm => ?_⟩
  have := seqAll_good (st := ∀ i, FairSch tnum K (sch i)) l (f := fun a => runAlg enc o e path tnum L X a.1 fun k => sch (a.2, k))
    (w := fun a => [triLine n es path tnum D.nnz s (Checksum.checksum enc 8 D) c' (shownOf a.1)])
    fun a ha => MaskedAll.Good.weaken (hK a ha (fun k => sch (a.2, k)) fun k => hadm _) fun hf k => hf _
  rw [← List.map_eq_flatMap] at this
  exact this

theorem fileName_twice {path : List Char} : IsFileName path (getFileName (getFileName path)) := by
  have h := C80_file path
  rcases C80_file (getFileName path) with ⟨h1, h2 | ⟨dir, h2⟩⟩
  · rw [← h2]
    exact h
  · exact absurd (by rw [h2]; simp) h.1

/-- What is shown by the lines of the program in any number of rounds -/
structure TriReport (n : Nat) (es : List (Nat × Nat × R)) (path : List Char) (tnum : Nat) (lines : List (Line R)) : Prop where
  file : ∀ l ∈ lines, IsFileName path l.file
  threads : ∀ l ∈ lines, l.threads = tnum
  sum : ∀ l ∈ lines, l.name ≠ "HashIntersect".toList → l.sum = (triangles (graphOf n es) : R)
  isect : ∀ l ∈ lines, l.name = "HashIntersect".toList → (graphOf n es = ⊥ → l.sum = 0) ∧ (graphOf n es ≠ ⊥ → l.sum = (l.nnz : R))
  nnz : ∀ l ∈ lines, ∀ l' ∈ lines, l.nnz = l'.nnz
  bound : graphOf n es ≠ ⊥ → ∀ l ∈ lines, l.nnz ≤ es.length ∧ l.nnz ≤ triangles (graphOf n es) ∧ (l.nnz = 0 → triangles (graphOf n es) = 0)
  check : ∀ l ∈ lines, ∀ l' ∈ lines, l.check.1 = l'.check.1 ∧ l.check.2.2 = l'.check.2.2 ∧
    (l.name ≠ "HashIntersect".toList → l'.name ≠ "HashIntersect".toList → l.check = l'.check)

theorem triReport_of {path : List Char} {z : Nat} {s : R} {c c' : Nat × Nat × Nat} (h1 : graphOf n es = ⊥ → s = 0)
    (h2 : graphOf n es ≠ ⊥ → s = (z : R)) (h3 : c'.1 = c.1) (h4 : c'.2.2 = c.2.2)
    (h5 : graphOf n es ≠ ⊥ → z ≤ es.length ∧ z ≤ triangles (graphOf n es) ∧ (z = 0 → triangles (graphOf n es) = 0)) {lines : List (Line R)}
    (hl : ∀ l ∈ lines, l = triLine n es (getFileName path) tnum z s c c' l.name) : TriReport n es path tnum lines where
  file l hm := by rw [hl l hm]; exact fileName_twice
  threads l hm := by rw [hl l hm]; rfl
  sum l hm hne := by rw [hl l hm]; exact if_neg hne
  isect l hm he := by
    have e1 : l.sum = s := by rw [hl l hm]; exact if_pos he
    have e2 : l.nnz = z := by rw [hl l hm]; rfl
    rw [e1, e2]
    exact ⟨h1, h2⟩
  nnz l hm l' hm' := by rw [hl l hm, hl l' hm']; rfl
  bound hb l hm := by
    have e2 : l.nnz = z := by rw [hl l hm]; rfl
    rw [e2]
    exact h5 hb
  check l hm l' hm' := by
    have key : ∀ l ∈ lines, l.check.1 = c.1 ∧ l.check.2.2 = c.2.2 ∧ (l.name ≠ "HashIntersect".toList → l.check = c) := by
      intro l hm
      have e1 : l.check = if l.name = "HashIntersect".toList then c' else c := by
        conv => lhs; rw [hl l hm]
        rfl
      rw [e1]
      split
      · rename_i he
        exact ⟨h3, h4, fun hn => absurd he hn⟩
      · exact ⟨rfl, rfl, fun _ => rfl⟩
    obtain ⟨a1, a2, a3⟩ := key l hm
    obtain ⟨b1, b2, b3⟩ := key l' hm'
    exact ⟨a1.trans b1.symm, a2.trans b2.symm, fun hn hn' => (a3 hn).trans (b3 hn').symm⟩

/-- C84, for every mode but `all1p` and for every file with at least one entry: the program prints, in each round, a line for each algorithm of the mode.
Each line has the name of the file without its directory, the number of threads and, as the sum, the number of triangles of the graph of the
entries, except for `HashIntersect`. All lines have the same number of entries and the same checksums (for `HashIntersect`, of the
positions). In every schedule the program prints these lines and ends, or a thread gets too few turns and it has printed the first of these
lines; it ends if every thread gets enough turns.

What is missing: `HashIntersect`, which prints the number of pairs that close a triangle (field `isect`, and see `C84_violated_intersect`), the
mode `all1p` (`C84_violated_all1p`), files without entries (`C84_violated_empty`), and more than `2^17 - 2` vertices in the modes with the older
kernels (`C84_violated_rows`). -/
theorem C84_partial (h : TriCalled ofInt o e file tnum n es) (hne : es ≠ []) (hbits : 2 * es.length + 512 < 2 ^ 64)
    {enc : R → List UInt8} (heven : ∀ v, (enc v).length % 2 = 0) (path : List Char) {mode : List Char} (hmode : (e.mode.getD []).map Char.toLower = mode)
    (h1p : mode ≠ "all1p".toList) (hsmall : mode ∈ binModes → n + 1 < 2 ^ 17) :
    ∃ lines, lines.map (·.name) = (List.replicate (e.outer.getD 1) (triNames mode)).flatten ∧ TriReport n es path tnum lines ∧
      (∀ sch, (∀ i, Adm n tnum (sch i)) → TriMain.main ofInt enc o e path file tnum sch = ⟨lines, .ok (some ())⟩ ∨
        ((TriMain.main ofInt enc o e path file tnum sch).status = .ok none ∧ (TriMain.main ofInt enc o e path file tnum sch).events <+: lines)) ∧
      ∃ K, ∀ sch, (∀ i, Adm n tnum (sch i)) → (∀ i, FairSch tnum K (sch i)) →
        TriMain.main ofInt enc o e path file tnum sch = ⟨lines, .ok (some ())⟩ := by
  obtain ⟨L, X, hset, hX, hnnz, hsum, hv1, hv0, hlow⟩ := h.setup hne
  have hD : IsMaskedSet (fun x y => x * y) (fun x y => x + y) X X X (maskedMat (fun x y => x * y) (fun x y => x + y) X X X true) :=
    masked_set (maskedMat_wf hX.wX) (maskedMat_isMasked rfl true (Graph.nodup_of_sorted hX.sX))
  have hb := fun hb => nnz_triangles hX hv1 hlow hb rfl
  generalize maskedMat (fun x y => x * y) (fun x y => x + y) X X X true = D at hD hsum hb
  obtain ⟨s, c', hs0, hs1, hc1, hc2, hsel⟩ := isect_line hX enc hv1 hv0 hD
  have hms : e.modeStr = mode := hmode
  obtain ⟨K, hK⟩ := algs_good h hX (by omega) heven (mode := mode) hsmall hD hsum hsel (getFileName path) (l := (TriMain.algs mode).zipIdx) (by
    intro a ha
    have := List.fst_mem_of_mem_zipIdx ha
    exact ⟨this, (tri_kinds mode a.1 this).1 h1p⟩)
  have hmap : ((TriMain.algs mode).zipIdx.map fun a => triLine n es (getFileName path) tnum D.nnz s (Checksum.checksum enc 8 D) c' (shownOf a.1)) =
      (triNames mode).map (triLine n es (getFileName path) tnum D.nnz s (Checksum.checksum enc 8 D) c') := by
    rw [← (names_shown mode).2, List.map_map]
    have := congrArg (List.map fun a => triLine n es (getFileName path) tnum D.nnz s (Checksum.checksum enc 8 D) c' (shownOf a)) (List.zipIdx_map_fst 0 (TriMain.algs mode))
    rw [List.map_map] at this
    exact this
  rw [hmap] at hK
  generalize hrl : (triNames mode).map (triLine n es (getFileName path) tnum D.nnz s (Checksum.checksum enc 8 D) c') = rl at hK
  have hgood : ∀ sch, (∀ i, Adm n tnum (sch i)) → Good (∀ i, FairSch tnum K (sch i)) (List.replicate (e.outer.getD 1) rl).flatten
      (TriMain.main ofInt enc o e path file tnum sch) := by
    intro sch hadm
    unfold TriMain.main
    rw [hset]
    have := seqAll_good (st := ∀ i, FairSch tnum K (sch i)) (List.range (e.outer.getD 1)) (w := fun _ => rl)
      (f := fun r => TriMain.round enc o e (getFileName path) tnum L X fun i => sch (r, i))
      fun r _ => by
        unfold TriMain.round
        rw [hms]
        exact MaskedAll.Good.weaken (hK (fun i => sch (r, i)) fun i => hadm _) fun hf i => hf _
    rw [show (List.range (e.outer.getD 1)).flatMap (fun _ => rl) = (List.replicate (e.outer.getD 1) rl).flatten by
      rw [List.flatMap_def, List.map_const', List.length_range]] at this
    exact this
  refine ⟨(List.replicate (e.outer.getD 1) rl).flatten, ?_, ?_, fun sch hadm => ?_, K, fun sch hadm hfair => ?_⟩
  · rw [List.map_flatten, List.map_replicate, ← hrl, List.map_map]
    have : ((fun l : Line R => l.name) ∘ triLine n es (getFileName path) tnum D.nnz s (Checksum.checksum enc 8 D) c') = id := rfl
    rw [this, List.map_id]
  · refine triReport_of hs0 hs1 hc1 hc2 hb fun l hl => ?_
    obtain ⟨l', hl', hm⟩ := List.mem_flatten.1 hl
    rw [List.eq_of_mem_replicate hl', ← hrl] at hm
    obtain ⟨x, -, rfl⟩ := List.mem_map.1 hm
    rfl
  · exact (hgood sch hadm).imp id fun h => h.2
  · rcases hgood sch hadm with e | ⟨hn, -⟩
    · exact e
    · exact absurd hfair hn

/-! ## Where it fails -/

/-- An algorithm that never returns prints no line and is the last one. -/
theorem runAlg_never {enc : R → List UInt8} (path : List Char) (hin : e.inner ≠ some 0) {L : CSC R} {X : CSR R} {a : List Char × Ker} {sch : Nat → TriMain.Sch}
    (h : ∀ i C0 C, a.2.call o.sortf X L tnum C0 (sch i) ≠ .ok (some C)) :
    (runAlg enc o e path tnum L X a sch).status ≠ .ok (some ()) ∧ (runAlg enc o e path tnum L X a sch).events = [] := by
  have hpos : 0 < e.innerIters := by
    unfold Env.innerIters
    revert hin
    rcases e.inner with _ | _ | c <;> simp
  have first : ∀ {σ : Type} (f : CSR R → σ → Res (Option (CSR R))) (s : σ) (ss : List σ) (C0 : CSR R), (∀ C, f C0 s ≠ .ok (some C)) →
      ∀ C, repeatCall f (s :: ss) C0 ≠ .ok (some C) := by
    intro σ f s ss C0 hf C
    unfold repeatCall
    revert hf
    rcases f C0 s with x | _ | D
    · intro _ e; cases e
    · intro _ e; cases e
    · intro hf; exact absurd rfl (hf D)
  have hcalls : ∀ C, runCalls (a.2.call o.sortf X L tnum) ((List.range e.warmupIters).map sch) ((List.range e.innerIters).map fun k => sch (e.warmupIters + k)) ≠
      .ok (some C) := by
    intro C
    have ht : ∀ C0 C, repeatCall (fun C => a.2.call o.sortf X L tnum (makeEmpty C)) ((List.range e.innerIters).map fun k => sch (e.warmupIters + k)) C0 ≠
        .ok (some C) := by
      intro C0
      obtain ⟨m, hm⟩ : ∃ m, e.innerIters = m + 1 := ⟨e.innerIters - 1, by omega⟩
      rw [hm, List.range_succ_eq_map, List.map_cons]
      exact first _ _ _ _ fun C => h _ _ C
    unfold runCalls
    rcases hw : repeatCall (a.2.call o.sortf X L tnum) ((List.range e.warmupIters).map sch) newObj with x | _ | D
    · intro e; cases e
    · intro e; cases e
    · exact ht D C
  unfold runAlg Bench.run
  revert hcalls
  rcases runCalls (a.2.call o.sortf X L tnum) ((List.range e.warmupIters).map sch) ((List.range e.innerIters).map fun k => sch (e.warmupIters + k)) with x | _ | D
  · intro _
    exact ⟨(by simp [TriMain.part]), rfl⟩
  · intro _
    exact ⟨(by simp [TriMain.part]), rfl⟩
  · intro hc
    exact absurd rfl (hc D)

/-- C84, violated for the mode `all1p`: for every file whose graph has a triangle the last algorithm of the mode never returns (it uses unset
memory, C39), so that the program prints at most the lines of the first seven, and does not come to its end. -/
theorem C84_violated_all1p (h : TriCalled ofInt o e file tnum n es) (hbits : 2 * es.length + 512 < 2 ^ 64)
    {enc : R → List UInt8} (heven : ∀ v, (enc v).length % 2 = 0) (path : List Char) (hmode : (e.mode.getD []).map Char.toLower = "all1p".toList)
    (hrounds : 0 < e.outer.getD 1) (htri : triangles (graphOf n es) ≠ 0) :
    ∃ lines, lines.map (·.name) = (triNames "all1p".toList).dropLast ∧ TriReport n es path tnum lines ∧
      (∀ sch, (∀ i, Adm n tnum (sch i)) → (TriMain.main ofInt enc o e path file tnum sch).status ≠ .ok (some ()) ∧
        (TriMain.main ofInt enc o e path file tnum sch).events <+: lines) ∧
      ∃ K, ∀ sch, (∀ i, Adm n tnum (sch i)) → (∀ i, FairSch tnum K (sch i)) →
        (TriMain.main ofInt enc o e path file tnum sch).events = lines := by
  have hbot : graphOf n es ≠ ⊥ := by
    intro hb
    apply htri
    unfold triangles
    rw [hb]
    have : {s : Finset (Fin n) | (⊥ : SimpleGraph (Fin n)).IsNClique 3 s} = ∅ := by
      ext s
      simp only [Set.mem_ofPred_eq, Set.mem_empty_iff_false, iff_false]
      intro hs
      obtain ⟨a, b, c, hab, -⟩ := SimpleGraph.is3Clique_iff.1 hs
      exact hab.elim
    rw [this, Set.ncard_empty]
  have hne : es ≠ [] := by
    rintro rfl
    apply hbot
    ext u v
    simp [graphOf]
  obtain ⟨L, X, hset, hX, hnnz, hsum, hv1, hv0, hlow⟩ := h.setup hne
  have hD : IsMaskedSet (fun x y => x * y) (fun x y => x + y) X X X (maskedMat (fun x y => x * y) (fun x y => x + y) X X X true) :=
    masked_set (maskedMat_wf hX.wX) (maskedMat_isMasked rfl true (Graph.nodup_of_sorted hX.sX))
  have hb := fun hb => nnz_triangles hX hv1 hlow hb rfl
  generalize maskedMat (fun x y => x * y) (fun x y => x + y) X X X true = D at hD hsum hb
  -- a row with work
  have hwork : ∃ i < X.rows, rowWork false X X X i ≠ 0 := by
    by_contra hno
    push Not at hno
    have hz : D.nnz = 0 := by
      rw [← hD.wf.valLen, TriMain.values_eq hD.wf, List.length_eq_zero_iff, List.flatMap_eq_nil_iff]
      intro i hi
      have hi := hD.rows ▸ List.mem_range.1 hi
      rw [List.map_eq_nil_iff, List.eq_nil_iff_forall_not_mem]
      rintro ⟨j, v⟩ hm
      obtain ⟨h1, h2⟩ := (hD.entries i hi j v).1 hm
      have h3 := hno i hi
      unfold rowWork at h3
      rw [if_neg (fun hh => by rw [hh.2] at h1; cases h1)] at h3
      have h4 : touched X X i = [] := List.length_eq_zero_iff.1 h3
      have h5 : contribs (fun x y => x * y) X X i j = [] := by
        rw [List.eq_nil_iff_forall_not_mem]
        intro x hx
        unfold contribs at hx
        obtain ⟨ka, hka, hx⟩ := List.mem_flatMap.1 hx
        obtain ⟨jb, hjb, -⟩ := List.mem_filterMap.1 hx
        have : jb.1 ∈ touched X X i := by
          unfold touched
          refine List.mem_flatMap.2 ⟨ka, hka, ?_⟩
          exact List.mem_map_of_mem hjb
        rw [h4] at this
        cases this
      unfold dot at h2
      rw [h5] at h2
      cases h2
    exact htri ((hb hbot).2.2 hz)
  obtain ⟨i, hi, hwork⟩ := hwork
  obtain ⟨s, c', hs0, hs1, hc1, hc2, hsel⟩ := isect_line hX enc hv1 hv0 hD
  have hms : e.modeStr = "all1p".toList := hmode
  have hsplit : (TriMain.algs "all1p".toList).zipIdx = ((TriMain.algs "all1p".toList).zipIdx.take 7) ++ [(("MaskedSpGEMM1p".toList, .poly), 7)] := by
    decide +kernel
  have hfirst : ∀ a ∈ (TriMain.algs "all1p".toList).zipIdx.take 7, okKer a.1.2 = true := by decide +kernel
  have hnb : ("all1p".toList : List Char) ∉ binModes := by decide
  obtain ⟨K, hK⟩ := algs_good h hX (by omega) heven (mode := "all1p".toList) (fun hh => absurd hh hnb) hD hsum hsel (getFileName path)
    (l := (TriMain.algs "all1p".toList).zipIdx.take 7) (by
      intro a ha
      exact ⟨List.fst_mem_of_mem_zipIdx (List.mem_of_mem_take ha), hfirst a ha⟩)
  have hnames : ((TriMain.algs "all1p".toList).zipIdx.take 7).map (fun a => shownOf a.1) = (triNames "all1p".toList).dropLast := by decide +kernel
  have hmap : (((TriMain.algs "all1p".toList).zipIdx.take 7).map fun a => triLine n es (getFileName path) tnum D.nnz s (Checksum.checksum enc 8 D) c' (shownOf a.1)) =
      (triNames "all1p".toList).dropLast.map (triLine n es (getFileName path) tnum D.nnz s (Checksum.checksum enc 8 D) c') := by
    rw [← hnames, List.map_map]
    rfl
  rw [hmap] at hK
  generalize hrl : (triNames "all1p".toList).dropLast.map (triLine n es (getFileName path) tnum D.nnz s (Checksum.checksum enc 8 D) c') = rl at hK
  have hmain : ∀ sch, (∀ i, Adm n tnum (sch i)) →
      (TriMain.main ofInt enc o e path file tnum sch).status ≠ .ok (some ()) ∧
      ((TriMain.main ofInt enc o e path file tnum sch).events = rl ∨ (¬(∀ i, FairSch tnum K (sch i)) ∧
        (TriMain.main ofInt enc o e path file tnum sch).events <+: rl)) := by
    intro sch hadm
    obtain ⟨m, hm⟩ : ∃ m, e.outer.getD 1 = m + 1 := ⟨e.outer.getD 1 - 1, by omega⟩
    unfold TriMain.main
    rw [hset]
    show (seqAll ((List.range (e.outer.getD 1)).map _)).status ≠ _ ∧ ((seqAll ((List.range (e.outer.getD 1)).map _)).events = rl ∨
      _ ∧ (seqAll ((List.range (e.outer.getD 1)).map _)).events <+: rl)
    rw [hm, List.range_succ_eq_map, List.map_cons]
    simp only [seqAll]
    generalize seqAll (List.map _ _) = rest
    have hround : (TriMain.round enc o e (getFileName path) tnum L X fun i => sch (0, i)).status ≠ .ok (some ()) ∧
        ((TriMain.round enc o e (getFileName path) tnum L X fun i => sch (0, i)).events = rl ∨ (¬(∀ i, FairSch tnum K (sch i)) ∧
          (TriMain.round enc o e (getFileName path) tnum L X fun i => sch (0, i)).events <+: rl)) := by
      unfold TriMain.round
      rw [hms, hsplit, List.map_append, seqAll_append]
      have hg := MaskedAll.Good.weaken (q := ∀ i, FairSch tnum K (sch i)) (hK (fun i => sch (0, i)) fun i => hadm _) fun hf i => hf _
      have hlast := runAlg_never (enc := enc) (getFileName path) h.iters (o := o) (tnum := tnum) (L := L) (X := X)
        (a := ("MaskedSpGEMM1p".toList, .poly)) (sch := fun k => sch (0, 7, k)) (by
          intro k C0 C hc
          refine C39_violated (fun x y : R => x * y) (fun x y => x + y) hX.valid hi hwork C0.zerobased (nt := tnum) (dflt := tnum) ?_
            ⟨_, C, hX.rows ▸ (hadm (0, 7, k)).sch.gen, hc⟩
          have := h.pos
          unfold setNumThreads
          split <;> exact this)
      have hone : seqAll ([((("MaskedSpGEMM1p".toList : List Char), Ker.poly), 7)].map fun a => runAlg enc o e (getFileName path) tnum L X a.1 fun k => sch (0, a.2, k)) =
          runAlg enc o e (getFileName path) tnum L X ("MaskedSpGEMM1p".toList, .poly) fun k => sch (0, 7, k) := by
        show Out.seq _ _ = _
        rw [seq_stop hlast.1]
      rw [hone]
      rcases hg with e1 | ⟨hn, e1, e2⟩
      · rw [e1, seq_done rfl]
        exact ⟨hlast.1, .inl (by rw [hlast.2]; simp)⟩
      · rw [seq_stop (by rw [e1]; simp)]
        exact ⟨by rw [e1]; simp, .inr ⟨hn, e2⟩⟩
    rw [seq_stop hround.1]
    exact hround
  refine ⟨rl, ?_, ?_, fun sch hadm => ?_, K, fun sch hadm hfair => ?_⟩
  · rw [← hrl, List.map_map]
    have : ((fun l : Line R => l.name) ∘ triLine n es (getFileName path) tnum D.nnz s (Checksum.checksum enc 8 D) c') = id := rfl
    rw [this, List.map_id]
  · refine triReport_of hs0 hs1 hc1 hc2 hb fun l hl => ?_
    rw [← hrl] at hl
    obtain ⟨x, -, rfl⟩ := List.mem_map.1 hl
    rfl
  · refine ⟨(hmain sch hadm).1, ?_⟩
    rcases (hmain sch hadm).2 with e | e
    · rw [e]
    · exact e.2
  · rcases (hmain sch hadm).2 with e | e
    · exact e
    · exact absurd hfair e.1

/-- C84, violated for files without entries: the program reads outside of an array before it prints anything, in every mode. -/
theorem C84_violated_empty (h : TriCalled ofInt o e file tnum n []) (enc : R → List UInt8) (path : List Char) (sch : Nat × Nat × Nat → TriMain.Sch) :
    TriMain.main ofInt enc o e path file tnum sch = ⟨[], .error .oob⟩ := by
  obtain ⟨A, e0, hw, hr, hc, hg, hb1, hb2⟩ := h.read_ok
  unfold TriMain.main TriMain.setup
  rw [e0, ok_bind, preprocess_empty hw (by simpa using hb2) h.sortT]
  rfl

/-- C84, violated for large graphs: with `2^17 - 1` or more vertices, in the modes with the older kernels, the program prints no line and does not come
to its end. -/
theorem C84_violated_rows (h : TriCalled ofInt o e file tnum n es) (hne : es ≠ []) (hbig : 2 ^ 17 ≤ n + 1) (enc : R → List UInt8) (path : List Char)
    (hmode : (e.mode.getD []).map Char.toLower ∈ binModes) (hrounds : 0 < e.outer.getD 1) (sch : Nat × Nat × Nat → TriMain.Sch)
    (hadm : ∀ i, Adm n tnum (sch i)) : (TriMain.main ofInt enc o e path file tnum sch).status ≠ .ok (some ()) ∧
      (TriMain.main ofInt enc o e path file tnum sch).events = [] := by
  obtain ⟨L, X, hset, hX, -⟩ := h.setup hne
  have hfirst : ∀ mode ∈ binModes, ∃ a as, TriMain.algs mode = a :: as ∧ a.2.bins = true := by
    intro mode hm
    have : ∀ mode ∈ binModes, ((TriMain.algs mode).head?.map fun a => a.2.bins) = some true := by decide +kernel
    have := this mode hm
    revert this
    cases TriMain.algs mode with
    | nil => simp
    | cons a as => intro h; exact ⟨a, as, rfl, by simpa using h⟩
  obtain ⟨m, hm⟩ : ∃ m, e.outer.getD 1 = m + 1 := ⟨e.outer.getD 1 - 1, by omega⟩
  obtain ⟨a, as, halg, hbin⟩ := hfirst _ hmode
  have hbig' : 2 ^ 17 ≤ X.rows + 1 := hX.rows ▸ hbig
  have hnever : ∀ i C0 C, a.2.call o.sortf X L tnum C0 (sch (0, 0, i)) ≠ .ok (some C) := by
    intro i C0 C
    revert hbin
    rcases a with ⟨t, k⟩
    cases k with
    | nohash => intro _; exact C53_violated_rows _ _ _ hbig' h.pos _ C
    | spa => intro _; exact C31_violated_spa _ _ _ hbig' h.pos _ C
    | hash => intro _; exact C31_violated_hash _ _ _ hbig' h.pos _ C
    | wobin => intro _; exact C31_violated_wobin _ _ hX.valid _ hbig' h.pos (hX.rows ▸ (hadm (0, 0, i)).sch.order1) C
    | intersect =>
      intro _ hc
      have hc : HashIntersect.hashIntersect _ _ _ _ _ _ _ _ _ _ = _ := hc
      unfold HashIntersect.hashIntersect at hc
      obtain ⟨r, h1, h2⟩ := Alias.bind_ok' hc
      cases r with
      | none => cases h2
      | some T => exact C34_violated _ _ _ _ _ hbig' h.pos _ T h1
    | lib _ _ | msa1Old _ | msa2Old _ | heapOld _ _ | poly => intro hh; cases hh
  have hlast := runAlg_never (enc := enc) (getFileName path) h.iters (o := o) (a := a) hnever
  unfold TriMain.main
  rw [hset]
  show (seqAll ((List.range (e.outer.getD 1)).map _)).status ≠ _ ∧ (seqAll ((List.range (e.outer.getD 1)).map _)).events = []
  rw [hm, List.range_succ_eq_map, List.map_cons]
  simp only [seqAll]
  generalize seqAll (List.map _ _) = rest
  have hround : TriMain.round enc o e (getFileName path) tnum L X (fun i => sch (0, i)) = runAlg enc o e (getFileName path) tnum L X a fun k => sch (0, 0, k) := by
    unfold TriMain.round
    rw [show e.modeStr = (e.mode.getD []).map Char.toLower from rfl, halg, List.zipIdx_cons, List.map_cons]
    simp only [seqAll]
    exact seq_stop hlast.1
  rw [hround, seq_stop hlast.1]
  exact hlast

/-- C84, violated for `HashIntersect`: for a graph with more triangles than there are entries in the file, every line that the program prints for
this algorithm has a wrong count. -/
theorem C84_violated_intersect {ofInt : Int → Nat} {o : TriMain.Orders Nat} {es : List (Nat × Nat × Nat)} (h : TriCalled ofInt o e file tnum n es) (hne : es ≠ [])
    (hbits : 2 * es.length + 512 < 2 ^ 64) {enc : Nat → List UInt8} (heven : ∀ v, (enc v).length % 2 = 0) (path : List Char)
    (h1p : (e.mode.getD []).map Char.toLower ≠ "all1p".toList) (hsmall : n + 1 < 2 ^ 17) (hmany : es.length < triangles (graphOf n es))
    (sch : Nat × Nat × Nat → TriMain.Sch) (hadm : ∀ i, Adm n tnum (sch i)) :
    ∀ l ∈ (TriMain.main ofInt enc o e path file tnum sch).events, l.name = "HashIntersect".toList → l.sum ≠ triangles (graphOf n es) := by
  obtain ⟨lines, -, hrep, hsafe, -⟩ := C84_partial h hne hbits heven path rfl h1p fun _ => hsmall
  have hbot : graphOf n es ≠ ⊥ := by
    intro hb
    rw [hb] at hmany
    have : triangles (⊥ : SimpleGraph (Fin n)) = 0 := by
      unfold triangles
      have : {s : Finset (Fin n) | (⊥ : SimpleGraph (Fin n)).IsNClique 3 s} = ∅ := by
        ext s
        simp only [Set.mem_ofPred_eq, Set.mem_empty_iff_false, iff_false]
        intro hs
        obtain ⟨a, b, c, hab, -⟩ := SimpleGraph.is3Clique_iff.1 hs
        exact hab.elim
      rw [this, Set.ncard_empty]
    omega
  intro l hl hn
  have hl : l ∈ lines := by
    rcases hsafe sch hadm with e | ⟨-, e⟩
    · rw [e] at hl; exact hl
    · exact e.subset hl
  rw [(hrep.isect l hl hn).2 hbot]
  have := (hrep.bound hbot l hl).1
  simp only [Nat.cast_id]
  omega

/-! ## Examples -/

theorem schedules_exist (rows n K : Nat) : ∃ s, Adm rows n s ∧ FairSch n K s := by
  obtain ⟨s, h1, h2⟩ := schedule_exists rows n K
  obtain ⟨g, -, hgf⟩ := fair_exists rows n K
  let b : Bin.Sched := { intprod := List.range rows, s1 := [], s2 := [], threads := List.range n, ids := List.range rows }
  let p : HashMult.Sched := { bin := b, sym := g.first, s1 := [], s2 := [], num := g.second }
  let i : HashIntersect.Sched := { prod := p, order1 := List.range rows, s1 := [], s2 := [], order2 := List.range rows }
  exact ⟨{ toSch := s, isect := i }, ⟨h1, ⟨.refl _, .refl _, .refl _⟩, .refl _, .refl _⟩, h2, fun t ht => ⟨(hgf t ht).2.2.1, (hgf t ht).2.2.2⟩⟩

/-- The entries of the complete graph with six vertices, below the diagonal -/
def k6Entries : List (Nat × Nat × Nat) :=
  [(1, 0, 1), (2, 0, 1), (2, 1, 1), (3, 0, 1), (3, 1, 1), (3, 2, 1), (4, 0, 1), (4, 1, 1), (4, 2, 1), (4, 3, 1), (5, 0, 1), (5, 1, 1), (5, 2, 1), (5, 3, 1), (5, 4, 1)]

def k6File : MMText :=
  { field := .pattern, sym := .general, comments := [], size := "6 6 15".toList,
    entries := ["2 1".toList, "3 1".toList, "3 2".toList, "4 1".toList, "4 2".toList, "4 3".toList, "5 1".toList, "5 2".toList, "5 3".toList, "5 4".toList, "6 1".toList, "6 2".toList, "6 3".toList, "6 4".toList, "6 5".toList] }

theorem k6File_describes : Describes (IntVal Int.toNat) (Int.toNat 1) k6File 6 6 k6Entries where
  noNewline := by decide +kernel
  size := .mk ['6'] ['6'] ['1', '5'] 6 6 15 (.digit 6 (by decide)) (.digit 6 (by decide)) (.snoc ['1'] 1 5 (.digit 1 (by decide)) (by decide))
  entries := .cons (.pattern ['2'] ['1'] 1 0 (.digit 2 (by decide)) (.digit 1 (by decide)))
    (.cons (.pattern ['3'] ['1'] 2 0 (.digit 3 (by decide)) (.digit 1 (by decide)))
    (.cons (.pattern ['3'] ['2'] 2 1 (.digit 3 (by decide)) (.digit 2 (by decide)))
    (.cons (.pattern ['4'] ['1'] 3 0 (.digit 4 (by decide)) (.digit 1 (by decide)))
    (.cons (.pattern ['4'] ['2'] 3 1 (.digit 4 (by decide)) (.digit 2 (by decide)))
    (.cons (.pattern ['4'] ['3'] 3 2 (.digit 4 (by decide)) (.digit 3 (by decide)))
    (.cons (.pattern ['5'] ['1'] 4 0 (.digit 5 (by decide)) (.digit 1 (by decide)))
    (.cons (.pattern ['5'] ['2'] 4 1 (.digit 5 (by decide)) (.digit 2 (by decide)))
    (.cons (.pattern ['5'] ['3'] 4 2 (.digit 5 (by decide)) (.digit 3 (by decide)))
    (.cons (.pattern ['5'] ['4'] 4 3 (.digit 5 (by decide)) (.digit 4 (by decide)))
    (.cons (.pattern ['6'] ['1'] 5 0 (.digit 6 (by decide)) (.digit 1 (by decide)))
    (.cons (.pattern ['6'] ['2'] 5 1 (.digit 6 (by decide)) (.digit 2 (by decide)))
    (.cons (.pattern ['6'] ['3'] 5 2 (.digit 6 (by decide)) (.digit 3 (by decide)))
    (.cons (.pattern ['6'] ['4'] 5 3 (.digit 6 (by decide)) (.digit 4 (by decide)))
    (.cons (.pattern ['6'] ['5'] 5 4 (.digit 6 (by decide)) (.digit 5 (by decide)))
    .nil))))))))))))))
  inBounds := by decide
  square := fun _ => rfl

def k6Text : List Char := Spec.banner .pattern .general ++ "\n6 6 15\n2 1\n3 1\n3 2\n4 1\n4 2\n4 3\n5 1\n5 2\n5 3\n5 4\n6 1\n6 2\n6 3\n6 4\n6 5\n".toList

def triOrders (n : Nat) : TriMain.Orders Nat :=
  { sortf := isort Prod.fst, sortP := sortPairs, sortT := sortTriples, read := List.range n, make := List.range n, flop := List.range n,
    parts := fun k => [List.range k] }

theorem called_of {n : Nat} {es : List (Nat × Nat × Nat)} {t : MMText} {text : List Char} {e : Env} (h : Describes (IntVal Int.toNat) (Int.toNat 1) t n n es)
    (hl : ∀ l ∈ t.lines, l.length ≤ 255) (ht : Lines t.lines text) (hi : e.inner ≠ some 0) :
    TriCalled Int.toNat (triOrders n) e (some text) 2 n es :=
  ⟨⟨t, text, rfl, h, hl, ht⟩, isort_sorts Prod.fst, sortPairs_ok, sortTriples_ok, .refl _, .refl _, .refl _, splits_one, by decide, hi⟩

theorem k6_called {e : Env} (h : e.inner ≠ some 0) : TriCalled Int.toNat (triOrders 6) e (some k6Text) 2 6 k6Entries :=
  called_of k6File_describes (by decide +kernel) (.inl ⟨[], by decide +kernel⟩) h

instance : DecidableRel (graphOf 6 k6Entries).Adj := fun u v =>
  inferInstanceAs (Decidable (u ≠ v ∧ ∃ e ∈ k6Entries, (e.1, e.2.1) = (u.val, v.val) ∨ (e.1, e.2.1) = (v.val, u.val)))

/-- The graph of the file has 20 triangles. -/
theorem k6_triangles : triangles (graphOf 6 k6Entries) = 20 := by
  have : {s : Finset (Fin 6) | (graphOf 6 k6Entries).IsNClique 3 s} =
      ((Finset.univ.filter fun s : Finset (Fin 6) => s.card = 3 : Finset (Finset (Fin 6))) : Set (Finset (Fin 6))) := by
    ext s
    have : ∀ s : Finset (Fin 6), (graphOf 6 k6Entries).IsNClique 3 s ↔ s.card = 3 := by decide +kernel
    simpa using this s
  rw [triangles, this, Set.ncard_coe_finset]
  decide +kernel

example := C84_partial (R := Nat) (k6_called (e := { mode := some "All2p".toList, inner := some 3 }) (by decide)) (by decide) (by decide) (enc := bytesLE 8)
  bytesLE_even "data/k6.mtx".toList rfl (by decide) (fun _ => by decide)

example := C84_violated_all1p (R := Nat) (k6_called (e := { mode := some "all1p".toList, inner := some 3 }) (by decide)) (by decide) (enc := bytesLE 8)
  bytesLE_even "data/k6.mtx".toList rfl (by decide) (by rw [k6_triangles]; decide)

example := C84_violated_intersect (k6_called (e := { mode := some "intersect".toList, inner := some 3 }) (by decide)) (by decide) (by decide) (enc := bytesLE 8)
  bytesLE_even "data/k6.mtx".toList (by decide) (by decide) (by rw [k6_triangles]; decide)

def bareFile : MMText := { field := .pattern, sym := .general, comments := [], size := "3 3 0".toList, entries := [] }

theorem bareFile_describes : Describes (IntVal Int.toNat) (Int.toNat 1) bareFile 3 3 [] where
  noNewline := by decide +kernel
  size := .mk ['3'] ['3'] ['0'] 3 3 0 (.digit 3 (by decide)) (.digit 3 (by decide)) (.digit 0 (by decide))
  entries := .nil
  inBounds := by decide
  square := fun _ => rfl

example (e : Env) (h : e.inner ≠ some 0) := C84_violated_empty (R := Nat)
  (called_of (text := Spec.banner .pattern .general ++ "\n3 3 0\n".toList) bareFile_describes (by decide +kernel) (.inl ⟨[], by decide +kernel⟩) h)

def wideFile : MMText := { field := .pattern, sym := .general, comments := [], size := "131071 131071 1".toList, entries := ["2 1".toList] }

theorem wide_numeral : Numeral "131071".toList 131071 :=
  .snoc "13107".toList 13107 1 (.snoc "1310".toList 1310 7 (.snoc "131".toList 131 0 (.snoc "13".toList 13 1 (.snoc "1".toList 1 3 (.digit 1 (by decide))
    (by decide)) (by decide)) (by decide)) (by decide)) (by decide)

theorem wideFile_describes : Describes (IntVal Int.toNat) (Int.toNat 1) wideFile 131071 131071 [(1, 0, 1)] where
  noNewline := by decide +kernel
  size := .mk _ _ ['1'] 131071 131071 1 wide_numeral wide_numeral (.digit 1 (by decide))
  entries := .cons (.pattern ['2'] ['1'] 1 0 (.digit 2 (by decide)) (.digit 1 (by decide))) .nil
  inBounds := by simp
  square := fun _ => rfl

example := C84_violated_rows (R := Nat) (e := { mode := some "msa".toList })
  (called_of (text := Spec.banner .pattern .general ++ "\n131071 131071 1\n2 1\n".toList) wideFile_describes (by decide +kernel) (.inl ⟨[], by decide +kernel⟩)
    (by decide)) (by simp) (by decide) (bytesLE 8) "data/wide.mtx".toList (by decide) (by decide)

end Verif.Props
