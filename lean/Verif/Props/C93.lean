import Verif.Lemmas.TriGrbMain
import Verif.Props.C92

/-! # C93: the triangle counting program with GraphBLAS, with its modes -/

namespace Verif.Props

open Verif.Model Verif.Model.Bench Verif.Spec
open _root_.Verif.Model.TriGrb (Method Event Sys Plan Ready Dir runThreads_good calls_pos)
open _root_.Verif.Model.Grb (Rep read_ok)
open _root_.Verif.Model.MaskedAll (Good Sch SchAdm SchFair seq_done seq_stop seq_good seqAll_good seqAll_append)

variable {n : Nat} {R : Type} [Semiring R]

/-! ## What the program is given -/

/-- The program is called with the numbers of threads `args` (none: the standard list) and a file that describes a square matrix with the entries
`es` in lines of at most 255 characters. The sorting function sorts. -/
structure TgCalled (y : Sys R) (file : Option (List Char)) (args : List Nat) (n : Nat) (es : List (Nat × Nat × R)) : Prop where
  file : ∃ t text, file = some text ∧ Describes (IntVal y.ofInt) (y.ofInt 1) t n n es ∧ (∀ l ∈ t.lines, l.length ≤ 255) ∧ Lines t.lines text
  pos : 0 < n
  threads : ∀ t ∈ args, 0 < t
  sorts : SortsGreater y.sortf
  bits : edges (graphOf n es) + 512 < 2 ^ 64

/-- The iterations of the parallel loops are distributed in any way over the threads. -/
structure TgAdm (args : List Nat) (n : Nat) (p : Plan) : Prop where
  flopOrd : p.flopOrd.Perm (List.range n)
  sch : ∀ r a j i t, (threadCounts args)[j]? = some t → SchAdm n t (p.sch r a j i)

/-- Every thread gets at least `K` turns. -/
def TgFair (args : List Nat) (K : Nat) (p : Plan) : Prop := ∀ r a j i t, (threadCounts args)[j]? = some t → SchFair t K (p.sch r a j i)

theorem tg_threads (args : List Nat) : TriGrb.threads args = threadCounts args := rfl

/-! ## What it prints -/

/-- The lines about the graph, its lower triangle, and the number of operations -/
noncomputable def tgHead (G : SimpleGraph (Fin n)) : List (Event R) := [.graph n (2 * edges G), .lower n (edges G), .flop (2 * rising G)]

/-- The lines of algorithms: the number of entries and their sum -/
def tgLines (f : List Char) (names : List (List Char)) (ts : List Nat) (nnz : Nat) (sum : R) : List (Event R) :=
  names.flatMap fun name => ts.map fun t => .log f name t nnz sum

/-! ## The algorithms of a mode -/

def tgShown (a : List Char × Method) : List Char := match processName a.1 with | .ok x => x | .error _ => []

def tgOk : Method → Bool
  | .grb => true
  | .msp (.lib (.gen (.heap d)) _) => d ≤ 512 || d == 2 ^ 64 - 1
  | .msp (.lib a _) => !a.compl
  | .msp .poly => false
  | _ => true

theorem tgOk_fits {a : Method} (h : tgOk a = true) {nnz : Nat} (hnz : nnz + 512 < 2 ^ 64) : a.Fits nnz := by
  cases a with
  | grb => trivial
  | msp k =>
    cases k with
    | poly => cases h
    | lib a two =>
      refine ⟨by simp, ?_⟩
      show Graph.Usable a nnz
      cases a with
      | inner => exact ⟨rfl, fun d hd => by cases hd⟩
      | gen g =>
        cases g <;> first
          | (refine ⟨by simpa [tgOk] using h, fun d hd => by cases hd⟩)
          | skip
        rename_i d
        refine ⟨rfl, fun d' hd => ?_⟩
        cases hd
        simp only [tgOk, Bool.or_eq_true, decide_eq_true_eq, beq_iff_eq] at h
        omega
    | _ => exact ⟨by simp, trivial⟩

def tgModes : List (List Char) := triGrbBins ++ ["grb".toList, "heap".toList, "all1p".toList, "all2p".toList, "benchmark".toList]

theorem tg_other {mode : List Char} (h : mode ∉ tgModes) : TriGrb.algs mode = [] ∧ triGrbNames mode = [] := by
  simp only [tgModes, triGrbBins, List.mem_append, List.mem_cons, List.not_mem_nil, or_false, not_or] at h
  obtain ⟨⟨h1, h2, h3, h4, h5⟩, h6, h7, h8, h9, h10⟩ := h
  constructor
  · unfold TriGrb.algs
    rw [if_neg (by tauto), if_neg (by tauto), if_neg (by tauto), if_neg (by tauto), if_neg (by tauto), if_neg (by tauto), if_neg (by tauto), if_neg (by tauto)]
    rfl
  · unfold triGrbNames
    simp only [if_neg h3, if_neg h4, if_neg h5, if_neg h6, if_neg h7, if_neg h8, if_neg h9, if_neg h10, if_neg (not_or.2 ⟨h1, h2⟩)]

theorem tg_modes {P : List Char → Prop} (h : ∀ m ∈ tgModes, P m) (h0 : ∀ m, m ∉ tgModes → P m) (m : List Char) : P m := by
  by_cases hm : m ∈ tgModes
  · exact h m hm
  · exact h0 m hm

theorem tg_names (mode : List Char) : (TriGrb.algs mode).map (fun a => processName a.1) = (triGrbNames mode).map .ok := by
  revert mode
  refine tg_modes ?_ ?_
  · decide +kernel
  · intro m hm
    rw [(tg_other hm).1, (tg_other hm).2]
    rfl

theorem tg_kinds (mode : List Char) : ∀ a ∈ TriGrb.algs mode, tgOk a.2 = true ∧ (a.2.bins = true → mode ∈ triGrbBins) := by
  revert mode
  refine tg_modes ?_ ?_
  · decide +kernel
  · intro m hm
    rw [(tg_other hm).1]
    intro a ha
    cases ha

theorem tg_shown (mode : List Char) : (∀ a ∈ TriGrb.algs mode, processName a.1 = .ok (tgShown a)) ∧ (TriGrb.algs mode).map tgShown = triGrbNames mode := by
  have h := tg_names mode
  constructor
  · intro a ha
    have : processName a.1 ∈ (triGrbNames mode).map .ok := h ▸ List.mem_map_of_mem ha
    obtain ⟨x, -, hx⟩ := List.mem_map.1 this
    unfold tgShown
    rw [← hx]
  · have h' : ((TriGrb.algs mode).map (fun a => processName a.1)).map (fun r => match r with | .ok x => x | .error _ => []) = triGrbNames mode := by
      rw [h, List.map_map]
      exact List.map_id _
    rw [List.map_map] at h'
    exact h'

/-! ## The parts of a run -/

section
variable {y : Sys R} {e : Env} {file : Option (List Char)} {args : List Nat} {es : List (Nat × Nat × R)}

/-- Up to the rounds of `main` -/
theorem TgCalled.setup (h : TgCalled y file args n es) : ∃ L : CSR R, Ready (graphOf n es) L ∧ ∀ p, TgAdm args n p → ∀ e path,
    TriGrb.main y p e path file args = Out.seq ⟨tgHead (graphOf n es), .ok (some ())⟩
      (seqAll ((List.range e.outerIters).map fun r => TriGrb.round e (getFileName path) L (Graph.toCsc L) (threadCounts args) (p.sch r))) := by
  obtain ⟨t, text, rfl, hd, hlen, hlines⟩ := h.file
  obtain ⟨A, hread, hA⟩ := read_ok y.fresh y.rnd y.min (fun x y => x + y) (ofInt := y.ofInt) hd hlen hlines
  obtain ⟨A', G', σ, hsort, hrel, hA', -, -, hnz, hσ⟩ := Graph.sortByDegree_ok hA h.sorts
  have hσ' : ∀ u v, σ v < σ u ↔ below (graphOf n es) u v := by
    intro u v
    rw [hσ]
    rfl
  have hL := Graph.lowTri_isLower hA'
  have hnd := Graph.nodup_of_sorted hL.sorted
  have hdir : Dir (fun i j : Fin n => j < i ∧ G'.Adj i j) (Graph.lowTri A') := ⟨hL.wf, hL.rows, hL.cols, hnd, hL.adj⟩
  have hedges : edges G' = edges (graphOf n es) := by
    have h1 := (Rep.of hA').nnz
    rw [hnz, (Rep.of hA).nnz] at h1
    omega
  have hready : Ready (graphOf n es) (Graph.lowTri A') := by
    refine ⟨h.pos, hL.wf, hL.rows, hL.cols, hL.sorted, ?_, ?_, ?_⟩
    · rw [hdir.nnz, TriGrb.relabel_edges, hedges]
    · rw [hdir.square.nnz]
      exact TriGrb.bridged_eq hrel hσ'
    · rw [Graph.reduce_sq hL.wf hL.sorted hL.rows hL.cols, Graph.lower_total hL, Graph.triangles_relabelled hrel]
  refine ⟨Graph.lowTri A', hready, fun p hp e path => ?_⟩
  unfold TriGrb.main
  rw [hread]
  dsimp only
  rw [hsort]
  dsimp only
  rw [hdir.multOps hp.flopOrd]
  dsimp only
  rw [TriGrb.rising_eq hrel hσ', hA'.rows, (Rep.of hA').nnz, hedges, hready.nnz, hready.rows, ← MaskedAll.seq_assoc,
    seq_done (a := ⟨[Event.graph n _, Event.lower n _], .ok (some ())⟩) rfl, tg_threads]
  unfold tgHead
  rw [Nat.mul_comm (rising (graphOf n es)) 2]
  rfl

/-- The lines of algorithms one after the other -/
theorem tg_lines {G : SimpleGraph (Fin n)} {L : CSR R} (h : Ready G L) (hbits : edges G + 512 < 2 ^ 64) (hargs : ∀ t ∈ args, 0 < t)
    (hin : 0 < e.warmupIters + e.innerIters) (path mode : List Char)
    {l : List ((List Char × Method) × Nat)} (hl : ∀ a ∈ l, a.1 ∈ TriGrb.algs mode ∧ (a.1.2.bins → n + 1 < 2 ^ 17)) :
    ∃ K, ∀ sch : Nat → Nat → Nat → Sch, (∀ a j i t, (threadCounts args)[j]? = some t → SchAdm n t (sch a j i)) →
      Good (∀ a j i t, (threadCounts args)[j]? = some t → SchFair t K (sch a j i))
        (tgLines (getFileName path) (l.map fun a => tgShown a.1) (threadCounts args) (bridged G) (triangles G : R))
        (seqAll (l.map fun a => TriGrb.runAlg e path L (Graph.toCsc L) (threadCounts args) a.1 (sch a.2))) := by
  have hone : ∀ a ∈ l, ∃ K, ∀ t ∈ threadCounts args, ∀ sch : Nat → Sch, (∀ i, SchAdm n t (sch i)) → Good (∀ i, SchFair t K (sch i))
      [.log (getFileName path) (tgShown a.1) t (bridged G) (triangles G : R)] (TriGrb.runThreads e path L (Graph.toCsc L) a.1 t sch) := by
    intro a ha
    refine exists_bound (P := fun t K => ∀ sch : Nat → Sch, (∀ i, SchAdm n t (sch i)) → Good (∀ i, SchFair t K (sch i))
      [.log (getFileName path) (tgShown a.1) t (bridged G) (triangles G : R)] (TriGrb.runThreads e path L (Graph.toCsc L) a.1 t sch)) ?_ _ ?_
    · intro t K K' hK hP sch hadm
      exact (hP sch hadm).weaken fun hf i => (hf i).mono hK
    · intro t ht
      exact runThreads_good hin path h ((tg_shown mode).1 a.1 (hl a ha).1) (tgOk_fits (tg_kinds mode a.1 (hl a ha).1).1 (by rw [h.nnz]; exact hbits))
        (hl a ha).2 (threads_pos hargs t ht)
  obtain ⟨K, hK⟩ := exists_bound (by
    intro a K K' hK hP t ht sch hadm
    exact (hP t ht sch hadm).weaken fun hf i => (hf i).mono hK) l hone
  refine ⟨K, fun sch hadm => ?_⟩
  unfold tgLines
  rw [List.flatMap_map]
  refine seqAll_good l fun a ha => ?_
  unfold TriGrb.runAlg
  have hz : (threadCounts args).map (fun t => Event.log (getFileName path) (tgShown a.1) t (bridged G) (triangles G : R)) =
      (threadCounts args).zipIdx.flatMap fun t => [Event.log (getFileName path) (tgShown a.1) t.1 (bridged G) (triangles G : R)] := by
    rw [← List.map_eq_flatMap]
    conv => lhs; rw [← List.zipIdx_map_fst 0 (threadCounts args), List.map_map]
    rfl
  rw [hz]
  refine seqAll_good _ fun t ht => ?_
  have ht' : (threadCounts args)[t.2]? = some t.1 := List.mem_zipIdx_iff_getElem?.1 ht
  exact (hK a ha t.1 (List.fst_mem_of_mem_zipIdx ht) (sch a.2 t.2) fun i => hadm _ _ _ _ ht').weaken fun hf i => hf _ _ _ _ ht'

/-- **C93** (partial). The program is called with a file that describes a square matrix and some numbers of threads; let `G` be the graph of the
file. In every run, in every mode, it prints the number of vertices and twice the number of edges of `G`; then the number of vertices and the number
of edges; then twice the number of paths with two edges on which the degrees rise; then for each round of `main`, each algorithm of the mode and each
number of threads a line with the number of edges that close such a path and, as the sum, the number of triangles of `G` (for the integers modulo
`2^64`: the number modulo `2^64`). If every thread gets enough turns, the program comes to its end. The modes `inner`, `dot`, `msa`, `hash` and
`all` need less than `2^17 - 1` vertices. At least one call must be made; if there are only warm-up calls, all of them store their result in the
same object. Missing: the other cases, see `C93_violated_…`. -/
theorem C93_partial (h : TgCalled y file args n es) (hin : e.warmup = some 0 → e.inner ≠ some 0)
    (hrows : (e.mode.getD []).map Char.toLower ∈ triGrbBins → n + 1 < 2 ^ 17) (path : List Char) :
    ∃ f, IsFileName path f ∧
      let want := tgHead (graphOf n es) ++ (List.replicate (e.outer.getD 1)
        (tgLines f (triGrbNames ((e.mode.getD []).map Char.toLower)) (threadCounts args) (bridged (graphOf n es)) (triangles (graphOf n es) : R))).flatten
      (∀ p, TgAdm args n p → TriGrb.main y p e path file args = ⟨want, .ok (some ())⟩ ∨
        ((TriGrb.main y p e path file args).status = .ok none ∧ (TriGrb.main y p e path file args).events <+: want)) ∧
      ∃ K, ∀ p, TgAdm args n p → TgFair args K p → TriGrb.main y p e path file args = ⟨want, .ok (some ())⟩ := by
  obtain ⟨L, hL, hmain⟩ := h.setup
  obtain ⟨K, hK⟩ := tg_lines hL h.bits h.threads (calls_pos hin) (getFileName path) e.modeStr (l := (TriGrb.algs e.modeStr).zipIdx) (fun a ha => by
    have hm := List.fst_mem_of_mem_zipIdx ha
    exact ⟨hm, fun hb => hrows ((tg_kinds _ a.1 hm).2 hb)⟩)
  have hn : ((TriGrb.algs e.modeStr).zipIdx.map fun a => tgShown a.1) = triGrbNames e.modeStr := by
    rw [← (tg_shown e.modeStr).2]
    conv => rhs; rw [← List.zipIdx_map_fst 0 (TriGrb.algs e.modeStr), List.map_map]
    rfl
  rw [hn, fileName_idem] at hK
  have key : ∀ p, TgAdm args n p → Good (TgFair args K p) (tgHead (graphOf n es) ++ (List.replicate e.outerIters
      (tgLines (getFileName path) (triGrbNames e.modeStr) (threadCounts args) (bridged (graphOf n es)) (triangles (graphOf n es) : R))).flatten)
      (TriGrb.main y p e path file args) := by
    intro p hp
    rw [hmain p hp]
    refine seq_good (.inl rfl) ?_
    generalize tgLines (getFileName path) (triGrbNames e.modeStr) (threadCounts args) (bridged (graphOf n es)) (triangles (graphOf n es) : R) = w at hK
    have hw : (List.replicate e.outerIters w).flatten = (List.range e.outerIters).flatMap fun _ => w := by
      rw [← List.flatMap_id, ← List.length_range (n := e.outerIters), ← List.map_const, List.flatMap_map, List.length_range]
      rfl
    rw [hw]
    refine seqAll_good _ fun i _ => ?_
    exact (hK (p.sch i) fun a j i t ht => hp.sch _ _ _ _ _ ht).weaken fun hf a j i t ht => hf _ _ _ _ _ ht
  refine ⟨getFileName path, C80_file path, fun p hp => ?_, K, fun p hp hf => ?_⟩
  · rcases key p hp with e1 | ⟨-, e1⟩
    · exact .inl e1
    · exact .inr e1
  · rcases key p hp with e1 | ⟨hn, -⟩
    · exact e1
    · exact absurd hf hn

/-- If the multiplication never returns, nothing is printed. -/
theorem tg_never {L : CSR R} (path : List Char) (hit : 0 < e.warmupIters + e.innerIters) {nm : List Char} {k : Grb.Ker} {t : Nat} {sch : Nat → Sch}
    (h : ∀ C0 C, k.call L (Graph.toCsc L) t t C0 (sch 0) ≠ .ok (some C)) :
    (TriGrb.runThreads e path L (Graph.toCsc L) (nm, .msp k) t sch).status ≠ .ok (some ()) ∧
      (TriGrb.runThreads e path L (Graph.toCsc L) (nm, .msp k) t sch).events = [] := by
  have hrep : ∀ (f : CSR R → Sch → Res (Option (CSR R))) (s : Sch) (ss : List Sch) (C0 C : CSR R), (∀ C, f C0 s ≠ .ok (some C)) →
      repeatCall f (s :: ss) C0 ≠ .ok (some C) := by
    intro f s ss C0 C hf
    unfold repeatCall
    revert hf
    rcases f C0 s with x | _ | D
    · intro _ e; cases e
    · intro _ e; cases e
    · intro hf; exact absurd rfl (hf D)
  have hcalls : ∀ C, runCalls (k.call L (Graph.toCsc L) t t) ((List.range e.warmupIters).map sch)
      ((List.range e.innerIters).map fun i => sch (e.warmupIters + i)) ≠ .ok (some C) := by
    intro C hC
    unfold runCalls at hC
    cases hw : e.warmupIters with
    | zero =>
      obtain ⟨m, hm⟩ : ∃ m, e.innerIters = m + 1 := ⟨e.innerIters - 1, by omega⟩
      rw [hw, hm, List.range_succ_eq_map, List.map_cons] at hC
      exact hrep (fun C => k.call L (Graph.toCsc L) t t (makeEmpty C)) _ _ _ C (fun D => h _ D) hC
    | succ m =>
      rw [hw, List.range_succ_eq_map, List.map_cons] at hC
      have := hrep (k.call L (Graph.toCsc L) t t) (sch 0) (((List.range m).map Nat.succ).map sch) newObj
      revert hC this
      generalize repeatCall (k.call L (Graph.toCsc L) t t) _ _ = r
      rcases r with x | _ | D
      · intro e; cases e
      · intro e; cases e
      · intro _ hf; exact absurd rfl (hf D fun D => h _ D)
  unfold TriGrb.runThreads TriGrb.Method.result
  dsimp only
  revert hcalls
  generalize runCalls _ _ _ = o
  rcases o with x | _ | o
  · intro _; exact ⟨by simp [bind, Except.bind], by simp [bind, Except.bind]⟩
  · intro _; exact ⟨by simp [bind, Except.bind], by simp [bind, Except.bind]⟩
  · intro h; exact absurd rfl (h o)

/-- C93, violated from `2^17 - 1` vertices on, in the modes `inner`, `dot`, `msa`, `hash` and `all`: an algorithm never returns, so that the program
prints at most the lines of the algorithms of GraphBLAS (in the mode `all`), and does not come to its end. -/
theorem C93_violated_rows (h : TgCalled y file args n es) (hin : e.warmup = some 0 → e.inner ≠ some 0) (hrounds : 0 < e.outer.getD 1)
    (hmode : (e.mode.getD []).map Char.toLower ∈ triGrbBins) (hbig : 2 ^ 17 ≤ n + 1) (path : List Char) :
    ∃ f, IsFileName path f ∧
      let names := if (e.mode.getD []).map Char.toLower = "all".toList then triGrbNames "grb".toList else []
      let want := tgHead (graphOf n es) ++ tgLines f names (threadCounts args) (bridged (graphOf n es)) (triangles (graphOf n es) : R)
      (∀ p, TgAdm args n p → (TriGrb.main y p e path file args).status ≠ .ok (some ()) ∧ (TriGrb.main y p e path file args).events <+: want) ∧
      ∃ K, ∀ p, TgAdm args n p → TgFair args K p → (TriGrb.main y p e path file args).events = want := by
  have hsplit : ∀ mode ∈ triGrbBins, ∃ l1 nm k l2, TriGrb.algs mode = l1 ++ (nm, .msp k) :: l2 ∧ (∀ b ∈ l1, b.2.bins = false) ∧
      (k = .nohash ∨ k = .spa ∨ k = .wobin) ∧ l1.map tgShown = if mode = "all".toList then triGrbNames "grb".toList else [] := by
    have h1 : ∀ mode ∈ triGrbBins, ∃ i : Fin 7, TriGrb.algs mode = (TriGrb.algs mode).take i ++ (TriGrb.algs mode).drop i ∧
        (∀ b ∈ (TriGrb.algs mode).take i, b.2.bins = false) ∧
        ((((TriGrb.algs mode).drop i).head?.map Prod.snd) = some (.msp .nohash) ∨ (((TriGrb.algs mode).drop i).head?.map Prod.snd) = some (.msp .spa) ∨
          (((TriGrb.algs mode).drop i).head?.map Prod.snd) = some (.msp .wobin)) ∧
        ((TriGrb.algs mode).take i).map tgShown = if mode = "all".toList then triGrbNames "grb".toList else [] := by
      decide +kernel
    intro mode hm
    obtain ⟨i, h2, h3, h4, h5⟩ := h1 mode hm
    cases hd : (TriGrb.algs mode).drop i with
    | nil => rw [hd] at h4; simp at h4
    | cons a l2 =>
      rw [hd] at h4 h2
      obtain ⟨nm, m⟩ := a
      simp only [List.head?_cons, Option.map_some, Option.some.injEq] at h4
      rcases h4 with h4 | h4 | h4
      · subst h4; exact ⟨_, nm, _, l2, h2, h3, .inl rfl, h5⟩
      · subst h4; exact ⟨_, nm, _, l2, h2, h3, .inr (.inl rfl), h5⟩
      · subst h4; exact ⟨_, nm, _, l2, h2, h3, .inr (.inr rfl), h5⟩
  obtain ⟨l1, nm, k, l2, hl, hok, hk, hnames⟩ := hsplit e.modeStr hmode
  obtain ⟨L, hL, hmain⟩ := h.setup
  obtain ⟨K, hK⟩ := tg_lines hL h.bits h.threads (calls_pos hin) (getFileName path) e.modeStr (l := l1.zipIdx) (fun b hb => by
    have hm := List.fst_mem_of_mem_zipIdx hb
    exact ⟨by rw [hl]; simp [hm], by rw [hok _ hm]; simp⟩)
  have hn : (l1.zipIdx.map fun a => tgShown a.1) = l1.map tgShown := by
    conv => rhs; rw [← List.zipIdx_map_fst 0 l1, List.map_map]
    rfl
  rw [hn, fileName_idem, hnames] at hK
  have hcall : ∀ t, 0 < t → ∀ s, SchAdm n t s → ∀ C0 C, k.call L (Graph.toCsc L) t t C0 s ≠ .ok (some C) := by
    intro t ht s hs C0 C hc
    have hbig' : 2 ^ 17 ≤ L.rows + 1 := hL.rows ▸ hbig
    rcases hk with rfl | rfl | rfl
    · exact C53_violated_rows _ _ _ hbig' ht _ C hc
    · exact C31_violated_spa _ _ _ hbig' ht _ C hc
    · exact C31_violated_wobin (fun _ _ : R => 1) (fun x y => x + y) (A := L) (B := L) (M := L)
        (valid_self hL.wf (hL.rows.trans hL.cols.symm) (hL.rows ▸ hL.pos)) 0 hbig' ht (hL.rows ▸ hs.order1) C hc
  have hpos : 0 < e.warmupIters + e.innerIters := calls_pos hin
  generalize hw : tgLines (getFileName path) (if e.modeStr = "all".toList then triGrbNames "grb".toList else []) (threadCounts args)
    (bridged (graphOf n es)) (triangles (graphOf n es) : R) = w at hK
  have key : ∀ p, TgAdm args n p → (TriGrb.main y p e path file args).status ≠ .ok (some ()) ∧
      ((TriGrb.main y p e path file args).events = tgHead (graphOf n es) ++ w ∨
        (¬TgFair args K p ∧ (TriGrb.main y p e path file args).events <+: tgHead (graphOf n es) ++ w)) := by
    intro p hp
    rw [hmain p hp, seq_done rfl]
    obtain ⟨m, hm⟩ : ∃ m, e.outerIters = m + 1 := ⟨e.outerIters - 1, by have : 0 < e.outerIters := hrounds; omega⟩
    rw [hm, List.range_succ_eq_map, List.map_cons]
    have hround : (TriGrb.round e (getFileName path) L (Graph.toCsc L) (threadCounts args) (p.sch 0)).status ≠ .ok (some ()) ∧
        ((TriGrb.round e (getFileName path) L (Graph.toCsc L) (threadCounts args) (p.sch 0)).events = w ∨
        (¬TgFair args K p ∧ (TriGrb.round e (getFileName path) L (Graph.toCsc L) (threadCounts args) (p.sch 0)).events <+: w)) := by
      unfold TriGrb.round
      rw [hl, List.zipIdx_append, List.zipIdx_cons, List.map_append, List.map_cons, seqAll_append]
      have hlast : (TriGrb.runAlg e (getFileName path) L (Graph.toCsc L) (threadCounts args) (nm, .msp k) (p.sch 0 (0 + l1.length))).status ≠ .ok (some ()) ∧
          (TriGrb.runAlg e (getFileName path) L (Graph.toCsc L) (threadCounts args) (nm, .msp k) (p.sch 0 (0 + l1.length))).events = [] := by
        obtain ⟨t, ts, ht⟩ : ∃ t ts, threadCounts args = t :: ts := by
          cases hh : threadCounts args with
          | nil => exact absurd hh (threads_ne args)
          | cons t ts => exact ⟨t, ts, rfl⟩
        have h0 : (threadCounts args)[0]? = some t := by rw [ht]; rfl
        have := tg_never (e := e) (L := L) (getFileName path) hpos (nm := nm) (k := k) (t := t) (sch := p.sch 0 (0 + l1.length) 0) (fun C0 C =>
          hcall t (threads_pos h.threads t (List.mem_of_getElem? h0)) _ (hp.sch _ _ _ _ _ h0) C0 C)
        rw [ht]
        unfold TriGrb.runAlg
        rw [List.zipIdx_cons, List.map_cons, seqAll_first this.1]
        exact this
      rw [seqAll_first hlast.1]
      rcases hK (p.sch 0) (fun _ _ _ _ ht => hp.sch _ _ _ _ _ ht) with e1 | ⟨hn, e1, e2⟩
      · rw [e1, seq_done rfl]
        exact ⟨hlast.1, .inl (by rw [hlast.2]; simp)⟩
      · rw [seq_stop (by rw [e1]; simp)]
        exact ⟨by rw [e1]; simp, .inr ⟨fun hf => hn fun _ _ _ _ ht => hf _ _ _ _ _ ht, e2⟩⟩
    rw [seqAll_first hround.1]
    refine ⟨hround.1, ?_⟩
    rcases hround.2 with e2 | ⟨hn, e2⟩
    · exact .inl (by rw [e2])
    · exact .inr ⟨hn, (List.prefix_append_right_inj _).2 e2⟩
  refine ⟨getFileName path, C80_file path, ?_⟩
  have hw' : tgLines (getFileName path) (if (e.mode.getD []).map Char.toLower = "all".toList then triGrbNames "grb".toList else []) (threadCounts args)
    (bridged (graphOf n es)) (triangles (graphOf n es) : R) = w := hw
  dsimp only
  rw [hw']
  refine ⟨fun p hp => ⟨(key p hp).1, ?_⟩, K, fun p hp hf => ?_⟩
  · rcases (key p hp).2 with e1 | ⟨-, e1⟩
    · rw [e1]
    · exact e1
  · rcases (key p hp).2 with e1 | ⟨hn, -⟩
    · exact e1
    · exact absurd hf hn

/-- C93, violated without iterations: in every mode with an algorithm of the library the program ends with an assertion. Before that, in the modes
`all` and `benchmark`, it prints 0 entries and 0 triangles for the algorithms of GraphBLAS, for every graph. -/
theorem C93_violated_iters (h : TgCalled y file args n es) (hit : e.inner = some 0 ∧ e.warmup = some 0) (hrounds : 0 < e.outer.getD 1)
    (hmode : triGrbNames ((e.mode.getD []).map Char.toLower) ≠ []) (path : List Char) :
    ∃ f, IsFileName path f ∧ ∀ p, TgAdm args n p →
      let m := (e.mode.getD []).map Char.toLower
      let zeros := tgLines f (triGrbNames "grb".toList) (threadCounts args) 0 (0 : R)
      TriGrb.main y p e path file args =
        if m = "grb".toList then ⟨tgHead (graphOf n es) ++ (List.replicate (e.outer.getD 1) zeros).flatten, .ok (some ())⟩
        else ⟨tgHead (graphOf n es) ++ if m = "all".toList ∨ m = "benchmark".toList then zeros else [], .error .assertion⟩ := by
  obtain ⟨L, hL, hmain⟩ := h.setup
  refine ⟨getFileName path, C80_file path, fun p hp => ?_⟩
  have hw : e.warmupIters = 0 := by unfold Env.warmupIters; rw [hit.2]; rfl
  have hi : e.innerIters = 0 := by unfold Env.innerIters; rw [hit.1]; rfl
  have hempty : ∀ m, (ofRows m m true fun _ => ([] : List (Nat × R))).nnz = 0 ∧ Graph.reduce (ofRows m m true fun _ => ([] : List (Nat × R))) = 0 := by
    intro m
    have hwf : (ofRows m m true fun _ => ([] : List (Nat × R))).WF := ofRows_wf _ _ _ _ rfl (by simp)
    have hv : (ofRows m m true fun _ => ([] : List (Nat × R))).values = [] := by
      rw [TriMain.values_eq hwf, List.flatMap_eq_nil_iff]
      intro i hi
      rw [ofRows_row m m true _ (List.mem_range.1 hi)]
      rfl
    refine ⟨?_, ?_⟩
    · rw [← hwf.valLen, hv]
      rfl
    · unfold Graph.reduce
      rw [hv]
      rfl
  -- an algorithm of GraphBLAS
  have hgrb : ∀ a : List Char × Method, a.2 = .grb → processName a.1 = .ok (tgShown a) → ∀ ts : List Nat, ∀ sch,
      TriGrb.runAlg e (getFileName path) L (Graph.toCsc L) ts a sch = ⟨ts.map fun t => .log (getFileName path) (tgShown a) t 0 0, .ok (some ())⟩ := by
    intro a ha hname ts sch
    unfold TriGrb.runAlg
    have hz : ts.map (fun t => Event.log (getFileName path) (tgShown a) t 0 (0 : R)) =
        ts.zipIdx.flatMap fun t => [Event.log (getFileName path) (tgShown a) t.1 0 (0 : R)] := by
      rw [← List.map_eq_flatMap]
      conv => lhs; rw [← List.zipIdx_map_fst 0 ts, List.map_map]
      rfl
    rw [hz]
    have := seqAll_good (st := True) ts.zipIdx (f := fun t => TriGrb.runThreads e (getFileName path) L (Graph.toCsc L) a t.1 (sch t.2))
      (w := fun t => [Event.log (getFileName path) (tgShown a) t.1 0 (0 : R)]) fun t _ => by
        refine .inl ?_
        unfold TriGrb.runThreads TriGrb.Method.result
        rw [ha, hw, hi]
        dsimp only
        rw [hname]
        dsimp only
        rw [if_pos rfl, (hempty _).1, (hempty _).2, fileName_idem]
    rcases this with e1 | ⟨hn, -⟩
    · exact e1
    · exact absurd trivial hn
  -- an algorithm of the library
  have hmsp : ∀ nm k sch, TriGrb.runAlg e (getFileName path) L (Graph.toCsc L) (threadCounts args) (nm, .msp k) sch = ⟨[], .error .assertion⟩ := by
    intro nm k sch
    obtain ⟨t, ts, ht⟩ : ∃ t ts, threadCounts args = t :: ts := by
      cases hh : threadCounts args with
      | nil => exact absurd hh (threads_ne args)
      | cons t ts => exact ⟨t, ts, rfl⟩
    have hrun : TriGrb.runThreads e (getFileName path) L (Graph.toCsc L) (nm, .msp k) t (sch 0) = ⟨[], .error .assertion⟩ := by
      unfold TriGrb.runThreads TriGrb.Method.result runCalls
      rw [hw, hi]
      have hc : check (decide ((newObj : CSR R).rows = L.rows ∧ (newObj : CSR R).cols = L.rows)) = .error .assertion := by
        rw [check, if_neg]
        have := hL.pos
        have := hL.rows
        rw [decide_eq_true_eq]
        rintro ⟨h0, -⟩
        change 0 = L.rows at h0
        omega
      simp only [List.range_zero, List.map_nil, repeatCall, ok_bind]
      rw [hc]
      rfl
    rw [ht]
    unfold TriGrb.runAlg
    rw [List.zipIdx_cons, List.map_cons]
    dsimp only
    rw [hrun, seqAll_first (by simp)]
  -- the lines of the algorithms of GraphBLAS
  have hlines : ∀ l : List (List Char × Method), (∀ a ∈ l, a.2 = .grb ∧ processName a.1 = .ok (tgShown a)) → ∀ (i : Nat) (sch : Nat → Nat → Nat → Sch),
      seqAll ((l.zipIdx i).map fun a => TriGrb.runAlg e (getFileName path) L (Graph.toCsc L) (threadCounts args) a.1 (sch a.2)) =
        ⟨tgLines (getFileName path) (l.map tgShown) (threadCounts args) 0 (0 : R), .ok (some ())⟩ := by
    intro l hl i sch
    unfold tgLines
    have hz : (l.map tgShown).flatMap (fun name => (threadCounts args).map fun t => Event.log (getFileName path) name t 0 (0 : R)) =
        (l.zipIdx i).flatMap fun a => (threadCounts args).map fun t => Event.log (getFileName path) (tgShown a.1) t 0 (0 : R) := by
      rw [List.flatMap_map]
      conv => lhs; rw [← List.zipIdx_map_fst i l, List.flatMap_map]
    rw [hz]
    have := seqAll_good (st := True) (l.zipIdx i)
      (f := fun a => TriGrb.runAlg e (getFileName path) L (Graph.toCsc L) (threadCounts args) a.1 (sch a.2))
      (w := fun a => (threadCounts args).map fun t => Event.log (getFileName path) (tgShown a.1) t 0 (0 : R)) fun a ha => by
        have := hl a.1 (List.fst_mem_of_mem_zipIdx ha)
        exact .inl (hgrb a.1 this.1 this.2 _ _)
    rcases this with e1 | ⟨hn, -⟩
    · exact e1
    · exact absurd trivial hn
  have hnames : TriGrb.grbAlgs.map tgShown = triGrbNames "grb".toList := by decide +kernel
  have hgood : ∀ a ∈ TriGrb.grbAlgs, a.2 = .grb ∧ processName a.1 = .ok (tgShown a) := by decide +kernel
  have hroundGrb : e.modeStr = "grb".toList → ∀ sch, TriGrb.round e (getFileName path) L (Graph.toCsc L) (threadCounts args) sch =
      ⟨tgLines (getFileName path) (triGrbNames "grb".toList) (threadCounts args) 0 (0 : R), .ok (some ())⟩ := by
    intro hm sch
    have ha : TriGrb.algs "grb".toList = TriGrb.grbAlgs := by decide +kernel
    unfold TriGrb.round
    rw [hm, ha, hlines _ hgood 0 sch, hnames]
  have hroundMsp : e.modeStr ≠ "grb".toList → ∀ sch, TriGrb.round e (getFileName path) L (Graph.toCsc L) (threadCounts args) sch =
      ⟨if e.modeStr = "all".toList ∨ e.modeStr = "benchmark".toList then
        tgLines (getFileName path) (triGrbNames "grb".toList) (threadCounts args) 0 (0 : R) else [], .error .assertion⟩ := by
    intro hm sch
    have hsplit : ∀ m ∈ tgModes, m ≠ "grb".toList → ((TriGrb.algs m).drop (if m = "all".toList ∨ m = "benchmark".toList then 6 else 0)).head?.map
        (fun a => match a.2 with | .grb => false | .msp _ => true) = some true ∧
        (TriGrb.algs m).take (if m = "all".toList ∨ m = "benchmark".toList then 6 else 0) = if m = "all".toList ∨ m = "benchmark".toList then TriGrb.grbAlgs else [] := by
      decide +kernel
    have hmem : e.modeStr ∈ tgModes := by
      by_contra hno
      exact hmode (tg_other hno).2
    obtain ⟨h1, h2⟩ := hsplit _ hmem hm
    unfold TriGrb.round
    generalize e.modeStr = md at h1 h2
    rw [← List.take_append_drop (if md = "all".toList ∨ md = "benchmark".toList then 6 else 0) (TriGrb.algs md), h2]
    cases hd : (TriGrb.algs md).drop (if md = "all".toList ∨ md = "benchmark".toList then 6 else 0) with
    | nil => rw [hd] at h1; simp at h1
    | cons a l2 =>
      rw [hd] at h1
      obtain ⟨nm, m⟩ := a
      cases m with
      | grb => simp at h1
      | msp k =>
        rw [List.zipIdx_append, List.zipIdx_cons, List.map_append, List.map_cons, seqAll_append, hmsp, seqAll_first (by simp)]
        by_cases hab : md = "all".toList ∨ md = "benchmark".toList
        · rw [if_pos hab, if_pos hab, hlines _ hgood 0 sch, seq_done rfl, hnames, List.append_nil]
        · rw [if_neg hab, if_neg hab]
          rfl
  rw [hmain p hp, seq_done rfl]
  dsimp only
  change _ = if e.modeStr = "grb".toList then _ else _
  by_cases hg : e.modeStr = "grb".toList
  · rw [if_pos hg]
    have := seqAll_good (st := True) (List.range e.outerIters)
      (f := fun r => TriGrb.round e (getFileName path) L (Graph.toCsc L) (threadCounts args) (p.sch r))
      (w := fun _ => tgLines (getFileName path) (triGrbNames "grb".toList) (threadCounts args) 0 (0 : R)) fun r _ => .inl (hroundGrb hg _)
    rcases this with e1 | ⟨hn, -⟩
    · rw [e1]
      congr 1
      congr 1
      show _ = (List.replicate e.outerIters _).flatten
      conv => rhs; rw [← List.flatMap_id, ← List.length_range (n := e.outerIters), ← List.map_const, List.flatMap_map]
      rfl
    · exact absurd trivial hn
  · rw [if_neg hg]
    obtain ⟨m, hm⟩ : ∃ m, e.outerIters = m + 1 := ⟨e.outerIters - 1, by have : 0 < e.outerIters := hrounds; omega⟩
    rw [hm, List.range_succ_eq_map, List.map_cons, hroundMsp hg, seqAll_first (by simp)]
    rfl

end

/-! ## Examples -/

def tgSys : Sys Int := { fresh := fun _ => (7, 7, 7), rnd := fun i => i, ofInt := id, min := min, sortf := sortPairs }

theorem tg_called {n : Nat} {es : List (Nat × Nat × Int)} {t : MMText} {text : List Char} (h : Describes (IntVal id) (1 : Int) t n n es)
    (hl : ∀ l ∈ t.lines, l.length ≤ 255) (ht : Lines t.lines text) (hn : 0 < n) (hs : (n + 1) * n + 512 < 2 ^ 64) {args : List Nat}
    (ha : ∀ t ∈ args, 0 < t) : TgCalled tgSys (some text) args n es :=
  have := edges_le (graphOf n es)
  ⟨⟨t, text, rfl, h, hl, ht⟩, hn, ha, sortPairs_ok, by omega⟩

/-- For every bound there are admissible plans in which every thread gets that many turns. -/
theorem tg_plan_exists (args : List Nat) (n K : Nat) : ∃ p, TgAdm args n p ∧ TgFair args K p := by
  choose s hs using fun t => schedule_exists n t K
  refine ⟨{ flopOrd := List.range n, sch := fun _ _ j _ => s ((threadCounts args)[j]?.getD 0) }, ⟨.refl _, fun _ _ j _ t ht => ?_⟩, fun _ _ j _ t ht => ?_⟩
  · show SchAdm n t (s _)
    rw [ht]
    exact (hs t).1
  · show SchFair t K (s _)
    rw [ht]
    exact (hs t).2

theorem tg_tail (args : List Nat) (ha : ∀ t ∈ args, 0 < t) : TgCalled tgSys (some tailText) args 4 tailEntries :=
  tg_called tailFile_describes (by decide +kernel) (.inl ⟨[], by decide +kernel⟩) (by decide) (by decide) ha

example := C93_partial (e := { mode := some "Benchmark".toList, inner := some 3 }) (tg_tail [2, 5] (by decide)) (by decide) (fun _ => by decide) "data/tail.mtx".toList

example := C93_partial (e := { mode := some "all".toList, outer := some 2 }) (tg_tail [] (by simp)) (by decide) (fun _ => by decide) "data/tail.mtx".toList

/-- Only warm-up calls -/
example := C93_partial (e := { mode := some "inner".toList, inner := some 0, warmup := some 3 }) (tg_tail [4] (by decide)) (by decide) (fun _ => by decide)
  "data/tail.mtx".toList

example := C93_violated_iters (e := { mode := some "all".toList, inner := some 0, warmup := some 0 }) (tg_tail [2, 5] (by decide)) (by decide) (by decide)
  (by decide) "tail.mtx".toList

example := C93_violated_rows (e := { mode := some "hash".toList }) (tg_called (text := Spec.banner .pattern .general ++ "\n131071 131071 1\n2 1\n".toList) (args := [])
  wideInt_describes (by decide +kernel) (.inl ⟨[], by decide +kernel⟩) (by decide) (by decide) (by simp)) (by decide) (by decide) (by decide) (by decide)
  "wide.mtx".toList

end Verif.Props
