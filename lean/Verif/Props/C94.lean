import Verif.Lemmas.BcMain
import Verif.Props.C52
import Verif.Props.C92

/-! # C94: the betweenness centrality program -/

namespace Verif.Props

open Verif.Model Verif.Model.Bench Verif.Spec
open _root_.Verif.Model.BcMain (Method Event Sys Plan)
open _root_.Verif.Model.MaskedAll (Good seq_done seq_stop seq_good seqAll_good seqAll_append)
open _root_.Verif.Model.Bc (Callee)

variable {K : Type} {n : Nat}

/-! ## What the program is given -/

/-- The program is called with a file that describes a square matrix with the entries `es` in lines of at most 255 characters, with the number `x`
that asks for `s` sources, and with the numbers of threads `args` (none: the standard list). The vertices are shuffled, and `srcs` are the first
`s` of them (all of them if there are less). There are less than `2^31` vertices and `s` is below `2^31`. The bound of the model for the rounds of
the loops is large enough. -/
structure BcCalled (y : Sys K) (file : Option (List Char)) (x : Rat) (args : List Nat) (n : Nat) (t : MMText) (es : List (Nat × Nat × K)) (s : Nat)
    (srcs : List (Fin n)) : Prop where
  file : ∃ text, file = some text ∧ Lines t.lines text
  describes : Describes (IntVal y.ofInt) (y.ofInt 1) t n n es
  short : ∀ l ∈ t.lines, l.length ≤ 255
  pos : 0 < n
  small : n < 2 ^ 31
  count : IsCount x (y.mul n x) s
  nonzero : 0 < s
  few : s < 2 ^ 31
  shuffle : (y.shuffle (List.range n)).Perm (List.range n)
  srcs : srcs.map Fin.val = (y.shuffle (List.range n)).take s
  threads : ∀ t ∈ args, 0 < t
  fuel : n < y.fuel

/-- The iterations of the parallel loops are distributed in any way over the threads. -/
structure BcAdm (n : Nat) (p : Plan) : Prop where
  sigma : ∀ r a j i k, Admissible n (p.sigma r a j i k)
  delta : ∀ r a j i k, Admissible n (p.delta r a j i k)

/-- Every thread gets at least `T` turns. -/
structure BcFair (args : List Nat) (T : Nat) (p : Plan) : Prop where
  sigma : ∀ r a j i k t, (threadCounts args)[j]? = some t → Fair t T (p.sigma r a j i k)
  delta : ∀ r a j i k t, (threadCounts args)[j]? = some t → Fair t T (p.delta r a j i k)

/-! ## What it prints -/

/-- The lines about the graph: the numbers of vertices, of arcs and of sources -/
noncomputable def bcHead (R : Fin n → Fin n → Prop) (s : Nat) : List (Event K) := [.graph n {p : Fin n × Fin n | R p.1 p.2}.ncard, .sources (min s n)]

/-- The lines of algorithms -/
def bcLines (f : List Char) (names : List (List Char)) (ts : List Nat) (sol : K) : List (Event K) :=
  names.flatMap fun name => ts.map fun t => .log f name t sol

/-! ## The algorithms of a mode -/

def bcShown (a : List Char × Method) : List Char := match processName a.1 with | .ok x => x | .error _ => []

def bcOk : Method → Bool
  | .grb => true
  | .msp ⟨.heap d, _⟩ fc => decide (d ≤ 1) && fc.kind.compl && fc.kind.sorted
  | .msp fp fc => !fp.kind.compl && fc.kind.compl && fc.kind.sorted

def bcAsserts : Method → Bool
  | .msp _ ⟨.heapC false, _⟩ => true
  | _ => false

theorem bcOk_fits {a : Method} (h : bcOk a = true) {R : Fin n → Fin n → Prop} {srcs : List (Fin n)}
    (hcl : bcAsserts a = true → ∀ u v, R u v → u ∈ srcs → v ∈ srcs) : a.Fits R srcs := by
  cases a with
  | grb => trivial
  | msp fp fc =>
    obtain ⟨kp, tp⟩ := fp
    obtain ⟨kc, tc⟩ := fc
    refine ⟨?_, ?_, ?_⟩
    · cases kp <;> first
        | (refine ⟨?_, fun d hd => by cases hd⟩
           simp only [bcOk, Bool.and_eq_true, Bool.not_eq_true'] at h
           exact h.1.1)
        | skip
      rename_i d
      refine ⟨rfl, fun d' hd => ?_⟩
      cases hd
      simp only [bcOk, Bool.and_eq_true, decide_eq_true_eq] at h
      exact .inl h.1.1
    · cases kp <;> simp only [bcOk, Bool.and_eq_true] at h <;> exact ⟨h.1.2, h.2⟩
    · intro hk
      simp only at hk
      subst hk
      exact hcl rfl

instance (mode : List Char) (dh : Bool) : Decidable (bcHeap mode dh) := by unfold bcHeap; infer_instance

def bcModes : List (List Char) := ["grb".toList, "heap".toList, "hash".toList, "msa".toList, "all".toList, "benchmark".toList]

theorem bc_other {mode : List Char} (h : mode ∉ bcModes) (nd dh : Bool) : BcMain.algs nd mode dh = [] ∧ bcNames mode dh = [] := by
  simp only [bcModes, List.mem_cons, List.not_mem_nil, or_false, not_or] at h
  obtain ⟨h1, h2, h3, h4, h5, h6⟩ := h
  constructor
  · unfold BcMain.algs
    rw [if_neg (by tauto), if_neg (by tauto), if_neg (by tauto), if_neg (by tauto), if_neg (by tauto)]
    rfl
  · unfold bcNames
    simp only [if_neg h1, if_neg h2, if_neg h3, if_neg h4, if_neg h5, if_neg h6]

theorem bc_modes {P : List Char → Prop} (h : ∀ m ∈ bcModes, P m) (h0 : ∀ m, m ∉ bcModes → P m) (m : List Char) : P m := by
  by_cases hm : m ∈ bcModes
  · exact h m hm
  · exact h0 m hm

theorem bc_names (mode : List Char) (nd dh : Bool) : (BcMain.algs nd mode dh).map (fun a => processName a.1) = (bcNames mode dh).map .ok := by
  revert nd dh mode
  refine bc_modes ?_ ?_
  · decide +kernel
  · intro m hm nd dh
    rw [(bc_other hm nd dh).1, (bc_other hm nd dh).2]
    rfl

theorem bc_kinds (mode : List Char) : ∀ nd dh, ∀ a ∈ BcMain.algs nd mode dh, bcOk a.2 = true ∧ (bcAsserts a.2 = true → nd = false ∧ bcHeap mode dh) := by
  revert mode
  refine bc_modes ?_ ?_
  · decide +kernel
  · intro m hm nd dh
    rw [(bc_other hm nd dh).1]
    intro a ha
    cases ha

theorem bc_shown (mode : List Char) (nd dh : Bool) : (∀ a ∈ BcMain.algs nd mode dh, processName a.1 = .ok (bcShown a)) ∧
    (BcMain.algs nd mode dh).map bcShown = bcNames mode dh := by
  have h := bc_names mode nd dh
  constructor
  · intro a ha
    have : processName a.1 ∈ (bcNames mode dh).map .ok := h ▸ List.mem_map_of_mem ha
    obtain ⟨x, -, hx⟩ := List.mem_map.1 this
    unfold bcShown
    rw [← hx]
  · have h' : ((BcMain.algs nd mode dh).map (fun a => processName a.1)).map (fun r => match r with | .ok x => x | .error _ => []) = bcNames mode dh := by
      rw [h, List.map_map]
      exact List.map_id _
    rw [List.map_map] at h'
    exact h'

/-! ## The parts of a run -/

theorem bc_fair_mono {n K K' : Nat} {s : Scheds} (h : K ≤ K') (hf : Fair n K' s) : Fair n K s := fun t ht => by
  obtain ⟨h1, h2, h3, h4⟩ := hf t ht
  exact ⟨h.trans h1, h.trans h2, h.trans h3, h.trans h4⟩

theorem bc_threads_eq (args : List Nat) : BcMain.threads args = threadCounts args := rfl

section
variable [Field K] [DecidableEq K] [CharZero K] {y : Sys K} {e : Env} {file : Option (List Char)} {x : Rat} {args : List Nat} {t : MMText}
  {es : List (Nat × Nat × K)} {s : Nat} {srcs : List (Fin n)} {R : Fin n → Fin n → Prop}

omit [Field K] [DecidableEq K] [CharZero K] in
theorem BcCalled.length (h : BcCalled y file x args n t es s srcs) : srcs.length = min s n := by
  have := congrArg List.length h.srcs
  rw [List.length_map, List.length_take, h.shuffle.length_eq, List.length_range] at this
  exact this

omit [Field K] [DecidableEq K] [CharZero K] in
theorem BcCalled.ne (h : BcCalled y file x args n t es s srcs) : srcs ≠ [] := by
  have h1 := h.length
  have h2 := h.nonzero
  have h3 := h.pos
  rintro rfl
  simp at h1
  omega

/-- The lines of algorithms one after the other -/
theorem bc_algs_lines (hfuel : n < y.fuel) (hthreads : ∀ t ∈ args, 0 < t) (hne : srcs ≠ []) (hit : 0 < e.warmupIters + e.innerIters) {A : CSR K}
    (hA : RepresentsD R A) (path mode : List Char) {nd dh : Bool} {l : List ((List Char × Method) × Nat)}
    (hl : ∀ a ∈ l, a.1 ∈ BcMain.algs nd mode dh ∧ a.1.2.Fits R srcs) :
    ∃ T, ∀ sch sch' : Nat → Nat → Nat → Nat → Scheds, (∀ a j i k, Admissible n (sch a j i k)) → (∀ a j i k, Admissible n (sch' a j i k)) →
      Good ((∀ a j i k t, (threadCounts args)[j]? = some t → Fair t T (sch a j i k)) ∧ ∀ a j i k t, (threadCounts args)[j]? = some t → Fair t T (sch' a j i k))
        (bcLines (getFileName path) (l.map fun a => bcShown a.1) (threadCounts args) (betweenAll R srcs : K))
        (seqAll (l.map fun a => BcMain.runAlg y e path A (srcs.map Fin.val) (threadCounts args) a.1 (sch a.2) (sch' a.2))) := by
  have hone : ∀ a ∈ l, ∃ T, ∀ t ∈ threadCounts args, ∀ sch sch' : Nat → Nat → Scheds, (∀ i k, Admissible n (sch i k)) → (∀ i k, Admissible n (sch' i k)) →
      Good ((∀ i k, Fair t T (sch i k)) ∧ ∀ i k, Fair t T (sch' i k)) [.log (getFileName path) (bcShown a.1) t (betweenAll R srcs : K)]
        (BcMain.runThreads y e path A (srcs.map Fin.val) a.1 t sch sch') := by
    intro a ha
    refine exists_bound (P := fun t T => ∀ sch sch' : Nat → Nat → Scheds, (∀ i k, Admissible n (sch i k)) → (∀ i k, Admissible n (sch' i k)) →
      Good ((∀ i k, Fair t T (sch i k)) ∧ ∀ i k, Fair t T (sch' i k)) [.log (getFileName path) (bcShown a.1) t (betweenAll R srcs : K)]
        (BcMain.runThreads y e path A (srcs.map Fin.val) a.1 t sch sch')) ?_ _ ?_
    · intro t T T' hT hP sch sch' h1 h2
      exact (hP sch sch' h1 h2).weaken fun hf => ⟨fun i k => bc_fair_mono hT (hf.1 i k), fun i k => bc_fair_mono hT (hf.2 i k)⟩
    · intro t ht
      exact BcMain.runThreads_good hfuel hit path hA hne ((bc_shown mode nd dh).1 a.1 (hl a ha).1) (hl a ha).2 (threads_pos hthreads t ht)
  obtain ⟨T, hT⟩ := exists_bound (by
    intro a T T' hT hP t ht sch sch' h1 h2
    exact (hP t ht sch sch' h1 h2).weaken fun hf => ⟨fun i k => bc_fair_mono hT (hf.1 i k), fun i k => bc_fair_mono hT (hf.2 i k)⟩) l hone
  refine ⟨T, fun sch sch' h1 h2 => ?_⟩
  unfold bcLines
  rw [List.flatMap_map]
  refine seqAll_good l fun a ha => ?_
  unfold BcMain.runAlg
  have hz : (threadCounts args).map (fun t => Event.log (getFileName path) (bcShown a.1) t (betweenAll R srcs : K)) =
      (threadCounts args).zipIdx.flatMap fun t => [Event.log (getFileName path) (bcShown a.1) t.1 (betweenAll R srcs : K)] := by
    rw [← List.map_eq_flatMap]
    conv => lhs; rw [← List.zipIdx_map_fst 0 (threadCounts args), List.map_map]
    rfl
  rw [hz]
  refine seqAll_good _ fun t ht => ?_
  have ht' : (threadCounts args)[t.2]? = some t.1 := List.mem_zipIdx_iff_getElem?.1 ht
  exact (hT a ha t.1 (List.fst_mem_of_mem_zipIdx ht) (sch a.2 t.2) (sch' a.2 t.2) (fun _ _ => h1 _ _ _ _) fun _ _ => h2 _ _ _ _).weaken
    fun hf => ⟨fun i k => hf.1 _ _ _ _ _ ht', fun i k => hf.2 _ _ _ _ _ ht'⟩

/-- Rounds of `main`, one after the other -/
theorem bc_rounds_lines (hfuel : n < y.fuel) (hthreads : ∀ t ∈ args, 0 < t) (hne : srcs ≠ []) (hit : 0 < e.warmupIters + e.innerIters) {A : CSR K}
    (hA : RepresentsD R A) (path : List Char) {nd dh : Bool} (hh : nd = true ∨ ¬bcHeap e.modeStr dh ∨ ∀ u v, R u v → u ∈ srcs → v ∈ srcs) :
    ∃ T, ∀ p, BcAdm n p → Good (BcFair args T p)
      (List.replicate e.outerIters (bcLines (getFileName path) (bcNames e.modeStr dh) (threadCounts args) (betweenAll R srcs : K))).flatten
      (seqAll ((List.range e.outerIters).map fun r => BcMain.round y nd e dh path A (srcs.map Fin.val) (threadCounts args) (p.sigma r) (p.delta r))) := by
  obtain ⟨T, hT⟩ := bc_algs_lines hfuel hthreads hne hit hA path e.modeStr (nd := nd) (dh := dh) (l := (BcMain.algs nd e.modeStr dh).zipIdx) (fun a ha => by
    have hm := List.fst_mem_of_mem_zipIdx ha
    have hk := bc_kinds e.modeStr nd dh a.1 hm
    refine ⟨hm, bcOk_fits hk.1 fun ha => ?_⟩
    obtain ⟨h1, h2⟩ := hk.2 ha
    rcases hh with h | h | h
    · rw [h] at h1; cases h1
    · exact absurd h2 h
    · exact h)
  refine ⟨T, fun p hp => ?_⟩
  have hn : ((BcMain.algs nd e.modeStr dh).zipIdx.map fun a => bcShown a.1) = bcNames e.modeStr dh := by
    rw [← (bc_shown e.modeStr nd dh).2]
    conv => rhs; rw [← List.zipIdx_map_fst 0 (BcMain.algs nd e.modeStr dh), List.map_map]
    rfl
  rw [hn] at hT
  generalize bcLines (getFileName path) (bcNames e.modeStr dh) (threadCounts args) (betweenAll R srcs : K) = w at hT
  have hw : (List.replicate e.outerIters w).flatten = (List.range e.outerIters).flatMap fun _ => w := by
    rw [← List.flatMap_id, ← List.length_range (n := e.outerIters), ← List.map_const, List.flatMap_map, List.length_range]
    rfl
  rw [hw]
  refine seqAll_good _ fun i _ => ?_
  exact (hT (p.sigma i) (p.delta i) (fun a j i k => hp.sigma _ _ _ _ _) fun a j i k => hp.delta _ _ _ _ _).weaken
    fun hf => ⟨fun _ _ _ _ _ ht => hf.sigma _ _ _ _ _ _ ht, fun _ _ _ _ _ ht => hf.delta _ _ _ _ _ _ ht⟩

omit [CharZero K] in
/-- Up to the rounds of `main` -/
theorem BcCalled.setup (h : BcCalled y file x args n t es s srcs) : ∃ A, RepresentsD (arcs n (ReadIO.symFlag t) es) A ∧ ∀ p nd e dh path,
      BcMain.main y p nd e dh path file x args = Out.seq ⟨bcHead (arcs n (ReadIO.symFlag t) es) s, .ok (some ())⟩
        (seqAll ((List.range e.outerIters).map fun r =>
          BcMain.round y nd e dh (getFileName path) A (srcs.map Fin.val) (threadCounts args) (p.sigma r) (p.delta r))) := by
  obtain ⟨text, rfl, hlines⟩ := h.file
  obtain ⟨A, hread, hA⟩ := BcMain.read_ok y h.describes h.short hlines
  refine ⟨A, hA, fun p nd e dh path => ?_⟩
  unfold BcMain.main
  rw [hread, bc_threads_eq]
  dsimp only
  rw [BcMain.nnz_arcs hA, hA.rows, BcMain.sources_eq y h.count h.nonzero h.few h.small]
  have h1 := h.nonzero
  have h2 := h.pos
  rw [if_neg (by omega)]
  have htake : (y.shuffle (List.range n)).take ((min s n : Nat) : Int).toNat = srcs.map Fin.val := by
    have hlen : (y.shuffle (List.range n)).length = n := by rw [h.shuffle.length_eq, List.length_range]
    generalize hl : y.shuffle (List.range n) = l at hlen
    rw [h.srcs, hl, Int.toNat_natCast, ← List.take_take, ← hlen, List.take_length]
  rw [htake, List.length_map, h.length, ← MaskedAll.seq_assoc, seq_done (a := ⟨[Event.graph n _], .ok (some ())⟩) rfl]
  rfl

theorem bc_main_good (h : BcCalled y file x args n t es s srcs) (hit : 0 < e.warmupIters + e.innerIters) {nd dh : Bool}
    (hh : nd = true ∨ ¬bcHeap e.modeStr dh ∨ ∀ u v, arcs n (ReadIO.symFlag t) es u v → u ∈ srcs → v ∈ srcs) (path : List Char) :
    ∃ T, ∀ p, BcAdm n p → Good (BcFair args T p) (bcHead (arcs n (ReadIO.symFlag t) es) s ++ (List.replicate e.outerIters
      (bcLines (getFileName path) (bcNames e.modeStr dh) (threadCounts args) (betweenAll (arcs n (ReadIO.symFlag t) es) srcs : K))).flatten)
      (BcMain.main y p nd e dh path file x args) := by
  obtain ⟨A, hA, hmain⟩ := h.setup
  obtain ⟨T, hT⟩ := bc_rounds_lines h.fuel h.threads h.ne hit hA (getFileName path) hh
  rw [fileName_idem] at hT
  refine ⟨T, fun p hp => ?_⟩
  rw [hmain]
  exact seq_good (.inl rfl) (hT p hp)

/-- **C94** (partial). The program is called with a file that describes a square matrix and is not misleading (C65), with a number that asks for `s`
sources, and with some numbers of threads. In every run it prints the number of vertices and arcs of the directed graph of the file, the number
of sources, and then for each round of `main`, each algorithm of the mode and each number of threads a line with the sum of the betweenness
centralities of all vertices for these sources: the number of vertices between a source and another vertex on a shortest path, added up. If
every thread gets enough turns the program comes to its end. In builds with assertions the modes with the heap algorithm need that no arc leads
from a source to a vertex that is not a source. Missing: the other cases (see `C94_violated_…`). -/
theorem C94_partial (h : BcCalled y file x args n t es s srcs) (hm : ¬MisleadingComment t) (hit : ¬(e.inner = some 0 ∧ e.warmup = some 0)) {nd dh : Bool}
    (hh : nd = true ∨ ¬bcHeap ((e.mode.getD []).map Char.toLower) dh ∨ ∀ u v, arcs n (decide (t.sym ≠ .general)) es u v → u ∈ srcs → v ∈ srcs)
    (path : List Char) :
    ∃ f, IsFileName path f ∧
      let R := arcs n (decide (t.sym ≠ .general)) es
      let want := bcHead R s ++ (List.replicate (e.outer.getD 1)
        (bcLines f (bcNames ((e.mode.getD []).map Char.toLower) dh) (threadCounts args) (betweenAll R srcs : K))).flatten
      (∀ p, BcAdm n p → BcMain.main y p nd e dh path file x args = ⟨want, .ok (some ())⟩ ∨
        ((BcMain.main y p nd e dh path file x args).status = .ok none ∧ (BcMain.main y p nd e dh path file x args).events <+: want)) ∧
      ∃ T, ∀ p, BcAdm n p → BcFair args T p → BcMain.main y p nd e dh path file x args = ⟨want, .ok (some ())⟩ := by
  rw [← symFlag_eq hm] at hh ⊢
  obtain ⟨T, hT⟩ := bc_main_good h (iters_pos hit) hh path
  refine ⟨getFileName path, C80_file path, fun p hp => ?_, T, fun p hp hf => ?_⟩
  · rcases hT p hp with e1 | ⟨-, e1⟩
    · exact .inl e1
    · exact .inr e1
  · rcases hT p hp with e1 | ⟨hn, -⟩
    · exact e1
    · exact absurd hf hn

omit [Field K] [DecidableEq K] [CharZero K] in
/-- C94, the sources: whatever the shuffling does, the sources are different vertices, `s` of them or all. -/
theorem C94_sources {l : List Nat} (hl : l.Perm (List.range n)) (s : Nat) :
    ∃ srcs : List (Fin n), srcs.map Fin.val = l.take s ∧ srcs.Nodup ∧ srcs.length = min s n := by
  have hlt : ∀ v ∈ l.take s, v < n := fun v hv => List.mem_range.1 (hl.mem_iff.1 (List.mem_of_mem_take hv))
  have hex : ∀ l : List Nat, (∀ v ∈ l, v < n) → ∃ srcs : List (Fin n), srcs.map Fin.val = l := by
    intro l
    induction l with
    | nil => intro _; exact ⟨[], rfl⟩
    | cons a l ih =>
      intro h
      obtain ⟨srcs, hs⟩ := ih fun v hv => h v (by simp [hv])
      exact ⟨⟨a, h a (by simp)⟩ :: srcs, by rw [List.map_cons, hs]⟩
  obtain ⟨srcs, hs⟩ := hex _ hlt
  refine ⟨srcs, hs, ?_, ?_⟩
  · have h1 : (l.take s).Nodup := (hl.nodup_iff.2 List.nodup_range).sublist (List.take_sublist _ _)
    rw [← hs] at h1
    exact h1.of_map
  · have := congrArg List.length hs
    rw [List.length_map, List.length_take, hl.length_eq, List.length_range] at this
    exact this

omit [DecidableEq K] in
/-- C94, where the line comes from: the centralities of all vertices (C52) add up to the number that is printed. -/
theorem C94_sum (R : Fin n → Fin n → Prop) (srcs : List (Fin n)) : ∑ v, centrality K R srcs v = (betweenAll R srcs : K) :=
  Paths.centrality_sum K srcs

/-! ## The heap algorithm with assertions -/

theorem bc_alg_never {A : CSR K} (hA : RepresentsD R A) {u v : Fin n} (huv : R u v) (hu : u ∈ srcs) (hv : v ∉ srcs) (hthreads : ∀ t ∈ args, 0 < t)
    (path : List Char) (hit : 0 < e.warmupIters + e.innerIters) {a : List Char × Method} (ha : bcAsserts a.2 = true) {sch sch' : Nat → Nat → Nat → Scheds}
    (hadm : Admissible n (sch 0 0 0)) :
    (BcMain.runAlg y e path A (srcs.map Fin.val) (threadCounts args) a sch sch').status ≠ .ok (some ()) ∧
      (BcMain.runAlg y e path A (srcs.map Fin.val) (threadCounts args) a sch sch').events = [] := by
  obtain ⟨t, ts, ht⟩ : ∃ t ts, threadCounts args = t :: ts := by
    cases hh : threadCounts args with
    | nil => exact absurd hh (threads_ne args)
    | cons t ts => exact ⟨t, ts, rfl⟩
  have htpos : 0 < t := threads_pos hthreads t (by rw [ht]; simp)
  obtain ⟨fp, two, ha'⟩ : ∃ fp two, a.2 = .msp fp ⟨.heapC false, two⟩ := by
    revert ha
    unfold bcAsserts
    split
    · rename_i fp two heq
      intro _
      exact ⟨_, _, heq⟩
    · intro h; cases h
  have hnone : ∀ z, KTruss.lastOf (fun i => a.2.run y A (srcs.map Fin.val) t (sch 0 i) (sch' 0 i)) (List.range (e.warmupIters + e.innerIters)) none ≠
      .ok (some z) := by
    have := KTruss.lastOf_never (f := fun i => a.2.run y A (srcs.map Fin.val) t (sch 0 i) (sch' 0 i)) (i := 0)
      (is := (List.range (e.warmupIters + e.innerIters - 1)).map Nat.succ) (y := none) (fun d => by
        rw [ha']
        exact BcMain.run_never hA huv hu hv htpos hadm d)
    rwa [← List.range_succ_eq_map, show e.warmupIters + e.innerIters - 1 + 1 = e.warmupIters + e.innerIters by omega] at this
  have hthread : (BcMain.runThreads y e path A (srcs.map Fin.val) a t (sch 0) (sch' 0)).status ≠ .ok (some ()) ∧
      (BcMain.runThreads y e path A (srcs.map Fin.val) a t (sch 0) (sch' 0)).events = [] := by
    unfold BcMain.runThreads
    revert hnone
    generalize KTruss.lastOf _ _ _ = o
    rcases o with x | _ | o
    · intro _; exact ⟨by simp, rfl⟩
    · intro _; exact ⟨by simp, rfl⟩
    · intro h; exact absurd rfl (h o)
  rw [ht]
  unfold BcMain.runAlg
  rw [List.zipIdx_cons, List.map_cons, seqAll_first hthread.1]
  exact hthread

/-- The first algorithm of a mode that asserts -/
theorem bc_split : ∀ mode ∈ bcModes, ∀ dh, bcHeap mode dh → ∃ l1 a l2, BcMain.algs false mode dh = l1 ++ a :: l2 ∧ (∀ b ∈ l1, bcAsserts b.2 = false) ∧
    bcAsserts a.2 = true ∧ l1.map bcShown = if mode = "heap".toList then [] else bcNames "grb".toList dh := by
  have h1 : ∀ mode ∈ bcModes, ∀ dh, bcHeap mode dh → ∃ i : Fin 6, (∀ b ∈ (BcMain.algs false mode dh).take i, bcAsserts b.2 = false) ∧
      (((BcMain.algs false mode dh).drop i).head?.map fun a => bcAsserts a.2) = some true ∧
      ((BcMain.algs false mode dh).take i).map bcShown = if mode = "heap".toList then [] else bcNames "grb".toList dh := by
    decide +kernel
  intro mode hm dh hh
  obtain ⟨i, h2, h3, h4⟩ := h1 mode hm dh hh
  cases hd : (BcMain.algs false mode dh).drop i with
  | nil => rw [hd] at h3; simp at h3
  | cons a l2 =>
    rw [hd] at h3
    exact ⟨_, a, l2, by rw [← hd, List.take_append_drop], h2, by simpa using h3, h4⟩

/-- C94, violated for the modes with the heap algorithm in builds with assertions: if an arc leads from a source to a vertex that is not a source, the
first call of the heap algorithm never returns (C38), so that the program prints at most the lines of GraphBLAS and does not come to its end. -/
theorem C94_violated_heap (h : BcCalled y file x args n t es s srcs) (hm : ¬MisleadingComment t) (hit : ¬(e.inner = some 0 ∧ e.warmup = some 0))
    (hrounds : 0 < e.outer.getD 1) {dh : Bool} (hmode : bcHeap ((e.mode.getD []).map Char.toLower) dh) {u v : Fin n}
    (huv : arcs n (decide (t.sym ≠ .general)) es u v) (hu : u ∈ srcs) (hv : v ∉ srcs) (path : List Char) :
    ∃ f, IsFileName path f ∧
      let R := arcs n (decide (t.sym ≠ .general)) es
      let names := if (e.mode.getD []).map Char.toLower = "heap".toList then [] else bcNames "grb".toList dh
      let want := bcHead R s ++ bcLines f names (threadCounts args) (betweenAll R srcs : K)
      (∀ p, BcAdm n p → (BcMain.main y p false e dh path file x args).status ≠ .ok (some ()) ∧
        (BcMain.main y p false e dh path file x args).events <+: want) ∧
      ∃ T, ∀ p, BcAdm n p → BcFair args T p → (BcMain.main y p false e dh path file x args).events = want := by
  rw [← symFlag_eq hm] at huv ⊢
  have hmem : e.modeStr ∈ bcModes := by
    have : bcHeap e.modeStr dh := hmode
    rcases this with h | h | ⟨h, -⟩ <;> rw [h] <;> decide +kernel
  obtain ⟨l1, a, l2, hl, hok, ha, hnames⟩ := bc_split _ hmem dh hmode
  obtain ⟨A, hA, hmain⟩ := h.setup
  obtain ⟨T, hT⟩ := bc_algs_lines h.fuel h.threads h.ne (iters_pos hit) hA (getFileName path) e.modeStr (nd := false) (dh := dh) (l := l1.zipIdx) (fun b hb => by
    have hm := List.fst_mem_of_mem_zipIdx hb
    have hb' : b.1 ∈ BcMain.algs false e.modeStr dh := by rw [hl]; simp [hm]
    exact ⟨hb', bcOk_fits (bc_kinds _ _ _ _ hb').1 fun hh => by rw [hok _ hm] at hh; cases hh⟩)
  rw [fileName_idem] at hT
  have hn : (l1.zipIdx.map fun a => bcShown a.1) = l1.map bcShown := by
    conv => rhs; rw [← List.zipIdx_map_fst 0 l1, List.map_map]
    rfl
  rw [hn, hnames] at hT
  refine ⟨getFileName path, C80_file path, ?_⟩
  rw [show (e.mode.getD []).map Char.toLower = e.modeStr from rfl]
  dsimp only
  generalize bcLines (getFileName path) (if e.modeStr = "heap".toList then [] else bcNames "grb".toList dh) (threadCounts args)
    (betweenAll (arcs n (ReadIO.symFlag t) es) srcs : K) = w at hT ⊢
  have key : ∀ p, BcAdm n p → (BcMain.main y p false e dh path file x args).status ≠ .ok (some ()) ∧
      ((BcMain.main y p false e dh path file x args).events = bcHead (arcs n (ReadIO.symFlag t) es) s ++ w ∨
        (¬BcFair args T p ∧ (BcMain.main y p false e dh path file x args).events <+: bcHead (arcs n (ReadIO.symFlag t) es) s ++ w)) := by
    intro p hp
    rw [hmain, seq_done rfl]
    obtain ⟨m, hm⟩ : ∃ m, e.outerIters = m + 1 := ⟨e.outerIters - 1, by have : 0 < e.outerIters := hrounds; omega⟩
    rw [hm, List.range_succ_eq_map, List.map_cons]
    have hround : (BcMain.round y false e dh (getFileName path) A (srcs.map Fin.val) (threadCounts args) (p.sigma 0) (p.delta 0)).status ≠ .ok (some ()) ∧
        ((BcMain.round y false e dh (getFileName path) A (srcs.map Fin.val) (threadCounts args) (p.sigma 0) (p.delta 0)).events = w ∨
        (¬BcFair args T p ∧
          (BcMain.round y false e dh (getFileName path) A (srcs.map Fin.val) (threadCounts args) (p.sigma 0) (p.delta 0)).events <+: w)) := by
      unfold BcMain.round
      rw [hl, List.zipIdx_append, List.zipIdx_cons, List.map_append, List.map_cons, seqAll_append]
      have hlast := bc_alg_never (y := y) (e := e) (args := args) hA huv hu hv h.threads (getFileName path) (iters_pos hit) ha
        (sch := p.sigma 0 (0 + l1.length)) (sch' := p.delta 0 (0 + l1.length)) (hp.sigma _ _ _ _ _)
      rw [seqAll_first hlast.1]
      rcases hT (p.sigma 0) (p.delta 0) (fun _ _ _ _ => hp.sigma _ _ _ _ _) (fun _ _ _ _ => hp.delta _ _ _ _ _) with e1 | ⟨hn, e1, e2⟩
      · rw [e1, seq_done rfl]
        exact ⟨hlast.1, .inl (by rw [hlast.2]; simp)⟩
      · rw [seq_stop (by rw [e1]; simp)]
        exact ⟨by rw [e1]; simp, .inr ⟨fun hf => hn ⟨fun _ _ _ _ _ ht => hf.sigma _ _ _ _ _ _ ht, fun _ _ _ _ _ ht => hf.delta _ _ _ _ _ _ ht⟩, e2⟩⟩
    rw [seqAll_first hround.1]
    refine ⟨hround.1, ?_⟩
    rcases hround.2 with e2 | ⟨hn, e2⟩
    · exact .inl (by rw [e2])
    · exact .inr ⟨hn, (List.prefix_append_right_inj _).2 e2⟩
  refine ⟨fun p hp => ⟨(key p hp).1, ?_⟩, T, fun p hp hf => ?_⟩
  · rcases (key p hp).2 with e1 | ⟨-, e1⟩
    · rw [e1]
    · exact e1
  · rcases (key p hp).2 with e1 | ⟨hn, -⟩
    · exact e1
    · exact absurd hf hn

/-- C52 for builds with assertions: the computation with the complemented heap algorithm returns the centralities if no arc leads from a source to a
vertex that is not a source, and never returns otherwise. -/
theorem C52_heap_asserts {A : CSR K} (hA : RepresentsD R A) (hs : srcs ≠ []) {fp : Callee} (hp : OkPlain fp.kind (n * srcs.length)) {two : Bool} {nt dflt : Nat}
    (ht : 0 < setNumThreads nt dflt) :
    ((∀ u v, R u v → u ∈ srcs → v ∈ srcs) → ∃ T, ∀ fuel, n < fuel → ∀ sch sch', (∀ i, Admissible n (sch i)) → (∀ i, Admissible n (sch' i)) →
      (∀ i, Fair (setNumThreads nt dflt) T (sch i)) → (∀ i, Fair (setNumThreads nt dflt) T (sch' i)) →
      Bc.bc fp ⟨.heapC false, two⟩ A (srcs.map Fin.val) nt dflt sch sch' fuel = .ok (some (List.ofFn fun v : Fin n => some (centrality K R srcs v)))) ∧
    ((¬∀ u v, R u v → u ∈ srcs → v ∈ srcs) → ∀ fuel sch sch', (∀ i, Admissible n (sch i)) → ∀ d,
      Bc.bc fp ⟨.heapC false, two⟩ A (srcs.map Fin.val) nt dflt sch sch' fuel ≠ .ok (some d)) := by
  have hAh := BcMain.repD_has hA
  constructor
  · intro hcl
    obtain ⟨T, hT⟩ := Bc.bc_ok (fc := ⟨.heapC false, two⟩) hp ⟨rfl, rfl⟩ (fun _ => hcl) hAh (fun u v => by rw [← hAh.mem_cols, hA.adj]) hs ht
    exact ⟨T, fun fuel hf => (hT fuel hf).2⟩
  · intro hcl fuel sch sch' hadm d
    push Not at hcl
    obtain ⟨u, v, huv, hu, hv⟩ := hcl
    rw [Bc.bc, check, if_pos (by simpa using List.length_pos_of_ne_nil hs), ok_bind]
    exact BcMain.bcWith_never hA huv hu hv ht (hadm 0) fuel d

/-! ## Other cases in which the program does something else -/

omit [CharZero K] in
/-- C94, violated without calls: with 0 iterations and 0 warm-up iterations the program prints -1 in every line, for every graph. -/
theorem C94_violated_iters (h : BcCalled y file x args n t es s srcs) (hm : ¬MisleadingComment t) (hit : e.inner = some 0 ∧ e.warmup = some 0) (nd dh : Bool)
    (path : List Char) (p : Plan) :
    ∃ f, IsFileName path f ∧ BcMain.main y p nd e dh path file x args = ⟨bcHead (arcs n (decide (t.sym ≠ .general)) es) s ++
      (List.replicate (e.outer.getD 1) (bcLines f (bcNames ((e.mode.getD []).map Char.toLower) dh) (threadCounts args) (-1 : K))).flatten, .ok (some ())⟩ := by
  rw [← symFlag_eq hm]
  refine ⟨getFileName path, C80_file path, ?_⟩
  have hit0 : e.warmupIters + e.innerIters = 0 := by
    unfold Env.warmupIters Env.innerIters
    rw [hit.1, hit.2]
    rfl
  obtain ⟨A, hA, hmain⟩ := h.setup
  rw [hmain]
  have hgood : Good True (List.replicate e.outerIters (bcLines (getFileName path) (bcNames e.modeStr dh) (threadCounts args) (-1 : K))).flatten
      (seqAll ((List.range e.outerIters).map fun r =>
          BcMain.round y nd e dh (getFileName path) A (srcs.map Fin.val) (threadCounts args) (p.sigma r) (p.delta r))) := by
    have hw : ∀ w : List (Event K), (List.replicate e.outerIters w).flatten = (List.range e.outerIters).flatMap fun _ => w := by
      intro w
      rw [← List.flatMap_id, ← List.length_range (n := e.outerIters), ← List.map_const, List.flatMap_map, List.length_range]
      rfl
    rw [hw]
    refine seqAll_good _ fun i _ => ?_
    unfold BcMain.round bcLines
    rw [← (bc_shown e.modeStr nd dh).2, List.flatMap_map]
    have hz : ∀ g : List Char × Method → List (Event K), (BcMain.algs nd e.modeStr dh).flatMap g = (BcMain.algs nd e.modeStr dh).zipIdx.flatMap fun a => g a.1 := by
      intro g
      conv => lhs; rw [← List.zipIdx_map_fst 0 (BcMain.algs nd e.modeStr dh), List.flatMap_map]
    rw [hz]
    refine seqAll_good _ fun a ha => ?_
    unfold BcMain.runAlg
    have hz : (threadCounts args).map (fun t => Event.log (getFileName path) (bcShown a.1) t (-1 : K)) =
        (threadCounts args).zipIdx.flatMap fun t => [Event.log (getFileName path) (bcShown a.1) t.1 (-1 : K)] := by
      rw [← List.map_eq_flatMap]
      conv => lhs; rw [← List.zipIdx_map_fst 0 (threadCounts args), List.map_map]
      rfl
    rw [hz]
    refine seqAll_good _ fun t ht => ?_
    unfold BcMain.runThreads
    rw [hit0]
    simp only [List.range_zero, KTruss.lastOf]
    rw [(bc_shown e.modeStr nd dh).1 a.1 (List.fst_mem_of_mem_zipIdx ha), fileName_idem]
    exact .inl rfl
  rcases hgood with e1 | ⟨hn, -⟩
  · rw [e1, seq_done rfl]
    rfl
  · exact absurd trivial hn

omit [CharZero K] in
/-- C94, violated for negative numbers: a request for a negative number of sources is not refused, the program uses all vertices as sources. -/
theorem C94_violated_negative {text : List Char} (hlines : Lines t.lines text) (hd : Describes (IntVal y.ofInt) (y.ofInt 1) t n n es)
    (hshort : ∀ l ∈ t.lines, l.length ≤ 255) (hpos : 0 < n) (hsmall : n < 2 ^ 31) (hx : x < 1) (h1 : y.mul n x ≤ -1 / 2) (h2 : -2 ^ 31 ≤ y.mul n x)
    (hshuffle : (y.shuffle (List.range n)).Perm (List.range n)) (p : Plan) (nd : Bool) (e : Env) (dh : Bool) (path : List Char) (args : List Nat) :
    ∃ m, [.graph n m, .sources n] <+: (BcMain.main y p nd e dh path (some text) x args).events := by
  obtain ⟨A, hread, hA⟩ := BcMain.read_ok y hd hshort hlines
  refine ⟨A.nnz, ?_⟩
  unfold BcMain.main
  rw [hread]
  dsimp only
  rw [hA.rows, BcMain.sources_neg y hx h1 h2 hsmall, if_neg (by omega), List.length_take, hshuffle.length_eq, List.length_range,
    ← MaskedAll.seq_assoc, seq_done (a := ⟨[Event.graph n _], .ok (some ())⟩) rfl, seq_done rfl]
  simp only [Int.toNat_natCast, min_self]
  exact List.prefix_append _ _

omit [CharZero K] in
/-- C94, violated for small shares: with less than half a source the program fails after the line about the graph. -/
theorem C94_violated_zero {text : List Char} (hlines : Lines t.lines text) (hd : Describes (IntVal y.ofInt) (y.ofInt 1) t n n es)
    (hshort : ∀ l ∈ t.lines, l.length ≤ 255) (hx : x < 1) (h1 : -1 / 2 < y.mul n x) (h2 : y.mul n x < 1 / 2)
    (p : Plan) (e : Env) (dh : Bool) (path : List Char) (args : List Nat) :
    (BcMain.main y p false e dh path (some text) x args).status = .error .assertion := by
  obtain ⟨A, hread, hA⟩ := BcMain.read_ok y hd hshort hlines
  unfold BcMain.main
  rw [hread]
  dsimp only
  rw [hA.rows, BcMain.sources_zero y hx h1 h2, if_pos ⟨rfl, by omega⟩, seq_done rfl]

/-- C94, violated for misleading comments: the program reads a file for a directed graph as one for an undirected graph when the word "symmetric" is
in a comment. Then the lines are those of the undirected graph; if an entry has no counterpart, the number of arcs is too large. -/
theorem C94_violated_comment (h : BcCalled y file x args n t es s srcs) (hm : MisleadingComment t) {u v : Fin n} (huv : u ≠ v)
    (hin : ∃ e ∈ es, e.1 = u ∧ e.2.1 = v) (hout : ¬∃ e ∈ es, e.1 = v ∧ e.2.1 = u) :
    {p : Fin n × Fin n | arcs n (decide (t.sym ≠ .general)) es p.1 p.2}.ncard < {p : Fin n × Fin n | arcs n true es p.1 p.2}.ncard ∧
    (∀ p nd e dh path, bcHead (arcs n true es) s <+: (BcMain.main y p nd e dh path file x args).events) ∧
    ∀ e : Env, ¬(e.inner = some 0 ∧ e.warmup = some 0) → ∀ dh path, ∃ f, IsFileName path f ∧ ∃ T, ∀ p, BcAdm n p → BcFair args T p →
      BcMain.main y p true e dh path file x args = ⟨bcHead (arcs n true es) s ++ (List.replicate (e.outer.getD 1)
        (bcLines f (bcNames ((e.mode.getD []).map Char.toLower) dh) (threadCounts args) (betweenAll (arcs n true es) srcs : K))).flatten, .ok (some ())⟩ := by
  have hflag : ReadIO.symFlag t = true := by
    unfold ReadIO.symFlag
    obtain ⟨-, c, hc, hcon⟩ := hm
    rw [Bool.or_eq_true]
    right
    rw [List.any_eq_true]
    refine ⟨c, hc, ?_⟩
    have hdec : ∀ {p : Prop} (i : Decidable p), p → @decide p i = true := fun i h => @decide_eq_true _ i h
    exact hdec _ hcon
  refine ⟨?_, fun p nd e dh path => ?_, fun e hit dh path => ?_⟩
  · rw [show decide (t.sym ≠ .general) = false by rw [hm.1]; rfl]
    refine Set.ncard_lt_ncard ?_ (Set.toFinite _)
    refine ⟨fun p hp => ⟨hp.1, .inl ?_⟩, fun hsub => ?_⟩
    · rcases hp.2 with h | ⟨h, -⟩
      · exact h
      · cases h
    · have : arcs n false es v u := hsub (show (v, u) ∈ {p : Fin n × Fin n | arcs n true es p.1 p.2} from ⟨huv.symm, .inr ⟨rfl, hin⟩⟩)
      rcases this.2 with h | ⟨h, -⟩
      · exact hout h
      · cases h
  · obtain ⟨A, hA, hmain⟩ := h.setup
    rw [hmain, seq_done rfl, hflag]
    exact List.prefix_append _ _
  · obtain ⟨T, hT⟩ := bc_main_good h (iters_pos hit) (nd := true) (dh := dh) (.inl rfl) path
    rw [hflag] at hT
    refine ⟨getFileName path, C80_file path, T, fun p hp hf => ?_⟩
    rcases hT p hp with e1 | ⟨hn, -⟩
    · exact e1
    · exact absurd hf hn

end

/-! ## Examples -/

example := (C52_heap_asserts exD_rep (srcs := [0, 2]) (by simp) (fp := ⟨.msa2, true⟩) ⟨rfl, by simp⟩ (two := true) (nt := 2) (dflt := 1) (by decide)).2
  (by decide +kernel)

example := (C52_heap_asserts exD_rep (srcs := [4, 3]) (by simp) (fp := ⟨.msa2, true⟩) ⟨rfl, by simp⟩ (two := true) (nt := 2) (dflt := 1) (by decide)).1
  (by decide +kernel)

def bcSys (shuffle : List Nat → List Nat) : Sys Rat :=
  { fresh := fun _ => (7, 7, 7), rnd := fun i => i, ofInt := fun z => z, min := min, mul := fun n x => n * x, wide := fun _ => -1, shuffle := shuffle, fuel := 6 }

/-- For every bound there are admissible plans in which every thread gets that many turns. -/
theorem bc_plan_exists (args : List Nat) (n T : Nat) : ∃ p, BcAdm n p ∧ BcFair args T p := by
  choose s hs using fun t => schedule_exists n t T
  have h : ∀ j t : Nat, (threadCounts args)[j]? = some t → Fair t T (s ((threadCounts args)[j]?.getD 0)).gen := by
    intro j t ht
    rw [ht]
    exact (hs t).2.gen
  exact ⟨{ sigma := fun _ _ j _ _ => (s ((threadCounts args)[j]?.getD 0)).gen, delta := fun _ _ j _ _ => (s ((threadCounts args)[j]?.getD 0)).gen },
    ⟨fun _ _ _ _ _ => (hs _).1.gen, fun _ _ _ _ _ => (hs _).1.gen⟩, fun _ _ j _ _ t ht => h j t ht, fun _ _ j _ _ t ht => h j t ht⟩

/-- The graph with the arcs 0 → 1, 0 → 2, 1 → 3, 2 → 3, 3 → 4, with some comments -/
def wayFile (comments : List (List Char)) : MMText :=
  { field := .pattern, sym := .general, comments := comments, size := "5 5 5".toList,
    entries := ["1 2".toList, "1 3".toList, "2 4".toList, "3 4".toList, "4 5".toList] }

def wayEntries : List (Nat × Nat × Rat) := [(0, 1, 1), (0, 2, 1), (1, 3, 1), (2, 3, 1), (3, 4, 1)]

theorem way_describes {comments : List (List Char)} (h : ∀ l ∈ (wayFile comments).lines, '\n' ∉ l) :
    Describes (IntVal fun z => (z : Rat)) ((1 : Int) : Rat) (wayFile comments) 5 5 wayEntries where
  noNewline := h
  size := .mk ['5'] ['5'] ['5'] 5 5 5 (.digit 5 (by decide)) (.digit 5 (by decide)) (.digit 5 (by decide))
  entries := by
    have e1 : (1 : Rat) = ((1 : Int) : Rat) := by norm_num
    unfold wayEntries
    rw [e1]
    exact .cons (.pattern ['1'] ['2'] 0 1 (.digit 1 (by decide)) (.digit 2 (by decide)))
      (.cons (.pattern ['1'] ['3'] 0 2 (.digit 1 (by decide)) (.digit 3 (by decide)))
      (.cons (.pattern ['2'] ['4'] 1 3 (.digit 2 (by decide)) (.digit 4 (by decide)))
      (.cons (.pattern ['3'] ['4'] 2 3 (.digit 3 (by decide)) (.digit 4 (by decide)))
      (.cons (.pattern ['4'] ['5'] 3 4 (.digit 4 (by decide)) (.digit 5 (by decide)))
      .nil))))
  inBounds := by unfold wayEntries; simp
  square := fun _ => rfl

def wayText : List Char := Spec.banner .pattern .general ++ "\n5 5 5\n1 2\n1 3\n2 4\n3 4\n4 5\n".toList

/-- Sources 0 and 1: two of five vertices -/
theorem way_called (args : List Nat) (ha : ∀ t ∈ args, 0 < t) :
    BcCalled (bcSys id) (some wayText) (2 / 5) args 5 (wayFile []) wayEntries 2 [0, 1] :=
  ⟨⟨_, rfl, .inl ⟨[], by decide +kernel⟩⟩, way_describes (by decide +kernel), by decide +kernel, by decide, by decide,
    by unfold IsCount; rw [if_pos (by norm_num)]; norm_num [bcSys], by decide, by decide, .refl _, by decide, ha, by decide⟩

/-- Sources 4 and 3: no arc leads to another vertex. -/
theorem way_called_end (args : List Nat) (ha : ∀ t ∈ args, 0 < t) :
    BcCalled (bcSys List.reverse) (some wayText) (5 / 2) args 5 (wayFile []) wayEntries 2 [4, 3] :=
  ⟨⟨_, rfl, .inl ⟨[], by decide +kernel⟩⟩, way_describes (by decide +kernel), by decide +kernel, by decide, by decide,
    by unfold IsCount; rw [if_neg (by norm_num)]; norm_num, by decide, by decide, List.reverse_perm _, by decide, ha, by decide⟩

theorem way_plain : ¬MisleadingComment (wayFile []) := by
  rintro ⟨-, c, hc, -⟩
  cases hc

example := C94_partial (e := { mode := some "MSA".toList, inner := some 3 }) (nd := false) (dh := false) (way_called [2, 5] (by decide)) way_plain (by decide)
  (.inr (.inl (by decide +kernel))) "data/way.mtx".toList

example := C94_partial (e := { mode := some "all".toList }) (nd := true) (dh := false) (way_called [] (by simp)) way_plain (by decide) (.inl rfl) "way.mtx".toList

example := C94_partial (e := { mode := some "benchmark".toList, outer := some 2 }) (nd := false) (dh := false) (way_called_end [3] (by decide)) way_plain (by decide)
  (.inr (.inr (by
    have hg : (wayFile []).sym = .general := rfl
    rw [hg]
    rintro u v ⟨-, ⟨e, he, h1, h2⟩ | ⟨h, -⟩⟩ hu
    · simp only [wayEntries, List.mem_cons, List.not_mem_nil, or_false] at he
      simp only [List.mem_cons, List.not_mem_nil, or_false] at hu ⊢
      rcases hu with rfl | rfl <;> rcases he with rfl | rfl | rfl | rfl | rfl <;>
        first | exact absurd h1 (by decide) | exact .inl (Fin.ext h2.symm)
    · cases h))) "way.mtx".toList

theorem way_arc : arcs 5 (decide ((wayFile []).sym ≠ .general)) wayEntries 0 2 := ⟨by decide, .inl ⟨(0, 2, 1), by simp [wayEntries], rfl, rfl⟩⟩

example := C94_violated_heap (e := { mode := some "Benchmark".toList }) (dh := false) (way_called [2, 5] (by decide)) way_plain (by decide) (by decide)
  (by decide +kernel) way_arc (by decide) (by decide) "way.mtx".toList

example := C94_violated_iters (e := { mode := some "all".toList, inner := some 0, warmup := some 0 }) (way_called [2, 5] (by decide)) way_plain (by decide) false
  false "way.mtx".toList

example := C94_violated_negative (K := Rat) (y := bcSys id) (x := -1) (text := wayText) (t := wayFile []) (.inl ⟨[], by decide +kernel⟩) (way_describes (by decide +kernel))
  (by decide +kernel) (by decide) (by decide) (by norm_num) (by norm_num [bcSys]) (by norm_num [bcSys]) (.refl _)

example := C94_violated_zero (K := Rat) (y := bcSys id) (x := 1 / 20) (text := wayText) (t := wayFile []) (.inl ⟨[], by decide +kernel⟩) (way_describes (by decide +kernel))
  (by decide +kernel) (by norm_num) (by norm_num [bcSys]) (by norm_num [bcSys])

def wayComment : List Char := " not symmetric".toList

def wayCommentText : List Char := Spec.banner .pattern .general ++ "\n% not symmetric\n5 5 5\n1 2\n1 3\n2 4\n3 4\n4 5\n".toList

example := C94_violated_comment (u := 0) (v := 1)
  (show BcCalled (bcSys id) (some wayCommentText) 1 [] 5 (wayFile [wayComment]) wayEntries 1 [0] from
    ⟨⟨_, rfl, .inl ⟨[], by decide +kernel⟩⟩, way_describes (by decide +kernel), by decide +kernel, by decide, by decide,
      by unfold IsCount; rw [if_neg (by norm_num)]; norm_num, by decide, by decide, .refl _, by decide, by simp, by decide⟩)
  ⟨rfl, wayComment, by simp [wayFile], by decide +kernel⟩ (by decide) ⟨(0, 1, 1), by simp [wayEntries], rfl, rfl⟩ (by simp [wayEntries])

example := C94_sources (n := 5) (List.reverse_perm (List.range 5)) 2

end Verif.Props
