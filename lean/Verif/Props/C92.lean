import Verif.SpecTruss
import Verif.Lemmas.KTrussMain
import Verif.Props.C84

/-! # C92: the k-truss program with its modes -/

namespace Verif.Props

open Verif.Model Verif.Model.Bench Verif.Spec
open _root_.Verif.Model.KTruss (Method Event Sys Plan rounds_truss truss_unique runThreads_good Keeps loop_gives method_works after_le edges_mono)
open _root_.Verif.Model.Grb (Rep read_ok multOps_ok)
open _root_.Verif.Model.MaskedAll (Good Sch SchAdm SchFair seq_done seq_stop seq_good seqAll_good seqAll_append)

variable {n : Nat}

/-! ## What the program is given -/

/-- The program is called with `k`, the numbers of threads `args` (none: the standard list), and a file that describes a square matrix with the
entries `es` in lines of at most 255 characters. The calls are repeated at least once. The bound of the model for the rounds of the loops is
large enough. -/
structure KtCalled (y : Sys) (e : Env) (file : Option (List Char)) (k : Nat) (args : List Nat) (n : Nat) (es : List (Nat × Nat × Int)) : Prop where
  file : ∃ t text, file = some text ∧ Describes (IntVal id) (1 : Int) t n n es ∧ (∀ l ∈ t.lines, l.length ≤ 255) ∧ Lines t.lines text
  pos : 0 < n
  k : 2 ≤ k
  threads : ∀ t ∈ args, 0 < t
  dflt : 0 < y.dflt
  fuel : 2 * edges (graphOf n es) < y.fuel
  bits : 2 * edges (graphOf n es) + 512 < 2 ^ 64

/-- The iterations of the parallel loops are distributed in any way over the threads. -/
structure PlanAdm (y : Sys) (args : List Nat) (n : Nat) (p : Plan) : Prop where
  flopOrd : ∀ s, (p.flopOrd s).Perm (List.range n)
  flopSch : ∀ s, SchAdm n y.dflt (p.flopSch s)
  sch : ∀ r a j i s t, (threadCounts args)[j]? = some t → SchAdm n t (p.sch r a j i s)

/-- Every thread gets at least `K` turns. -/
structure PlanFair (y : Sys) (args : List Nat) (K : Nat) (p : Plan) : Prop where
  flopSch : ∀ s, SchFair y.dflt K (p.flopSch s)
  sch : ∀ r a j i s t, (threadCounts args)[j]? = some t → SchFair t K (p.sch r a j i s)

theorem threads_eq (args : List Nat) : KTruss.threads args = threadCounts args := rfl

theorem threads_pos {args : List Nat} (h : ∀ t ∈ args, 0 < t) : ∀ t ∈ threadCounts args, 0 < t := by
  unfold threadCounts
  split
  · decide
  · exact h

theorem threads_ne (args : List Nat) : threadCounts args ≠ [] := by
  unfold threadCounts
  split
  · simp
  · assumption

/-! ## What it prints -/

/-- The line about the graph and, in the mode `flops`, the number of operations -/
noncomputable def ktHead (G : SimpleGraph (Fin n)) (f mode : List Char) (k r : Nat) : List Event :=
  [.graph n (2 * edges G)] ++ if mode = "flops".toList then [.flops f (2 * ∑ s ∈ Finset.range r, walks (after k G s))] else []

/-- The lines of algorithms: the number of entries and the number of rounds -/
def ktLines (f : List Char) (names : List (List Char)) (ts : List Nat) (nnz r : Nat) : List Event :=
  names.flatMap fun name => ts.map fun t => .log f name t nnz r

/-! ## The algorithms of a mode -/

def ktShown (a : List Char × Method) : List Char := match processName a.1 with | .ok x => x | .error _ => []

def okMethod : Method → Bool
  | .grb => true
  | .msp (.lib (.gen (.heap d)) _) => d ≤ 512 || d == 2 ^ 64 - 1
  | .msp (.lib a _) => !a.compl
  | .msp .poly => false
  | .msp .nohash => false
  | _ => true

theorem okMethod_fits {a : Method} (h : okMethod a = true) {nnz : Nat} (hnz : nnz + 512 < 2 ^ 64) : a.Fits nnz := by
  cases a with
  | grb => trivial
  | msp k =>
    cases k with
    | poly => cases h
    | nohash => cases h
    | lib a two =>
      refine ⟨by simp, by simp, ?_⟩
      show Graph.Usable a nnz
      cases a with
      | inner => exact ⟨rfl, fun d hd => by cases hd⟩
      | gen g =>
        cases g <;> first
          | (refine ⟨by simpa [okMethod] using h, fun d hd => by cases hd⟩)
          | skip
        rename_i d
        refine ⟨rfl, fun d' hd => ?_⟩
        cases hd
        simp only [okMethod, Bool.or_eq_true, decide_eq_true_eq, beq_iff_eq] at h
        omega
    | _ => exact ⟨by simp, by simp, trivial⟩

def ktModes : List (List Char) := ktrussBins ++ ["grb".toList, "heap".toList, "all1p".toList, "all2p".toList, "benchmark".toList]

theorem kt_other {mode : List Char} (h : mode ∉ ktModes) (dh : Bool) : KTruss.algs mode dh = [] ∧ ktrussNames mode dh = [] := by
  simp only [ktModes, ktrussBins, List.mem_append, List.mem_cons, List.not_mem_nil, or_false, not_or] at h
  obtain ⟨⟨h1, h2, h3⟩, h4, h5, h6, h7, h8⟩ := h
  constructor
  · unfold KTruss.algs
    rw [if_neg (by tauto), if_neg (by tauto), if_neg (by tauto), if_neg (by tauto), if_neg (by tauto), if_neg (by tauto), if_neg (by tauto)]
    rfl
  · unfold ktrussNames
    simp only [if_neg h1, if_neg h2, if_neg h3, if_neg h4, if_neg h5, if_neg h6, if_neg h7, if_neg h8]

theorem kt_modes {P : List Char → Prop} (h : ∀ m ∈ ktModes, P m) (h0 : ∀ m, m ∉ ktModes → P m) (m : List Char) : P m := by
  by_cases hm : m ∈ ktModes
  · exact h m hm
  · exact h0 m hm

theorem kt_names (mode : List Char) (dh : Bool) : (KTruss.algs mode dh).map (fun a => processName a.1) = (ktrussNames mode dh).map .ok := by
  revert dh mode
  refine kt_modes ?_ ?_
  · decide +kernel
  · intro m hm dh
    rw [(kt_other hm dh).1, (kt_other hm dh).2]
    rfl

theorem kt_kinds (mode : List Char) : ∀ dh, ∀ a ∈ KTruss.algs mode dh, (mode ≠ "all1p".toList → okMethod a.2 = true) ∧ (a.2.bins = true → mode ∈ ktrussBins) := by
  revert mode
  refine kt_modes ?_ ?_
  · decide +kernel
  · intro m hm dh
    rw [(kt_other hm dh).1]
    intro a ha
    cases ha

theorem kt_shown (mode : List Char) (dh : Bool) : (∀ a ∈ KTruss.algs mode dh, processName a.1 = .ok (ktShown a)) ∧
    (KTruss.algs mode dh).map ktShown = ktrussNames mode dh := by
  have h := kt_names mode dh
  constructor
  · intro a ha
    have : processName a.1 ∈ (ktrussNames mode dh).map .ok := h ▸ List.mem_map_of_mem ha
    obtain ⟨x, -, hx⟩ := List.mem_map.1 this
    unfold ktShown
    rw [← hx]
  · have h' : ((KTruss.algs mode dh).map (fun a => processName a.1)).map (fun r => match r with | .ok x => x | .error _ => []) = ktrussNames mode dh := by
      rw [h, List.map_map]
      exact List.map_id _
    rw [List.map_map] at h'
    exact h'

/-! ## The parts of a run -/

theorem rounds_unique {k r r' : Nat} {G : SimpleGraph (Fin n)} (h : IsRounds k G r) (h' : IsRounds k G r') : r = r' := by
  rcases Nat.lt_trichotomy r r' with hlt | he | hlt
  · exact absurd h.done (h'.first r h.pos hlt)
  · exact he
  · exact absurd h'.done (h.first r' h'.pos hlt)

theorem keeps_max {k : Nat} (hk : 2 ≤ k) : Keeps (max k 3) (KTruss.ge k) := by
  refine ⟨le_max_right _ _, fun v hv => ?_⟩
  unfold KTruss.ge
  rw [decide_eq_decide]
  omega

section
variable {y : Sys} {e : Env} {file : Option (List Char)} {k : Nat} {args : List Nat} {es : List (Nat × Nat × Int)}

/-- The lines of one algorithm, and of algorithms one after the other -/
theorem algs_lines (h : KtCalled y e file k args n es) (hit : 0 < e.warmupIters + e.innerIters) {A : CSR Int} (hA : Represents (graphOf n es) A) {r : Nat}
    (hr : IsRounds (max k 3) (graphOf n es) r) (path mode : List Char) {dh : Bool}
    {l : List ((List Char × Method) × Nat)} (hl : ∀ a ∈ l, a.1 ∈ KTruss.algs mode dh ∧ okMethod a.1.2 = true ∧ (a.1.2.bins → n + 1 < 2 ^ 17)) :
    ∃ K, ∀ sch : Nat → Nat → Nat → Nat → Sch, (∀ a j i s t, (threadCounts args)[j]? = some t → SchAdm n t (sch a j i s)) →
      Good (∀ a j i s t, (threadCounts args)[j]? = some t → SchFair t K (sch a j i s))
        (ktLines (getFileName path) (l.map fun a => ktShown a.1) (threadCounts args) (2 * edges (after (max k 3) (graphOf n es) r)) r)
        (seqAll (l.map fun a => KTruss.runAlg y e path k A (threadCounts args) a.1 (sch a.2))) := by
  have hone : ∀ a ∈ l, ∃ K, ∀ t ∈ threadCounts args, ∀ sch : Nat → Nat → Sch, (∀ i s, SchAdm n t (sch i s)) → Good (∀ i s, SchFair t K (sch i s))
      [.log (getFileName path) (ktShown a.1) t (2 * edges (after (max k 3) (graphOf n es) r)) r] (KTruss.runThreads y e path k A a.1 t sch) := by
    intro a ha
    refine exists_bound (P := fun t K => ∀ sch : Nat → Nat → Sch, (∀ i s, SchAdm n t (sch i s)) → Good (∀ i s, SchFair t K (sch i s))
      [.log (getFileName path) (ktShown a.1) t (2 * edges (after (max k 3) (graphOf n es) r)) r] (KTruss.runThreads y e path k A a.1 t sch)) ?_ _ ?_
    · intro t K K' hK hP sch hadm
      exact (hP sch hadm).weaken fun hf i s => (hf i s).mono hK
    · intro t ht
      obtain ⟨r', K, hr', hK⟩ := runThreads_good h.pos hit path (keeps_max h.k) hA h.fuel ((kt_shown mode dh).1 a.1 (hl a ha).1)
        (okMethod_fits (hl a ha).2.1 h.bits) (hl a ha).2.2 (threads_pos h.threads t ht) (y := y)
      obtain rfl := rounds_unique hr hr'
      exact ⟨K, hK⟩
  obtain ⟨K, hK⟩ := exists_bound (by
    intro a K K' hK hP t ht sch hadm
    exact (hP t ht sch hadm).weaken fun hf i s => (hf i s).mono hK) l hone
  refine ⟨K, fun sch hadm => ?_⟩
  unfold ktLines
  rw [List.flatMap_map]
  refine seqAll_good l fun a ha => ?_
  unfold KTruss.runAlg
  have hz : (threadCounts args).map (fun t => Event.log (getFileName path) (ktShown a.1) t (2 * edges (after (max k 3) (graphOf n es) r)) r) =
      (threadCounts args).zipIdx.flatMap fun t => [Event.log (getFileName path) (ktShown a.1) t.1 (2 * edges (after (max k 3) (graphOf n es) r)) r] := by
    rw [← List.map_eq_flatMap]
    conv => lhs; rw [← List.zipIdx_map_fst 0 (threadCounts args), List.map_map]
    rfl
  rw [hz]
  refine seqAll_good _ fun t ht => ?_
  have ht' : (threadCounts args)[t.2]? = some t.1 := List.mem_zipIdx_iff_getElem?.1 ht
  exact (hK a ha t.1 (List.fst_mem_of_mem_zipIdx ht) (sch a.2 t.2) fun i s => hadm _ _ _ _ _ ht').weaken fun hf i s => hf _ _ _ _ _ ht'

/-- Up to the rounds of `main` -/
theorem KtCalled.setup (h : KtCalled y e file k args n es) : ∃ A r K0, Represents (graphOf n es) A ∧ IsRounds (max k 3) (graphOf n es) r ∧
    ∀ p, PlanAdm y args n p → ∀ dh path,
      KTruss.main y p e dh path file k args = Out.seq ⟨ktHead (graphOf n es) (getFileName path) e.modeStr (max k 3) r, .ok (some ())⟩
        (seqAll ((List.range e.outerIters).map fun r => KTruss.round y e dh (getFileName path) k A (threadCounts args) (p.sch r))) ∨
      (¬PlanFair y args K0 p ∧ KTruss.main y p e dh path file k args = ⟨[.graph n (2 * edges (graphOf n es))], .ok none⟩) := by
  obtain ⟨t, text, rfl, hd, hlen, hlines⟩ := h.file
  obtain ⟨A, hread, hA⟩ := read_ok y.fresh y.rnd min (fun x y => x + y) (ofInt := (id : Int → Int)) hd hlen hlines
  have hR := Rep.of hA
  have hk := keeps_max h.k
  obtain ⟨T', r, K0, hr, -, hrun⟩ := loop_gives (method_works h.pos (a := .msp (.lib (.gen .msa2) false)) (okMethod_fits rfl h.bits) (fun hb => by cases hb)
      h.dflt y.dflt) walks hk
    (2 * edges (graphOf n es) + 1) _ A 1 0 hR (fun _ => hA.sorted) (by rw [hR.nnz]) (by rw [hR.nnz]; omega)
  have hK0 : ∀ p, PlanAdm y args n p → Gives (∀ s, SchFair y.dflt K0 (p.flopSch s)) (KTruss.total walks (max k 3) (graphOf n es) r)
      (KTruss.countOps y p k A) := by
    intro p hp
    unfold KTruss.countOps
    rcases hrun y.fuel h.fuel (fun step T => Grb.multOps T T (p.flopOrd step)) (fun step H T hT => multOps_ok hT (hp.flopOrd step)) p.flopSch hp.flopSch with e1 | ⟨hn, e1⟩
    · rw [e1, ok_bind]
      exact .inl (by simp)
    · rw [e1, ok_bind]
      exact .inr ⟨hn, rfl⟩
  refine ⟨A, r, K0, hA, hr, fun p hp dh path => ?_⟩
  unfold KTruss.main
  rw [if_neg (by have := h.k; omega), hread, threads_eq]
  dsimp only
  rw [hR.nnz, hA.rows]
  rcases hK0 p hp with e1 | ⟨hn, e1⟩
  · rw [e1]
    left
    dsimp only
    rw [← MaskedAll.seq_assoc, seq_done (a := ⟨[Event.graph n (2 * edges (graphOf n es))], .ok (some ())⟩) rfl]
    unfold ktHead KTruss.total
    rw [Nat.mul_comm 2 (∑ s ∈ Finset.range r, walks (after (max k 3) (graphOf n es) s))]
  · rw [e1]
    right
    exact ⟨fun hf => hn hf.flopSch, by rw [seq_done rfl]; rfl⟩

theorem iters_pos {e : Env} (h : ¬(e.inner = some 0 ∧ e.warmup = some 0)) : 0 < e.warmupIters + e.innerIters := by
  unfold Env.warmupIters Env.innerIters
  revert h
  rcases e.inner with _ | _ | c <;> rcases e.warmup with _ | _ | d <;> simp

theorem fileName_idem (path : List Char) : getFileName (getFileName path) = getFileName path := by
  have h := C80_file path
  rcases C80_file (getFileName path) with ⟨h1, h2 | ⟨dir, h2⟩⟩
  · exact h2.symm
  · exact absurd (by rw [h2]; simp) h.1

/-- Rounds of `main`, one after the other -/
theorem rounds_lines (h : KtCalled y e file k args n es) (hit : 0 < e.warmupIters + e.innerIters) {A : CSR Int} (hA : Represents (graphOf n es) A) {r : Nat}
    (hr : IsRounds (max k 3) (graphOf n es) r) (path : List Char) (hmode : e.modeStr ≠ "all1p".toList) (hbin : e.modeStr ∈ ktrussBins → n + 1 < 2 ^ 17) (dh : Bool) :
    ∃ K, ∀ p, PlanAdm y args n p → Good (PlanFair y args K p)
      (List.replicate e.outerIters (ktLines (getFileName path) (ktrussNames e.modeStr dh) (threadCounts args)
        (2 * edges (after (max k 3) (graphOf n es) r)) r)).flatten
      (seqAll ((List.range e.outerIters).map fun r => KTruss.round y e dh path k A (threadCounts args) (p.sch r))) := by
  obtain ⟨K, hK⟩ := algs_lines h hit hA hr path e.modeStr (dh := dh) (l := (KTruss.algs e.modeStr dh).zipIdx) (fun a ha => by
    have hm := List.fst_mem_of_mem_zipIdx ha
    exact ⟨hm, (kt_kinds _ dh a.1 hm).1 hmode, fun hb => hbin ((kt_kinds _ dh a.1 hm).2 hb)⟩)
  refine ⟨K, fun p hp => ?_⟩
  have hn : ((KTruss.algs e.modeStr dh).zipIdx.map fun a => ktShown a.1) = ktrussNames e.modeStr dh := by
    rw [← (kt_shown e.modeStr dh).2]
    conv => rhs; rw [← List.zipIdx_map_fst 0 (KTruss.algs e.modeStr dh), List.map_map]
    rfl
  rw [hn] at hK
  generalize ktLines (getFileName path) (ktrussNames e.modeStr dh) (threadCounts args) (2 * edges (after (max k 3) (graphOf n es) r)) r = w at hK
  have hw : (List.replicate e.outerIters w).flatten = (List.range e.outerIters).flatMap fun _ => w := by
    rw [← List.flatMap_id, ← List.length_range (n := e.outerIters), ← List.map_const, List.flatMap_map, List.length_range]
    rfl
  rw [hw]
  refine seqAll_good _ fun i _ => ?_
  exact (hK (p.sch i) fun a j i s t ht => hp.sch _ _ _ _ _ _ ht).weaken fun hf a j i s t ht => hf.sch _ _ _ _ _ _ ht

/-- **C92** (partial). The program is called with a file that describes a square matrix, with `k ≥ 2` and some numbers of threads; let `G` be the
graph of the file. In every run, in every mode but `all1p`, it prints the number of vertices and twice the number of edges of `G`; then, in the
mode `flops`, twice the number of walks with two steps, added up over the graphs at the start of each round; then for each round of `main`, each
algorithm of the mode and each number of threads a line with twice the number of edges of the largest `k`-truss of `G` (for `k = 2`: of the
3-truss) and the number of rounds of the computation. If every thread gets enough turns, the program comes to its end. The modes `msa`, `hash`
and `all` need less than `2^17 - 1` vertices. Missing: the other cases (see `C92_violated_…`). -/
theorem C92_partial (h : KtCalled y e file k args n es) (hit : ¬(e.inner = some 0 ∧ e.warmup = some 0))
    (hmode : (e.mode.getD []).map Char.toLower ≠ "all1p".toList) (hrows : (e.mode.getD []).map Char.toLower ∈ ktrussBins → n + 1 < 2 ^ 17)
    (dh : Bool) (path : List Char) :
    ∃ T r f, IsLargestTruss (max k 3) (graphOf n es) T ∧ IsRounds (max k 3) (graphOf n es) r ∧ IsFileName path f ∧
      let want := ktHead (graphOf n es) f ((e.mode.getD []).map Char.toLower) (max k 3) r ++ (List.replicate (e.outer.getD 1)
        (ktLines f (ktrussNames ((e.mode.getD []).map Char.toLower) dh) (threadCounts args) (2 * edges T) r)).flatten
      (∀ p, PlanAdm y args n p → KTruss.main y p e dh path file k args = ⟨want, .ok (some ())⟩ ∨
        ((KTruss.main y p e dh path file k args).status = .ok none ∧ (KTruss.main y p e dh path file k args).events <+: want)) ∧
      ∃ K, ∀ p, PlanAdm y args n p → PlanFair y args K p → KTruss.main y p e dh path file k args = ⟨want, .ok (some ())⟩ := by
  obtain ⟨A, r, K0, hA, hr, hmain⟩ := h.setup
  obtain ⟨K1, hK1⟩ := rounds_lines h (iters_pos hit) hA hr (getFileName path) hmode hrows dh
  rw [fileName_idem] at hK1
  have key : ∀ p, PlanAdm y args n p → Good (PlanFair y args (max K0 K1) p) (ktHead (graphOf n es) (getFileName path) e.modeStr (max k 3) r ++
      (List.replicate e.outerIters (ktLines (getFileName path) (ktrussNames e.modeStr dh) (threadCounts args)
        (2 * edges (after (max k 3) (graphOf n es) r)) r)).flatten) (KTruss.main y p e dh path file k args) := by
    intro p hp
    rcases hmain p hp dh path with e1 | ⟨hn, e1⟩
    · rw [e1]
      exact seq_good (.inl rfl) ((hK1 p hp).weaken fun hf => ⟨fun s => (hf.flopSch s).mono (Nat.le_max_right _ _),
        fun _ _ _ _ _ _ ht => (hf.sch _ _ _ _ _ _ ht).mono (Nat.le_max_right _ _)⟩)
    · rw [e1]
      refine .inr ⟨fun hf => hn ⟨fun s => (hf.flopSch s).mono (Nat.le_max_left _ _), fun _ _ _ _ _ _ ht => (hf.sch _ _ _ _ _ _ ht).mono (Nat.le_max_left _ _)⟩, rfl, ?_⟩
      unfold ktHead
      rw [List.append_assoc]
      exact List.prefix_append _ _
  refine ⟨after (max k 3) (graphOf n es) r, r, getFileName path, rounds_truss hr, hr, C80_file path, fun p hp => ?_, max K0 K1, fun p hp hf => ?_⟩
  · rcases key p hp with e1 | ⟨-, e1⟩
    · exact .inl e1
    · exact .inr e1
  · rcases key p hp with e1 | ⟨hn, -⟩
    · exact e1
    · exact absurd hf hn

/-- If the first multiplication never returns, nothing is printed. -/
theorem threads_never {A : CSR Int} (path : List Char) (hit : 0 < e.warmupIters + e.innerIters) {a : List Char × Method} {t : Nat} {sch : Nat → Nat → Sch}
    (h : ∀ C, a.2.mult t y.dflt A (sch 0 1) ≠ .ok (some C)) :
    (KTruss.runThreads y e path k A a t sch).status ≠ .ok (some ()) ∧ (KTruss.runThreads y e path k A a t sch).events = [] := by
  have hl : ∀ x, KTruss.loop (a.2.mult t y.dflt) (fun _ _ => .ok 0) (KTruss.ge k) (sch 0) y.fuel A A.nnz 1 0 ≠ .ok (some x) := by
    intro x
    cases y.fuel with
    | zero => intro e; cases e
    | succ m =>
      unfold KTruss.loop
      rw [ok_bind]
      revert h
      rcases a.2.mult t y.dflt A (sch 0 1) with x | _ | C
      · intro _ e; cases e
      · intro _ e; cases e
      · intro h; exact absurd rfl (h C)
  have := KTruss.lastOf_never (f := fun i => KTruss.loop (a.2.mult t y.dflt) (fun _ _ => .ok 0) (KTruss.ge k) (sch i) y.fuel A A.nnz 1 0) (i := 0)
    (is := (List.range (e.warmupIters + e.innerIters - 1)).map Nat.succ) (y := none) hl
  rw [← List.range_succ_eq_map, show e.warmupIters + e.innerIters - 1 + 1 = e.warmupIters + e.innerIters by omega] at this
  unfold KTruss.runThreads
  revert this
  generalize KTruss.lastOf _ _ _ = o
  rcases o with x | _ | o
  · intro _; exact ⟨by simp, rfl⟩
  · intro _; exact ⟨by simp, rfl⟩
  · intro h; exact absurd rfl (h o)

/-- A list of which the first element stops -/
theorem seqAll_first {E : Type} {a : Out E} {l : List (Out E)} (h : a.status ≠ .ok (some ())) : seqAll (a :: l) = a := by
  simp only [seqAll]
  exact seq_stop h

theorem alg_never {A : CSR Int} (path : List Char) (hit : 0 < e.warmupIters + e.innerIters) {a : List Char × Method} {sch : Nat → Nat → Nat → Sch}
    (h : ∀ t, (threadCounts args)[0]? = some t → ∀ C, a.2.mult t y.dflt A (sch 0 0 1) ≠ .ok (some C)) :
    (KTruss.runAlg y e path k A (threadCounts args) a sch).status ≠ .ok (some ()) ∧
      (KTruss.runAlg y e path k A (threadCounts args) a sch).events = [] := by
  obtain ⟨t, ts, ht⟩ : ∃ t ts, threadCounts args = t :: ts := by
    cases hh : threadCounts args with
    | nil => exact absurd hh (threads_ne args)
    | cons t ts => exact ⟨t, ts, rfl⟩
  rw [ht] at h ⊢
  unfold KTruss.runAlg
  rw [List.zipIdx_cons, List.map_cons]
  have := threads_never (y := y) (k := k) path hit (h t rfl)
  rw [seqAll_first this.1]
  exact this

/-- The algorithms of a mode start with some that work and go on with one that never returns. -/
theorem main_never (h : KtCalled y e file k args n es) (hit : 0 < e.warmupIters + e.innerIters) (hout : 0 < e.outerIters) (dh : Bool) (path : List Char)
    {l1 l2 : List (List Char × Method)} {a : List Char × Method} (hl : KTruss.algs e.modeStr dh = l1 ++ a :: l2)
    (hok : ∀ b ∈ l1, okMethod b.2 = true ∧ b.2.bins = false)
    (ha : ∀ A, Represents (graphOf n es) A → ∀ t, 0 < t → ∀ s, SchAdm n t s → ∀ C, a.2.mult t y.dflt A s ≠ .ok (some C)) :
    ∃ T r f, IsLargestTruss (max k 3) (graphOf n es) T ∧ IsRounds (max k 3) (graphOf n es) r ∧ IsFileName path f ∧
      let want := ktHead (graphOf n es) f e.modeStr (max k 3) r ++ ktLines f (l1.map ktShown) (threadCounts args) (2 * edges T) r
      (∀ p, PlanAdm y args n p → (KTruss.main y p e dh path file k args).status ≠ .ok (some ()) ∧
        (KTruss.main y p e dh path file k args).events <+: want) ∧
      ∃ K, ∀ p, PlanAdm y args n p → PlanFair y args K p → (KTruss.main y p e dh path file k args).events = want := by
  obtain ⟨A, r, K0, hA, hr, hmain⟩ := h.setup
  obtain ⟨K1, hK1⟩ := algs_lines h hit hA hr (getFileName path) e.modeStr (dh := dh) (l := l1.zipIdx) (fun b hb => by
    have hm := List.fst_mem_of_mem_zipIdx hb
    exact ⟨by rw [hl]; simp [hm], (hok _ hm).1, by rw [(hok _ hm).2]; simp⟩)
  rw [fileName_idem] at hK1
  have hn : (l1.zipIdx.map fun a => ktShown a.1) = l1.map ktShown := by
    conv => rhs; rw [← List.zipIdx_map_fst 0 l1, List.map_map]
    rfl
  rw [hn] at hK1
  generalize hw : ktLines (getFileName path) (l1.map ktShown) (threadCounts args) (2 * edges (after (max k 3) (graphOf n es) r)) r = w at hK1
  have key : ∀ p, PlanAdm y args n p → (KTruss.main y p e dh path file k args).status ≠ .ok (some ()) ∧
      ((KTruss.main y p e dh path file k args).events = ktHead (graphOf n es) (getFileName path) e.modeStr (max k 3) r ++ w ∨
        (¬PlanFair y args (max K0 K1) p ∧ (KTruss.main y p e dh path file k args).events <+: ktHead (graphOf n es) (getFileName path) e.modeStr (max k 3) r ++ w)) := by
    intro p hp
    rcases hmain p hp dh path with e1 | ⟨hn, e1⟩
    · rw [e1, seq_done rfl]
      obtain ⟨m, hm⟩ : ∃ m, e.outerIters = m + 1 := ⟨e.outerIters - 1, by omega⟩
      rw [hm, List.range_succ_eq_map, List.map_cons]
      have hround : (KTruss.round y e dh (getFileName path) k A (threadCounts args) (p.sch 0)).status ≠ .ok (some ()) ∧
          ((KTruss.round y e dh (getFileName path) k A (threadCounts args) (p.sch 0)).events = w ∨
          (¬PlanFair y args (max K0 K1) p ∧ (KTruss.round y e dh (getFileName path) k A (threadCounts args) (p.sch 0)).events <+: w)) := by
        unfold KTruss.round
        rw [hl, List.zipIdx_append, List.zipIdx_cons, List.map_append, List.map_cons, seqAll_append]
        have hlast := alg_never (y := y) (k := k) (args := args) (A := A) (getFileName path) hit (a := a) (sch := p.sch 0 (0 + l1.length)) (fun t ht C =>
          ha A hA t (threads_pos h.threads t (List.mem_of_getElem? ht)) _ (hp.sch _ _ _ _ _ _ ht) C)
        rw [seqAll_first hlast.1]
        rcases hK1 (p.sch 0) (fun _ _ _ _ _ ht => hp.sch _ _ _ _ _ _ ht) with e1 | ⟨hn, e1, e2⟩
        · rw [e1, seq_done rfl]
          exact ⟨hlast.1, .inl (by rw [hlast.2]; simp)⟩
        · rw [seq_stop (by rw [e1]; simp)]
          exact ⟨by rw [e1]; simp, .inr ⟨fun hf => hn fun _ _ _ _ _ ht => (hf.sch _ _ _ _ _ _ ht).mono (Nat.le_max_right _ _), e2⟩⟩
      rw [seqAll_first hround.1]
      refine ⟨hround.1, ?_⟩
      rcases hround.2 with e2 | ⟨hn, e2⟩
      · exact .inl (by rw [e2])
      · exact .inr ⟨hn, (List.prefix_append_right_inj _).2 e2⟩
    · rw [e1]
      refine ⟨by simp, .inr ⟨fun hf => hn ⟨fun s => (hf.flopSch s).mono (Nat.le_max_left _ _), fun _ _ _ _ _ _ ht => (hf.sch _ _ _ _ _ _ ht).mono (Nat.le_max_left _ _)⟩, ?_⟩⟩
      unfold ktHead
      rw [List.append_assoc]
      exact List.prefix_append _ _
  refine ⟨after (max k 3) (graphOf n es) r, r, getFileName path, rounds_truss hr, hr, C80_file path, ?_⟩
  rw [hw]
  refine ⟨fun p hp => ⟨(key p hp).1, ?_⟩, max K0 K1, fun p hp hf => ?_⟩
  · rcases (key p hp).2 with e1 | ⟨-, e1⟩
    · rw [e1]
    · exact e1
  · rcases (key p hp).2 with e1 | ⟨hn, -⟩
    · exact e1
    · exact absurd hf hn

theorem rep_valid {G : SimpleGraph (Fin n)} {A : CSR Int} (hA : Represents G A) (hn : 0 < n) : Valid A A A :=
  ⟨hA.wf, hA.wf, hA.wf, ⟨hA.cols.trans hA.rows.symm, rfl, rfl⟩, hA.rows ▸ hn⟩

/-- C92, violated for the mode `all1p`: for every file whose graph has an edge the last algorithm of the mode never returns (it uses unset memory,
C39), so that the program prints at most the lines of the first seven and does not come to its end. -/
theorem C92_violated_all1p (h : KtCalled y e file k args n es) (hit : ¬(e.inner = some 0 ∧ e.warmup = some 0)) (hrounds : 0 < e.outer.getD 1)
    (hmode : (e.mode.getD []).map Char.toLower = "all1p".toList) (hedge : graphOf n es ≠ ⊥) (dh : Bool) (path : List Char) :
    ∃ T r f, IsLargestTruss (max k 3) (graphOf n es) T ∧ IsRounds (max k 3) (graphOf n es) r ∧ IsFileName path f ∧
      let want := ktHead (graphOf n es) f "all1p".toList (max k 3) r ++
        ktLines f (ktrussNames "all1p".toList dh).dropLast (threadCounts args) (2 * edges T) r
      (∀ p, PlanAdm y args n p → (KTruss.main y p e dh path file k args).status ≠ .ok (some ()) ∧
        (KTruss.main y p e dh path file k args).events <+: want) ∧
      ∃ K, ∀ p, PlanAdm y args n p → PlanFair y args K p → (KTruss.main y p e dh path file k args).events = want := by
  have hms : e.modeStr = "all1p".toList := hmode
  have hsplit : ∀ dh, KTruss.algs "all1p".toList dh = (KTruss.algs "all1p".toList dh).take 7 ++ [("MaskedSpGEMM1p".toList, .msp .poly)] := by
    decide +kernel
  have hfirst : ∀ dh, ∀ b ∈ (KTruss.algs "all1p".toList dh).take 7, okMethod b.2 = true ∧ b.2.bins = false := by decide +kernel
  have hnames : ∀ dh, ((KTruss.algs "all1p".toList dh).take 7).map ktShown = (ktrussNames "all1p".toList dh).dropLast := by decide +kernel
  have := main_never h (iters_pos hit) hrounds dh path (l1 := (KTruss.algs "all1p".toList dh).take 7) (l2 := []) (a := ("MaskedSpGEMM1p".toList, .msp .poly))
    (by rw [hms]; exact hsplit dh) (hfirst dh) (by
      intro A hA t ht s hs C hc
      have hne : ∃ u v, (graphOf n es).Adj u v := by
        by_contra hno
        push Not at hno
        exact hedge (by ext u v; simp [hno u v])
      obtain ⟨u, v, huv⟩ := hne
      have hu : u.val < A.rows := hA.rows ▸ u.2
      have h1 := (hA.adj u v).2 huv
      have h2 := (hA.adj v u).2 huv.symm
      refine C39_violated (fun _ _ : Int => 1) (fun x y => x + y) (A := A) (B := A) (M := A) (rep_valid hA h.pos) hu ?_
        (ofRows A.rows A.rows true fun _ => [] : CSR Int).zerobased (nt := t) (dflt := y.dflt) ?_ ⟨s.gen, C, hA.rows ▸ hs.gen, hc⟩
      · unfold rowWork
        rw [if_neg (fun hh => by rw [hh.2] at h1; cases h1), Ne, List.length_eq_zero_iff]
        intro h0
        obtain ⟨x, hx⟩ := List.mem_map.1 (show v.val ∈ (A.row u).map Prod.fst by rw [CSR.row_map_fst hA.wf]; exact h1)
        obtain ⟨z, hz⟩ := List.mem_map.1 (show u.val ∈ (A.row v).map Prod.fst by rw [CSR.row_map_fst hA.wf]; exact h2)
        have : u.val ∈ touched A A u := by
          unfold touched
          refine List.mem_flatMap.2 ⟨x, hx.1, ?_⟩
          rw [hx.2]
          exact List.mem_map.2 ⟨z, hz⟩
        rw [h0] at this
        cases this
      · unfold setNumThreads
        have := h.dflt
        split <;> assumption)
  rw [hnames dh, hms] at this
  exact this

/-- C92, violated from `2^17 - 1` vertices on, in the modes `msa`, `hash` and `all`: an algorithm never returns, so that the program prints at most
the lines of the algorithms of GraphBLAS (in the mode `all`), and does not come to its end. -/
theorem C92_violated_rows (h : KtCalled y e file k args n es) (hit : ¬(e.inner = some 0 ∧ e.warmup = some 0)) (hrounds : 0 < e.outer.getD 1)
    (hmode : (e.mode.getD []).map Char.toLower ∈ ktrussBins) (hbig : 2 ^ 17 ≤ n + 1) (dh : Bool) (path : List Char) :
    ∃ T r f, IsLargestTruss (max k 3) (graphOf n es) T ∧ IsRounds (max k 3) (graphOf n es) r ∧ IsFileName path f ∧
      let names := if (e.mode.getD []).map Char.toLower = "all".toList then ktrussNames "grb".toList dh else []
      let want := ktHead (graphOf n es) f ((e.mode.getD []).map Char.toLower) (max k 3) r ++ ktLines f names (threadCounts args) (2 * edges T) r
      (∀ p, PlanAdm y args n p → (KTruss.main y p e dh path file k args).status ≠ .ok (some ()) ∧
        (KTruss.main y p e dh path file k args).events <+: want) ∧
      ∃ K, ∀ p, PlanAdm y args n p → PlanFair y args K p → (KTruss.main y p e dh path file k args).events = want := by
  have hsplit : ∀ mode ∈ ktrussBins, ∀ dh, ∃ l1 a l2, KTruss.algs mode dh = l1 ++ a :: l2 ∧ (∀ b ∈ l1, okMethod b.2 = true ∧ b.2.bins = false) ∧
      (a.2 = .msp .spa ∨ a.2 = .msp .wobin) ∧ l1.map ktShown = if mode = "all".toList then ktrussNames "grb".toList dh else [] := by
    have h1 : ∀ mode ∈ ktrussBins, ∀ dh, ∃ i : Fin 6, KTruss.algs mode dh = (KTruss.algs mode dh).take i ++ (KTruss.algs mode dh).drop i ∧
        (∀ b ∈ (KTruss.algs mode dh).take i, okMethod b.2 = true ∧ b.2.bins = false) ∧
        ((((KTruss.algs mode dh).drop i).head?.map Prod.snd) = some (.msp .spa) ∨ (((KTruss.algs mode dh).drop i).head?.map Prod.snd) = some (.msp .wobin)) ∧
        ((KTruss.algs mode dh).take i).map ktShown = if mode = "all".toList then ktrussNames "grb".toList dh else [] := by
      decide +kernel
    intro mode hm dh
    obtain ⟨i, h2, h3, h4, h5⟩ := h1 mode hm dh
    cases hd : (KTruss.algs mode dh).drop i with
    | nil => rw [hd] at h4; simp at h4
    | cons a l2 =>
      rw [hd] at h4 h2
      exact ⟨_, a, l2, h2, h3, by simpa using h4, h5⟩
  obtain ⟨l1, a, l2, h1, h2, h3, h4⟩ := hsplit _ hmode dh
  have := main_never h (iters_pos hit) hrounds dh path h1 h2 (by
    intro A hA t ht s hs C hc
    have hbig' : 2 ^ 17 ≤ A.rows + 1 := hA.rows ▸ hbig
    rcases h3 with h3 | h3
    · rw [h3] at hc
      exact C31_violated_spa _ _ _ hbig' h.dflt _ C hc
    · rw [h3] at hc
      exact C31_violated_wobin (fun _ _ : Int => 1) (fun x y => x + y) (A := A) (B := A) (M := A) (rep_valid hA h.pos) 0
        hbig' h.dflt (hA.rows ▸ hs.order1) C hc)
  rw [h4] at this
  exact this

/-- C92, violated without iterations: in every mode with algorithms the program uses a number that was never set. -/
theorem C92_violated_iters (h : KtCalled y e file k args n es) (hit : e.inner = some 0 ∧ e.warmup = some 0) (hrounds : 0 < e.outer.getD 1)
    (dh : Bool) (hmode : ktrussNames ((e.mode.getD []).map Char.toLower) dh ≠ []) (path : List Char) :
    ∃ K, ∀ p, PlanAdm y args n p → PlanFair y args K p → (KTruss.main y p e dh path file k args).status = .error .uninit ∧
      ∀ l ∈ (KTruss.main y p e dh path file k args).events, ∃ n nnz, l = .graph n nnz := by
  obtain ⟨A, r, K0, hA, hr, hmain⟩ := h.setup
  refine ⟨K0, fun p hp hf => ?_⟩
  rcases hmain p hp dh path with e1 | ⟨hn, -⟩
  swap
  · exact absurd hf hn
  rw [e1, seq_done rfl]
  obtain ⟨m, hm⟩ : ∃ m, e.outerIters = m + 1 := ⟨e.outerIters - 1, by have : 0 < e.outerIters := hrounds; omega⟩
  rw [hm, List.range_succ_eq_map, List.map_cons]
  obtain ⟨t, ts, ht⟩ : ∃ t ts, threadCounts args = t :: ts := by
    cases hh : threadCounts args with
    | nil => exact absurd hh (threads_ne args)
    | cons t ts => exact ⟨t, ts, rfl⟩
  obtain ⟨a, as, ha⟩ : ∃ a as, KTruss.algs e.modeStr dh = a :: as := by
    cases hh : KTruss.algs e.modeStr dh with
    | nil =>
      have := (kt_shown e.modeStr dh).2
      rw [hh] at this
      exact absurd this.symm hmode
    | cons t ts => exact ⟨t, ts, rfl⟩
  have hit0 : e.warmupIters + e.innerIters = 0 := by
    unfold Env.warmupIters Env.innerIters
    rw [hit.1, hit.2]
    rfl
  have hround : KTruss.round y e dh (getFileName path) k A (threadCounts args) (p.sch 0) = ⟨[], .error .uninit⟩ := by
    unfold KTruss.round
    rw [ha, List.zipIdx_cons, List.map_cons, ht]
    unfold KTruss.runAlg
    rw [List.zipIdx_cons, List.map_cons]
    unfold KTruss.runThreads
    rw [hit0]
    rw [seqAll_first (a := seqAll _)]
    · rw [seqAll_first] <;> simp [KTruss.lastOf]
    · rw [seqAll_first] <;> simp [KTruss.lastOf]
  rw [hround, seqAll_first (by simp)]
  refine ⟨rfl, fun l hl => ?_⟩
  have hnf : e.modeStr ≠ "flops".toList := by
    intro hh
    have : ∀ dh, KTruss.algs "flops".toList dh = [] := by decide +kernel
    rw [hh, this] at ha
    cases ha
  unfold ktHead at hl
  rw [if_neg hnf] at hl
  simp only [List.append_nil, List.mem_singleton] at hl
  exact ⟨_, _, hl⟩

/-- C92, violated for `k = 2`: the largest 2-truss of a graph is the graph itself, but the program removes the edges that lie in no triangle (they have
no entry in the product, which the test for `0` never sees). So if an edge lies in no triangle, every line has a number below the right one. -/
theorem C92_violated_two (h : KtCalled y e file 2 args n es) (hit : ¬(e.inner = some 0 ∧ e.warmup = some 0))
    (hmode : (e.mode.getD []).map Char.toLower ≠ "all1p".toList) (hrows : (e.mode.getD []).map Char.toLower ∈ ktrussBins → n + 1 < 2 ^ 17)
    {u v : Fin n} (huv : (graphOf n es).Adj u v) (hs : support (graphOf n es) u v = 0) (dh : Bool) (path : List Char) :
    IsLargestTruss 2 (graphOf n es) (graphOf n es) ∧ ∀ p, PlanAdm y args n p → ∀ f name t nnz s,
      Event.log f name t nnz s ∈ (KTruss.main y p e dh path file 2 args).events → nnz < 2 * edges (graphOf n es) := by
  refine ⟨⟨le_refl _, fun _ _ _ => Nat.zero_le _, fun H h _ => h⟩, fun p hp f name t nnz s hl => ?_⟩
  obtain ⟨T, r, f', hT, -, -, hall, -⟩ := C92_partial h hit hmode hrows dh path
  have hsub : (KTruss.main y p e dh path file (2 : Nat) args).events <+: ktHead (graphOf n es) f' ((e.mode.getD []).map Char.toLower) (max 2 3) r ++
      (List.replicate (e.outer.getD 1) (ktLines f' (ktrussNames ((e.mode.getD []).map Char.toLower) dh) (threadCounts args) (2 * edges T) r)).flatten := by
    rcases hall p hp with e1 | e1
    · rw [e1]
    · exact e1.2
  have hm := hsub.subset hl
  have hnnz : nnz = 2 * edges T := by
    rcases List.mem_append.1 hm with hm | hm
    · unfold ktHead at hm
      split at hm <;> simp at hm
    · obtain ⟨l, hl1, hl2⟩ := List.mem_flatten.1 hm
      rw [List.eq_of_mem_replicate hl1] at hl2
      unfold ktLines at hl2
      obtain ⟨x, -, hx⟩ := List.mem_flatMap.1 hl2
      obtain ⟨z, -, hz⟩ := List.mem_map.1 hx
      cases hz
      rfl
  rw [hnnz]
  have hlt : edges T < edges (graphOf n es) := by
    refine lt_of_le_of_ne (edges_mono hT.sub) fun he => ?_
    have := KTruss.eq_of_edges hT.sub he
    have h1 := hT.truss u v (this ▸ huv)
    rw [this, hs] at h1
    exact absurd h1 (by decide)
  omega

end

/-- In a list in which `c` but not `a` occurs in the middle part, and neither in the first, `c` comes before `a`. -/
theorem idxOf_parts {l1 l2 l3 : List Nat} {a c : Nat} (h1 : c ∉ l1) (h2 : a ∉ l1) (h3 : c ∈ l2) (h4 : a ∉ l2) :
    (l1 ++ l2 ++ l3).idxOf c < (l1 ++ l2 ++ l3).idxOf a := by
  rw [List.idxOf_append_of_mem (by simp [h3]), List.idxOf_append_of_notMem h1, List.idxOf_append_of_notMem (by simp [h2, h4])]
  have := List.idxOf_lt_length_of_mem h3
  simp only [List.length_append]
  omega

theorem support_ne {G : SimpleGraph (Fin n)} {u v : Fin n} : support G u v ≠ 0 ↔ ∃ w, G.Adj u w ∧ G.Adj w v := by
  unfold support
  rw [Ne, Set.ncard_eq_zero (Set.toFinite _), ← Ne, ← Set.nonempty_iff_ne_empty]
  rfl

/-- C92, what the program tells GraphBLAS, violated: after each multiplication it passes the result to GraphBLAS as a matrix with sorted rows. For
every graph with a triangle the result of `MaskedSPASpGEMM` in the first round has a row that is not sorted. (The operations that follow do not
use the order.) -/
theorem C92_violated_sorted {G : SimpleGraph (Fin n)} {A : CSR Int} (hA : Represents G A) (hsmall : n + 1 < 2 ^ 17) {u v w : Fin n} (huv : G.Adj u v)
    (huw : G.Adj u w) (hvw : G.Adj v w) {tnum : Nat} (ht : 0 < tnum) (dflt : Nat) :
    ∃ C, ¬C.SortedRows ∧ (∀ s, SchAdm n tnum s → (Method.msp .spa).mult tnum dflt A s = .ok none ∨ (Method.msp .spa).mult tnum dflt A s = .ok (some C)) ∧
      ∃ K, ∀ s, SchAdm n tnum s → SchFair tnum K s → (Method.msp .spa).mult tnum dflt A s = .ok (some C) := by
  have hn : 0 < n := u.pos
  obtain ⟨C, hC, hF, hrun⟩ := C31_spa_partial (fun _ _ : Int => 1) (fun x y => x + y) (rep_valid hA hn) (by rw [hA.rows]; exact hsmall) 0 ht dflt
  have hR := Rep.of hA
  have hadd : (fun a b : Int => b + a) = fun x y => x + y := by
    funext x y
    exact add_comm _ _
  rw [hadd] at hC
  refine ⟨C, ?_, fun s hs => ?_, A.rows + 2, fun s hs hf => ?_⟩
  · intro hsort
    have hmem : ∀ x : Fin n, G.Adj u x → support G u x ≠ 0 → x.val ∈ C.rowCols u := by
      intro x h1 h2
      rw [← CSR.row_map_fst hC.wf, List.mem_map]
      refine ⟨(x.val, (support G u x : Int)), (hC.entries u (hA.rows ▸ u.2) _ _).2 ⟨(hA.adj u x).2 h1, ?_⟩, rfl⟩
      rw [KTruss.dot_one hR, if_neg h2]
    obtain ⟨a, ⟨ha1, ha2⟩, hmin⟩ := WellFounded.has_min (wellFounded_lt (α := Fin n)) {x | G.Adj u x ∧ support G u x ≠ 0} ⟨v, huv, support_ne.2 ⟨w, huw, hvw.symm⟩⟩
    obtain ⟨c, hc1, hc2⟩ := support_ne.1 ha2
    have hc3 : support G u c ≠ 0 := support_ne.2 ⟨a, ha1, hc2.symm⟩
    have hac : a < c := lt_of_le_of_ne (not_lt.1 (hmin c ⟨hc1, hc3⟩)) fun h => by
      subst h
      exact G.loopless.irrefl _ hc2
    have hu : u.val < C.rows := by rw [hC.rows, hA.rows]; exact u.2
    have horder : (touched A A u).idxOf a.val < (touched A A u).idxOf c.val := by
      have h1 := hsort u hu
      have h2 := hF u hu
      have h3 := hmem a ha1 ha2
      have h4 := hmem c hc1 hc3
      obtain ⟨l1, l2, hl⟩ := List.append_of_mem h4
      rw [hl] at h1 h2 h3
      have h5 : a.val ∈ l1 := by
        rcases List.mem_append.1 h3 with h3 | h3
        · exact h3
        · rcases List.mem_cons.1 h3 with h3 | h3
          · exact absurd h3 (by have := hac; simp only [Fin.lt_def] at this; omega)
          · have := (List.pairwise_cons.1 (List.pairwise_append.1 h1).2.1).1 _ h3
            have := hac
            simp only [Fin.lt_def] at this
            omega
      exact (List.pairwise_append.1 h2).2.2 _ h5 _ (by simp)
    refine absurd horder (Nat.not_lt.2 (Nat.le_of_lt ?_))
    have ha : a.val ∈ (A.row u).map Prod.fst := by rw [CSR.row_map_fst hA.wf]; exact (hA.adj u a).2 ha1
    obtain ⟨⟨a', x⟩, hx, rfl⟩ := List.mem_map.1 ha
    obtain ⟨l1, l2, hl⟩ := List.append_of_mem hx
    have hs := hA.sorted u (hA.rows ▸ u.2)
    rw [← CSR.row_map_fst hA.wf, hl, List.map_append, List.map_cons] at hs
    have hlow : ∀ z ∈ l1, ∀ d : Fin n, d.val ∈ (A.row z.1).map Prod.fst → G.Adj u d → False := by
      intro z hz d hd hud
      have hzr : z.1 ∈ (A.row u).map Prod.fst := by rw [hl]; exact List.mem_map_of_mem (by simp [hz])
      have hzlt : z.1 < a.val := (List.pairwise_append.1 hs).2.2 _ (List.mem_map_of_mem hz) _ (by simp)
      have hzn : z.1 < n := hzlt.trans a.2
      rw [CSR.row_map_fst hA.wf] at hzr hd
      have h1 : G.Adj u ⟨z.1, hzn⟩ := (hA.adj u ⟨z.1, hzn⟩).1 hzr
      have h2 : G.Adj ⟨z.1, hzn⟩ d := (hA.adj ⟨z.1, hzn⟩ d).1 hd
      exact hmin ⟨z.1, hzn⟩ ⟨h1, support_ne.2 ⟨d, hud, h2.symm⟩⟩ hzlt
    unfold touched
    rw [hl, List.flatMap_append, List.flatMap_cons, ← List.append_assoc]
    refine idxOf_parts (fun h => ?_) (fun h => ?_) ?_ ?_
    · obtain ⟨z, hz, hd⟩ := List.mem_flatMap.1 h
      exact hlow z hz c hd hc1
    · obtain ⟨z, hz, hd⟩ := List.mem_flatMap.1 h
      exact hlow z hz a hd ha1
    · show c.val ∈ (A.row a).map Prod.fst
      rw [CSR.row_map_fst hA.wf]
      exact (hA.adj a c).2 hc2.symm
    · show a.val ∉ (A.row a).map Prod.fst
      rw [CSR.row_map_fst hA.wf]
      exact fun h => G.loopless.irrefl _ ((hA.adj a a).1 h)
  · rcases hrun s.two (hA.rows ▸ hs.two) with h | h
    · exact .inl h.1
    · exact .inr h
  · rcases hrun s.two (hA.rows ▸ hs.two) with ⟨-, t, ht', h⟩ | h
    · have := hf.two t ht'
      omega
    · exact h

/-! ## Examples -/

theorem edges_le (G : SimpleGraph (Fin n)) : edges G ≤ (n + 1) * n / 2 := by
  unfold edges
  refine (Set.ncard_le_ncard (Set.subset_univ _) (Set.toFinite _)).trans ?_
  rw [Set.ncard_univ, Nat.card_eq_fintype_card, Sym2.card, Fintype.card_fin, Nat.choose_two_right, Nat.add_sub_cancel]

def ktSys (n : Nat) : Sys := { fresh := fun _ => (7, 7, 7), rnd := fun i => i, dflt := 3, fuel := (n + 1) * n + 1 }

theorem kt_called {n k : Nat} {es : List (Nat × Nat × Int)} {t : MMText} {text : List Char} (e : Env) (h : Describes (IntVal id) (1 : Int) t n n es)
    (hl : ∀ l ∈ t.lines, l.length ≤ 255) (ht : Lines t.lines text) (hn : 0 < n) (hs : (n + 1) * n + 512 < 2 ^ 64) (hk : 2 ≤ k) {args : List Nat}
    (ha : ∀ t ∈ args, 0 < t) : KtCalled (ktSys n) e (some text) k args n es :=
  have := edges_le (graphOf n es)
  ⟨⟨t, text, rfl, h, hl, ht⟩, hn, hk, ha, by show 0 < 3; decide, by show _ < (n + 1) * n + 1; omega, by omega⟩

/-- For every bound there are admissible plans in which every thread gets that many turns. -/
theorem plan_exists (y : Sys) (args : List Nat) (n K : Nat) : ∃ p, PlanAdm y args n p ∧ PlanFair y args K p := by
  choose s hs using fun t => schedule_exists n t K
  refine ⟨{ flopOrd := fun _ => List.range n, flopSch := fun _ => s y.dflt, sch := fun _ _ j _ _ => s ((threadCounts args)[j]?.getD 0) },
    ⟨fun _ => .refl _, fun _ => (hs _).1, fun _ _ j _ _ t ht => ?_⟩, ⟨fun _ => (hs _).2, fun _ _ j _ _ t ht => ?_⟩⟩
  · show SchAdm n t (s _)
    rw [ht]
    exact (hs t).1
  · show SchFair t K (s _)
    rw [ht]
    exact (hs t).2

/-- A triangle and an edge that lies in no triangle -/
def tailFile : MMText := { field := .pattern, sym := .general, comments := [], size := "4 4 4".toList, entries := ["2 1".toList, "3 1".toList, "3 2".toList, "4 3".toList] }

def tailEntries : List (Nat × Nat × Int) := [(1, 0, 1), (2, 0, 1), (2, 1, 1), (3, 2, 1)]

theorem tailFile_describes : Describes (IntVal id) (1 : Int) tailFile 4 4 tailEntries where
  noNewline := by decide +kernel
  size := .mk ['4'] ['4'] ['4'] 4 4 4 (.digit 4 (by decide)) (.digit 4 (by decide)) (.digit 4 (by decide))
  entries := .cons (.pattern ['2'] ['1'] 1 0 (.digit 2 (by decide)) (.digit 1 (by decide)))
    (.cons (.pattern ['3'] ['1'] 2 0 (.digit 3 (by decide)) (.digit 1 (by decide)))
    (.cons (.pattern ['3'] ['2'] 2 1 (.digit 3 (by decide)) (.digit 2 (by decide)))
    (.cons (.pattern ['4'] ['3'] 3 2 (.digit 4 (by decide)) (.digit 3 (by decide)))
    .nil)))
  inBounds := by decide
  square := fun _ => rfl

def tailText : List Char := Spec.banner .pattern .general ++ "\n4 4 4\n2 1\n3 1\n3 2\n4 3\n".toList

theorem tail_called (e : Env) {k : Nat} (hk : 2 ≤ k) : KtCalled (ktSys 4) e (some tailText) k [2, 5] 4 tailEntries :=
  kt_called e tailFile_describes (by decide +kernel) (.inl ⟨[], by decide +kernel⟩) (by decide) (by decide) hk (by decide)

theorem tail_adj : (graphOf 4 tailEntries).Adj 3 2 := ⟨by decide, (3, 2, 1), by decide, by decide⟩

theorem tail_support : support (graphOf 4 tailEntries) 3 2 = 0 := by
  unfold support
  rw [Set.ncard_eq_zero (Set.toFinite _), Set.eq_empty_iff_forall_notMem]
  rintro w ⟨⟨h1, h2⟩, h3, h4⟩
  revert h1 h2 h3 h4
  revert w
  unfold tailEntries
  decide +kernel

example := C92_partial (tail_called { mode := some "Benchmark".toList, inner := some 3 } (k := 3) (by decide)) (by decide) (by decide) (fun _ => by decide) true "data/tail.mtx".toList

example := C92_partial (tail_called { mode := some "flops".toList } (k := 3) (by decide)) (by decide) (by decide) (fun _ => by decide) true "data/tail.mtx".toList

example := C92_violated_all1p (tail_called { mode := some "all1p".toList } (k := 4) (by decide)) (by decide) (by decide) (by decide)
  (fun h => by have := tail_adj; rw [h] at this; exact this) false "tail.mtx".toList

example := C92_violated_two (tail_called { mode := some "all2p".toList } (by decide)) (by decide) (by decide) (by decide) tail_adj tail_support false "tail.mtx".toList

example : ∃ A, Represents (graphOf 4 tailEntries) A ∧ ∃ C : CSR Int, ¬C.SortedRows ∧ ∃ s, (Method.msp .spa).mult 2 2 A s = .ok (some C) := by
  obtain ⟨A, r, K0, hA, -⟩ := (tail_called {} (k := 3) (by decide)).setup
  obtain ⟨C, h1, -, K, h2⟩ := C92_violated_sorted hA (by decide) (u := 0) (v := 1) (w := 2) ⟨by decide, (1, 0, 1), by decide, by decide⟩
    ⟨by decide, (2, 0, 1), by decide, by decide⟩ ⟨by decide, (2, 1, 1), by decide, by decide⟩ (tnum := 2) (by decide) 2
  obtain ⟨s, hs, hf⟩ := schedule_exists 4 2 K
  exact ⟨A, hA, C, h1, s, h2 s hs hf⟩

example := C92_violated_iters (tail_called { mode := some "hash".toList, inner := some 0, warmup := some 0 } (k := 5) (by decide)) (by decide) (by decide) false
  (by decide) "tail.mtx".toList

theorem wideInt_describes : Describes (IntVal id) (1 : Int) wideFile 131071 131071 [(1, 0, 1)] where
  noNewline := by decide +kernel
  size := .mk _ _ ['1'] 131071 131071 1 wide_numeral wide_numeral (.digit 1 (by decide))
  entries := .cons (.pattern ['2'] ['1'] 1 0 (.digit 2 (by decide)) (.digit 1 (by decide))) .nil
  inBounds := by simp
  square := fun _ => rfl

example := C92_violated_rows (kt_called { mode := some "all".toList } (text := Spec.banner .pattern .general ++ "\n131071 131071 1\n2 1\n".toList) (k := 3) (args := [])
  wideInt_describes (by decide +kernel) (.inl ⟨[], by decide +kernel⟩) (by decide) (by decide) (by decide) (by simp)) (by decide) (by decide) (by decide) (by decide)
  false "wide.mtx".toList

end Verif.Props
