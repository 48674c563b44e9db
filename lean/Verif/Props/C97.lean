import Verif.Lemmas.SampleGen
import Verif.Props.C96
import Verif.Lemmas.HeatMap

/-! # C97: the sample programs that take a mode and two inputs -/

namespace Verif.Props

open Verif.Model Verif.Model.SampleMain Verif.Spec
open _root_.Verif.Model.Bench (Out seqAll)
open _root_.Verif.Model.Sample (Env setInput)
open _root_.Verif.Model.MaskedAll (Good seq_good seq_done seq_stop SchAdm SchFair Ker masked_set masked_entries)

variable {R F : Type} [Semiring R] {env : Env R F} {neg : R → R} {args : List (List Char)} {m k n m' n' : Nat} {es fs : List (Nat × Nat × R)}
  {oA oB oF : List Nat} {rA rB : Nat → Nat} {ts : List Nat}

/-- The numbers of threads if none is given -/
def twoCounts : List Nat := [32, 64]

/-- Each of the first `n` rows has an entry. -/
def NoEmptyRow (n : Nat) (es : List (Nat × Nat × R)) : Prop := ∀ i < n, ∃ j, Stored es i j

theorem shuffled_ok (hs : SortsBy Prod.fst env.sortf) (h : Input env neg args oA oB m k es m' n' fs) (hA : NoEmptyRow m es) (hB : NoEmptyRow m' fs) :
    ∃ A B, shuffled env args oA oB rA rB = .ok (A, B) ∧ A.WF ∧ A.rows = m ∧ A.cols = k ∧ (triples A).Perm es ∧ B.WF ∧ B.rows = m' ∧ B.cols = n' ∧
      (triples B).Perm fs := by
  obtain ⟨-, Ac, Bc, e, w1, r1, c1, p1, w2, r2, c2, p2, -⟩ := h.read hs
  obtain ⟨A, eA, wA, rA', cA, pA, -⟩ := C21_csc_to_csr (env.ofInt 0) w1
  obtain ⟨B, eB, wB, rB', cB, pB, -⟩ := C21_csc_to_csr (env.ofInt 0) w2
  obtain ⟨A', eA', hA'⟩ := C58_shuffle_partial (signed := true) rA wA fun _ => row_ne_nil wA (pA.trans p1) (by rw [rA', r1]; exact hA)
  obtain ⟨B', eB', hB'⟩ := C58_shuffle_partial (signed := true) rB wB fun _ => row_ne_nil wB (pB.trans p2) (by rw [rB', r2]; exact hB)
  refine ⟨A', B', ?_, hA'.wf, hA'.rows.trans (rA'.trans r1), hA'.cols.trans (cA.trans c1), (triples_perm hA').trans (pA.trans p1),
    hB'.wf, hB'.rows.trans (rB'.trans r2), hB'.cols.trans (cB.trans c2), (triples_perm hB').trans (pB.trans p2)⟩
  unfold shuffled setInputR
  rw [e]
  simp only [ok_bind, eA, eB, eA', eB']

theorem shuffled_fails (hs : SortsBy Prod.fst env.sortf) (h : Input env neg args oA oB m k es m' n' fs) (he : ¬ NoEmptyRow m es ∨ ¬ NoEmptyRow m' fs)
    (r : CSR R × CSR R) : shuffled env args oA oB rA rB ≠ .ok r := by
  obtain ⟨-, Ac, Bc, e, w1, r1, c1, p1, w2, r2, c2, p2, -⟩ := h.read hs
  obtain ⟨A, eA, wA, rA', cA, pA, -⟩ := C21_csc_to_csr (env.ofInt 0) w1
  obtain ⟨B, eB, wB, rB', cB, pB, -⟩ := C21_csc_to_csr (env.ofInt 0) w2
  intro hr
  unfold shuffled setInputR at hr
  rw [e] at hr
  simp only [ok_bind, eA, eB] at hr
  obtain ⟨A', h1, hr⟩ := MatObj.bind_eq_ok hr
  obtain ⟨B', h2, hr⟩ := MatObj.bind_eq_ok hr
  have key : ∀ {X X' : CSR R} {xs : List (Nat × Nat × R)} {rX : Nat → Nat}, X.WF → (triples X).Perm xs → ¬ NoEmptyRow X.rows xs →
      Reorder.shuffleIds true rX X = .ok X' → False := by
    intro X X' xs rX wX pX hn hx
    unfold NoEmptyRow at hn
    push Not at hn
    obtain ⟨i, hi, hj⟩ := hn
    obtain ⟨e, he⟩ := C58_violated_empty_row rX wX hi (row_eq_nil wX pX hi hj)
    rw [he] at hx
    cases hx
  rcases he with he | he
  · exact key wA (pA.trans p1) (by rw [rA', r1]; exact he) h1
  · exact key wB (pB.trans p2) (by rw [rB', r2]; exact he) h2

/-- The schedules of the calls of `HashSpGEMM` are those of `rows` rows, for each number of threads. -/
def HashAdm (rows : Nat) (ts : List Nat) (sch : Nat → Nat → SampleMain.Sch) : Prop := ∀ x ∈ ts.zipIdx, ∀ i, HashMult.Adm rows x.1 (sch x.2 i).hash

/-- C97 for the program for hash tables (`HashSpGEMM`): with input of matching sizes (files or generated, see `C97_generated`) without empty rows, such that the product has
ten or more entries, the program prints twice the number of products of entries, and for each number of threads the values of the first ten entries of
the product, by rows and columns, and the number of entries of the product. For all random numbers and every schedule; if the threads get enough turns, the
program comes to its end.

What is missing: matrices with empty rows (see `C97_violated_empty_row`), products with fewer entries (see `C97_violated_short`),
and `2^17 - 1` or more rows (see `C97_violated_rows`). -/
theorem C97_hash_partial (hs : SortsBy Prod.fst env.sortf) (h : Input env neg args oA oB m k es k n fs) (hm : 0 < m) (hsmall : m + 1 < 2 ^ 17)
    (hA : NoEmptyRow m es) (hB : NoEmptyRow k fs) (ht : Threads twoCounts (args.drop 4) ts) :
    ∃ P, ProductEntries es fs P ∧ ByRows P ∧ (10 ≤ P.length →
      let want : List (SampleMain.Event R) := .flop (2 * pairings es fs) :: ts.flatMap fun t =>
        (P.take 10).map (fun e => .value e.2.2) ++ [.result "HashSpGEMM".toList t P.length]
      (∀ sch, HashAdm m ts sch → hashMain env args oA oB rA rB sch = ⟨want, .ok (some ())⟩ ∨
        ((hashMain env args oA oB rA rB sch).status = .ok none ∧ (hashMain env args oA oB rA rB sch).events <+: want)) ∧
      ∃ K, ∀ sch, HashAdm m ts sch → HashesFair K ts sch → hashMain env args oA oB rA rB sch = ⟨want, .ok (some ())⟩) := by
  obtain ⟨hl, -⟩ := h.read hs
  obtain ⟨A, B, hx, wA, rA', cA, pA, wB, rB', cB, pB⟩ := shuffled_ok (rA := rA) (rB := rB) hs h hA hB
  have hAB := cA.trans rB'.symm
  subst rA'
  obtain ⟨C, hC, -⟩ := hash_gives true hs wA wB hAB hm hsmall (tnum := 1) (by decide)
  have hP := product_entries wA wB hAB pA pB hC
  have hby := byRows hC.wf (hC.sorted rfl)
  generalize triples C = P at hP hby
  refine ⟨P, hP, hby, fun hten => outcome (adm := HashAdm A.rows ts) (fair := fun K => HashesFair K ts) ?_⟩
  obtain ⟨K, hK⟩ := forThreads_good (Adm := fun t s => HashMult.Adm A.rows t s.hash) (Fair := fun t K s => HashFair t K s)
    (fun hK h t ht => ⟨hK.trans (h t ht).1, hK.trans (h t ht).2⟩) (body := hashBlock env.sortf A B)
    (w := fun t => (P.take 10).map (fun e => Event.value e.2.2) ++ [Event.result "HashSpGEMM".toList t P.length]) ts (by
      intro t htt
      obtain ⟨C, hv, hn, hg⟩ := hashBlock_good hs wA wB hAB hm hsmall pA pB hP hby (threads_pos ht (by decide) t htt)
      refine ⟨A.rows + 2, fun s hadm => ?_⟩
      have hh : ∀ i, Bench.Gives (∀ i, HashFair t (A.rows + 2) (s i)) C (SampleMain.hash true env.sortf A B t (s i)) :=
        fun i => MaskedAll.Gives.weaken (hg (s i) (hadm i)) fun hh => hh i
      unfold hashBlock
      refine andThen_good (hh 0) (seq_good (.inl ?_) (andThen_good (lastOf_gives _ _ ?_) (by rw [hn]; exact say_good _)))
      · rw [values_ten (by rw [hv, List.length_map]; exact hten), hv, ← List.map_take, List.map_map]
        rfl
      · intro s' hs'
        rcases List.mem_cons.1 hs' with rfl | hs'
        · exact hh 1
        · obtain ⟨i, -, rfl⟩ := List.mem_map.1 hs'
          exact hh _)
  refine ⟨K, fun sch hadm => ?_⟩
  unfold hashMain
  have ht' : Threads [32, 64] (args.drop 4) ts := ht
  rw [if_neg hl, hx]
  simp only [ok_bind, C83_rows wA wB hAB]
  rw [andThen_ok rfl, tnums_eq ht', Flops.pairings_perm pA pB]
  exact seq_good (w := [_]) (say_good _) (hK sch hadm)

/-- The schedules of the calls of `HeapSpGEMM` are those of `cols` columns, for each number of threads. -/
def HeapAdm (cols : Nat) (ts : List Nat) (sch : Nat → Nat → SampleMain.Sch) : Prop := ∀ x ∈ ts.zipIdx, ∀ i, (sch x.2 i).heap.Adm cols x.1

/-- Each thread gets at least `K` turns in both parts of each call of `HeapSpGEMM`. -/
def HeapsFair (K : Nat) (ts : List Nat) (sch : Nat → Nat → SampleMain.Sch) : Prop := ∀ x ∈ ts.zipIdx, ∀ i, HeapFair x.1 K (sch x.2 i)

/-- C97 for the program for heaps (`HeapSpGEMM`): with input of matching sizes (files or generated, see `C97_generated`), no position twice in the first, the program prints
twice the number of products of entries, and for each number of threads the number of entries of the product. For every schedule; if the threads get
enough turns, the program comes to its end.

What is missing: repeated positions in the first matrix, and no or `2^17 - 1` or more columns (see `C97_violated_rows`). -/
theorem C97_heap_partial (hs : SortsBy Prod.fst env.sortf) (h : Input env neg args oA oB m k es k n fs) (hnd : (es.map fun e => (e.1, e.2.1)).Nodup)
    (hn : 0 < n) (hsmall : n + 1 < 2 ^ 17) (hoF : oF.Perm (List.range n)) (ht : Threads twoCounts (args.drop 4) ts) :
    ∃ P, ProductEntries es fs P ∧
      let want : List (SampleMain.Event R) := .flop (2 * pairings es fs) :: ts.map fun t => .result "HeapSpGEMM".toList t P.length
      (∀ sch, HeapAdm n ts sch → heapMain env args oA oB oF sch = ⟨want, .ok (some ())⟩ ∨
        ((heapMain env args oA oB oF sch).status = .ok none ∧ (heapMain env args oA oB oF sch).events <+: want)) ∧
      ∃ K, ∀ sch, HeapAdm n ts sch → HeapsFair K ts sch → heapMain env args oA oB oF sch = ⟨want, .ok (some ())⟩ := by
  obtain ⟨hl, A, B, hx, wA, rA', cA, pA, wB, rB', cB, pB, sA⟩ := h.read hs
  have hAB := cA.trans rB'.symm
  have hv : ValidCols A B := ⟨wA, wB, hAB, sA hnd⟩
  subst cB
  obtain ⟨C, hC, -⟩ := heap_gives hv hn hsmall (tnum := 1) (by decide)
  have hP := col_entries wA wB hAB pA pB hC
  generalize triplesC C = P at hP
  refine ⟨P, hP, outcome (adm := HeapAdm B.cols ts) (fair := fun K => HeapsFair K ts) ?_⟩
  obtain ⟨K, hK⟩ := forThreads_good (Adm := fun t s => s.heap.Adm B.cols t) (Fair := fun t K s => HeapFair t K s)
    (fun hK h t ht => ⟨hK.trans (h t ht).1, hK.trans (h t ht).2⟩)
    (body := fun tnum sch => andThen (lastOf (fun s : SampleMain.Sch => HeapMult.heapSpGEMM (fun x y => x * y) (fun x y => x + y) 0 A B tnum s.heap) (sch 0)
      ((List.range 10).map fun i => sch (i + 1))) fun C => say (SampleMain.Event.result (V := R) "HeapSpGEMM".toList tnum C.nnz))
    (w := fun t => [Event.result "HeapSpGEMM".toList t P.length]) ts (by
      intro t htt
      obtain ⟨C, hC, hg⟩ := heap_gives hv hn hsmall (threads_pos ht (by decide) t htt)
      have hnnz : C.nnz = P.length := by
        rw [← HeatMap.triplesC_length hC.wf]
        exact (product_unique (col_entries wA wB hAB pA pB hC) hP).length_eq
      refine ⟨B.cols + 2, fun s hadm => ?_⟩
      have hh : ∀ i, Bench.Gives (∀ i, HeapFair t (B.cols + 2) (s i)) C (HeapMult.heapSpGEMM (fun x y => x * y) (fun x y => x + y) 0 A B t (s i).heap) :=
        fun i => MaskedAll.Gives.weaken (hg (s i) (hadm i)) fun hh => hh i
      refine andThen_good (lastOf_gives _ _ ?_) (by rw [hnnz]; exact say_good _)
      intro s' hs'
      rcases List.mem_cons.1 hs' with rfl | hs'
      · exact hh 0
      · obtain ⟨i, -, rfl⟩ := List.mem_map.1 hs'
        exact hh _)
  refine ⟨K, fun sch hadm => ?_⟩
  unfold heapMain
  have ht' : Threads [32, 64] (args.drop 4) ts := ht
  rw [if_neg hl, hx]
  simp only [ok_bind, C83_columns wA wB hAB hoF]
  rw [andThen_ok rfl, tnums_eq ht', Flops.pairings_perm pA pB]
  have := seq_good (say_good (.flop (2 * pairings es fs))) (hK sch hadm)
  rwa [flatMap_one] at this

/-- C97 for the program for masked products with hash tables (`MaskedHashSpGEMM`): with input (files or generated, see `C97_generated`) without empty rows, the first of them square and such that
the square of the matrix has ten or more entries, the program prints twice the number of products of entries of the first matrix with itself, for each number of
threads ten values of entries of the square, those at the front of a list of all entries, and then, for both kernels and each number of threads, the number
of entries of the square at the positions of the matrix. The second matrix has no influence. For all random numbers and every schedule; if the threads get
enough turns, the program comes to its end.

What is missing: matrices with empty rows (see `C97_violated_empty_row`), squares with fewer entries (see `C97_violated_short`), and
`2^17 - 1` or more rows (see `C97_violated_rows`). -/
theorem C97_masked_partial (hs : SortsBy Prod.fst env.sortf) (h : Input env neg args oA oB m m es m' n' fs) (hm : 0 < m) (hsmall : m + 1 < 2 ^ 17)
    (hA : NoEmptyRow m es) (hB : NoEmptyRow m' fs) (ht : Threads fiveCounts (args.drop 4) ts) {Q : List (Nat × Nat × R)} (hQ : ProductEntries es es Q)
    (hten : 10 ≤ Q.length) :
    ∃ (L : List (Nat × Nat × R)) (P : Nat → List (Nat × Nat × R)), MaskedEntries es es es L ∧ (∀ t ∈ ts, ProductEntries es es (P t)) ∧
      let want : List (SampleMain.Event R) := .flop (2 * pairings es es) :: (ts.flatMap (fun t => ((P t).take 10).map (fun e => .value e.2.2)) ++
        (ts.map (fun t => .result "mxm_hash_mask_wobin".toList t L.length) ++ ts.map fun t => .result "mxm_hash_mask".toList t L.length))
      (∀ sch, (HashAdm m ts (sch 0) ∧ MaskAdm m ts (sch 1) ∧ MaskAdm m ts (sch 2)) → maskedHashMain env args oA oB rA rB sch = ⟨want, .ok (some ())⟩ ∨
        ((maskedHashMain env args oA oB rA rB sch).status = .ok none ∧ (maskedHashMain env args oA oB rA rB sch).events <+: want)) ∧
      ∃ K, ∀ sch, (HashAdm m ts (sch 0) ∧ MaskAdm m ts (sch 1) ∧ MaskAdm m ts (sch 2)) →
        (HashesFair K ts (sch 0) ∧ MaskFair K ts (sch 1) ∧ MaskFair K ts (sch 2)) → maskedHashMain env args oA oB rA rB sch = ⟨want, .ok (some ())⟩ := by
  obtain ⟨hl, -⟩ := h.read hs
  obtain ⟨A, B, hx, wA, rA', cA, pA, -, -, -, -⟩ := shuffled_ok (rA := rA) (rB := rB) hs h hA hB
  have hsq := rA'.trans cA.symm
  subst rA'
  obtain ⟨L, hL⟩ : ∃ L, MaskedEntries es es es L := by
    obtain ⟨C, h1, -⟩ := C31_wobin_partial (fun x y : R => x * y) (fun x y => x + y) ⟨wA, wA, wA, ⟨hsq.symm, rfl, rfl⟩, hm⟩ hsmall 0 1
    exact ⟨_, masked_entries wA wA wA hsq.symm rfl pA pA pA h1⟩
  have hone : ∀ t, ∃ P, 0 < t → ProductEntries es es P ∧ ∀ s : Nat → SampleMain.Sch, (∀ i, HashMult.Adm A.rows t (s i).hash) →
      Good (∀ i, HashFair t (A.rows + 2) (s i)) ((P.take 10).map (fun e => Event.value e.2.2))
        (andThen (SampleMain.hash false env.sortf A A t (s 0)) values) := by
    intro t
    by_cases ht0 : 0 < t
    · obtain ⟨C, hC, hg⟩ := hash_gives false hs wA wA hsq.symm hm hsmall ht0
      have hP := product_entries wA wA hsq.symm pA pA hC
      have hnnz : C.nnz = Q.length := by rw [← Bench.triples_length hC.wf]; exact (product_unique hP hQ).length_eq
      refine ⟨triples C, fun _ => ⟨hP, fun s hadm => ?_⟩⟩
      refine andThen_good (MaskedAll.Gives.weaken (hg (s 0) (hadm 0)) fun hh => hh 0) (.inl ?_)
      rw [values_ten (by rw [hC.wf.valLen, hnnz]; exact hten), ← (MatObj.triples_snd hC.wf).2, ← List.map_take, List.map_map]
      rfl
    · exact ⟨[], fun h => absurd h ht0⟩
  choose P hP using hone
  have hpos := threads_pos ht (by decide)
  refine ⟨L, P, hL, fun t htt => (hP t (hpos t htt)).1, outcome
    (adm := fun sch : Nat → Nat → Nat → SampleMain.Sch => HashAdm A.rows ts (sch 0) ∧ MaskAdm A.rows ts (sch 1) ∧ MaskAdm A.rows ts (sch 2))
    (fair := fun K sch => HashesFair K ts (sch 0) ∧ MaskFair K ts (sch 1) ∧ MaskFair K ts (sch 2)) ?_⟩
  obtain ⟨K0, hK0⟩ := forThreads_good (Adm := fun t s => HashMult.Adm A.rows t s.hash) (Fair := fun t K s => HashFair t K s)
    (fun hK h t ht => ⟨hK.trans (h t ht).1, hK.trans (h t ht).2⟩)
    (body := fun tnum (sch : Nat → SampleMain.Sch) => andThen (SampleMain.hash false env.sortf A A tnum (sch 0)) values)
    (w := fun t => ((P t).take 10).map (fun e => Event.value e.2.2)) ts (fun t htt => ⟨A.rows + 2, (hP t (hpos t htt)).2⟩)
  obtain ⟨K1, hK1⟩ := forThreads_good (Adm := fun t s => SchAdm A.rows t s.mask) (Fair := fun t K s => SchFair t K s.mask) (fun hK h => h.mono hK)
    (body := fun tnum sch => block "mxm_hash_mask_wobin".toList (fun C s => Ker.wobin.call A A A Sample.emptyC tnum C s.mask) 10 tnum sch)
    (w := fun t => [.result "mxm_hash_mask_wobin".toList t L.length]) ts (fun t htt => wobin_block wA hsq hm hsmall pA hL _ _ t 10)
  obtain ⟨K2, hK2⟩ := forThreads_good (Adm := fun t s => SchAdm A.rows t s.mask) (Fair := fun t K s => SchFair t K s.mask) (fun hK h => h.mono hK)
    (body := fun tnum sch => block "mxm_hash_mask".toList (fun C s => Ker.hash.call A A A Sample.emptyC tnum C s.mask) 10 tnum sch)
    (w := fun t => [.result "mxm_hash_mask".toList t L.length]) ts (fun t htt => hash_block wA hsq hm hsmall pA hL _ _ (hpos t htt) 10)
  refine ⟨max K0 (max K1 K2), fun sch hadm => ?_⟩
  unfold maskedHashMain
  have ht' : Threads [4, 8, 16, 32, 64] (args.drop 4) ts := ht
  rw [if_neg hl, hx]
  simp only [ok_bind, C83_rows wA wA hsq.symm]
  rw [andThen_ok rfl, tnums_eq ht', Flops.pairings_perm pA pA]
  have := seq_good (say_good (.flop (2 * pairings es es)))
    (seq_good (MaskedAll.Good.weaken (hK0 (sch 0) hadm.1) fun (hh : HashesFair (max K0 (max K1 K2)) ts (sch 0) ∧ MaskFair (max K0 (max K1 K2)) ts (sch 1) ∧
        MaskFair (max K0 (max K1 K2)) ts (sch 2)) x hx i t ht => ⟨(Nat.le_max_left _ _).trans (hh.1 x hx i t ht).1, (Nat.le_max_left _ _).trans (hh.1 x hx i t ht).2⟩)
      (seq_good (MaskedAll.Good.weaken (hK1 (sch 1) hadm.2.1) fun hh x hx i => (hh.2.1 x hx i).mono ((Nat.le_max_left _ _).trans (Nat.le_max_right _ _)))
        (MaskedAll.Good.weaken (hK2 (sch 2) hadm.2.2) fun hh x hx i => (hh.2.2 x hx i).mono ((Nat.le_max_right _ _).trans (Nat.le_max_right _ _)))))
  rwa [flatMap_one, flatMap_one] at this

/-! ## Violations -/

/-- C97 is violated for all inputs with an empty row in one of the two matrices, although matrices may have empty rows: `HashSpGEMM` and `MaskedHashSpGEMM` print
nothing and do not come to their end. The latter does not even use the second matrix. -/
theorem C97_violated_empty_row (hs : SortsBy Prod.fst env.sortf) (h : Input env neg args oA oB m k es m' n' fs) (he : ¬ NoEmptyRow m es ∨ ¬ NoEmptyRow m' fs) :
    (∀ sch, (hashMain env args oA oB rA rB sch).events = [] ∧ (hashMain env args oA oB rA rB sch).status ≠ .ok (some ())) ∧
    (∀ sch, (maskedHashMain env args oA oB rA rB sch).events = [] ∧ (maskedHashMain env args oA oB rA rB sch).status ≠ .ok (some ())) := by
  obtain ⟨hl, -⟩ := h.read hs
  constructor
  · intro sch
    unfold hashMain
    rw [if_neg hl]
    refine andThen_events_nil (fun x hx => ?_) _
    obtain ⟨r, hr, -⟩ := MatObj.bind_eq_ok hx
    exact shuffled_fails hs h he r hr
  · intro sch
    unfold maskedHashMain
    rw [if_neg hl]
    refine andThen_events_nil (fun x hx => ?_) _
    obtain ⟨r, hr, -⟩ := MatObj.bind_eq_ok hx
    exact shuffled_fails hs h he r hr

/-- C97 is violated for all products with fewer than ten entries: `HashSpGEMM` prints the number of operations and the values of all entries of the product, and
then reads behind the end of the array. -/
theorem C97_violated_short (hs : SortsBy Prod.fst env.sortf) (h : Input env neg args oA oB m k es k n fs) (hm : 0 < m) (hsmall : m + 1 < 2 ^ 17)
    (hA : NoEmptyRow m es) (hB : NoEmptyRow k fs) {t : Nat} {ts' : List Nat} (ht : Threads twoCounts (args.drop 4) (t :: ts')) {P : List (Nat × Nat × R)}
    (hP : ProductEntries es fs P) (hby : ByRows P) (hten : P.length < 10) (sch : Nat → Nat → SampleMain.Sch) (hadm : HashMult.Adm m t (sch 0 0).hash) :
    hashMain env args oA oB rA rB sch = ⟨.flop (2 * pairings es fs) :: P.map fun e => .value e.2.2, .error .oob⟩ ∨
      (hashMain env args oA oB rA rB sch = ⟨[.flop (2 * pairings es fs)], .ok none⟩ ∧ ¬ HashFair t (m + 2) (sch 0 0)) := by
  obtain ⟨hl, -⟩ := h.read hs
  obtain ⟨A, B, hx, wA, rA', cA, pA, wB, rB', cB, pB⟩ := shuffled_ok (rA := rA) (rB := rB) hs h hA hB
  have hAB := cA.trans rB'.symm
  subst rA'
  obtain ⟨C, hv, hn, hg⟩ := hashBlock_good hs wA wB hAB hm hsmall pA pB hP hby (threads_pos ht (by decide) t (by simp))
  unfold hashMain
  have ht' : Threads [32, 64] (args.drop 4) (t :: ts') := ht
  rw [if_neg hl, hx]
  simp only [ok_bind, C83_rows wA wB hAB]
  rw [andThen_ok rfl, tnums_eq ht', Flops.pairings_perm pA pB]
  obtain ⟨r1, e1⟩ := forThreads_cons t ts' sch (hashBlock env.sortf A B)
  rw [e1]
  unfold say
  rw [seq_done rfl]
  rcases hg (sch 0 0) hadm with e | ⟨hnf, e⟩
  · refine .inl ?_
    have : hashBlock env.sortf A B t (sch 0) = ⟨C.values.map Event.value, .error .oob⟩ := by
      unfold hashBlock
      rw [andThen_ok e, values_short (by rw [hv, List.length_map]; exact hten), seq_stop (by simp)]
    rw [this, seq_stop (a := ⟨_, .error .oob⟩) (by simp), hv, List.map_map]
    rfl
  · refine .inr ⟨?_, hnf⟩
    have : hashBlock env.sortf A B t (sch 0) = ⟨[], .ok none⟩ := by
      unfold hashBlock andThen
      rw [e]
    rw [this, seq_stop (a := ⟨_, .ok none⟩) (by simp)]
    rfl

/-- C97 is violated for many rows, or, in the program for heaps, many columns of the second matrix: with `2^17 - 1` or more of them the program prints the number of
operations and no other line, and does not come to its end. -/
theorem C97_violated_rows (hs : SortsBy Prod.fst env.sortf) {t : Nat} {ts' : List Nat} :
    (Input env neg args oA oB m k es k n fs → NoEmptyRow m es → NoEmptyRow k fs → Threads twoCounts (args.drop 4) (t :: ts') → 2 ^ 17 ≤ m + 1 →
      ∀ sch, (hashMain env args oA oB rA rB sch).events = [.flop (2 * pairings es fs)] ∧ (hashMain env args oA oB rA rB sch).status ≠ .ok (some ())) ∧
    (Input env neg args oA oB m m es m' n' fs → NoEmptyRow m es → NoEmptyRow m' fs → Threads fiveCounts (args.drop 4) (t :: ts') → 2 ^ 17 ≤ m + 1 →
      ∀ sch, (maskedHashMain env args oA oB rA rB sch).events = [.flop (2 * pairings es es)] ∧
        (maskedHashMain env args oA oB rA rB sch).status ≠ .ok (some ())) ∧
    (Input env neg args oA oB m k es k n fs → oF.Perm (List.range n) → Threads twoCounts (args.drop 4) (t :: ts') → 2 ^ 17 ≤ n + 1 →
      ∀ sch, (heapMain env args oA oB oF sch).events = [.flop (2 * pairings es fs)] ∧ (heapMain env args oA oB oF sch).status ≠ .ok (some ())) := by
  refine ⟨fun h hA hB ht hbig sch => ?_, fun h hA hB ht hbig sch => ?_, fun h hoF ht hbig sch => ?_⟩
  · obtain ⟨hl, -⟩ := h.read hs
    obtain ⟨A, B, hx, wA, rA', cA, pA, wB, rB', cB, pB⟩ := shuffled_ok (rA := rA) (rB := rB) hs h hA hB
    have hAB := cA.trans rB'.symm
    unfold hashMain
    have ht' : Threads [32, 64] (args.drop 4) (t :: ts') := ht
    rw [if_neg hl, hx]
    simp only [ok_bind, C83_rows wA wB hAB]
    rw [andThen_ok rfl, tnums_eq ht', Flops.pairings_perm pA pB]
    obtain ⟨r1, e1⟩ := forThreads_cons t ts' sch (hashBlock env.sortf A B)
    rw [e1]
    exact after_say (seq_fails (andThen_events_nil (fun C => C34_violated true env.sortf _ _ 0 (rA' ▸ hbig) (threads_pos ht (by decide) t (by simp)) _ C) _))
  · obtain ⟨hl, -⟩ := h.read hs
    obtain ⟨A, B, hx, wA, rA', cA, pA, -, -, -, -⟩ := shuffled_ok (rA := rA) (rB := rB) hs h hA hB
    have hsq := rA'.trans cA.symm
    unfold maskedHashMain
    have ht' : Threads [4, 8, 16, 32, 64] (args.drop 4) (t :: ts') := ht
    rw [if_neg hl, hx]
    simp only [ok_bind, C83_rows wA wA hsq.symm]
    rw [andThen_ok rfl, tnums_eq ht', Flops.pairings_perm pA pA]
    obtain ⟨r1, e1⟩ := forThreads_cons t ts' (sch 0) (fun tnum (sch : Nat → SampleMain.Sch) => andThen (SampleMain.hash false env.sortf A A tnum (sch 0)) values)
    rw [e1]
    exact after_say (seq_fails (seq_fails (andThen_events_nil
      (fun C => C34_violated false env.sortf _ _ 0 (rA' ▸ hbig) (threads_pos ht (by decide) t (by simp)) _ C) _)))
  · obtain ⟨hl, A, B, hx, wA, rA', cA, pA, wB, rB', cB, pB, -⟩ := h.read hs
    have hAB := cA.trans rB'.symm
    subst cB
    unfold heapMain
    have ht' : Threads [32, 64] (args.drop 4) (t :: ts') := ht
    rw [if_neg hl, hx]
    simp only [ok_bind, C83_columns wA wB hAB hoF]
    rw [andThen_ok rfl, tnums_eq ht', Flops.pairings_perm pA pB]
    obtain ⟨r1, e1⟩ := forThreads_cons t ts' sch (fun tnum (sch : Nat → SampleMain.Sch) =>
      andThen (lastOf (fun s : SampleMain.Sch => HeapMult.heapSpGEMM (fun x y => x * y) (fun x y => x + y) 0 A B tnum s.heap) (sch 0)
        ((List.range 10).map fun i => sch (i + 1))) fun C => say (SampleMain.Event.result (V := R) "HeapSpGEMM".toList tnum C.nnz))
    rw [e1]
    refine after_say (seq_fails (andThen_events_nil (fun C hC => ?_) _))
    have key := C54_violated_cols (fun x y : R => x * y) (fun x y => x + y) 0 (threads_pos ht (by decide) t (by simp)) hbig (A := A) (sch 0 0).heap
    show False
    revert hC
    show ¬ (HeapMult.heapSpGEMM _ _ 0 A B t (sch 0 0).heap >>= _) = _
    intro hC
    cases e : HeapMult.heapSpGEMM (fun x y : R => x * y) (fun x y => x + y) 0 A B t (sch 0 0).heap with
    | error e' => rw [e] at hC; cases hC
    | ok r =>
      cases r with
      | none => rw [e] at hC; cases hC
      | some C' => exact key C' e

/-- C97 is violated if a text file is missing: nothing is printed, and the programs do not come to their end. They have no message for this case. -/
theorem C97_violated_missing {a1 a2 a3 : List Char} {rest : List (List Char)} (h1 : a1 ≠ "gen".toList) (h2 : a1 ≠ "binary".toList)
    (h : env.text a2 = none ∨ env.text a3 = none) :
    (∀ sch, (hashMain env (a1 :: a2 :: a3 :: rest) oA oB rA rB sch).events = [] ∧
      (hashMain env (a1 :: a2 :: a3 :: rest) oA oB rA rB sch).status ≠ .ok (some ())) ∧
    (∀ sch, (heapMain env (a1 :: a2 :: a3 :: rest) oA oB oF sch).events = [] ∧ (heapMain env (a1 :: a2 :: a3 :: rest) oA oB oF sch).status ≠ .ok (some ())) ∧
    (∀ sch, (maskedHashMain env (a1 :: a2 :: a3 :: rest) oA oB rA rB sch).events = [] ∧
      (maskedHashMain env (a1 :: a2 :: a3 :: rest) oA oB rA rB sch).status ≠ .ok (some ())) := by
  have hin : ∀ r, setInput env (a1 :: a2 :: a3 :: rest) oA oB ≠ .ok r := by
    intro r hr
    unfold setInput at hr
    simp only [rd, List.getElem?_cons_zero, List.getElem?_cons_succ, ok_bind] at hr
    rw [if_neg h1, if_neg h2] at hr
    obtain ⟨_, e1, hr⟩ := MatObj.bind_eq_ok hr
    obtain ⟨_, e2, hr⟩ := MatObj.bind_eq_ok hr
    rcases h with h | h
    · rw [h, C65_violated_missing] at e1; cases e1
    · rw [h, C65_violated_missing] at e2; cases e2
  have hsh : ∀ r, shuffled env (a1 :: a2 :: a3 :: rest) oA oB rA rB ≠ .ok r := by
    intro r hr
    unfold shuffled setInputR at hr
    obtain ⟨_, e1, hr⟩ := MatObj.bind_eq_ok hr
    obtain ⟨x, e2, -⟩ := MatObj.bind_eq_ok e1
    exact hin x e2
  refine ⟨fun sch => ?_, fun sch => ?_, fun sch => ?_⟩
  · unfold hashMain
    rw [if_neg (by simp)]
    refine andThen_events_nil (fun x hx => ?_) _
    obtain ⟨r, hr, -⟩ := MatObj.bind_eq_ok hx
    exact hsh r hr
  · unfold heapMain
    rw [if_neg (by simp)]
    refine andThen_events_nil (fun x hx => ?_) _
    obtain ⟨r, hr, -⟩ := MatObj.bind_eq_ok hx
    exact hin r hr
  · unfold maskedHashMain
    rw [if_neg (by simp)]
    refine andThen_events_nil (fun x hx => ?_) _
    obtain ⟨r, hr, -⟩ := MatObj.bind_eq_ok hx
    exact hsh r hr

/-- C97 for generated matrices: with a scale of at most 32 and a number of edges that is not 0, the input is the weight matrices of two random graphs, to which
the other theorems apply, or the generator does not end, and nothing is printed. -/
theorem C97_generated (neg : R → R) (ha : AssocComm env.add) (hE : SortsEdges env.sortE) (hr : ∀ i, 0 ≤ env.st.s2 i ∧ env.st.s2 i < 1) {a2 a3 a4 : List Char}
    (rest : List (List Char)) {scale factor : Nat} (h3 : Numeral a3 scale) (h4 : Numeral a4 factor) (hsc : scale ≤ 32) (hf : factor ≠ 0) :
    (∃ GA GB es fs, IsRandomGraph (2 ^ scale) (2 ^ scale * factor) 0 100 GA ∧ IsRandomGraph (2 ^ scale) (2 ^ scale * factor) 0 100 GB ∧
      GraphEntries env.add (GA.map fun e => (e.1, e.2.1, env.ofInt e.2.2)) es ∧ GraphEntries env.add (GB.map fun e => (e.1, e.2.1, env.ofInt e.2.2)) fs ∧
      Input env neg ("gen".toList :: a2 :: a3 :: a4 :: rest) oA oB (2 ^ scale) (2 ^ scale) es (2 ^ scale) (2 ^ scale) fs) ∨
    ((∀ sch, hashMain env ("gen".toList :: a2 :: a3 :: a4 :: rest) oA oB rA rB sch = ⟨[], .error .diverge⟩) ∧
      (∀ sch, heapMain env ("gen".toList :: a2 :: a3 :: a4 :: rest) oA oB oF sch = ⟨[], .error .diverge⟩) ∧
      (∀ sch, maskedHashMain env ("gen".toList :: a2 :: a3 :: a4 :: rest) oA oB rA rB sch = ⟨[], .error .diverge⟩)) := by
  refine (generated_or neg ha hE hr rest oA oB h3 h4 hsc hf).imp_right fun e => ⟨fun sch => ?_, fun sch => ?_, fun sch => ?_⟩
  · unfold hashMain shuffled setInputR
    rw [if_neg (by simp), e]
    rfl
  · unfold heapMain
    rw [if_neg (by simp), e]
    rfl
  · unfold maskedHashMain shuffled setInputR
    rw [if_neg (by simp), e]
    rfl

/-- C97 for too few arguments: nothing is printed but the usage, no file is read, and the programs end. -/
theorem C97_usage (h : args.length < 3) : (∀ sch, hashMain env args oA oB rA rB sch = ⟨[], .ok (some ())⟩) ∧
    (∀ sch, heapMain env args oA oB oF sch = ⟨[], .ok (some ())⟩) ∧ ∀ sch, maskedHashMain env args oA oB rA rB sch = ⟨[], .ok (some ())⟩ :=
  ⟨fun _ => if_pos h, fun _ => if_pos h, fun _ => if_pos h⟩

/-! ## Examples -/

/-- Schedules as required exist, for all numbers of columns and threads. -/
theorem heap_schedules (cols K : Nat) (ts : List Nat) : ∃ sch, HeapAdm cols ts sch ∧ HeapsFair K ts sch := by
  have hone : ∀ t, ∃ s : SampleMain.Sch, s.heap.Adm cols t ∧ HeapFair t K s := by
    intro t
    obtain ⟨s, h1, h2⟩ := schedule_exists cols t K
    exact ⟨⟨s, ⟨s.two.bin, [], [], [], []⟩, ⟨List.range cols, [], [], List.range (cols - 1), List.range t, s.two.count, List.range cols, [], [], s.two.fill⟩, [], [], [], [], []⟩,
      ⟨.refl _, .refl _, .refl _, .refl _⟩, fun t ht => ⟨(h2.two t ht).1, (h2.two t ht).2⟩⟩
  choose f h1 h2 using hone
  have hx : ∀ x ∈ ts.zipIdx, ts[x.2]?.getD 0 = x.1 := by
    intro x hx
    rw [List.mem_zipIdx_iff_getElem?.1 hx]
    rfl
  refine ⟨fun j _ => f (ts[j]?.getD 0), fun x hm i => ?_, fun x hm i => ?_⟩ <;> dsimp only <;> rw [hx x hm]
  · exact h1 _
  · exact h2 _

/-- Two text files -/
def pairEnv (a b : List Char) : Env Nat ℚ where
  text name := if name = "a.mtx".toList then some a else if name = "b.mtx".toList then some b else none
  bin _ := none
  si := 4
  sv := 4
  decV _ := 0
  ofInt := Int.toNat
  add := (· + ·)
  sortf := isort Prod.fst
  sortE := edgeSort
  ar := ratArith
  st := ratStreams
  parRmat := ratPar
  parEr := ⟨1 / 4, 1 / 4, 1 / 4, 1 / 4⟩
  fuel := 0

open _root_.Verif.Model.Sample (fileText) in
/-- Files with the entries at the positions `ps` and `qs` -/
theorem pair_input {ps qs : List (Nat × Nat)} (rest : List (List Char)) (hp : ∀ p ∈ ps, p.1 < m ∧ p.2 < n) (hq : ∀ p ∈ qs, p.1 < m' ∧ p.2 < n')
    (h1 : max (max m n) (max m' n') < 2 ^ 31) (h2 : max ps.length qs.length < 2 ^ 31) :
    Input (pairEnv (fileText m n ps.length ps) (fileText m' n' qs.length qs)) (fun v => v) ("text".toList :: "a.mtx".toList :: "b.mtx".toList :: rest)
      (List.range n) (List.range n') m n (ps.map fun p => (p.1, p.2, 1)) m' n' (qs.map fun p => (p.1, p.2, 1)) := by
  have key : ∀ {m n : Nat} {ps : List (Nat × Nat)}, (∀ p ∈ ps, p.1 < m ∧ p.2 < n) → m < 2 ^ 31 → n < 2 ^ 31 → ps.length < 2 ^ 31 → ∀ {file : Option (List Char)},
      file = some (fileText m n ps.length ps) → GoodText Int.toNat (fun v => v) file m n (ps.map fun p => (p.1, p.2, 1)) := by
    intro m n ps hp hm hn hk file hf
    exact ⟨Sample.parts m n ps.length ps, _, _, hf, Sample.parts_describes (IntVal Int.toNat) (Int.toNat 1) hp, Sample.parts_short hm hn hk hp, by simp [Sample.parts],
      parts_noComment _ _ _ _, .inl ⟨[], (Sample.fileText_lines _ _ _ _).trans (List.append_nil _).symm⟩, rfl⟩
  refine .text _ _ _ rest _ _ _ _ _ _ _ _ (by decide) (by decide) ⟨[], 'a', "mtx".toList, by decide, by decide +kernel, .inl ⟨by decide +kernel, by decide +kernel⟩⟩
    (key hp (by omega) (by omega) (by omega) (by unfold pairEnv; dsimp only; exact if_pos rfl)) (key hq (by omega) (by omega) (by omega) ?_) (.refl _) (.refl _)
  unfold pairEnv
  dsimp only
  rw [if_neg (by decide), if_pos rfl]

theorem noEmptyRow_of {n : Nat} {ps : List (Nat × Nat)} (h : ∀ i < n, i ∈ ps.map Prod.fst) : NoEmptyRow n (ps.map fun p => (p.1, p.2, (1 : Nat))) := by
  intro i hi
  obtain ⟨p, hp, rfl⟩ := List.mem_map.1 (h i hi)
  exact ⟨p.2, _, List.mem_map.2 ⟨p, hp, rfl⟩, rfl⟩

/-- A column, a row, and a matrix with a full first row and column -/
def columnAt : List (Nat × Nat) := [(0, 0), (1, 0), (2, 0), (3, 0)]
def rowAt : List (Nat × Nat) := [(0, 0), (0, 1), (0, 2), (0, 3)]
def arrowAt : List (Nat × Nat) := [(0, 0), (0, 1), (0, 2), (0, 3), (1, 0), (2, 0), (3, 0)]

/-- The square of the last one has sixteen entries. -/
theorem arrow_square : ProductEntries (R := Nat) (arrowAt.map fun p => (p.1, p.2, 1)) (arrowAt.map fun p => (p.1, p.2, 1))
    ((List.range 4).flatMap fun i => (List.range 4).map fun j => (i, j, if i = 0 ∧ j = 0 then 4 else 1)) where
  nodup := by decide
  mem := by
    intro i j v
    constructor
    · intro h
      simp only [List.mem_flatMap, List.mem_map, List.mem_range, Prod.mk.injEq] at h
      obtain ⟨i', hi, j', hj, rfl, rfl, rfl⟩ := h
      have : i' = 0 ∨ i' = 1 ∨ i' = 2 ∨ i' = 3 := by omega
      have : j' = 0 ∨ j' = 1 ∨ j' = 2 ∨ j' = 3 := by omega
      refine ⟨⟨0, ⟨(i', 0, 1), ?_, rfl⟩, (0, j', 1), ?_, rfl⟩, ?_⟩
      · simp [arrowAt]; omega
      · simp [arrowAt]; omega
      · rcases ‹i' = 0 ∨ _› with rfl | rfl | rfl | rfl <;> rcases ‹j' = 0 ∨ _› with rfl | rfl | rfl | rfl <;> decide
    · rintro ⟨⟨k, ⟨e, he, e'⟩, f, hf, f'⟩, rfl⟩
      obtain ⟨rfl, -⟩ := Prod.mk.inj e'
      obtain ⟨-, rfl⟩ := Prod.mk.inj f'
      simp only [arrowAt, List.map_cons, List.map_nil, List.mem_cons, List.not_mem_nil, or_false] at he hf
      rcases he with rfl | rfl | rfl | rfl | rfl | rfl | rfl <;> rcases hf with rfl | rfl | rfl | rfl | rfl | rfl | rfl <;> decide

/-- A column times a row -/
theorem outer_pair : Input (pairEnv (Sample.fileText 4 1 4 columnAt) (Sample.fileText 1 4 4 rowAt)) (fun v => v) ["text".toList, "a.mtx".toList, "b.mtx".toList]
    [0] [0, 1, 2, 3] 4 1 (columnAt.map fun p => (p.1, p.2, 1)) 1 4 (rowAt.map fun p => (p.1, p.2, 1)) :=
  pair_input (m := 4) (n := 1) (m' := 1) (n' := 4) (ps := columnAt) (qs := rowAt) [] (by decide) (by decide) (by decide) (by decide)

/-- The product of this example has sixteen entries, so that `C97_hash_partial` gives the lines of the program. -/
example : ∃ P, ProductEntries (R := Nat) (columnAt.map fun p => (p.1, p.2, 1)) (rowAt.map fun p => (p.1, p.2, 1)) P ∧ 10 ≤ P.length := ⟨_, outer_product, by decide⟩

example {rA rB : Nat → Nat} := C97_hash_partial (ts := twoCounts) (rA := rA) (rB := rB) (isort_sorts Prod.fst) outer_pair (by decide) (by decide) (noEmptyRow_of (by decide))
  (noEmptyRow_of (by decide)) .default

example := C97_heap_partial (ts := twoCounts) (isort_sorts Prod.fst) outer_pair (by decide) (by decide) (by decide) (oF := [2, 1, 3, 0]) (by decide) .default

example {rA rB : Nat → Nat} := C97_masked_partial (ts := fiveCounts) (rA := rA) (rB := rB) (isort_sorts Prod.fst)
  (pair_input (m := 4) (n := 4) (m' := 1) (n' := 4) (ps := arrowAt) (qs := rowAt) [] (by decide) (by decide) (by decide) (by decide)) (by decide) (by decide)
  (noEmptyRow_of (by decide)) (noEmptyRow_of (by decide)) .default arrow_square (by decide)

/-- A matrix with four rows and one entry -/
example {rA rB : Nat → Nat} := C97_violated_empty_row (rA := rA) (rB := rB) (isort_sorts Prod.fst)
  (pair_input (m := 4) (n := 4) (m' := 4) (n' := 4) (ps := arrowAt) (qs := [(1, 2)]) [] (by decide) (by decide) (by decide) (by decide))
  (.inr fun h => by
    obtain ⟨j, e, he, h⟩ := h 0 (by decide)
    simp only [List.map_cons, List.map_nil, List.mem_singleton] at he
    subst he
    simp at h)

/-- A row times a column, with one thread -/
example {rA rB : Nat → Nat} := C97_violated_short (rA := rA) (rB := rB) (isort_sorts Prod.fst)
  (pair_input (m := 1) (n := 4) (m' := 4) (n' := 1) (ps := rowAt) (qs := columnAt) ["1".toList, "1".toList] (by decide) (by decide) (by decide) (by decide)) (by decide)
  (by decide) (noEmptyRow_of (by decide)) (noEmptyRow_of (by decide)) (.given _ _ 1 (.digit 1 (by decide)) (by decide)) inner_product (by unfold ByRows; decide) (by decide)

/-- A full first column of `n` rows -/
def tallAt (n : Nat) : List (Nat × Nat) := (List.range n).map fun i => (i, 0)

theorem tallAt_lt {n k : Nat} (hk : 0 < k) : ∀ p ∈ tallAt n, p.1 < n ∧ p.2 < k := by
  intro p hp
  obtain ⟨i, hi, rfl⟩ := List.mem_map.1 hp
  exact ⟨List.mem_range.1 hi, hk⟩

theorem tallAt_full (n : Nat) : ∀ i < n, i ∈ (tallAt n).map Prod.fst := by
  intro i hi
  rw [tallAt, List.map_map]
  exact List.mem_map.2 ⟨i, List.mem_range.2 hi, rfl⟩

theorem tallAt_length (n : Nat) : (tallAt n).length = n := by rw [tallAt, List.length_map, List.length_range]

example {rA rB : Nat → Nat} := (C97_violated_rows (rA := rA) (rB := rB) (m' := 0) (n' := 0) (oF := []) (t := 32) (isort_sorts Prod.fst)).1
  (pair_input (m := 131071) (n := 1) (m' := 1) (n' := 1) (ps := tallAt 131071) (qs := [(0, 0)]) [] (tallAt_lt (by decide)) (by decide) (by decide)
    (by rw [tallAt_length]; decide)) (noEmptyRow_of (tallAt_full _)) (noEmptyRow_of (by decide)) .default (by decide)

example {rA rB : Nat → Nat} := (C97_violated_rows (rA := rA) (rB := rB) (k := 0) (n := 0) (oF := []) (t := 4) (isort_sorts Prod.fst)).2.1
  (pair_input (m := 131071) (n := 131071) (m' := 1) (n' := 1) (ps := tallAt 131071) (qs := [(0, 0)]) [] (tallAt_lt (by decide)) (by decide) (by decide)
    (by rw [tallAt_length]; decide)) (noEmptyRow_of (tallAt_full _)) (noEmptyRow_of (by decide)) .default (by decide)

example {rA rB : Nat → Nat} := (C97_violated_rows (rA := rA) (rB := rB) (m' := 0) (n' := 0) (oF := List.range 131071) (t := 32) (isort_sorts Prod.fst)).2.2
  (pair_input (m := 1) (n := 1) (m' := 1) (n' := 131071) (ps := [(0, 0)]) (qs := [(0, 5)]) [] (by decide) (by decide) (by decide) (by decide))
  (.refl _) .default (by decide)

example {rA rB : Nat → Nat} := C97_violated_missing (env := pairEnv [] []) (rA := rA) (rB := rB) (oA := []) (oB := []) (oF := []) (a1 := "text".toList) (a2 := "c.mtx".toList)
  (a3 := "b.mtx".toList) (rest := []) (by decide) (by decide) (.inl (by decide))

example {rA rB : Nat → Nat} := C97_usage (env := pairEnv [] []) (rA := rA) (rB := rB) (oA := []) (oB := []) (oF := []) (args := ["gen".toList, "rmat".toList]) (by decide)

/-- Generated matrices: four vertices and eight edges -/
example {rA rB : Nat → Nat} := C97_generated (env := pairEnv [] []) (oA := []) (oB := []) (oF := []) (rA := rA) (rB := rB) (fun v => v) ⟨fun a b c => Nat.add_assoc a b c, fun a b => Nat.add_comm a b⟩
  edgeSort_sorts (fun i => by simp only [pairEnv, ratStreams]; norm_num) (a2 := "rmat".toList) ["2".toList] (.digit 2 (by decide)) (.digit 2 (by decide)) (by decide) (by decide)

/-- With enough attempts of the generator there is such an input. -/
theorem generated_exists (rest : List (List Char)) (oA oB : List Nat) : ∃ fuel es fs, Input { pairEnv [] [] with fuel := fuel } (fun v => v)
    ("gen".toList :: "rmat".toList :: "2".toList :: "2".toList :: rest) oA oB 4 4 es 4 4 fs := by
  obtain ⟨fuel, G, e, hG⟩ := C89_ends ratArith Rmat.getParams rfl rfl rfl (by decide) (by decide) ratPar ratStreams (fun _ => by simp only [ratStreams]; norm_num)
    (n := 4) (by decide) (by decide) 8 fun k => ⟨k, Nat.le_refl _, ratStreams_succeeds k⟩
  have ha : AssocComm (pairEnv [] []).add := ⟨fun a b c => Nat.add_assoc a b c, fun a b => Nat.add_comm a b⟩
  obtain ⟨C, -, -, -, -, -, g⟩ := graph_mat (env := { pairEnv [] [] with fuel := fuel }) ha edgeSort_sorts hG (by decide)
  refine ⟨fuel, _, _, .gen _ _ _ _ _ _ 2 2 G G _ _ (.digit 2 (by decide)) (.digit 2 (by decide)) (by decide) ha edgeSort_sorts ?_ hG hG g g⟩
  unfold Generated
  rw [if_pos rfl]
  refine ⟨e, ?_⟩
  show Rmat.graphGen ratArith Rmat.getParams (Sample.parAfter ratArith ratStreams ratPar 4 8 fuel 0 0 ratPar) ratStreams 4 8 fuel = _
  rw [parAfter_rat]
  exact e

end Verif.Props
