import Verif.Lemmas.SampleMain
import Verif.Props.C82
import Verif.Props.C83
import Verif.Props.C84

/-! # C96: the sample programs that take names of files -/

namespace Verif.Props

open Verif.Model Verif.Model.SampleMain Verif.Spec
open _root_.Verif.Model.Bench (Out seqAll)
open _root_.Verif.Model.MaskedAll (Good seq_good seq_done seq_stop seqAll_good SchAdm SchFair Mats entries_exist kernel_gives Ker)

variable {R : Type} [Semiring R] {w : World R} {neg : R → R} {args : List (List Char)} {m k n : Nat} {es fs ms : List (Nat × Nat × R)} {o1 o2 o3 : List Nat}
  {ts : List Nat}

/-- The numbers of threads if none is given -/
def fiveCounts : List Nat := [4, 8, 16, 32, 64]

/-- The first three arguments are names of files that describe matrices of matching sizes, with at least one row. -/
structure ThreeFiles (w : World R) (neg : R → R) (args : List (List Char)) (o1 o2 o3 : List Nat) (m k n : Nat) (es fs ms : List (Nat × Nat × R)) : Prop where
  file1 : ∃ a t, args[0]? = some a ∧ w.text a = some t ∧ FileOf w.ofInt neg t m k es
  file2 : ∃ a t, args[1]? = some a ∧ w.text a = some t ∧ FileOf w.ofInt neg t k n fs
  file3 : ∃ a t, args[2]? = some a ∧ w.text a = some t ∧ FileOf w.ofInt neg t m n ms
  read1 : o1.Perm (List.range k)
  read2 : o2.Perm (List.range n)
  read3 : o3.Perm (List.range n)
  rows : 0 < m

theorem ThreeFiles.setup (h : ThreeFiles w neg args o1 o2 o3 m k n es fs ms) (hs : SortsBy Prod.fst w.sortf) :
    ¬ args.length < 3 ∧ ∃ x, setup3 w o1 o2 o3 args = .ok (some x) ∧ Mats m k n es fs ms x.A x.B x.M x.Bc ∧ x.flop = 2 * pairings es fs := by
  obtain ⟨a1, t1, e1, e1', h1⟩ := h.file1
  obtain ⟨a2, t2, e2, e2', h2⟩ := h.file2
  obtain ⟨a3, t3, e3, e3', h3⟩ := h.file3
  obtain ⟨Ac, A, l1, -, -, wA, rA, cA, pA, sA, -⟩ := load_ok hs e1' h1 h.read1
  obtain ⟨Bc, B, l2, wBc, sBc, wB, rB, cB, pB, sB, same⟩ := load_ok hs e2' h2 h.read2
  obtain ⟨Mc, M, l3, -, -, wM, rM, cM, pM, sM, -⟩ := load_ok hs e3' h3 h.read3
  refine ⟨fun hl => ?_, ⟨A, B, Bc, M, 2 * pairings (triples A) (triples B)⟩, ?_, ⟨wA, wB, wM, wBc, rA, cA, rB, cB, rM, cM, pA, pB, pM, sA, sB, sM, sBc, same⟩,
    by rw [Flops.pairings_perm pA pB]⟩
  · rw [List.getElem?_eq_none (by omega)] at e3
    cases e3
  · unfold setup3 rd
    simp only [e1, e2, e3, ok_bind, l1, l2, l3, C83_rows wA wB (cA.trans rB.symm)]

theorem flatMap_one {α β : Type} (f : α → β) (l : List α) : l.flatMap (fun x => [f x]) = l.map f := by
  induction l with
  | nil => rfl
  | cons a l ih => rw [List.flatMap_cons, ih]; rfl

/-- From one bound for the turns to the two parts of a statement -/
theorem outcome {S E : Type} {want : List E} {run : S → Out E} {adm : S → Prop} {fair : Nat → S → Prop}
    (h : ∃ K, ∀ s, adm s → Good (fair K s) want (run s)) :
    (∀ s, adm s → run s = ⟨want, .ok (some ())⟩ ∨ ((run s).status = .ok none ∧ (run s).events <+: want)) ∧
      ∃ K, ∀ s, adm s → fair K s → run s = ⟨want, .ok (some ())⟩ := by
  obtain ⟨K, h⟩ := h
  refine ⟨fun s hs => ?_, K, fun s hs hf => ?_⟩
  · rcases h s hs with e | ⟨-, e⟩
    · exact .inl e
    · exact .inr e
  · rcases h s hs with e | ⟨hn, -⟩
    · exact e
    · exact absurd hf hn

/-- The schedules of the calls of masked kernels are those of `rows` rows, for each number of threads. -/
def MaskAdm (rows : Nat) (ts : List Nat) (sch : Nat → Nat → SampleMain.Sch) : Prop := ∀ x ∈ ts.zipIdx, ∀ i, SchAdm rows x.1 (sch x.2 i).mask

/-- Each thread gets at least `K` turns in every part of each of these calls. -/
def MaskFair (K : Nat) (ts : List Nat) (sch : Nat → Nat → SampleMain.Sch) : Prop := ∀ x ∈ ts.zipIdx, ∀ i, SchFair x.1 K (sch x.2 i).mask

/-- C96 for the program with dot products (`InnerSpGEMM`): with three files that describe matrices of matching sizes, where the columns of the entries of
the first matrix are less than the number of columns of the second, the program prints twice the number of products of entries, and for each number of
threads the number of entries of the product at the positions of the mask. For every schedule; if the threads get enough turns, the program comes to its
end.

What is missing: files with repeated positions, other first matrices (see `C96_violated_inner`), and `2^17 - 1` or more rows (see `C96_violated_rows`). -/
theorem C96_inner_partial (hs : SortsBy Prod.fst w.sortf) (h : ThreeFiles w neg args o1 o2 o3 m k n es fs ms) (hsmall : m + 1 < 2 ^ 17)
    (hcols : ∀ e ∈ es, e.2.1 < n) (ht : Threads fiveCounts (args.drop 3) ts) :
    ∃ L, MaskedEntries es fs ms L ∧
      let want : List (SampleMain.Event R) := .flop (2 * pairings es fs) :: ts.map fun t => .result "DotSpGEMM".toList t L.length
      (∀ sch, MaskAdm m ts sch → innerMain w o1 o2 o3 args sch = ⟨want, .ok (some ())⟩ ∨
        ((innerMain w o1 o2 o3 args sch).status = .ok none ∧ (innerMain w o1 o2 o3 args sch).events <+: want)) ∧
      ∃ K, ∀ sch, MaskAdm m ts sch → MaskFair K ts sch → innerMain w o1 o2 o3 args sch = ⟨want, .ok (some ())⟩ := by
  obtain ⟨hl, x, hx, hM, hf⟩ := h.setup hs
  obtain ⟨L, hL⟩ := entries_exist hM
  refine ⟨L, hL, outcome (adm := MaskAdm m ts) (fair := fun K => MaskFair K ts) ?_⟩
  obtain ⟨K, hK⟩ := forThreads_good (Adm := fun t s => SchAdm m t s.mask) (Fair := fun t K s => SchFair t K s.mask) (fun hK h => h.mono hK)
    (body := fun tnum sch => block "DotSpGEMM".toList (fun C s => Ker.inner.call x.A x.B x.M x.Bc tnum C s.mask) 1 tnum sch)
    (w := fun t => [.result "DotSpGEMM".toList t L.length]) ts (fun t htt =>
      kernel_block hM hL _ .inner 1 (kernel_gives hM h.rows hsmall hcols .inner trivial (threads_pos ht (by decide) t htt)))
  refine ⟨K, fun sch hadm => ?_⟩
  unfold innerMain
  rw [if_neg hl, andThen_ok hx]
  have ht' : Threads [4, 8, 16, 32, 64] (args.drop 3) ts := ht
  rw [tnums_eq ht', hf]
  have := seq_good (say_good (.flop (2 * pairings es fs))) (hK sch hadm)
  rwa [flatMap_one] at this

/-- The schedules of the calls of `HashSpGEMM`, `sortIds` and `Intersect` are those of `rows` rows, for each number of threads. -/
def HashIntersectAdm (rows : Nat) (ts : List Nat) (sch : Nat → Nat → SampleMain.Sch) : Prop :=
  ∀ x ∈ ts.zipIdx, ∀ i, HashMult.Adm rows x.1 (sch x.2 i).hash ∧ (sch x.2 i).sort.Perm (List.range rows) ∧ (sch x.2 i).inter1.Perm (List.range rows) ∧
    (sch x.2 i).inter2.Perm (List.range rows)

/-- Each thread gets at least `K` turns in both parts of each call of `HashSpGEMM`. -/
def HashesFair (K : Nat) (ts : List Nat) (sch : Nat → Nat → SampleMain.Sch) : Prop := ∀ x ∈ ts.zipIdx, ∀ i, HashFair x.1 K (sch x.2 i)

/-- C96 for the program with a dense accumulator (`MaskedSPASpGEMM`), if the product has ten or more entries: with three files that describe matrices of
matching sizes, the program prints twice the number of products of entries. For each number of threads it prints ten values of entries of the product,
those at the front of a list of all entries, the number of entries of the product, and the number of those at positions of the mask. Then, for each
number of threads, it prints the latter number again, computed by the masked kernel. For every schedule; if the threads get enough turns, the program comes
to its end.

What is missing: files with repeated positions, products with fewer entries (see `C96_violated_short`), and `2^17 - 1` or more rows (see
`C96_violated_rows`). -/
theorem C96_spa_partial (hs : SortsBy Prod.fst w.sortf) (h : ThreeFiles w neg args o1 o2 o3 m k n es fs ms) (hsmall : m + 1 < 2 ^ 17)
    {Q : List (Nat × Nat × R)} (hQ : ProductEntries es fs Q) (hten : 10 ≤ Q.length) (ht : Threads fiveCounts (args.drop 3) ts) :
    ∃ (L : List (Nat × Nat × R)) (P : Nat → List (Nat × Nat × R)), MaskedEntries es fs ms L ∧ (∀ t ∈ ts, ProductEntries es fs (P t)) ∧
      let want : List (SampleMain.Event R) := .flop (2 * pairings es fs) :: (ts.flatMap (fun t =>
        ((P t).take 10).map (fun e => .value e.2.2) ++ [.result "HashSpGEMM".toList t Q.length, .masked L.length]) ++
        ts.map fun t => .result "MaskedSPASpGEMM".toList t L.length)
      (∀ sch, (HashIntersectAdm m ts (sch 0) ∧ MaskAdm m ts (sch 1)) → spaMain w o1 o2 o3 args sch = ⟨want, .ok (some ())⟩ ∨
        ((spaMain w o1 o2 o3 args sch).status = .ok none ∧ (spaMain w o1 o2 o3 args sch).events <+: want)) ∧
      ∃ K, ∀ sch, (HashIntersectAdm m ts (sch 0) ∧ MaskAdm m ts (sch 1)) → (HashesFair K ts (sch 0) ∧ MaskFair K ts (sch 1)) →
        spaMain w o1 o2 o3 args sch = ⟨want, .ok (some ())⟩ := by
  obtain ⟨hl, x, hx, hM, hf⟩ := h.setup hs
  obtain ⟨L, hL⟩ := entries_exist hM
  have hAB := hM.cA.trans hM.rB.symm
  have hone : ∀ t, ∃ P, 0 < t → ProductEntries es fs P ∧ ∀ s : Nat → SampleMain.Sch, (∀ i, HashMult.Adm m t (s i).hash ∧ (s i).sort.Perm (List.range m) ∧
      (s i).inter1.Perm (List.range m) ∧ (s i).inter2.Perm (List.range m)) → Good (∀ i, HashFair t (m + 2) (s i))
      ((P.take 10).map (fun e => Event.value e.2.2) ++ [Event.result "HashSpGEMM".toList t Q.length, .masked L.length]) (hashMasked w.sortf x t s) := by
    intro t
    by_cases ht0 : 0 < t
    · obtain ⟨C, hC, hg⟩ := hash_gives false hs hM.wA hM.wB hAB (hM.rA ▸ h.rows) (hM.rA ▸ hsmall) ht0
      have hP := product_entries hM.wA hM.wB hAB hM.pA hM.pB hC
      have hlen : (triples C).length = Q.length := (product_unique hP hQ).length_eq
      have hnnz : C.nnz = Q.length := by rw [← hlen, Bench.triples_length hC.wf]
      refine ⟨triples C, fun _ => ⟨hP, fun s hadm => ?_⟩⟩
      have hh : ∀ i, Bench.Gives (∀ i, HashFair t (m + 2) (s i)) C (SampleMain.hash false w.sortf x.A x.B t (s i)) := by
        intro i
        have := hg (s i) (hM.rA ▸ (hadm i).1)
        rw [hM.rA] at this
        exact MaskedAll.Gives.weaken this fun hh => hh i
      obtain ⟨T, e, hT⟩ := intersect_gives (s := s 1) hs hM.wM hM.sM hC hM.wA hM.wB hAB (hM.rM.trans hM.rA.symm) (hM.cM.trans hM.cB.symm) (hM.rA ▸ hsmall) ht0
        hM.pA hM.pB hM.pM hL (hM.rA ▸ (hadm 1).2.1) (hM.rA ▸ (hadm 1).2.2.1) (hM.rA ▸ (hadm 1).2.2.2)
      have hv : (C.values.take 10).map Event.value = ((triples C).take 10).map fun e => Event.value e.2.2 := by
        rw [← (MatObj.triples_snd hC.wf).2, List.map_take, List.map_take, List.map_map]
        rfl
      unfold hashMasked
      refine andThen_good (hh 0) (seq_good (.inl ?_) (andThen_good (hh 1) (seq_good (w := [_]) (w' := [_]) (hnnz ▸ say_good _) ?_)))
      · rw [values_ten (by rw [hC.wf.valLen, hnnz]; exact hten), hv]
      · rw [andThen_ok e, ← hT]
        exact say_good _
    · exact ⟨[], fun h => absurd h ht0⟩
  choose P hP using hone
  have hpos := threads_pos ht (by decide)
  refine ⟨L, P, hL, fun t htt => (hP t (hpos t htt)).1, outcome (adm := fun sch : Nat → Nat → Nat → SampleMain.Sch => HashIntersectAdm m ts (sch 0) ∧ MaskAdm m ts (sch 1))
    (fair := fun K sch => HashesFair K ts (sch 0) ∧ MaskFair K ts (sch 1)) ?_⟩
  obtain ⟨K1, hK1⟩ := forThreads_good
    (Adm := fun t s => HashMult.Adm m t s.hash ∧ s.sort.Perm (List.range m) ∧ s.inter1.Perm (List.range m) ∧ s.inter2.Perm (List.range m))
    (Fair := fun t K s => HashFair t K s) (fun hK h t ht => ⟨hK.trans (h t ht).1, hK.trans (h t ht).2⟩) (body := hashMasked w.sortf x)
    (w := fun t => ((P t).take 10).map (fun e => Event.value e.2.2) ++ [Event.result "HashSpGEMM".toList t Q.length, .masked L.length]) ts
    (fun t htt => ⟨m + 2, (hP t (hpos t htt)).2⟩)
  obtain ⟨K2, hK2⟩ := forThreads_good (Adm := fun t s => SchAdm m t s.mask) (Fair := fun t K s => SchFair t K s.mask) (fun hK h => h.mono hK)
    (body := fun tnum sch => block "MaskedSPASpGEMM".toList (fun C s => Ker.spa.call x.A x.B x.M x.Bc tnum C s.mask) 1 tnum sch)
    (w := fun t => [.result "MaskedSPASpGEMM".toList t L.length]) ts (fun t htt =>
      kernel_block hM hL _ .spa 1 (spa_gives hM h.rows hsmall (hpos t htt)))
  refine ⟨max K1 K2, fun sch hadm => ?_⟩
  unfold spaMain
  rw [if_neg hl, andThen_ok hx]
  have ht' : Threads [4, 8, 16, 32, 64] (args.drop 3) ts := ht
  rw [tnums_eq ht', hf]
  have := seq_good (say_good (.flop (2 * pairings es fs)))
    (seq_good (MaskedAll.Good.weaken (hK1 (sch 0) hadm.1) fun (hh : HashesFair (max K1 K2) ts (sch 0) ∧ MaskFair (max K1 K2) ts (sch 1)) x hx i t ht =>
        ⟨(Nat.le_max_left _ _).trans (hh.1 x hx i t ht).1, (Nat.le_max_left _ _).trans (hh.1 x hx i t ht).2⟩)
      (MaskedAll.Good.weaken (hK2 (sch 1) hadm.2) fun hh x hx i => (hh.2 x hx i).mono (Nat.le_max_right _ _)))
  rwa [flatMap_one] at this

/-- The names that `all_parallel_tc` prints -/
def tcNames : List (List Char) := ["MaskedSPASpGEMM".toList, "DotSpGEMM".toList, "mxm_hash_mask".toList]

/-- C96 for the program for triangle counting (`all_parallel_tc`): with the file of a square matrix and a number of threads, the program prints
twice the number of products of entries of the matrix with itself, and for each of three kernels the number of entries of the square of the matrix at
the positions of the matrix. For every schedule; if the threads get enough turns, the program comes to its end.

What is missing: files with repeated positions, matrices that are not square (see `C96_violated_square`), and `2^17 - 1` or more rows (see
`C96_violated_rows`). -/
theorem C96_tc_partial (hs : SortsBy Prod.fst w.sortf) {a b text : List Char} {rest : List (List Char)} (htext : w.text a = some text)
    (hfile : FileOf w.ofInt neg text m m es) (ho : o1.Perm (List.range m)) (hm : 0 < m) (hsmall : m + 1 < 2 ^ 17) {t : Nat} (hb : Numeral b t) (ht : 0 < t) :
    ∃ L, MaskedEntries es es es L ∧
      let want : List (SampleMain.Event R) := .flop (2 * pairings es es) :: tcNames.map fun name => .result name t L.length
      (∀ sch, (∀ p, MaskAdm m [t] (sch p)) → tcMain w o1 (a :: b :: rest) sch = ⟨want, .ok (some ())⟩ ∨
        ((tcMain w o1 (a :: b :: rest) sch).status = .ok none ∧ (tcMain w o1 (a :: b :: rest) sch).events <+: want)) ∧
      ∃ K, ∀ sch, (∀ p, MaskAdm m [t] (sch p)) → (∀ p, MaskFair K [t] (sch p)) → tcMain w o1 (a :: b :: rest) sch = ⟨want, .ok (some ())⟩ := by
  obtain ⟨Ac, A, l1, wAc, sAc, wA, rA, cA, pA, sA, same⟩ := load_ok hs htext hfile ho
  have hM : Mats m m m es es es A A A Ac := ⟨wA, wA, wA, wAc, rA, cA, rA, cA, rA, cA, pA, pA, pA, sA, sA, sA, sAc, same⟩
  have hx : setup1 w o1 (a :: b :: rest) = .ok (some ⟨A, A, Ac, A, 2 * pairings es es⟩) := by
    unfold setup1
    show (load w o1 a >>= _) = _
    rw [l1, ok_bind, C83_rows wA wA (cA.trans rA.symm), Flops.pairings_perm pA pA]
    rfl
  obtain ⟨L, hL⟩ := entries_exist hM
  have hcols : ∀ e ∈ es, e.2.1 < m := by
    intro e he
    have := (Graph.mem_triples.1 (pA.mem_iff.2 (show (e.1, e.2.1, e.2.2) ∈ es from he))).2
    rw [← cA]
    exact CSR.row_lt wA this
  refine ⟨L, hL, outcome (adm := fun sch : Nat → Nat → Nat → SampleMain.Sch => ∀ p, MaskAdm m [t] (sch p)) (fair := fun K sch => ∀ p, MaskFair K [t] (sch p)) ?_⟩
  have hpart : ∀ (name : List Char) (x : Ker), x.Needs A A A → ∃ K, ∀ sch, MaskAdm m [t] sch → Good (MaskFair K [t] sch) [.result name t L.length]
      (forThreads [t] sch fun tnum sch => block name (fun C s => x.call A A A Ac tnum C s.mask) 4 tnum sch) := fun name x hx =>
    forThreads_good (Adm := fun t s => SchAdm m t s.mask) (Fair := fun t K s => SchFair t K s.mask) (fun hK h => h.mono hK)
      (body := fun tnum sch => block name (fun C s => x.call A A A Ac tnum C s.mask) 4 tnum sch) (w := fun t => [.result name t L.length]) [t] (fun t' ht' => by
        rw [List.mem_singleton.1 ht']
        exact kernel_block hM hL name x 4 (kernel_gives hM hm hsmall hcols x hx ht))
  obtain ⟨K1, h1⟩ := hpart "MaskedSPASpGEMM".toList .spa trivial
  obtain ⟨K2, h2⟩ := hpart "DotSpGEMM".toList .inner trivial
  obtain ⟨K3, h3⟩ := hpart "mxm_hash_mask".toList .hash trivial
  have hmono : ∀ {K K' : Nat} {sch : Nat → Nat → SampleMain.Sch}, K ≤ K' → MaskFair K' [t] sch → MaskFair K [t] sch := fun hK h x hx i => (h x hx i).mono hK
  refine ⟨max K1 (max K2 K3), fun sch hadm => ?_⟩
  unfold tcMain
  rw [if_neg (by simp), andThen_ok hx]
  have ht' : tnums [] (a :: b :: rest) 1 = [t] := tnums_eq (.given b rest t hb ht)
  rw [ht']
  refine seq_good (w := [_]) (say_good _) (seq_good (w := [_]) (w' := [_, _]) (MaskedAll.Good.weaken (h1 (sch 0) (hadm 0)) fun hh => hmono (Nat.le_max_left _ _) (hh 0))
    (seq_good (w := [_]) (w' := [_]) (MaskedAll.Good.weaken (h2 (sch 1) (hadm 1)) fun hh => hmono ((Nat.le_max_left _ _).trans (Nat.le_max_right _ _)) (hh 1))
      (seq_good (w := [_]) (w' := []) (MaskedAll.Good.weaken (h3 (sch 2) (hadm 2)) fun hh => hmono ((Nat.le_max_right _ _).trans (Nat.le_max_right _ _)) (hh 2))
        (.inl rfl))))

/-! ## Violations -/

/-- C96 is violated for every product with fewer than ten entries: `MaskedSPASpGEMM` reads behind the end of the array with the values of the product. It
prints the number of operations and the values of all entries, and no other line. -/
theorem C96_violated_short (hs : SortsBy Prod.fst w.sortf) (h : ThreeFiles w neg args o1 o2 o3 m k n es fs ms) (hsmall : m + 1 < 2 ^ 17)
    {Q : List (Nat × Nat × R)} (hQ : ProductEntries es fs Q) (hten : Q.length < 10) {t : Nat} {ts' : List Nat}
    (ht : Threads fiveCounts (args.drop 3) (t :: ts')) :
    ∃ P, ProductEntries es fs P ∧ ∀ sch : Nat → Nat → Nat → SampleMain.Sch, HashMult.Adm m t (sch 0 0 0).hash →
      spaMain w o1 o2 o3 args sch = ⟨.flop (2 * pairings es fs) :: P.map fun e => .value e.2.2, .error .oob⟩ ∨
      (spaMain w o1 o2 o3 args sch = ⟨[.flop (2 * pairings es fs)], .ok none⟩ ∧ ¬ HashFair t (m + 2) (sch 0 0 0)) := by
  obtain ⟨hl, x, hx, hM, hf⟩ := h.setup hs
  have hAB := hM.cA.trans hM.rB.symm
  obtain ⟨C, hC, hg⟩ := hash_gives false hs hM.wA hM.wB hAB (hM.rA ▸ h.rows) (hM.rA ▸ hsmall) (threads_pos ht (by decide) t (by simp))
  have hP := product_entries hM.wA hM.wB hAB hM.pA hM.pB hC
  have hnnz : C.nnz = Q.length := by rw [← Bench.triples_length hC.wf]; exact (product_unique hP hQ).length_eq
  refine ⟨triples C, hP, fun sch hadm => ?_⟩
  have ht' : Threads [4, 8, 16, 32, 64] (args.drop 3) (t :: ts') := ht
  unfold spaMain
  rw [if_neg hl, andThen_ok hx, tnums_eq ht', hf]
  obtain ⟨r1, e1⟩ := forThreads_cons t ts' (sch 0) (hashMasked w.sortf x)
  rw [e1]
  unfold say
  rw [seq_done rfl]
  have hadm' := hg (sch 0 0 0) (hM.rA ▸ hadm)
  rw [hM.rA] at hadm'
  rcases hadm' with e | ⟨hn, e⟩
  · refine .inl ?_
    have : hashMasked w.sortf x t (sch 0 0) = ⟨C.values.map Event.value, .error .oob⟩ := by
      unfold hashMasked
      rw [andThen_ok e, values_short (by rw [hC.wf.valLen, hnnz]; exact hten), seq_stop (by simp)]
    rw [this, seq_stop (a := ⟨_, .error .oob⟩) (by simp), seq_stop (a := ⟨_, .error .oob⟩) (by simp), ← (MatObj.triples_snd hC.wf).2, List.map_map]
    rfl
  · refine .inr ⟨?_, hn⟩
    have : hashMasked w.sortf x t (sch 0 0) = ⟨[], .ok none⟩ := by
      unfold hashMasked andThen
      rw [e]
    rw [this, seq_stop (a := ⟨_, .ok none⟩) (by simp), seq_stop (a := ⟨_, .ok none⟩) (by simp)]
    rfl

/-- C96 is violated for every first matrix with an entry in a column that is not a column of the second matrix, although the sizes match: `InnerSpGEMM` prints
the number of operations and no other line, and does not come to its end. -/
theorem C96_violated_inner (hs : SortsBy Prod.fst w.sortf) (h : ThreeFiles w neg args o1 o2 o3 m k n es fs ms) {e : Nat × Nat × R} (he : e ∈ es)
    (hcol : n ≤ e.2.1) {t : Nat} {ts' : List Nat} (ht : Threads fiveCounts (args.drop 3) (t :: ts')) {sch : Nat → Nat → SampleMain.Sch}
    (hadm : ∀ i, SchAdm m t (sch 0 i).mask) :
    (innerMain w o1 o2 o3 args sch).events = [.flop (2 * pairings es fs)] ∧ (innerMain w o1 o2 o3 args sch).status ≠ .ok (some ()) := by
  obtain ⟨hl, x, hx, hM, hf⟩ := h.setup hs
  have ht' : Threads [4, 8, 16, 32, 64] (args.drop 3) (t :: ts') := ht
  unfold innerMain
  rw [if_neg hl, andThen_ok hx, tnums_eq ht', hf]
  obtain ⟨r1, e1⟩ := forThreads_cons t ts' sch
    (fun tnum sch => block "DotSpGEMM".toList (fun C s => Ker.inner.call x.A x.B x.M x.Bc tnum C s.mask) 1 tnum sch)
  rw [e1]
  have hmem := Graph.mem_triples.1 (hM.pA.mem_iff.2 (show (e.1, e.2.1, e.2.2) ∈ es from he))
  refine after_say (seq_fails (block_never 1 t fun C0 i C => ?_))
  refine C53_violated_shape _ _ _ (c := e.2.1) ⟨hM.wA, hM.wBc, hM.wM, hM.cA.trans (hM.rB.symm.trans hM.same.rows.symm), hM.rM.trans hM.rA.symm,
    hM.cM.trans (hM.cB.symm.trans hM.same.cols.symm), hM.rA ▸ h.rows, hM.sA, hM.sBc⟩ ?_ (by rw [hM.same.cols, hM.cB]; exact hcol) (hM.rA ▸ (hadm i).dot) (some C)
  rw [← (MatObj.triples_snd hM.wA).1]
  exact List.mem_map.2 ⟨_, hM.pA.mem_iff.2 he, rfl⟩

/-- C96 is violated for every first matrix with `2^17 - 1` or more rows: the three programs print the number of operations and no other line, and do not come to
their end. -/
theorem C96_violated_rows (hs : SortsBy Prod.fst w.sortf) (hbig : 2 ^ 17 ≤ m + 1) {t : Nat} {ts' : List Nat} :
    (ThreeFiles w neg args o1 o2 o3 m k n es fs ms → Threads fiveCounts (args.drop 3) (t :: ts') →
      (∀ sch, (innerMain w o1 o2 o3 args sch).events = [.flop (2 * pairings es fs)] ∧ (innerMain w o1 o2 o3 args sch).status ≠ .ok (some ())) ∧
      (∀ sch, (spaMain w o1 o2 o3 args sch).events = [.flop (2 * pairings es fs)] ∧ (spaMain w o1 o2 o3 args sch).status ≠ .ok (some ()))) ∧
    (∀ a b text rest, w.text a = some text → FileOf w.ofInt neg text m m es → o1.Perm (List.range m) → Numeral b t → 0 < t →
      ∀ sch, (tcMain w o1 (a :: b :: rest) sch).events = [.flop (2 * pairings es es)] ∧ (tcMain w o1 (a :: b :: rest) sch).status ≠ .ok (some ())) := by
  refine ⟨fun h ht => ?_, fun a b text rest htext hfile ho hb ht sch => ?_⟩
  · obtain ⟨hl, x, hx, hM, hf⟩ := h.setup hs
    have ht' : Threads [4, 8, 16, 32, 64] (args.drop 3) (t :: ts') := ht
    have hpos := threads_pos ht (by decide) t (by simp)
    refine ⟨fun sch => ?_, fun sch => ?_⟩
    · unfold innerMain
      rw [if_neg hl, andThen_ok hx, tnums_eq ht', hf]
      obtain ⟨r1, e1⟩ := forThreads_cons t ts' sch
        (fun tnum sch => block "DotSpGEMM".toList (fun C s => Ker.inner.call x.A x.B x.M x.Bc tnum C s.mask) 1 tnum sch)
      rw [e1]
      exact after_say (seq_fails (block_never 1 t fun C0 i C => C53_violated_rows _ _ _ (hM.rA ▸ hbig) hpos _ C))
    · unfold spaMain
      rw [if_neg hl, andThen_ok hx, tnums_eq ht', hf]
      obtain ⟨r1, e1⟩ := forThreads_cons t ts' (sch 0) (hashMasked w.sortf x)
      rw [e1]
      exact after_say (seq_fails (seq_fails (andThen_events_nil (fun C => C34_violated false w.sortf _ _ 0 (hM.rA ▸ hbig) hpos _ C) _)))
  · obtain ⟨Ac, A, l1, wAc, sAc, wA, rA, cA, pA, sA, same⟩ := load_ok hs htext hfile ho
    have hx : setup1 w o1 (a :: b :: rest) = .ok (some ⟨A, A, Ac, A, 2 * pairings es es⟩) := by
      unfold setup1
      show (load w o1 a >>= _) = _
      rw [l1, ok_bind, C83_rows wA wA (cA.trans rA.symm), Flops.pairings_perm pA pA]
      rfl
    unfold tcMain
    rw [if_neg (by simp), andThen_ok hx]
    have ht' : tnums [] (a :: b :: rest) 1 = [t] := tnums_eq (.given b rest t hb ht)
    rw [ht']
    exact after_say (seq_fails (seq_fails (block_never 4 t fun C0 i C => C31_violated_spa _ _ 0 (rA ▸ hbig) ht _ C)))

/-- C96 is violated for every matrix with an entry in a column that is not a row: `all_parallel_tc` prints nothing and does not come to its end. -/
theorem C96_violated_square (hs : SortsBy Prod.fst w.sortf) {a b text : List Char} {rest : List (List Char)} (htext : w.text a = some text)
    (hfile : FileOf w.ofInt neg text m n es) (ho : o1.Perm (List.range n)) {e : Nat × Nat × R} (he : e ∈ es) (hcol : m ≤ e.2.1)
    (sch : Nat → Nat → Nat → SampleMain.Sch) : (tcMain w o1 (a :: b :: rest) sch).events = [] ∧ (tcMain w o1 (a :: b :: rest) sch).status ≠ .ok (some ()) := by
  obtain ⟨Ac, A, l1, wAc, sAc, wA, rA, cA, pA, sA, same⟩ := load_ok hs htext hfile ho
  unfold tcMain
  rw [if_neg (by simp)]
  refine andThen_events_nil (fun x hx => ?_) _
  unfold setup1 at hx
  replace hx : (load w o1 a >>= _) = _ := hx
  rw [l1, ok_bind] at hx
  obtain ⟨f, hf, -⟩ := MatObj.bind_eq_ok hx
  have hmem := Graph.mem_triples.1 (pA.mem_iff.2 (show (e.1, e.2.1, e.2.2) ∈ es from he))
  refine flop_fails wA wA hmem.1 ?_ (rA ▸ hcol) f hf
  rw [← CSR.row_map_fst wA]
  exact List.mem_map.2 ⟨_, hmem.2, rfl⟩

/-- C96 is violated if one of the files is missing: nothing is printed, and the programs do not come to their end. They have no message for this case. -/
theorem C96_violated_missing {a : List Char} (h : w.text a = none) :
    (a ∈ args.take 3 → 3 ≤ args.length →
      (∀ sch, (innerMain w o1 o2 o3 args sch).events = [] ∧ (innerMain w o1 o2 o3 args sch).status ≠ .ok (some ())) ∧
      (∀ sch, (spaMain w o1 o2 o3 args sch).events = [] ∧ (spaMain w o1 o2 o3 args sch).status ≠ .ok (some ()))) ∧
    (a ∈ args.take 1 → 2 ≤ args.length →
      ∀ sch, (tcMain w o1 args sch).events = [] ∧ (tcMain w o1 args sch).status ≠ .ok (some ())) := by
  constructor
  · intro ha hl
    have : ∀ x, setup3 w o1 o2 o3 args ≠ .ok (some x) := by
      intro x hx
      match args, hl with
      | a1 :: a2 :: a3 :: rest, _ =>
        unfold setup3 at hx
        replace hx : (load w o1 a1 >>= fun A => load w o2 a2 >>= fun B => load w o3 a3 >>= _) = _ := hx
        obtain ⟨_, h1, hx⟩ := MatObj.bind_eq_ok hx
        obtain ⟨_, h2, hx⟩ := MatObj.bind_eq_ok hx
        obtain ⟨_, h3, hx⟩ := MatObj.bind_eq_ok hx
        simp only [List.take_succ_cons, List.take_zero, List.mem_cons, List.not_mem_nil, or_false] at ha
        rcases ha with rfl | rfl | rfl
        · rw [load_missing h] at h1; cases h1
        · rw [load_missing h] at h2; cases h2
        · rw [load_missing h] at h3; cases h3
    constructor
    · intro sch
      unfold innerMain
      rw [if_neg (by omega)]
      exact andThen_events_nil this _
    · intro sch
      unfold spaMain
      rw [if_neg (by omega)]
      exact andThen_events_nil this _
  · intro ha hl sch
    unfold tcMain
    rw [if_neg (by omega)]
    refine andThen_events_nil (fun x hx => ?_) _
    match args, hl with
    | a1 :: rest, _ =>
      unfold setup1 at hx
      replace hx : (load w o1 a1 >>= _) = _ := hx
      obtain ⟨_, h1, hx⟩ := MatObj.bind_eq_ok hx
      simp only [List.take_succ_cons, List.take_zero, List.mem_cons, List.not_mem_nil, or_false] at ha
      subst ha
      rw [load_missing h] at h1
      cases h1

/-- C96 for too few arguments: nothing is printed but the usage, no file is read, and the programs end. -/
theorem C96_usage {o1 o2 o3 : List Nat} {args : List (List Char)} :
    (args.length < 3 → ∀ sch, innerMain w o1 o2 o3 args sch = ⟨[], .ok (some ())⟩) ∧ (args.length < 3 → ∀ sch, spaMain w o1 o2 o3 args sch = ⟨[], .ok (some ())⟩) ∧
    (args.length < 2 → ∀ sch, tcMain w o1 args sch = ⟨[], .ok (some ())⟩) :=
  ⟨fun h _ => if_pos h, fun h _ => if_pos h, fun h _ => if_pos h⟩

/-! ## Examples -/

/-- Schedules as required exist, for all numbers of rows and threads. -/
theorem sample_schedules (rows K : Nat) (ts : List Nat) :
    ∃ sch, MaskAdm rows ts sch ∧ MaskFair K ts sch ∧ HashIntersectAdm rows ts sch ∧ HashesFair K ts sch := by
  have hone : ∀ t, ∃ s : SampleMain.Sch, SchAdm rows t s.mask ∧ SchFair t K s.mask ∧ (HashMult.Adm rows t s.hash ∧ s.sort.Perm (List.range rows) ∧
      s.inter1.Perm (List.range rows) ∧ s.inter2.Perm (List.range rows)) ∧ HashFair t K s := by
    intro t
    obtain ⟨s, h1, h2⟩ := schedule_exists rows t K
    exact ⟨⟨s, ⟨s.two.bin, s.two.count, [], [], s.two.fill⟩, ⟨[], [], [], [], [], [], [], [], [], []⟩, List.range rows, List.range rows, [], [], List.range rows⟩,
      h1, h2, ⟨h1.two, .refl _, .refl _, .refl _⟩, fun t ht => ⟨(h2.two t ht).1, (h2.two t ht).2⟩⟩
  choose f h1 h2 h3 h4 using hone
  have hx : ∀ x ∈ ts.zipIdx, ts[x.2]?.getD 0 = x.1 := by
    intro x hx
    rw [List.mem_zipIdx_iff_getElem?.1 hx]
    rfl
  refine ⟨fun j _ => f (ts[j]?.getD 0), fun x hm i => ?_, fun x hm i => ?_, fun x hm i => ?_, fun x hm i => ?_⟩ <;> dsimp only <;> rw [hx x hm]
  · exact h1 _
  · exact h2 _
  · exact h3 _
  · exact h4 _

/-- A column with four entries -/
def columnFile : MMText :=
  { field := .pattern, sym := .general, comments := [], size := "4 1 4".toList, entries := ["1 1".toList, "2 1".toList, "3 1".toList, "4 1".toList] }

def columnText : List Char := Spec.banner .pattern .general ++ "\n4 1 4\n1 1\n2 1\n3 1\n4 1\n".toList

/-- A row with four entries -/
def rowFile : MMText :=
  { field := .pattern, sym := .general, comments := [], size := "1 4 4".toList, entries := ["1 1".toList, "1 2".toList, "1 3".toList, "1 4".toList] }

def rowText : List Char := Spec.banner .pattern .general ++ "\n1 4 4\n1 1\n1 2\n1 3\n1 4\n".toList

/-- A mask with one entry -/
def maskFile : MMText := { field := .pattern, sym := .general, comments := [], size := "4 4 1".toList, entries := ["2 3".toList] }

def maskText : List Char := Spec.banner .pattern .general ++ "\n4 4 1\n2 3\n".toList

/-- A mask for a product with one entry -/
def dotFile : MMText := { field := .pattern, sym := .general, comments := [], size := "1 1 1".toList, entries := ["1 1".toList] }

def dotText : List Char := Spec.banner .pattern .general ++ "\n1 1 1\n1 1\n".toList

theorem columnText_of : FileOf Int.toNat (fun v => v) columnText 4 1 [(0, 0, 1), (1, 0, 1), (2, 0, 1), (3, 0, 1)] := by
  refine ⟨columnFile, [(0, 0, 1), (1, 0, 1), (2, 0, 1), (3, 0, 1)], ⟨by decide +kernel, ?_, ?_, by decide, by decide⟩, rfl, by decide +kernel, by decide,
    by rintro ⟨_, c, hc, _⟩; simp [columnFile] at hc, .inl ⟨[], by decide +kernel⟩, by decide⟩
  · exact .mk ['4'] ['1'] ['4'] 4 1 4 (.digit 4 (by decide)) (.digit 1 (by decide)) (.digit 4 (by decide))
  · exact .cons (.pattern ['1'] ['1'] 0 0 (.digit 1 (by decide)) (.digit 1 (by decide)))
      (.cons (.pattern ['2'] ['1'] 1 0 (.digit 2 (by decide)) (.digit 1 (by decide)))
      (.cons (.pattern ['3'] ['1'] 2 0 (.digit 3 (by decide)) (.digit 1 (by decide)))
      (.cons (.pattern ['4'] ['1'] 3 0 (.digit 4 (by decide)) (.digit 1 (by decide))) .nil)))

theorem rowText_of : FileOf Int.toNat (fun v => v) rowText 1 4 [(0, 0, 1), (0, 1, 1), (0, 2, 1), (0, 3, 1)] := by
  refine ⟨rowFile, [(0, 0, 1), (0, 1, 1), (0, 2, 1), (0, 3, 1)], ⟨by decide +kernel, ?_, ?_, by decide, by decide⟩, rfl, by decide +kernel, by decide,
    by rintro ⟨_, c, hc, _⟩; simp [rowFile] at hc, .inl ⟨[], by decide +kernel⟩, by decide⟩
  · exact .mk ['1'] ['4'] ['4'] 1 4 4 (.digit 1 (by decide)) (.digit 4 (by decide)) (.digit 4 (by decide))
  · exact .cons (.pattern ['1'] ['1'] 0 0 (.digit 1 (by decide)) (.digit 1 (by decide)))
      (.cons (.pattern ['1'] ['2'] 0 1 (.digit 1 (by decide)) (.digit 2 (by decide)))
      (.cons (.pattern ['1'] ['3'] 0 2 (.digit 1 (by decide)) (.digit 3 (by decide)))
      (.cons (.pattern ['1'] ['4'] 0 3 (.digit 1 (by decide)) (.digit 4 (by decide))) .nil)))

theorem maskText_of : FileOf Int.toNat (fun v => v) maskText 4 4 [(1, 2, 1)] := by
  refine ⟨maskFile, [(1, 2, 1)], ⟨by decide +kernel, ?_, ?_, by decide, by decide⟩, rfl, by decide +kernel, by decide,
    by rintro ⟨_, c, hc, _⟩; simp [maskFile] at hc, .inl ⟨[], by decide +kernel⟩, by decide⟩
  · exact .mk ['4'] ['4'] ['1'] 4 4 1 (.digit 4 (by decide)) (.digit 4 (by decide)) (.digit 1 (by decide))
  · exact .cons (.pattern ['2'] ['3'] 1 2 (.digit 2 (by decide)) (.digit 3 (by decide))) .nil

theorem dotText_of : FileOf Int.toNat (fun v => v) dotText 1 1 [(0, 0, 1)] := by
  refine ⟨dotFile, [(0, 0, 1)], ⟨by decide +kernel, ?_, ?_, by decide, by decide⟩, rfl, by decide +kernel, by decide,
    by rintro ⟨_, c, hc, _⟩; simp [dotFile] at hc, .inl ⟨[], by decide +kernel⟩, by decide⟩
  · exact .mk ['1'] ['1'] ['1'] 1 1 1 (.digit 1 (by decide)) (.digit 1 (by decide)) (.digit 1 (by decide))
  · exact .cons (.pattern ['1'] ['1'] 0 0 (.digit 1 (by decide)) (.digit 1 (by decide))) .nil

/-- The files of the examples -/
def files : World Nat where
  text name :=
    if name = "column".toList then some columnText else if name = "row".toList then some rowText else if name = "mask".toList then some maskText
    else if name = "dot".toList then some dotText else if name = "loop".toList then some loopText
    else if name = "wide".toList then some (Spec.banner .pattern .general ++ "\n131071 131071 1\n2 1\n".toList) else none
  ofInt := Int.toNat
  sortf := isort Prod.fst

/-- A column times a row, with a mask with one entry, and the default numbers of threads -/
theorem outer_files : ThreeFiles files (fun v => v) ["column".toList, "row".toList, "mask".toList] [0] [3, 1, 0, 2] [0, 1, 2, 3] 4 1 4
    [(0, 0, 1), (1, 0, 1), (2, 0, 1), (3, 0, 1)] [(0, 0, 1), (0, 1, 1), (0, 2, 1), (0, 3, 1)] [(1, 2, 1)] :=
  ⟨⟨_, _, rfl, rfl, columnText_of⟩, ⟨_, _, rfl, rfl, rowText_of⟩, ⟨_, _, rfl, rfl, maskText_of⟩, by decide, by decide, by decide, by decide⟩

/-- A row times a column, with one thread -/
theorem inner_files : ThreeFiles files (fun v => v) ["row".toList, "column".toList, "dot".toList, "1".toList] [0, 2, 1, 3] [0] [0] 1 4 1
    [(0, 0, 1), (0, 1, 1), (0, 2, 1), (0, 3, 1)] [(0, 0, 1), (1, 0, 1), (2, 0, 1), (3, 0, 1)] [(0, 0, 1)] :=
  ⟨⟨_, _, rfl, rfl, rowText_of⟩, ⟨_, _, rfl, rfl, columnText_of⟩, ⟨_, _, rfl, rfl, dotText_of⟩, by decide, by decide, by decide, by decide⟩

/-- The product of a column and a row has sixteen entries. -/
theorem outer_product : ProductEntries (R := Nat) [(0, 0, 1), (1, 0, 1), (2, 0, 1), (3, 0, 1)] [(0, 0, 1), (0, 1, 1), (0, 2, 1), (0, 3, 1)]
    ((List.range 4).flatMap fun i => (List.range 4).map fun j => (i, j, 1)) where
  nodup := by decide
  mem := by
    intro i j v
    constructor
    · intro h
      simp only [List.mem_flatMap, List.mem_map, List.mem_range, Prod.mk.injEq] at h
      obtain ⟨i', hi, j', hj, rfl, rfl, rfl⟩ := h
      have : i' = 0 ∨ i' = 1 ∨ i' = 2 ∨ i' = 3 := by omega
      have : j' = 0 ∨ j' = 1 ∨ j' = 2 ∨ j' = 3 := by omega
      refine ⟨⟨0, ⟨(i', 0, 1), ?_, rfl⟩, (0, j', 1), ?_, rfl⟩, ?_⟩
      · simp; omega
      · simp; omega
      · rcases ‹i' = 0 ∨ _› with rfl | rfl | rfl | rfl <;> rcases ‹j' = 0 ∨ _› with rfl | rfl | rfl | rfl <;> decide
    · rintro ⟨⟨k, ⟨e, he, e'⟩, f, hf, f'⟩, rfl⟩
      obtain ⟨rfl, -⟩ := Prod.mk.inj e'
      obtain ⟨-, rfl⟩ := Prod.mk.inj f'
      simp only [List.mem_cons, List.not_mem_nil, or_false] at he hf
      rcases he with rfl | rfl | rfl | rfl <;> rcases hf with rfl | rfl | rfl | rfl <;> decide

/-- The product of a row and a column has one entry. -/
theorem inner_product : ProductEntries (R := Nat) [(0, 0, 1), (0, 1, 1), (0, 2, 1), (0, 3, 1)] [(0, 0, 1), (1, 0, 1), (2, 0, 1), (3, 0, 1)] [(0, 0, 4)] where
  nodup := by decide
  mem := by
    intro i j v
    constructor
    · intro h
      simp only [List.mem_singleton, Prod.mk.injEq] at h
      obtain ⟨rfl, rfl, rfl⟩ := h
      exact ⟨⟨0, ⟨(0, 0, 1), by simp, rfl⟩, (0, 0, 1), by simp, rfl⟩, by decide⟩
    · rintro ⟨⟨k, ⟨e, he, e'⟩, f, hf, f'⟩, rfl⟩
      obtain ⟨rfl, -⟩ := Prod.mk.inj e'
      obtain ⟨-, rfl⟩ := Prod.mk.inj f'
      simp only [List.mem_cons, List.not_mem_nil, or_false] at he hf
      rcases he with rfl | rfl | rfl | rfl <;> rcases hf with rfl | rfl | rfl | rfl <;> decide

example := C96_inner_partial (ts := fiveCounts) (isort_sorts Prod.fst) outer_files (by decide) (by decide) .default

example := C96_spa_partial (ts := fiveCounts) (isort_sorts Prod.fst) outer_files (by decide) outer_product (by decide) .default

example := C96_tc_partial (w := files) (a := "loop".toList) (b := "8".toList) (rest := []) (o1 := [1, 0]) (isort_sorts Prod.fst) rfl loopText_of (by decide) (by decide)
  (by decide) (t := 8) (.digit 8 (by decide)) (by decide)

example := C96_violated_short (isort_sorts Prod.fst) inner_files (by decide) inner_product (by decide) (.given _ _ 1 (.digit 1 (by decide)) (by decide))

example {sch : Nat → Nat → SampleMain.Sch} := C96_violated_inner (sch := sch) (isort_sorts Prod.fst) inner_files (e := (0, 2, 1)) (by simp) (by decide) (.given _ _ 1 (.digit 1 (by decide)) (by decide))

theorem wideText_of : FileOf Int.toNat (fun v => v) (Spec.banner .pattern .general ++ "\n131071 131071 1\n2 1\n".toList) 131071 131071 [(1, 0, 1)] :=
  ⟨wideFile, [(1, 0, 1)], wideFile_describes, rfl, by decide +kernel, by decide, by rintro ⟨_, c, hc, _⟩; simp [wideFile] at hc, .inl ⟨[], by decide +kernel⟩, by decide⟩

theorem wide_files : ThreeFiles files (fun v => v) ["wide".toList, "wide".toList, "wide".toList] (List.range 131071) (List.range 131071) (List.range 131071)
    131071 131071 131071 [(1, 0, 1)] [(1, 0, 1)] [(1, 0, 1)] :=
  ⟨⟨_, _, rfl, rfl, wideText_of⟩, ⟨_, _, rfl, rfl, wideText_of⟩, ⟨_, _, rfl, rfl, wideText_of⟩, .refl _, .refl _, .refl _, by decide⟩

example := (C96_violated_rows (neg := fun v : Nat => v) (t := 4) (isort_sorts Prod.fst) (by decide)).1 wide_files .default

example := C96_violated_square (w := files) (a := "row".toList) (b := "8".toList) (rest := []) (o1 := [1, 0, 3, 2]) (isort_sorts Prod.fst) rfl rowText_of (by decide)
  (e := (0, 3, 1)) (by simp) (by decide)

example := (C96_violated_missing (w := files) (args := ["loop".toList, "nothing".toList, "loop".toList]) (a := "nothing".toList) (o1 := [0, 1]) (o2 := []) (o3 := [])
  (by decide)).1 (by decide) (by decide)

example := (C96_usage (w := files) (o1 := []) (o2 := []) (o3 := []) (args := ["loop".toList, "loop".toList])).1 (by decide)

end Verif.Props
