import Verif.Lemmas.ProfileMain
import Verif.Props.C99
import Verif.Props.C100

/-! # C101: the sample programs that measure the outer-product kernels -/

namespace Verif.Props

open Verif.Model Verif.Model.SampleMain Verif.Model.ProfileMain Verif.Spec
open _root_.Verif.Model.Bench (Out Gives)
open _root_.Verif.Model.Sample (Env setInput)
open _root_.Verif.Model.MaskedAll (Good seq_good seq_done seq_stop)
open _root_.Verif.Model.OuterMain (outer_entries part_le seqAll_one)
open _root_.Verif.Model.NumaMain (product_of)

variable {R F : Type} [Semiring R] {env : Env R F} {neg : R → R} {args : List (List Char)} {m k n m' n' : Nat} {es fs : List (Nat × Nat × R)}
  {oA oB oF oL oR : List Nat} {t nb width : Nat}

theorem OuterArgs.plain (h : OuterArgs args t nb width) : ProfileMain.blocks args = .ok (some (nb, width)) := by
  obtain ⟨a, ha, hn⟩ := h.blocks
  obtain ⟨b, hb, hm⟩ := h.width
  exact ProfileMain.blocks_ok ha hb hn hm

/-- The schedules of the five stages of a call fit `k` columns, `nb` blocks and the number of threads, and the arrays of `r + 1` row pointers hold anything. -/
structure RunOk (r k nb : Nat) (s : Run) : Prop where
  mem : ∀ i, (s.mem i).length = r + 1
  flop : ∀ i < 5, (s.sch i).base.flop.Perm (List.range k)
  asg : ∀ i < 5, ((List.range s.threads).flatMap (s.sch i).base.asg).Perm (List.range k)
  sort : ∀ i < 5, (s.sch i).base.sort.Perm (List.range nb)
  copy : ∀ i < 5, (s.sch i).base.copy.Perm (List.range nb)
  merge : ∀ i < 5, (s.sch i).merge.Perm (List.range nb)

/-- Each thread gets at least `K` turns in each stage. -/
def RunFair (K : Nat) (s : Run) : Prop := ∀ i < 5, ∀ t < s.threads, K ≤ (s.sch i).base.main.count t

/-- The same for the other program, which distributes the columns itself -/
structure RunOk2 (r nb : Nat) (s : Run2) : Prop where
  mem : ∀ i, (s.mem i).length = r + 1
  sort : ∀ i < 5, (s.sch i).base.sort.Perm (List.range nb)
  copy : ∀ i < 5, (s.sch i).base.copy.Perm (List.range nb)
  merge : ∀ i < 5, (s.sch i).merge.Perm (List.range nb)

def RunFair2 (K t : Nat) (s : Run2) : Prop := ∀ i < 5, ∀ t' < t, K ≤ (s.sch i).base.main.count t'

theorem outerCount_eq {A : CSC R} {B : CSR R} (hAB : A.cols = B.rows) {es fs : List (Nat × Nat × R)} (pA : (triplesC A).Perm es) (pB : (triples B).Perm fs) :
    outerCount A B = pairings es fs := by
  rw [← Flops.pairings_perm pA pB, ← Flops.pairings_mixed A hAB]
  rfl

theorem profile_gives {A : CSC R} {B : CSR R} {es fs : List (Nat × Nat × R)} (hv : ValidOuter A B) (pA : (triplesC A).Perm es) (pB : (triples B).Perm fs) (h1 : 0 < nb)
    (h2 : nb + 1 < 2 ^ 17) (h3 : 0 < width) (hm : A.rows + 1 < 2 ^ 17) (hr : A.rows ≤ 4096 * nb) (hn : B.cols ≤ 2 ^ 20) :
    ∃ C : CSR R, ProductEntries es fs (triples C) ∧ C.nnz = (triples C).length ∧ ∀ s K, RunOk A.rows A.cols nb s → 2 + pairings es fs + nb ≤ K →
      Gives (RunFair K s) (C, pairings es fs) (Profile.outerSpGEMM (fun x y => x * y) (fun x y => x + y) radixBy A B s.threads nb width s.mem s.sch) := by
  have key := fun n => C100_partial (mul := fun x y : R => x * y) add_assocComm hv (n := n) h3 h1 h2 hm hr hn C91_sorts
  obtain ⟨C, hC, -⟩ := key 0
  refine ⟨C, outer_entries hv.ab hv.wfA pA pB hC, (Bench.triples_length hC.wf).symm, fun s K h hK => ?_⟩
  obtain ⟨C', hC', hg⟩ := key s.threads
  obtain rfl := C64_unique hC hC'
  rw [outerCount_eq hv.ab pA pB] at hg
  rcases hg _ h.mem _ fun i hi => ⟨⟨h.flop i hi, h.asg i hi, h.sort i hi, h.copy i hi⟩, h.merge i hi⟩ with ⟨e, i, hi, t', ht', hle⟩ | e
  · refine .inr ⟨fun hf => ?_, e⟩
    have := hf i hi t' ht'
    have := part_le hv.ab pA pB (h.asg i hi) ht'
    omega
  · exact .inl e

theorem profile2_gives {A : CSC R} {B : CSR R} {es fs : List (Nat × Nat × R)} (hv : ValidOuter A B) (pA : (triplesC A).Perm es) (pB : (triples B).Perm fs)
    (hsq : A.rows = A.cols) (h0 : 0 < A.rows) (ht : 0 < t) (h1 : 0 < nb) (h2 : nb + 1 < 2 ^ 17) (h3 : 0 < width) (hr : A.rows ≤ 2 ^ 16) (hn : B.cols ≤ 2 ^ 16) :
    ∃ C : CSR R, ProductEntries es fs (triples C) ∧ C.nnz = (triples C).length ∧ ∀ s K, RunOk2 A.rows nb s → 2 + pairings es fs + nb ≤ K →
      Gives (RunFair2 K t s) (C, pairings es fs) (Profile.outerSpGEMM2 (fun x y => x * y) (fun x y => x + y) radixBy A B t nb width s.mem s.sch) := by
  obtain ⟨C, cs, hC, hcs, hg⟩ := C100_balanced_partial (mul := fun x y : R => x * y) add_assocComm hv hsq h0 (n := t) ht h3 h1 h2 hr hn C91_sorts
  refine ⟨C, outer_entries hv.ab hv.wfA pA pB hC, (Bench.triples_length hC.wf).symm, fun s K h hK => ?_⟩
  rw [outerCount_eq hv.ab pA pB] at hg
  rcases hg _ h.mem _ fun i hi => ⟨⟨h.sort i hi, h.copy i hi⟩, h.merge i hi⟩ with ⟨e, i, hi, t', ht', hle⟩ | e
  · refine .inr ⟨fun hf => ?_, e⟩
    have := hf i hi t' ht'
    have := part_le hv.ab pA pB (.of_eq hcs) ht'
    omega
  · exact .inl e

theorem few_upper {p : Nat} (h : FewProducts es fs) : FewProducts (upperRows p es) fs := fun k => by
  refine lt_of_le_of_lt (Nat.mul_le_mul_right _ ?_) (h k)
  exact List.Sublist.countP_le List.filter_sublist

/-- C101, what the program `ProfileOuterSpGEMM` does if the first matrix has at least two columns and no entry in a row `i` with `m / 2 ≤ i < k / 2` (see
`C101_violated_wide`): it prints twice the number of products of entries in the first `k / 2` rows, the number of all products, the number of products of these
rows, the numbers of entries of the matrices and the number of rows, and the numbers of products and of entries of the product of these rows only. For all numbers of
threads and every schedule; if the threads get enough turns, the program comes to its end. See `C101_partial` and `C101_violated_half` for how many these are. -/
theorem C101_upper (hs : SortsBy Prod.fst env.sortf) (h : Input env neg args oA oB m k es k n fs) (hoF : oF.Perm (List.range k)) (hoL : oL.Perm (List.range k))
    (hoR : oR.Perm (List.range k)) (hc : FewProducts es fs) (ha : OuterArgs args t nb width) (h1 : 0 < nb) (h2 : nb + 1 < 2 ^ 17) (h3 : 0 < width) (hk2 : 2 ≤ k)
    (hin : ∀ e ∈ es, e.1 < k / 2 → e.1 < m / 2) (hm : m + 1 < 2 ^ 17) (hr : m ≤ 4096 * nb) (hn : n ≤ 2 ^ 20) :
    ∃ U, ProductEntries (upperRows (k / 2) es) fs U ∧
      let up := pairings (upperRows (k / 2) es) fs
      let want : List ProfileMain.Event := [.flop (2 * up), .total (pairings es fs), .total up, .left es.length fs.length m, .result up U.length t]
      (∀ sch, RunOk m k nb (sch 0).1 ∧ RunOk (m / 2) k nb (sch 0).2 → profileMain radixBy env args oA oB oF oL oR sch = ⟨want, .ok (some ())⟩ ∨
        ((profileMain radixBy env args oA oB oF oL oR sch).status = .ok none ∧ (profileMain radixBy env args oA oB oF oL oR sch).events <+: want)) ∧
      ∃ K, ∀ sch, RunOk m k nb (sch 0).1 ∧ RunOk (m / 2) k nb (sch 0).2 → RunFair K (sch 0).1 ∧ RunFair K (sch 0).2 →
        profileMain radixBy env args oA oB oF oL oR sch = ⟨want, .ok (some ())⟩ := by
  obtain ⟨x, hx, wA, rA, cA, pA, wB, rB, cB, pB, rL, cL, pL, wL', wL⟩ := ProfileMain.setup_ok hs h hoL hoR hk2
  have wL := wL hin
  have hAB : x.A.cols = x.B.rows := cA.trans rB.symm
  have hLB : x.left.cols = x.B.rows := cL.trans rB.symm
  obtain ⟨C, hC, zC, gC⟩ := profile_gives (nb := nb) (width := width) ⟨wA, wB, hAB⟩ pA pB h1 h2 h3 (by omega) (by omega) (by omega)
  obtain ⟨D, hD, zD, gD⟩ := profile_gives (nb := nb) (width := width) ⟨wL, wB, hLB⟩ pL pB h1 h2 h3 (by omega) (by omega) (by omega)
  rw [rA, cA] at gC
  rw [rL, cL] at gD
  refine ⟨triples D, hD, outcome (adm := fun sch : Nat → Run × Run => RunOk m k nb (sch 0).1 ∧ RunOk (m / 2) k nb (sch 0).2)
    (fair := fun K sch => RunFair K (sch 0).1 ∧ RunFair K (sch 0).2)
    ⟨2 + pairings es fs + pairings (upperRows (k / 2) es) fs + nb, fun sch hadm => ?_⟩⟩
  unfold profileMain
  rw [if_neg ha.given, andThen_ok hx, andThen_ok (ProfileMain.flops_ok wL' wB hLB pL pB (by rw [cL]; exact hoF) (few_upper hc)), ha.tnums]
  refine seq_good (w := [_]) (say_good _) ((seqAll_one _).symm ▸ ?_)
  dsimp only
  rw [andThen_ok ha.plain]
  refine andThen_good (MaskedAll.Gives.weaken (gC (sch 0).1 _ hadm.1 ?_) fun hf => hf.1) ?_
  · omega
  refine seq_good (w := [_]) (say_good _) (andThen_good (MaskedAll.Gives.weaken (gD (sch 0).2 _ hadm.2 ?_) fun hf => hf.2) ?_)
  · omega
  rw [Nat.mul_div_cancel_left _ (by decide), zD, ← Bench.triples_length wB, ← HeatMap.triplesC_length wA, pA.length_eq, pB.length_eq, rA]
  exact seq_good (w := [_]) (say_good _) (seq_good (w := [_]) (say_good _) (say_good _))

/-- C101 for the program `ProfileOuterSpGEMM`: if all products of entries are in the first `k / 2` rows, it prints the number of products, twice this number, the numbers of
entries of the matrices and the number of rows, and the numbers of products and of entries of the product. For all numbers of threads and every schedule; if the threads get
enough turns, the program comes to its end.

What is missing: products in the other rows (see `C101_violated_half`), entries of the first matrix in a row from `m / 2` to `k / 2` (see `C101_violated_wide`), less than two columns (see
`C101_violated_columns`), calls without the last arguments (see `C101_violated_arguments`), `2^17 - 1` or more rows or blocks (see `C101_violated_rows`), no blocks (see
`C101_violated_blocks`), larger blocks, buffers without room, more than `2^20` columns (see `C100` for these, and
`C101_violated_wide_columns`). -/
theorem C101_partial (hs : SortsBy Prod.fst env.sortf) (h : Input env neg args oA oB m k es k n fs) (hoF : oF.Perm (List.range k)) (hoL : oL.Perm (List.range k))
    (hoR : oR.Perm (List.range k)) (hc : FewProducts es fs) (ha : OuterArgs args t nb width) (h1 : 0 < nb) (h2 : nb + 1 < 2 ^ 17) (h3 : 0 < width) (hk2 : 2 ≤ k)
    (hin : ∀ e ∈ es, e.1 < k / 2 → e.1 < m / 2) (hm : m + 1 < 2 ^ 17) (hr : m ≤ 4096 * nb) (hn : n ≤ 2 ^ 20) {P : List (Nat × Nat × R)} (hP : ProductEntries es fs P)
    (hall : ∀ e ∈ es, ∀ f ∈ fs, e.2.1 = f.1 → e.1 < k / 2) :
    let want : List ProfileMain.Event := [.flop (2 * pairings es fs), .total (pairings es fs), .total (pairings es fs), .left es.length fs.length m,
      .result (pairings es fs) P.length t]
    (∀ sch, RunOk m k nb (sch 0).1 ∧ RunOk (m / 2) k nb (sch 0).2 → profileMain radixBy env args oA oB oF oL oR sch = ⟨want, .ok (some ())⟩ ∨
      ((profileMain radixBy env args oA oB oF oL oR sch).status = .ok none ∧ (profileMain radixBy env args oA oB oF oL oR sch).events <+: want)) ∧
    ∃ K, ∀ sch, RunOk m k nb (sch 0).1 ∧ RunOk (m / 2) k nb (sch 0).2 → RunFair K (sch 0).1 ∧ RunFair K (sch 0).2 →
      profileMain radixBy env args oA oB oF oL oR sch = ⟨want, .ok (some ())⟩ := by
  obtain ⟨U, hU, hg⟩ := C101_upper hs h hoF hoL hoR hc ha h1 h2 h3 hk2 hin hm hr hn
  dsimp only at hg
  rw [upper_eq hall, upper_count hP hU hall] at hg
  exact hg

/-- C101 is violated for `ProfileOuterSpGEMM` whenever there is a product of entries in a row of the first matrix from `k / 2` on: for every schedule with enough turns the
program prints numbers of operations, of products and of entries that are too small, although one of its lines has the right number of products. -/
theorem C101_violated_half (hs : SortsBy Prod.fst env.sortf) (h : Input env neg args oA oB m k es k n fs) (hoF : oF.Perm (List.range k)) (hoL : oL.Perm (List.range k))
    (hoR : oR.Perm (List.range k)) (hc : FewProducts es fs) (ha : OuterArgs args t nb width) (h1 : 0 < nb) (h2 : nb + 1 < 2 ^ 17) (h3 : 0 < width) (hk2 : 2 ≤ k)
    (hin : ∀ e ∈ es, e.1 < k / 2 → e.1 < m / 2) (hm : m + 1 < 2 ^ 17) (hr : m ≤ 4096 * nb) (hn : n ≤ 2 ^ 20) {P : List (Nat × Nat × R)} (hP : ProductEntries es fs P)
    {e f : Nat × Nat × R} (he : e ∈ es) (hf : f ∈ fs) (hef : e.2.1 = f.1) (hlow : k / 2 ≤ e.1) :
    ∃ p < pairings es fs, ∃ z < P.length, ∃ K, ∀ sch, RunOk m k nb (sch 0).1 ∧ RunOk (m / 2) k nb (sch 0).2 → RunFair K (sch 0).1 ∧ RunFair K (sch 0).2 →
      profileMain radixBy env args oA oB oF oL oR sch =
        ⟨[.flop (2 * p), .total (pairings es fs), .total p, .left es.length fs.length m, .result p z t], .ok (some ())⟩ := by
  obtain ⟨U, hU, hg⟩ := C101_upper hs h hoF hoL hoR hc ha h1 h2 h3 hk2 hin hm hr hn
  exact ⟨_, upper_lt he hf hef hlow, _, upper_count_lt hP hU he hf hef hlow, hg.2⟩

/-- C101 for the program `ProfileOuterSpGEMM2`: if the first matrix is square and not empty, both matrices with at most `2^16` columns, then the program prints twice the number
of products of entries, two times the number of products, the numbers of entries of the matrices and the number of rows, and the numbers of products and of entries of the
product. For every schedule; if the threads get enough turns, the program comes to its end.

What is missing: more rows than columns (see `C101_violated_tall`), more columns than rows (see `C101_violated_left_out`), calls without the last arguments (see
`C101_violated_arguments`), `2^17 - 1` or more rows or blocks (see `C101_violated_rows`), no blocks (see `C101_violated_blocks`), buffers without room, more than
`2^16` rows or columns (see `C100` for these, and `C101_violated_wide_columns2`). -/
theorem C101_balanced_partial (hs : SortsBy Prod.fst env.sortf) (h : Input env neg args oA oB m m es m n fs) (hoF : oF.Perm (List.range m)) (hc : FewProducts es fs)
    (ha : OuterArgs args t nb width) (h1 : 0 < nb) (h2 : nb + 1 < 2 ^ 17) (h3 : 0 < width) (h0 : 0 < m) (hm : m ≤ 2 ^ 16) (hn : n ≤ 2 ^ 16) :
    ∃ P, ProductEntries es fs P ∧
      let want : List ProfileMain.Event := [.flop (2 * pairings es fs), .total (pairings es fs), .total (pairings es fs), .left es.length fs.length m,
        .result (pairings es fs) P.length t]
      (∀ sch, RunOk2 m nb (sch 0).1 ∧ RunOk2 m nb (sch 0).2 → profile2Main radixBy env args oA oB oF sch = ⟨want, .ok (some ())⟩ ∨
        ((profile2Main radixBy env args oA oB oF sch).status = .ok none ∧ (profile2Main radixBy env args oA oB oF sch).events <+: want)) ∧
      ∃ K, ∀ sch, RunOk2 m nb (sch 0).1 ∧ RunOk2 m nb (sch 0).2 → RunFair2 K t (sch 0).1 ∧ RunFair2 K t (sch 0).2 →
        profile2Main radixBy env args oA oB oF sch = ⟨want, .ok (some ())⟩ := by
  obtain ⟨A, B, hx, wA, rA, cA, pA, wB, rB, cB, pB⟩ := ProfileMain.setup2_ok hs h
  have hAB : A.cols = B.rows := cA.trans rB.symm
  obtain ⟨C, hC, zC, gC⟩ := profile2_gives (nb := nb) (width := width) ⟨wA, wB, hAB⟩ pA pB (rA.trans cA.symm) (by omega) ha.pos h1 h2 h3 (by omega) (by omega)
  rw [rA] at gC
  refine ⟨triples C, hC, outcome (adm := fun sch : Nat → Run2 × Run2 => RunOk2 m nb (sch 0).1 ∧ RunOk2 m nb (sch 0).2)
    (fair := fun K sch => RunFair2 K t (sch 0).1 ∧ RunFair2 K t (sch 0).2) ⟨2 + pairings es fs + nb, fun sch hadm => ?_⟩⟩
  unfold profile2Main
  rw [if_neg ha.given, andThen_ok hx, andThen_ok (ProfileMain.flops_ok (H := A.rows) wA wB hAB pA pB (by rw [cA]; exact hoF) hc), ha.tnums]
  refine seq_good (w := [_]) (say_good _) ((seqAll_one _).symm ▸ ?_)
  dsimp only
  rw [andThen_ok ha.plain]
  refine andThen_good (MaskedAll.Gives.weaken (gC (sch 0).1 _ hadm.1 (Nat.le_refl _)) fun hf => hf.1) ?_
  refine seq_good (w := [_]) (say_good _) (andThen_good (MaskedAll.Gives.weaken (gC (sch 0).2 _ hadm.2 (Nat.le_refl _)) fun hf => hf.2) ?_)
  rw [Nat.mul_div_cancel_left _ (by decide), zC, ← Bench.triples_length wB, ← HeatMap.triplesC_length wA, pA.length_eq, pB.length_eq, rA]
  exact seq_good (w := [_]) (say_good _) (seq_good (w := [_]) (say_good _) (say_good _))

theorem filter_range {α : Type} {m k : Nat} (h : m ≤ k) (g : Nat → List α) (q : α → Nat) (hq : ∀ j, ∀ x ∈ g j, q x = j) :
    ((List.range k).flatMap g).filter (fun x => decide (q x < m)) = (List.range m).flatMap g := by
  obtain ⟨d, rfl⟩ : ∃ d, k = m + d := ⟨k - m, by omega⟩
  rw [List.range_add, List.flatMap_append, List.filter_append]
  have e1 : ((List.range m).flatMap g).filter (fun x => decide (q x < m)) = (List.range m).flatMap g := by
    refine List.filter_eq_self.2 fun x hx => ?_
    obtain ⟨j, hj, hx⟩ := List.mem_flatMap.1 hx
    rw [hq j x hx]
    simpa using hj
  have e2 : (((List.range d).map fun x => m + x).flatMap g).filter (fun x => decide (q x < m)) = [] := by
    refine List.filter_eq_nil_iff.2 fun x hx => ?_
    obtain ⟨j, hj, hx⟩ := List.mem_flatMap.1 hx
    obtain ⟨i, -, rfl⟩ := List.mem_map.1 hj
    rw [hq _ x hx]
    simp
  rw [e1, e2, List.append_nil]

theorem flatMap_range_congr {α : Type} {n : Nat} {f g : Nat → List α} (h : ∀ j < n, f j = g j) : (List.range n).flatMap f = (List.range n).flatMap g :=
  List.flatMap_congr fun j hj => h j (List.mem_range.1 hj)

theorem profile2_wide {A : CSC R} {B : CSR R} {es fs : List (Nat × Nat × R)} (hv : ValidOuter A B) (pA : (triplesC A).Perm es) (pB : (triples B).Perm fs)
    (hwide : A.rows ≤ A.cols) (h0 : 0 < A.rows) (ht : 0 < t) (h1 : 0 < nb) (h2 : nb + 1 < 2 ^ 17) (h3 : 0 < width) (hr : A.rows ≤ 2 ^ 16) (hn : B.cols ≤ 2 ^ 16) :
    ∃ C : CSR R, ProductEntries (firstColumns A.rows es) fs (triples C) ∧ C.nnz = (triples C).length ∧ ∀ s K, RunOk2 A.rows nb s →
      2 + pairings (firstColumns A.rows es) fs + nb ≤ K →
      Gives (RunFair2 K t s) (C, pairings (firstColumns A.rows es) fs) (Profile.outerSpGEMM2 (fun x y => x * y) (fun x y => x + y) radixBy A B t nb width s.mem s.sch) := by
  obtain ⟨A', B', hv', rA, cA, eA, cB, eB, C, cs, hC, hcs, hg⟩ := C100_wide (mul := fun x y : R => x * y) add_assocComm hv hwide h0 (n := t) ht h3 h1 h2 hr hn C91_sorts
  have hab := hv.ab
  have pA' : (triplesC A').Perm (firstColumns A.rows es) := by
    refine .trans (.of_eq ?_) (pA.filter _)
    unfold triplesC
    rw [filter_range hwide (fun j => (A.col j).map fun x => (x.1, j, x.2)) (fun e => e.2.1) (fun j x hx => by obtain ⟨y, -, rfl⟩ := List.mem_map.1 hx; rfl), cA]
    exact flatMap_range_congr fun j hj => by rw [eA j hj]
  have pB' : (triples B').Perm (upperRows A.rows fs) := by
    refine .trans (.of_eq ?_) (pB.filter _)
    unfold triples
    rw [filter_range (by omega) (fun j => (B.row j).map fun x => (j, x.1, x.2)) (fun e => e.1) (fun j x hx => by obtain ⟨y, -, rfl⟩ := List.mem_map.1 hx; rfl), ← hv'.ab, cA]
    exact flatMap_range_congr fun j hj => by rw [eB j hj]
  refine ⟨C, product_first (outer_entries hv'.ab hv'.wfA pA' pB' hC), (Bench.triples_length hC.wf).symm, fun s K h hK => ?_⟩
  rw [outerCount_eq hv'.ab pA' pB', pairings_first] at hg
  rcases hg _ h.mem _ fun i hi => ⟨⟨h.sort i hi, h.copy i hi⟩, h.merge i hi⟩ with ⟨e, i, hi, t', ht', hle⟩ | e
  · refine .inr ⟨fun hf => ?_, e⟩
    have := hf i hi t' ht'
    have := part_le hv'.ab pA' pB' (.of_eq (hcs.trans (by rw [cA]))) ht'
    rw [pairings_first] at this
    omega
  · exact .inl e

/-- C101, what the program `ProfileOuterSpGEMM2` does if the first matrix is not empty and has at least as many columns as rows: it prints twice the number of products of
entries, but the totals of the kernel and the number of entries of the result are those without the columns from number `m` on. For every schedule; if the threads get enough
turns, the program comes to its end. -/
theorem C101_wide (hs : SortsBy Prod.fst env.sortf) (h : Input env neg args oA oB m k es k n fs) (hoF : oF.Perm (List.range k)) (hc : FewProducts es fs)
    (ha : OuterArgs args t nb width) (h1 : 0 < nb) (h2 : nb + 1 < 2 ^ 17) (h3 : 0 < width) (h0 : 0 < m) (hwide : m ≤ k) (hm : m ≤ 2 ^ 16) (hn : n ≤ 2 ^ 16) :
    ∃ P, ProductEntries (firstColumns m es) fs P ∧
      let q := pairings (firstColumns m es) fs
      let want : List ProfileMain.Event := [.flop (2 * pairings es fs), .total q, .total q, .left es.length fs.length m, .result (pairings es fs) P.length t]
      (∀ sch, RunOk2 m nb (sch 0).1 ∧ RunOk2 m nb (sch 0).2 → profile2Main radixBy env args oA oB oF sch = ⟨want, .ok (some ())⟩ ∨
        ((profile2Main radixBy env args oA oB oF sch).status = .ok none ∧ (profile2Main radixBy env args oA oB oF sch).events <+: want)) ∧
      ∃ K, ∀ sch, RunOk2 m nb (sch 0).1 ∧ RunOk2 m nb (sch 0).2 → RunFair2 K t (sch 0).1 ∧ RunFair2 K t (sch 0).2 →
        profile2Main radixBy env args oA oB oF sch = ⟨want, .ok (some ())⟩ := by
  obtain ⟨A, B, hx, wA, rA, cA, pA, wB, rB, cB, pB⟩ := ProfileMain.setup2_ok hs h
  have hAB : A.cols = B.rows := cA.trans rB.symm
  obtain ⟨C, hC, zC, gC⟩ := profile2_wide (nb := nb) (width := width) ⟨wA, wB, hAB⟩ pA pB (by omega) (by omega) ha.pos h1 h2 h3 (by omega) (by omega)
  rw [rA] at hC gC
  refine ⟨triples C, hC, outcome (adm := fun sch : Nat → Run2 × Run2 => RunOk2 m nb (sch 0).1 ∧ RunOk2 m nb (sch 0).2)
    (fair := fun K sch => RunFair2 K t (sch 0).1 ∧ RunFair2 K t (sch 0).2) ⟨2 + pairings (firstColumns m es) fs + nb, fun sch hadm => ?_⟩⟩
  unfold profile2Main
  rw [if_neg ha.given, andThen_ok hx, andThen_ok (ProfileMain.flops_ok (H := A.rows) wA wB hAB pA pB (by rw [cA]; exact hoF) hc), ha.tnums]
  refine seq_good (w := [_]) (say_good _) ((seqAll_one _).symm ▸ ?_)
  dsimp only
  rw [andThen_ok ha.plain]
  refine andThen_good (MaskedAll.Gives.weaken (gC (sch 0).1 _ hadm.1 (Nat.le_refl _)) fun hf => hf.1) ?_
  refine seq_good (w := [_]) (say_good _) (andThen_good (MaskedAll.Gives.weaken (gC (sch 0).2 _ hadm.2 (Nat.le_refl _)) fun hf => hf.2) ?_)
  rw [Nat.mul_div_cancel_left _ (by decide), zC, ← Bench.triples_length wB, ← HeatMap.triplesC_length wA, pA.length_eq, pB.length_eq, rA]
  exact seq_good (w := [_]) (say_good _) (seq_good (w := [_]) (say_good _) (say_good _))

/-! ## Violations -/

/-- C101 is violated for `ProfileOuterSpGEMM2` whenever there is a product of an entry of the first matrix in a column from `m` on: for every schedule with enough turns the
program prints a number of products that is too small next to the right number of operations. -/
theorem C101_violated_left_out (hs : SortsBy Prod.fst env.sortf) (h : Input env neg args oA oB m k es k n fs) (hoF : oF.Perm (List.range k)) (hc : FewProducts es fs)
    (ha : OuterArgs args t nb width) (h1 : 0 < nb) (h2 : nb + 1 < 2 ^ 17) (h3 : 0 < width) (h0 : 0 < m) (hwide : m ≤ k) (hm : m ≤ 2 ^ 16) (hn : n ≤ 2 ^ 16)
    {e f : Nat × Nat × R} (he : e ∈ es) (hf : f ∈ fs) (hef : e.2.1 = f.1) (hout : m ≤ e.2.1) :
    ∃ p < pairings es fs, ∃ z K, ∀ sch, RunOk2 m nb (sch 0).1 ∧ RunOk2 m nb (sch 0).2 → RunFair2 K t (sch 0).1 ∧ RunFair2 K t (sch 0).2 →
      profile2Main radixBy env args oA oB oF sch =
        ⟨[.flop (2 * pairings es fs), .total p, .total p, .left es.length fs.length m, .result (pairings es fs) z t], .ok (some ())⟩ := by
  obtain ⟨P, hP, hg⟩ := C101_wide hs h hoF hc ha h1 h2 h3 h0 hwide hm hn
  exact ⟨_, firstColumns_lt he hf hef hout, _, hg.2⟩

/-- Runs that print the number of operations and do not come to their end -/
def OnlyFlops (p : Nat) (o : Out ProfileMain.Event) : Prop := o.events = [.flop (2 * p)] ∧ o.status ≠ .ok (some ())

theorem tnums_one (args : List (List Char)) : ∃ u, SampleMain.tnums [1] args 4 = [u] := by
  unfold SampleMain.tnums
  cases args[4]? with
  | none => exact ⟨_, rfl⟩
  | some a => exact ⟨_, rfl⟩

/-- C101 is violated if fewer than seven arguments are given, although three are accepted: after the number of operations, both programs read arguments that do not
exist. -/
theorem C101_violated_arguments (hs : SortsBy Prod.fst env.sortf) (h : Input env neg args oA oB m k es k n fs) (hoF : oF.Perm (List.range k)) (hc : FewProducts es fs)
    (hl : args.length < 7) :
    (oL.Perm (List.range k) → oR.Perm (List.range k) → 2 ≤ k → ∀ sch,
      profileMain radixBy env args oA oB oF oL oR sch = ⟨[.flop (2 * pairings (upperRows (k / 2) es) fs)], .error .oob⟩) ∧
    (∀ sch, profile2Main radixBy env args oA oB oF sch = ⟨[.flop (2 * pairings es fs)], .error .oob⟩) := by
  obtain ⟨hg, -⟩ := h.read hs
  obtain ⟨u, hu⟩ := tnums_one args
  have hb : ProfileMain.blocks args = .error .oob := by
    unfold ProfileMain.blocks rd
    rw [List.getElem?_eq_none (l := args) (i := 6) (by omega)]
    cases args[5]? <;> rfl
  constructor
  · intro hoL hoR hk2 sch
    obtain ⟨x, hx, wA, rA, cA, pA, wB, rB, cB, pB, rL, cL, pL, wL', wL⟩ := ProfileMain.setup_ok hs h hoL hoR hk2
    unfold profileMain
    rw [if_neg hg, andThen_ok hx, andThen_ok (ProfileMain.flops_ok wL' wB (cL.trans rB.symm) pL pB (by rw [cL]; exact hoF) (few_upper hc)), hu, hb]
    rfl
  · intro sch
    obtain ⟨A, B, hx, wA, rA, cA, pA, wB, rB, cB, pB⟩ := ProfileMain.setup2_ok hs h
    unfold profile2Main
    rw [if_neg hg, andThen_ok hx, andThen_ok (ProfileMain.flops_ok (H := A.rows) wA wB (cA.trans rB.symm) pA pB (by rw [cA]; exact hoF) hc), hu, hb]
    rfl

/-- If the first call does not return, only the number of operations is printed. -/
theorem profile_only (hs : SortsBy Prod.fst env.sortf) (h : Input env neg args oA oB m k es k n fs) (hoF : oF.Perm (List.range k)) (hc : FewProducts es fs)
    (ha : OuterArgs args t nb width) :
    (oL.Perm (List.range k) → oR.Perm (List.range k) → 2 ≤ k → ∀ sch : Nat → Run × Run,
      (∀ (A : CSC R) (B : CSR R) C, ValidOuter A B → A.rows = m → A.cols = k →
        Profile.outerSpGEMM (fun x y => x * y) (fun x y => x + y) radixBy A B (sch 0).1.threads nb width (sch 0).1.mem (sch 0).1.sch ≠ .ok (some C)) →
      OnlyFlops (pairings (upperRows (k / 2) es) fs) (profileMain radixBy env args oA oB oF oL oR sch)) ∧
    (∀ sch : Nat → Run2 × Run2, (∀ (A : CSC R) (B : CSR R) C, ValidOuter A B → A.rows = m → A.cols = k →
        Profile.outerSpGEMM2 (fun x y => x * y) (fun x y => x + y) radixBy A B t nb width (sch 0).1.mem (sch 0).1.sch ≠ .ok (some C)) →
      OnlyFlops (pairings es fs) (profile2Main radixBy env args oA oB oF sch)) := by
  constructor
  · intro hoL hoR hk2 sch hf
    obtain ⟨x, hx, wA, rA, cA, pA, wB, rB, cB, pB, rL, cL, pL, wL', wL⟩ := ProfileMain.setup_ok hs h hoL hoR hk2
    unfold profileMain
    rw [if_neg ha.given, andThen_ok hx, andThen_ok (ProfileMain.flops_ok wL' wB (cL.trans rB.symm) pL pB (by rw [cL]; exact hoF) (few_upper hc)), ha.tnums]
    refine after_say ((seqAll_one _).symm ▸ ?_)
    dsimp only
    rw [andThen_ok ha.plain]
    exact andThen_events_nil (fun C => hf _ _ C ⟨wA, wB, cA.trans rB.symm⟩ rA cA) _
  · intro sch hf
    obtain ⟨A, B, hx, wA, rA, cA, pA, wB, rB, cB, pB⟩ := ProfileMain.setup2_ok hs h
    unfold profile2Main
    rw [if_neg ha.given, andThen_ok hx, andThen_ok (ProfileMain.flops_ok (H := A.rows) wA wB (cA.trans rB.symm) pA pB (by rw [cA]; exact hoF) hc), ha.tnums]
    refine after_say ((seqAll_one _).symm ▸ ?_)
    dsimp only
    rw [andThen_ok ha.plain]
    exact andThen_events_nil (fun C => hf _ _ C ⟨wA, wB, cA.trans rB.symm⟩ rA cA) _

/-- C101 is violated for many rows or blocks: with `2^17 - 1` or more rows of the first matrix, or `2^17 - 1` or more blocks, both programs print the number of operations and
no other line, and do not come to their end. -/
theorem C101_violated_rows (hs : SortsBy Prod.fst env.sortf) (h : Input env neg args oA oB m k es k n fs) (hoF : oF.Perm (List.range k)) (hc : FewProducts es fs)
    (ha : OuterArgs args t nb width) (hbig : 2 ^ 17 ≤ m + 1 ∨ 2 ^ 17 ≤ nb + 1) :
    (oL.Perm (List.range k) → oR.Perm (List.range k) → 2 ≤ k → ∀ sch : Nat → Run × Run, 0 < (sch 0).1.threads →
      OnlyFlops (pairings (upperRows (k / 2) es) fs) (profileMain radixBy env args oA oB oF oL oR sch)) ∧
    (∀ sch, OnlyFlops (pairings es fs) (profile2Main radixBy env args oA oB oF sch)) := by
  obtain ⟨g1, g2⟩ := profile_only (oL := oL) (oR := oR) hs h hoF hc ha
  exact ⟨fun hoL hoR hk2 sch hp => g1 hoL hoR hk2 sch fun A B C _ hr _ => (C100_violated_rows hp (hr ▸ hbig) _ C).1 _,
    fun sch => g2 sch fun A B C _ hr _ => (C100_violated_rows ha.pos (hr ▸ hbig) _ C).2 _⟩

/-- C101 is violated without blocks: both programs print the number of operations and no other line, and divide by 0. -/
theorem C101_violated_blocks (hs : SortsBy Prod.fst env.sortf) (h : Input env neg args oA oB m k es k n fs) (hoF : oF.Perm (List.range k)) (hc : FewProducts es fs)
    (ha : OuterArgs args t 0 width) (hm : 0 < m) :
    (oL.Perm (List.range k) → oR.Perm (List.range k) → 2 ≤ k → ∀ sch,
      OnlyFlops (pairings (upperRows (k / 2) es) fs) (profileMain radixBy env args oA oB oF oL oR sch)) ∧
    (∀ sch, OnlyFlops (pairings es fs) (profile2Main radixBy env args oA oB oF sch)) := by
  obtain ⟨g1, g2⟩ := profile_only (oL := oL) (oR := oR) hs h hoF hc ha
  refine ⟨fun hoL hoR hk2 sch => g1 hoL hoR hk2 sch fun A B C _ hr _ => ?_, fun sch => g2 sch fun A B C _ hr _ => ?_⟩
  · rw [(C100_violated_empty (hr ▸ hm) _ _ _).1]
    simp
  · rw [(C100_violated_empty (hr ▸ hm) _ _ _).2]
    simp

/-- C101 is violated for `ProfileOuterSpGEMM2` if the first matrix has more rows than columns: the program prints the number of operations and no other line, and reads out of
bounds. -/
theorem C101_violated_tall (hs : SortsBy Prod.fst env.sortf) (h : Input env neg args oA oB m k es k n fs) (hoF : oF.Perm (List.range k)) (hc : FewProducts es fs)
    (ha : OuterArgs args t nb width) (hnb : 0 < nb) (hlt : k < m) (sch : Nat → Run2 × Run2) :
    OnlyFlops (pairings es fs) (profile2Main radixBy env args oA oB oF sch) := by
  refine (profile_only (oL := oF) (oR := oF) hs h hoF hc ha).2 sch fun A B C hv hr hk => ?_
  rw [C100_violated_tall hv (by omega) hnb]
  simp

/-- C101 is violated for `ProfileOuterSpGEMM` for all first matrices with rows and less than two columns: the program divides by 0 and prints nothing. -/
theorem C101_violated_columns (hs : SortsBy Prod.fst env.sortf) (h : Input env neg args oA oB m k es m' n' fs) (hk2 : k < 2) (hm : 0 < m) (sch : Nat → Run × Run) :
    profileMain radixBy env args oA oB oF oL oR sch = ⟨[], .error .divzero⟩ := by
  obtain ⟨hg, -⟩ := h.read hs
  unfold profileMain
  rw [if_neg hg, ProfileMain.setup_narrow hs h hk2 hm]
  rfl

/-- C101 is violated for `ProfileOuterSpGEMM` for every first matrix with an entry in a row `i` with `m / 2 ≤ i < k / 2`, which exists only if it has more columns than rows, and a
product of this entry: the upper part is stored in a matrix with `m / 2` rows, and the second call leaves the bounds of an array. At most two lines are printed, and the program
does not come to its end, whatever the schedule is. -/
theorem C101_violated_wide (hs : SortsBy Prod.fst env.sortf) (h : Input env neg args oA oB m k es k n fs) (hoF : oF.Perm (List.range k)) (hoL : oL.Perm (List.range k))
    (hoR : oR.Perm (List.range k)) (hc : FewProducts es fs) (ha : OuterArgs args t nb width) (h1 : 0 < nb) (h2 : nb + 1 < 2 ^ 17) (h3 : 0 < width) (hk2 : 2 ≤ k)
    (hm : m + 1 < 2 ^ 17) (hr : m ≤ 4096 * nb) (hn : n ≤ 2 ^ 20) (hk : k ≤ 2 ^ 23) {e f : Nat × Nat × R} (he : e ∈ es) (hf : f ∈ fs) (hef : e.2.1 = f.1) (hi : m / 2 ≤ e.1)
    (hi' : e.1 < k / 2) (sch : Nat → Run × Run) (hadm : RunOk m k nb (sch 0).1 ∧ RunOk (m / 2) k nb (sch 0).2) :
    (profileMain radixBy env args oA oB oF oL oR sch).events <+: [.flop (2 * pairings (upperRows (k / 2) es) fs), .total (pairings es fs)] ∧
      (profileMain radixBy env args oA oB oF oL oR sch).status ≠ .ok (some ()) := by
  obtain ⟨x, hx, wA, rA, cA, pA, wB, rB, cB, pB, rL, cL, pL, wL', wL⟩ := ProfileMain.setup_ok hs h hoL hoR hk2
  have hAB : x.A.cols = x.B.rows := cA.trans rB.symm
  have hLB : x.left.cols = x.B.rows := cL.trans rB.symm
  obtain ⟨C, hC, zC, gC⟩ := profile_gives (nb := nb) (width := width) ⟨wA, wB, hAB⟩ pA pB h1 h2 h3 (by omega) (by omega) (by omega)
  rw [rA, cA] at gC
  unfold profileMain
  rw [if_neg ha.given, andThen_ok hx, andThen_ok (ProfileMain.flops_ok wL' wB hLB pL pB (by rw [cL]; exact hoF) (few_upper hc)), ha.tnums]
  have hout : ∀ {o : Out ProfileMain.Event} {a b : ProfileMain.Event}, o.events <+: [b] ∧ o.status ≠ .ok (some ()) →
      ((say a).seq o).events <+: [a, b] ∧ ((say a).seq o).status ≠ .ok (some ()) := by
    rintro o a b ⟨⟨l, hl⟩, h2⟩
    obtain ⟨e1, e2⟩ := say_more (e := a) (l := o.events) ⟨rfl, h2⟩
    exact ⟨by rw [e1]; exact ⟨l, by rw [List.cons_append, hl]⟩, e2⟩
  refine hout ((seqAll_one _).symm ▸ ?_)
  dsimp only
  rw [andThen_ok ha.plain]
  rcases gC (sch 0).1 _ hadm.1 (Nat.le_refl _) with e1 | ⟨-, e1⟩
  · rw [andThen_ok e1]
    have hne : ∀ D, Profile.outerSpGEMM (fun x y => x * y) (fun x y => x + y) radixBy x.left x.B (sch 0).2.threads nb width (sch 0).2.mem (sch 0).2.sch ≠ .ok (some D) := by
      intro D hD
      have hD := repeated_last hD
      obtain ⟨i, c, v⟩ := e
      obtain ⟨r, j, u⟩ := f
      obtain ⟨hcl, hv⟩ := SampleMain.mem_triplesC.1 (pL.mem_iff.2 (List.mem_filter.2 ⟨he, decide_eq_true hi'⟩))
      obtain ⟨hrl, hu⟩ := Graph.mem_triples.1 (pB.mem_iff.2 hf)
      obtain rfl : c = r := hef
      have ht : (i, j, v * u) ∈ Outer.prods (fun x y => x * y) x.left x.B (List.range x.left.cols) := by
        unfold Outer.prods Outer.prodsOf
        exact List.mem_flatMap.2 ⟨c, List.mem_range.2 hcl, List.mem_flatMap.2 ⟨(i, v), hv, List.mem_map.2 ⟨(j, u), hu, rfl⟩⟩⟩
      have ad := hadm.2
      exact Profile.stage_range wL' (by omega) wB (by omega) hLB h1 h3 C91_sorts (cL ▸ ad.flop 4 (by omega)) (cL ▸ ad.asg 4 (by omega)) (ad.sort 4 (by omega)) (ad.copy 4 (by omega))
        (ad.merge 4 (by omega)) ht (by rw [rL]; exact hi) _ D hD
    obtain ⟨g1, g2⟩ := after_say (e := ProfileMain.Event.total (pairings es fs)) (andThen_events_nil hne fun C =>
      (say (ProfileMain.Event.total C.2)).seq <| (say (.left x.A.nnz x.B.nnz x.A.rows)).seq <| say (.result (2 * pairings (upperRows (k / 2) es) fs / 2) C.1.nnz t))
    exact ⟨by rw [g1], g2⟩
  · rw [e1]
    exact ⟨List.nil_prefix, by simp [andThen]⟩

/-- C101 is violated if a text file is missing: nothing is printed, and the programs do not come to their end. They have no message for this case. -/
theorem C101_violated_missing {a1 a2 a3 : List Char} {rest : List (List Char)} (h1 : a1 ≠ "gen".toList) (h2 : a1 ≠ "binary".toList)
    (h : env.text a2 = none ∨ env.text a3 = none) :
    (∀ sch, (profileMain radixBy env (a1 :: a2 :: a3 :: rest) oA oB oF oL oR sch).events = [] ∧
      (profileMain radixBy env (a1 :: a2 :: a3 :: rest) oA oB oF oL oR sch).status ≠ .ok (some ())) ∧
    (∀ sch, (profile2Main radixBy env (a1 :: a2 :: a3 :: rest) oA oB oF sch).events = [] ∧
      (profile2Main radixBy env (a1 :: a2 :: a3 :: rest) oA oB oF sch).status ≠ .ok (some ())) := by
  have hin : ∀ r, setInput env (a1 :: a2 :: a3 :: rest) oA oB ≠ .ok r := by
    intro r hr
    unfold setInput at hr
    simp only [rd, List.getElem?_cons_zero, List.getElem?_cons_succ, ok_bind] at hr
    rw [if_neg h1, if_neg h2] at hr
    obtain ⟨_, e1, hr⟩ := MatObj.bind_eq_ok hr
    obtain ⟨_, e2, hr⟩ := MatObj.bind_eq_ok hr
    rcases h with h | h
    · rw [h, C65_violated_missing] at e1; cases e1
    · rw [h, C65_violated_missing] at e2; cases e2
  refine ⟨fun sch => ?_, fun sch => ?_⟩
  · unfold profileMain
    rw [if_neg (by simp)]
    refine andThen_events_nil (fun x hx => ?_) _
    unfold ProfileMain.setup at hx
    obtain ⟨_, hx, -⟩ := MatObj.bind_eq_ok hx
    exact hin _ hx
  · unfold profile2Main
    rw [if_neg (by simp)]
    refine andThen_events_nil (fun x hx => ?_) _
    unfold ProfileMain.setup2 at hx
    obtain ⟨_, hx, -⟩ := MatObj.bind_eq_ok hx
    exact hin _ hx

/-- C101 for generated matrices: with a scale of at most 32 and a number of edges that is not 0, the input is the weight matrices of two random graphs, to which
the other theorems apply, or the generator does not end, and nothing is printed. -/
theorem C101_generated (neg : R → R) (ha : AssocComm env.add) (hE : SortsEdges env.sortE) (hr : ∀ i, 0 ≤ env.st.s2 i ∧ env.st.s2 i < 1) {a2 a3 a4 : List Char}
    (rest : List (List Char)) {scale factor : Nat} (h3 : Numeral a3 scale) (h4 : Numeral a4 factor) (hsc : scale ≤ 32) (hf : factor ≠ 0) :
    (∃ GA GB es fs, IsRandomGraph (2 ^ scale) (2 ^ scale * factor) 0 100 GA ∧ IsRandomGraph (2 ^ scale) (2 ^ scale * factor) 0 100 GB ∧
      GraphEntries env.add (GA.map fun e => (e.1, e.2.1, env.ofInt e.2.2)) es ∧ GraphEntries env.add (GB.map fun e => (e.1, e.2.1, env.ofInt e.2.2)) fs ∧
      Input env neg ("gen".toList :: a2 :: a3 :: a4 :: rest) oA oB (2 ^ scale) (2 ^ scale) es (2 ^ scale) (2 ^ scale) fs) ∨
    ((∀ sch, profileMain radixBy env ("gen".toList :: a2 :: a3 :: a4 :: rest) oA oB oF oL oR sch = ⟨[], .error .diverge⟩) ∧
      (∀ sch, profile2Main radixBy env ("gen".toList :: a2 :: a3 :: a4 :: rest) oA oB oF sch = ⟨[], .error .diverge⟩)) := by
  refine (generated_or neg ha hE hr rest oA oB h3 h4 hsc hf).imp_right fun e => ⟨fun sch => ?_, fun sch => ?_⟩
  · unfold profileMain ProfileMain.setup
    rw [if_neg (by simp), e]
    rfl
  · unfold profile2Main ProfileMain.setup2
    rw [if_neg (by simp), e]
    rfl

/-- C101 for too few arguments: nothing is printed but the usage, no file is read, and the programs end. -/
theorem C101_usage (h : args.length < 3) : (∀ sch, profileMain radixBy env args oA oB oF oL oR sch = ⟨[], .ok (some ())⟩) ∧
    ∀ sch, profile2Main radixBy env args oA oB oF sch = ⟨[], .ok (some ())⟩ :=
  ⟨fun _ => if_pos h, fun _ => if_pos h⟩

/-! ## Examples -/

/-- Schedules as required exist, for all sizes and numbers of threads. -/
theorem run_schedules (r k t nb K : Nat) (ht : 0 < t) : ∃ s : Run, RunOk r k nb s ∧ RunFair K s ∧ s.threads = t := by
  obtain ⟨s, h1, h2⟩ := outer_schedules r k t nb K ht
  refine ⟨⟨t, fun i => ⟨(s i).sch, List.range nb⟩, fun _ => List.replicate (r + 1) 7⟩, ⟨fun _ => by simp, fun i hi => (h1 i (by omega)).2.1, fun i hi => (h1 i (by omega)).2.2.1,
    fun i hi => (h1 i (by omega)).2.2.2.1, fun i hi => (h1 i (by omega)).2.2.2.2, fun i hi => .refl _⟩, fun i hi => h2 i (by omega), rfl⟩

theorem run2_schedules (r t nb K : Nat) : ∃ s : Run2, RunOk2 r nb s ∧ RunFair2 K t s := by
  obtain ⟨s, h1, h2⟩ := balanced_schedules r t nb K
  refine ⟨⟨fun i => ⟨(s i).sch, List.range nb⟩, fun _ => List.replicate (r + 1) 7⟩, ⟨fun _ => by simp, fun i hi => (h1 i (by omega)).2.1, fun i hi => (h1 i (by omega)).2.2,
    fun i hi => .refl _⟩, fun i hi => h2 i (by omega)⟩

/-- Five rows and four columns -/
example := C101_upper (isort_sorts Prod.fst)
  (pair_input (m := 5) (n := 4) (m' := 4) (n' := 1) (ps := (4, 1) :: arrowAt) (qs := columnAt) outerRest (by decide) (by decide) (by decide) (by decide))
  (oF := [3, 1, 0, 2]) (oL := [0, 1, 2, 3]) (oR := [0, 2, 1, 3]) (by decide) (by decide) (by decide) (few_of (by decide)) (outerRest_ok _ _ _) (by decide) (by decide) (by decide)
  (by decide) (by decide) (by decide) (by decide) (by decide)

/-- The square of a matrix with four rows, four columns and seven entries: of the 16 entries of the product, those in the lower half are not counted. -/
example := C101_violated_half (isort_sorts Prod.fst)
  (pair_input (m := 4) (n := 4) (m' := 4) (n' := 4) (ps := arrowAt) (qs := arrowAt) outerRest (by decide) (by decide) (by decide) (by decide))
  (oF := [3, 1, 0, 2]) (oL := [0, 1, 2, 3]) (oR := [0, 2, 1, 3]) (by decide) (by decide) (by decide) (few_of (by decide)) (outerRest_ok _ _ _) (by decide) (by decide) (by decide)
  (by decide) (by decide) (by decide) (by decide) (by decide) arrow_square (e := (3, 0, 1)) (f := (0, 3, 1)) (by decide) (by decide) (by decide) (by decide)

/-- A matrix with entries in the first two of four rows -/
def halfAt : List (Nat × Nat) := [(0, 0), (1, 0), (1, 1)]

theorem half_product : ProductEntries (R := Nat) (halfAt.map fun p => (p.1, p.2, 1)) (columnAt.map fun p => (p.1, p.2, 1)) [(0, 0, 1), (1, 0, 2)] where
  nodup := by decide
  mem := by
    intro i j v
    constructor
    · intro h
      simp only [List.mem_cons, List.not_mem_nil, or_false, Prod.mk.injEq] at h
      rcases h with ⟨rfl, rfl, rfl⟩ | ⟨rfl, rfl, rfl⟩ <;>
      exact ⟨⟨0, ⟨(_, 0, 1), by simp [halfAt], rfl⟩, (0, 0, 1), by simp [columnAt], rfl⟩, by decide⟩
    · rintro ⟨⟨k, ⟨e, he, e'⟩, f, hf, f'⟩, rfl⟩
      obtain ⟨rfl, -⟩ := Prod.mk.inj e'
      obtain ⟨-, rfl⟩ := Prod.mk.inj f'
      simp only [halfAt, columnAt, List.map_cons, List.map_nil, List.mem_cons, List.not_mem_nil, or_false] at he hf
      rcases he with rfl | rfl | rfl <;> rcases hf with rfl | rfl | rfl | rfl <;> decide

example := C101_partial (isort_sorts Prod.fst)
  (pair_input (m := 4) (n := 4) (m' := 4) (n' := 1) (ps := halfAt) (qs := columnAt) outerRest (by decide) (by decide) (by decide) (by decide))
  (oF := [3, 1, 0, 2]) (oL := [0, 1, 2, 3]) (oR := [0, 2, 1, 3]) (by decide) (by decide) (by decide) (few_of (by decide)) (outerRest_ok _ _ _) (by decide) (by decide) (by decide)
  (by decide) (by decide) (by decide) (by decide) (by decide) half_product (by decide)

example := C101_balanced_partial (isort_sorts Prod.fst)
  (pair_input (m := 4) (n := 4) (m' := 4) (n' := 1) (ps := arrowAt) (qs := columnAt) outerRest (by decide) (by decide) (by decide) (by decide))
  (oF := [3, 1, 0, 2]) (by decide) (few_of (by decide)) (outerRest_ok _ _ _) (by decide) (by decide) (by decide) (by decide) (by decide) (by decide)

/-- Two rows and four columns -/
example := C101_violated_left_out (isort_sorts Prod.fst)
  (pair_input (m := 2) (n := 4) (m' := 4) (n' := 1) (ps := [(0, 0), (0, 1), (1, 2), (1, 3)]) (qs := columnAt) outerRest (by decide) (by decide) (by decide) (by decide))
  (oF := [3, 1, 0, 2]) (by decide) (few_of (by decide)) (outerRest_ok _ _ _) (by decide) (by decide) (by decide) (by decide) (by decide) (by decide) (by decide)
  (e := (1, 2, 1)) (f := (2, 0, 1)) (by decide) (by decide) (by decide) (by decide)

example := C101_violated_wide (isort_sorts Prod.fst)
  (pair_input (m := 2) (n := 4) (m' := 4) (n' := 1) (ps := [(0, 0), (0, 1), (1, 2), (1, 3)]) (qs := columnAt) outerRest (by decide) (by decide) (by decide) (by decide))
  (oF := [3, 1, 0, 2]) (oL := [0, 1, 2, 3]) (oR := [0, 2, 1, 3]) (by decide) (by decide) (by decide) (few_of (by decide)) (outerRest_ok _ _ _) (by decide) (by decide) (by decide)
  (by decide) (by decide) (by decide) (by decide) (by decide) (e := (1, 2, 1)) (f := (2, 0, 1)) (by decide) (by decide) (by decide) (by decide) (by decide)

/-- Only the files are given. -/
example := C101_violated_arguments (oL := [0, 1, 2, 3]) (oR := [0, 1, 2, 3]) (isort_sorts Prod.fst)
  (pair_input (m := 4) (n := 4) (m' := 4) (n' := 4) (ps := arrowAt) (qs := arrowAt) [] (by decide) (by decide) (by decide) (by decide))
  (oF := [3, 1, 0, 2]) (by decide) (few_of (by decide)) (by decide)

example := C101_violated_rows (oL := [0]) (oR := [0]) (isort_sorts Prod.fst)
  (pair_input (m := 131071) (n := 1) (m' := 1) (n' := 1) (ps := tallAt 131071) (qs := [(0, 0)]) outerRest (tallAt_lt (by decide)) (by decide) (by decide)
    (by rw [tallAt_length]; decide)) (oF := [0]) (by decide) (few_of (by rw [List.length_map, tallAt_length]; decide)) (outerRest_ok _ _ _) (.inl (by decide))

/-- No block -/
example := C101_violated_blocks (oL := [0, 1, 2, 3]) (oR := [0, 1, 2, 3]) (isort_sorts Prod.fst)
  (pair_input (m := 4) (n := 4) (m' := 4) (n' := 4) (ps := arrowAt) (qs := arrowAt) ["x".toList, "2".toList, "0".toList, "4".toList] (by decide) (by decide) (by decide) (by decide))
  (oF := [3, 1, 0, 2]) (by decide) (few_of (by decide))
  ⟨⟨_, rfl, .digit 2 (by decide)⟩, ⟨_, rfl, .digit 0 (by decide)⟩, ⟨_, rfl, .digit 4 (by decide)⟩, by decide⟩ (by decide)

example := C101_violated_tall (isort_sorts Prod.fst)
  (pair_input (m := 4) (n := 1) (m' := 1) (n' := 4) (ps := columnAt) (qs := rowAt) outerRest (by decide) (by decide) (by decide) (by decide))
  (oF := [0]) (by decide) (few_of (by decide)) (outerRest_ok _ _ _) (by decide) (by decide)

example := C101_violated_columns (oF := [0]) (oL := [0]) (oR := [0]) (isort_sorts Prod.fst)
  (pair_input (m := 4) (n := 1) (m' := 1) (n' := 4) (ps := columnAt) (qs := rowAt) outerRest (by decide) (by decide) (by decide) (by decide)) (by decide) (by decide)

example := C101_violated_missing (env := pairEnv [] []) (oA := []) (oB := []) (oF := []) (oL := []) (oR := [])
  (a1 := "text".toList) (a2 := "c.mtx".toList) (a3 := "b.mtx".toList) (rest := []) (by decide) (by decide) (.inl (by decide))

example := C101_usage (env := pairEnv [] []) (oA := []) (oB := []) (oF := []) (oL := []) (oR := []) (args := ["gen".toList, "rmat".toList]) (by decide)

example := C101_generated (env := pairEnv [] []) (oA := []) (oB := []) (oF := []) (oL := []) (oR := []) (fun v => v)
  ⟨fun a b c => Nat.add_assoc a b c, fun a b => Nat.add_comm a b⟩ edgeSort_sorts (fun i => by simp only [pairEnv, ratStreams]; norm_num) (a2 := "rmat".toList)
  ["2".toList, "1".toList, "4".toList] (.digit 2 (by decide)) (.digit 2 (by decide)) (by decide) (by decide)

end Verif.Props
