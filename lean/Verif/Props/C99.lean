import Verif.Lemmas.NumaMain
import Verif.Props.C98

/-! # C99: the sample program that multiplies two halves at the same time -/

namespace Verif.Props

open Verif.Model Verif.Model.SampleMain Verif.Model.NumaMain Verif.Spec
open _root_.Verif.Model.Bench (Out Gives)
open _root_.Verif.Model.Sample (Env setInput)
open _root_.Verif.Model.MaskedAll (Good seq_good seq_done seq_stop)
open _root_.Verif.Model.OuterMain (outer_entries count_lt part_le calls_give calls_fail blocks_ok shuffleC_fails col_eq_nil)

variable {R F : Type} [Semiring R] {env : Env R F} {neg : R → R} {args : List (List Char)} {m k n m' n' : Nat} {es fs : List (Nat × Nat × R)}
  {oA oB oF oL oR : List Nat} {rA rB : Nat → Nat} {nb width tmax : Nat}

/-- The arguments 6 and 7 are the numbers of blocks and of products in a buffer. -/
structure BlockArgs (args : List (List Char)) (nb width : Nat) : Prop where
  blocks : ∃ a, args[5]? = some a ∧ Numeral a nb
  width : ∃ a, args[6]? = some a ∧ Numeral a width

theorem BlockArgs.given (h : BlockArgs args nb width) : ¬ args.length < 3 := by
  obtain ⟨a, ha, -⟩ := h.blocks
  have := (List.getElem?_eq_some_iff.1 ha).1
  omega

theorem BlockArgs.nums (h : BlockArgs args nb width) : OuterMain.blocks args = .ok (some (nb % 2 ^ 16, width % 2 ^ 16)) := by
  obtain ⟨a, ha, hn⟩ := h.blocks
  obtain ⟨b, hb, hm⟩ := h.width
  exact blocks_ok ha hb hn hm

/-- The schedule of a section fits `k` columns, `nb` blocks and its number of threads, and the array of `r + 1` row pointers holds anything. -/
structure SectionOk (r k nb : Nat) (s : Section) : Prop where
  mem : s.mem.length = r + 1
  flop : s.sch.flop.Perm (List.range k)
  asg : ((List.range s.threads).flatMap s.sch.asg).Perm (List.range k)
  sort : s.sch.sort.Perm (List.range nb)
  copy : s.sch.copy.Perm (List.range nb)

def SectionsOk (r k nb : Nat) (sch : Nat → Section × Section) : Prop := ∀ i < 16, SectionOk r k nb (sch i).1 ∧ SectionOk r k nb (sch i).2

/-- Each thread of each section gets at least `K` turns. -/
def SectionsFair (K : Nat) (sch : Nat → Section × Section) : Prop :=
  ∀ i < 16, (∀ t < (sch i).1.threads, K ≤ (sch i).1.sch.main.count t) ∧ ∀ t < (sch i).2.threads, K ≤ (sch i).2.sch.main.count t

theorem section_gives {M : CSC R} {B : CSR R} {hs : List (Nat × Nat × R)} (hv : ValidOuter M B) (pM : (triplesC M).Perm hs) (pB : (triples B).Perm fs)
    (h1 : 0 < nb) (h2 : nb < 2 ^ 16) (h3 : 0 < width) (hm : M.rows + 1 < 2 ^ 17) (hr : M.rows ≤ 4096 * nb) (hn : B.cols ≤ 2 ^ 20) :
    ∃ C, ProductEntries hs fs (triples C) ∧ C.nnz = (triples C).length ∧ ∀ (s : Section) (K : Nat), SectionOk M.rows M.cols nb s → 2 + pairings hs fs + nb ≤ K →
      Gives (∀ t < s.threads, K ≤ s.sch.main.count t) C (Outer.outerSpGEMM (fun x y => x * y) (fun x y => x + y) radixBy M B s.threads nb width s.mem s.sch) := by
  have key := fun n => C91_outer (mul := fun x y : R => x * y) add_assocComm hv (n := n) h3 h1 h2 hm hr hn
  obtain ⟨C, hC, -⟩ := key 0
  refine ⟨C, outer_entries hv.ab hv.wfA pM pB hC, (Bench.triples_length hC.wf).symm, fun s K h hK => ?_⟩
  obtain ⟨C', hC', hg⟩ := key s.threads
  obtain rfl := C64_unique hC hC'
  rcases hg _ h.mem _ ⟨h.flop, h.asg, h.sort, h.copy⟩ with ⟨e, t', ht', hle⟩ | e
  · refine .inr ⟨fun hf => ?_, e⟩
    have := hf t' ht'
    have := part_le hv.ab pM pB h.asg ht'
    omega
  · exact .inl e

theorem numa_flops {x : Halves R} (wA : x.A.WF) (cA : x.A.cols = k) (pA : (triplesC x.A).Perm es) (wB : x.B.WF) (rB : x.B.rows = k) (pB : (triples x.B).Perm fs)
    (hoF : oF.Perm (List.range k)) (hc : FewProducts es fs) : NumaMain.flops x oF = .ok (some (2 * pairings es fs)) := by
  have hAB : x.A.cols = x.B.rows := cA.trans rB.symm
  have hf := (C83_mixed_partial (W := 2 ^ 31) wA wB hAB (order := oF) (by rw [cA]; exact hoF) (count_lt hAB pA pB hc)).1
  rw [Flops.pairings_perm pA pB] at hf
  unfold NumaMain.flops
  rw [hf, ok_bind]

/-- C99, what the program does if the first matrix has at least two columns and no entry in a row `i` with `m / 2 ≤ i < k / 2` (see `C99_violated_wide`): it prints the numbers of entries in the first
`k / 2` rows and in the other rows, twice the number of products of entries, and this number together with the number of entries of the products of two matrices: the
first `k / 2` rows, and the other rows with the number of the row reduced modulo `k / 2`. For all random numbers, numbers of threads and every schedule; if
the threads get enough turns, the program comes to its end. See `C99_partial` and `C99_violated_folded` for how many entries these are. -/
theorem C99_halves (hs : SortsBy Prod.fst env.sortf) (h : Input env neg args oA oB m k es k n fs) (hA : NoEmptyCol k es) (hB : NoEmptyRow k fs)
    (hoF : oF.Perm (List.range k)) (hoL : oL.Perm (List.range k)) (hoR : oR.Perm (List.range k)) (hc : FewProducts es fs) (ha : BlockArgs args nb width) (h1 : 0 < nb)
    (h2 : nb < 2 ^ 16) (h3 : 0 < width) (h4 : width < 2 ^ 16) (hk2 : 2 ≤ k) (hin : ∀ e ∈ es, e.1 < k / 2 → e.1 < m / 2) (hm : m / 2 + 1 < 2 ^ 17) (hr : m / 2 ≤ 4096 * nb) (hn : n ≤ 2 ^ 20) :
    ∃ U L, ProductEntries (upperRows (k / 2) es) fs U ∧ ProductEntries (lowerRows (k / 2) es) fs L ∧ (∀ e ∈ es, e.1 < m) ∧
      let want : List NumaMain.Event := [.part (es.countP fun e => decide (e.1 < k / 2)), .part (es.countP fun e => decide (k / 2 ≤ e.1)), .flop (2 * pairings es fs),
        .result (pairings es fs) (U.length + L.length) tmax]
      (∀ sch, SectionsOk (m / 2) k nb sch → numaMain radixBy env args oA oB oF oL oR rA rB tmax sch = ⟨want, .ok (some ())⟩ ∨
        ((numaMain radixBy env args oA oB oF oL oR rA rB tmax sch).status = .ok none ∧ (numaMain radixBy env args oA oB oF oL oR rA rB tmax sch).events <+: want)) ∧
      ∃ K, ∀ sch, SectionsOk (m / 2) k nb sch → SectionsFair K sch → numaMain radixBy env args oA oB oF oL oR rA rB tmax sch = ⟨want, .ok (some ())⟩ := by
  obtain ⟨x, hx, eu, el, wL, rL, cL, pL, wR, rR, cR, pR, wA, cA, pA, wB, rB', cB, pB, hlt⟩ := NumaMain.setup_ok (rA := rA) (rB := rB) hs h hA hB hoL hoR hk2 hin
  have hLB : x.left.cols = x.B.rows := cL.trans rB'.symm
  have hRB : x.right.cols = x.B.rows := cR.trans rB'.symm
  obtain ⟨C, hC, zC, gC⟩ := section_gives (nb := nb) (width := width) ⟨wL, wB, hLB⟩ pL pB h1 h2 h3 (by rw [rL]; exact hm) (by rw [rL]; exact hr) (by rw [cB]; exact hn)
  obtain ⟨D, hD, zD, gD⟩ := section_gives (nb := nb) (width := width) ⟨wR, wB, hRB⟩ pR pB h1 h2 h3 (by rw [rR]; exact hm) (by rw [rR]; exact hr) (by rw [cB]; exact hn)
  rw [rL, cL] at gC
  rw [rR, cR] at gD
  refine ⟨triples C, triples D, hC, hD, hlt, outcome (adm := fun sch : Nat → Section × Section => SectionsOk (m / 2) k nb sch) (fair := fun K sch => SectionsFair K sch)
    ⟨2 + pairings (upperRows (k / 2) es) fs + pairings (lowerRows (k / 2) es) fs + nb, fun sch hadm => ?_⟩⟩
  unfold numaMain
  rw [if_neg ha.given, andThen_ok hx]
  dsimp only
  rw [eu, el]
  have e1 : (upperRows (k / 2) es).length = es.countP fun e => decide (e.1 < k / 2) := (List.countP_eq_length_filter ..).symm
  have e2 : (lowerRows (k / 2) es).length = es.countP fun e => decide (k / 2 ≤ e.1) := (List.length_map _).trans (List.countP_eq_length_filter ..).symm
  rw [e1, e2]
  refine seq_good (w := [_]) (say_good _) (seq_good (w := [_]) (say_good _) ?_)
  rw [andThen_ok (numa_flops wA cA pA wB rB' pB hoF hc)]
  refine seq_good (w := [_]) (say_good _) ?_
  rw [andThen_ok ha.nums, Nat.mod_eq_of_lt h2, Nat.mod_eq_of_lt h4]
  refine andThen_good (x := (C, D)) (calls_give (sch := sch) fun i hi => ?_) ?_
  · refine sections_gives (MaskedAll.Gives.weaken (gC (sch i).1 _ (hadm i hi).1 ?_) fun hf => (hf i hi).1) (MaskedAll.Gives.weaken (gD (sch i).2 _ (hadm i hi).2 ?_) fun hf => (hf i hi).2) <;> omega
  · rw [Nat.mul_div_cancel_left _ (by decide), zC, zD]
    exact say_good _

/-- C99: with input of matching sizes (files or generated, see `C99_generated`), the first with an even number of rows, as many columns as rows or one more, and without
empty columns, the second without empty rows, a number of blocks of at most 4096 rows of a half each, and the size of the buffers, the program prints the numbers of entries in
the upper and the lower half of the first matrix, twice the number of products of entries, and then this number itself and the number of entries of the product. For all
random numbers, numbers of threads and every schedule; if the threads get enough turns, the program comes to its end.

What is missing: odd numbers of rows and more rows than columns (see `C99_violated_folded`), fewer rows than columns (see `C99_violated_wide`), less than two columns (see
`C99_violated_columns`), calls without these arguments (see `C99_violated_arguments`), empty columns and rows (see `C99_violated_empty`), halves of `2^17 - 1` or more
rows (see `C99_violated_rows`), numbers of blocks that do not fit into two bytes (see `C99_violated_blocks`), larger blocks, more than `2^20` columns
(see `C99_violated_wide_columns`). -/
theorem C99_partial (hs : SortsBy Prod.fst env.sortf) (h : Input env neg args oA oB m k es k n fs) (hA : NoEmptyCol k es) (hB : NoEmptyRow k fs)
    (hoF : oF.Perm (List.range k)) (hoL : oL.Perm (List.range k)) (hoR : oR.Perm (List.range k)) (hc : FewProducts es fs) (ha : BlockArgs args nb width) (h1 : 0 < nb)
    (h2 : nb < 2 ^ 16) (h3 : 0 < width) (h4 : width < 2 ^ 16) (heven : m % 2 = 0) (h0 : 0 < m) (hk : k = m ∨ k = m + 1) (hm : m / 2 + 1 < 2 ^ 17) (hr : m / 2 ≤ 4096 * nb)
    (hn : n ≤ 2 ^ 20) {P : List (Nat × Nat × R)} (hP : ProductEntries es fs P) :
    let want : List NumaMain.Event := [.part (es.countP fun e => decide (e.1 < m / 2)), .part (es.countP fun e => decide (m / 2 ≤ e.1)), .flop (2 * pairings es fs),
      .result (pairings es fs) P.length tmax]
    (∀ sch, SectionsOk (m / 2) k nb sch → numaMain radixBy env args oA oB oF oL oR rA rB tmax sch = ⟨want, .ok (some ())⟩ ∨
      ((numaMain radixBy env args oA oB oF oL oR rA rB tmax sch).status = .ok none ∧ (numaMain radixBy env args oA oB oF oL oR rA rB tmax sch).events <+: want)) ∧
    ∃ K, ∀ sch, SectionsOk (m / 2) k nb sch → SectionsFair K sch → numaMain radixBy env args oA oB oF oL oR rA rB tmax sch = ⟨want, .ok (some ())⟩ := by
  have e : k / 2 = m / 2 := by omega
  obtain ⟨U, L, hU, hL, hlt, hg⟩ := C99_halves (rA := rA) (rB := rB) (tmax := tmax) hs h hA hB hoF hoL hoR hc ha h1 h2 h3 h4 (by omega) (fun _ _ => by omega) hm hr hn
  have := halves_eq hP hU hL fun e he => by have := hlt e he; omega
  rw [this, e] at hg
  exact hg

/-- C99 is violated whenever the lower part of the first matrix has two rows whose difference is a multiple of half the number of columns, and which have entries in the same column
of the product, for example the middle row and the last row of a matrix of odd size: the program prints a number of entries that is too small, for every schedule
with enough turns. -/
theorem C99_violated_folded (hs : SortsBy Prod.fst env.sortf) (h : Input env neg args oA oB m k es k n fs) (hA : NoEmptyCol k es) (hB : NoEmptyRow k fs)
    (hoF : oF.Perm (List.range k)) (hoL : oL.Perm (List.range k)) (hoR : oR.Perm (List.range k)) (hc : FewProducts es fs) (ha : BlockArgs args nb width) (h1 : 0 < nb)
    (h2 : nb < 2 ^ 16) (h3 : 0 < width) (h4 : width < 2 ^ 16) (hk2 : 2 ≤ k) (hin : ∀ e ∈ es, e.1 < k / 2 → e.1 < m / 2) (hm : m / 2 + 1 < 2 ^ 17) (hr : m / 2 ≤ 4096 * nb) (hn : n ≤ 2 ^ 20)
    {P : List (Nat × Nat × R)} (hP : ProductEntries es fs P) {i i' j : Nat} (hi : k / 2 ≤ i) (hii : i < i') (he : i % (k / 2) = i' % (k / 2))
    (hp : ∃ k, Stored es i k ∧ Stored fs k j) (hp' : ∃ k, Stored es i' k ∧ Stored fs k j) :
    ∃ z < P.length, ∃ K, ∀ sch, SectionsOk (m / 2) k nb sch → SectionsFair K sch →
      numaMain radixBy env args oA oB oF oL oR rA rB tmax sch = ⟨[.part (es.countP fun e => decide (e.1 < k / 2)), .part (es.countP fun e => decide (k / 2 ≤ e.1)),
        .flop (2 * pairings es fs), .result (pairings es fs) z tmax], .ok (some ())⟩ := by
  obtain ⟨U, L, hU, hL, hlt, hg⟩ := C99_halves (rA := rA) (rB := rB) (tmax := tmax) hs h hA hB hoF hoL hoR hc ha h1 h2 h3 h4 hk2 hin hm hr hn
  exact ⟨_, halves_lt hP hU hL hi hii he hp hp', hg.2⟩

/-! ## Violations -/

/-- Runs that print three lines, the numbers of entries of the halves and of operations, and do not come to their end -/
def OnlyHalves (p : Nat) (es fs : List (Nat × Nat × R)) (o : Out NumaMain.Event) : Prop :=
  o.events = [.part (es.countP fun e => decide (e.1 < p)), .part (es.countP fun e => decide (p ≤ e.1)), .flop (2 * pairings es fs)] ∧ o.status ≠ .ok (some ())

theorem say_more {E : Type} {e : E} {o : Out E} {l : List E} (h : o.events = l ∧ o.status ≠ .ok (some ())) :
    ((say e).seq o).events = e :: l ∧ ((say e).seq o).status ≠ .ok (some ()) := by
  unfold say
  rw [seq_done rfl]
  exact ⟨by rw [h.1]; rfl, h.2⟩

/-- If the rest of the program fails, only the three lines are printed. -/
theorem numa_only (hs : SortsBy Prod.fst env.sortf) (h : Input env neg args oA oB m k es k n fs) (hA : NoEmptyCol k es) (hB : NoEmptyRow k fs)
    (hoF : oF.Perm (List.range k)) (hoL : oL.Perm (List.range k)) (hoR : oR.Perm (List.range k)) (hc : FewProducts es fs) (hk2 : 2 ≤ k)
    {sch : Nat → Section × Section}
    (hrest : ∀ x : Halves R, CSC.WF { x.left with rows := k / 2 } → x.left.rows = m / 2 → x.left.cols = k → (triplesC x.left).Perm (upperRows (k / 2) es) → x.B.WF →
      x.B.rows = k → (triples x.B).Perm fs → ∀ w, OuterMain.blocks args = .ok (some w) → ∀ C,
      Outer.outerSpGEMM (fun x y => x * y) (fun x y => x + y) radixBy x.left x.B (sch 0).1.threads w.1 w.2 (sch 0).1.mem (sch 0).1.sch ≠ .ok (some C)) :
    OnlyHalves (k / 2) es fs (numaMain radixBy env args oA oB oF oL oR rA rB tmax sch) := by
  obtain ⟨hg, -⟩ := h.read hs
  obtain ⟨x, hx, eu, el, wL, rL, cL, pL, wA, cA, pA, wB, rB', cB, pB⟩ := NumaMain.setup_wide (rA := rA) (rB := rB) hs h hA hB hoL hoR hk2
  unfold numaMain
  rw [if_neg hg, andThen_ok hx]
  dsimp only
  rw [eu, el]
  have e1 : (upperRows (k / 2) es).length = es.countP fun e => decide (e.1 < k / 2) := (List.countP_eq_length_filter ..).symm
  have e2 : (lowerRows (k / 2) es).length = es.countP fun e => decide (k / 2 ≤ e.1) := (List.length_map _).trans (List.countP_eq_length_filter ..).symm
  rw [e1, e2, andThen_ok (numa_flops wA cA pA wB rB' pB hoF hc)]
  refine say_more (say_more (after_say ?_))
  cases hb : OuterMain.blocks args with
  | error e => exact ⟨rfl, by simp [andThen]⟩
  | ok w =>
    cases w with
    | none => exact ⟨rfl, by simp [andThen]⟩
    | some w => exact andThen_events_nil (calls_fail (sch := sch) (sections_fail (hrest x wL rL cL pL wB rB' pB w hb))) _

/-- C99 is violated if fewer than seven arguments are given, although three are accepted: after three lines the program reads arguments that do not exist. -/
theorem C99_violated_arguments (hs : SortsBy Prod.fst env.sortf) (h : Input env neg args oA oB m k es k n fs) (hA : NoEmptyCol k es) (hB : NoEmptyRow k fs)
    (hoF : oF.Perm (List.range k)) (hoL : oL.Perm (List.range k)) (hoR : oR.Perm (List.range k)) (hc : FewProducts es fs) (hk2 : 2 ≤ k) (hl : args.length < 7)
    (sch : Nat → Section × Section) : OnlyHalves (k / 2) es fs (numaMain radixBy env args oA oB oF oL oR rA rB tmax sch) := by
  refine numa_only hs h hA hB hoF hoL hoR hc hk2 fun x _ _ _ _ _ _ _ w hw => ?_
  exfalso
  unfold OuterMain.blocks rd at hw
  rw [List.getElem?_eq_none (l := args) (i := 6) (by omega)] at hw
  cases h5 : args[5]? <;> rw [h5] at hw <;> cases hw

/-- C99 is violated for every first matrix with an entry in a row `i` with `m / 2 ≤ i < k / 2`, which exists only if it has more columns than rows: the upper part is stored in a matrix with
`m / 2` rows, and the program leaves the bounds of an array. Three lines are printed, and the program does not come to its end, whatever the schedule is. -/
theorem C99_violated_wide (hs : SortsBy Prod.fst env.sortf) (h : Input env neg args oA oB m k es k n fs) (hA : NoEmptyCol k es) (hB : NoEmptyRow k fs)
    (hoF : oF.Perm (List.range k)) (hoL : oL.Perm (List.range k)) (hoR : oR.Perm (List.range k)) (hc : FewProducts es fs) (ha : BlockArgs args nb width)
    (h2 : nb < 2 ^ 16) (h3 : 0 < width) (h4 : width < 2 ^ 16) (hk2 : 2 ≤ k) {e : Nat × Nat × R} (he : e ∈ es) (hi : m / 2 ≤ e.1) (hi' : e.1 < k / 2)
    (sch : Nat → Section × Section) (hadm : SectionsOk (m / 2) k nb sch) :
    OnlyHalves (k / 2) es fs (numaMain radixBy env args oA oB oF oL oR rA rB tmax sch) := by
  refine numa_only hs h hA hB hoF hoL hoR hc hk2 fun x wL rL cL pL wB rB' pB w hw C => ?_
  rw [ha.nums, Nat.mod_eq_of_lt h2, Nat.mod_eq_of_lt h4] at hw
  simp only [Except.ok.injEq, Option.some.injEq] at hw
  subst hw
  have hAB := cL.trans rB'.symm
  obtain ⟨t, ht, e1⟩ := product_of (mul := fun x y : R => x * y) pL wB pB hAB (by rw [rB']; exact hB) (List.mem_filter.2 ⟨he, decide_eq_true hi'⟩)
  have ad := (hadm 0 (by decide)).1
  refine Outer.outer_range wL wB hAB h3 C91_sorts (cL ▸ ad.flop) (cL ▸ ad.asg) ad.sort ad.copy ht ?_ _ C
  rw [rL, e1]
  exact hi

/-- C99 is violated for many rows: with `2^18 - 2` or more rows in the first matrix the program prints three lines and does not come to its end. -/
theorem C99_violated_rows (hs : SortsBy Prod.fst env.sortf) (h : Input env neg args oA oB m k es k n fs) (hA : NoEmptyCol k es) (hB : NoEmptyRow k fs)
    (hoF : oF.Perm (List.range k)) (hoL : oL.Perm (List.range k)) (hoR : oR.Perm (List.range k)) (hc : FewProducts es fs) (hk2 : 2 ≤ k) (hbig : 2 ^ 18 - 2 ≤ m)
    (sch : Nat → Section × Section) (ht : 0 < (sch 0).1.threads) : OnlyHalves (k / 2) es fs (numaMain radixBy env args oA oB oF oL oR rA rB tmax sch) :=
  numa_only hs h hA hB hoF hoL hoR hc hk2 fun x _ rL _ _ _ _ _ w _ C => C64_violated_rows ht (by omega) _ _ C

/-- C99 is violated if the number of blocks is a multiple of `2^16`: it becomes 0, by which the program divides. -/
theorem C99_violated_blocks (hs : SortsBy Prod.fst env.sortf) (h : Input env neg args oA oB m k es k n fs) (hA : NoEmptyCol k es) (hB : NoEmptyRow k fs)
    (hoF : oF.Perm (List.range k)) (hoL : oL.Perm (List.range k)) (hoR : oR.Perm (List.range k)) (hc : FewProducts es fs) (ha : BlockArgs args nb width) (hk2 : 2 ≤ k)
    (hnb : nb % 2 ^ 16 = 0) (hm : 2 ≤ m) (sch : Nat → Section × Section) :
    OnlyHalves (k / 2) es fs (numaMain radixBy env args oA oB oF oL oR rA rB tmax sch) := by
  refine numa_only hs h hA hB hoF hoL hoR hc hk2 fun x _ rL _ _ _ _ _ w hw C => ?_
  rw [ha.nums, hnb] at hw
  simp only [Except.ok.injEq, Option.some.injEq] at hw
  subst hw
  rw [C64_violated_empty (by omega)]
  simp

/-- C99 is violated for all first matrices with rows and less than two columns: the program divides by 0 and prints nothing. -/
theorem C99_violated_columns (hs : SortsBy Prod.fst env.sortf) (h : Input env neg args oA oB m k es m' n' fs) (hA : NoEmptyCol k es) (hB : NoEmptyRow m' fs) (hk2 : k < 2)
    (hm : 0 < m) (sch : Nat → Section × Section) : numaMain radixBy env args oA oB oF oL oR rA rB tmax sch = ⟨[], .error .divzero⟩ := by
  obtain ⟨hg, -⟩ := h.read hs
  unfold numaMain
  rw [if_neg hg, setup_narrow hs h hA hB hk2 hm]
  rfl

/-- C99 is violated for all first matrices with an empty column and all second matrices with an empty row: nothing is printed. -/
theorem C99_violated_empty (hs : SortsBy Prod.fst env.sortf) (h : Input env neg args oA oB m k es m' n' fs) (he : ¬ NoEmptyCol k es ∨ ¬ NoEmptyRow m' fs)
    (sch : Nat → Section × Section) : (numaMain radixBy env args oA oB oF oL oR rA rB tmax sch).events = [] ∧
      (numaMain radixBy env args oA oB oF oL oR rA rB tmax sch).status ≠ .ok (some ()) := by
  obtain ⟨hg, -⟩ := h.read hs
  unfold numaMain
  rw [if_neg hg]
  exact andThen_events_nil (fun x => NumaMain.setup_fails hs h he _) _

/-- C99 is violated if a text file is missing: nothing is printed, and the program does not come to its end. It has no message for this case. -/
theorem C99_violated_missing {a1 a2 a3 : List Char} {rest : List (List Char)} (h1 : a1 ≠ "gen".toList) (h2 : a1 ≠ "binary".toList)
    (h : env.text a2 = none ∨ env.text a3 = none) (sch : Nat → Section × Section) :
    (numaMain radixBy env (a1 :: a2 :: a3 :: rest) oA oB oF oL oR rA rB tmax sch).events = [] ∧
      (numaMain radixBy env (a1 :: a2 :: a3 :: rest) oA oB oF oL oR rA rB tmax sch).status ≠ .ok (some ()) := by
  have hin : ∀ r, NumaMain.setup env (a1 :: a2 :: a3 :: rest) oA oB oL oR rA rB ≠ .ok r := by
    intro r hr
    unfold NumaMain.setup at hr
    obtain ⟨_, hr, -⟩ := MatObj.bind_eq_ok hr
    unfold setInput at hr
    simp only [rd, List.getElem?_cons_zero, List.getElem?_cons_succ, ok_bind] at hr
    rw [if_neg h1, if_neg h2] at hr
    obtain ⟨_, e1, hr⟩ := MatObj.bind_eq_ok hr
    obtain ⟨_, e2, hr⟩ := MatObj.bind_eq_ok hr
    rcases h with h | h
    · rw [h, C65_violated_missing] at e1; cases e1
    · rw [h, C65_violated_missing] at e2; cases e2
  unfold numaMain
  rw [if_neg (by simp)]
  exact andThen_events_nil (fun x => hin _) _

/-- C99 for generated matrices: with a scale of at most 32 and a number of edges that is not 0, the input is the weight matrices of two random graphs, to which
the other theorems apply, or the generator does not end, and nothing is printed. -/
theorem C99_generated (neg : R → R) (ha : AssocComm env.add) (hE : SortsEdges env.sortE) (hr : ∀ i, 0 ≤ env.st.s2 i ∧ env.st.s2 i < 1) {a2 a3 a4 : List Char}
    (rest : List (List Char)) {scale factor : Nat} (h3 : Numeral a3 scale) (h4 : Numeral a4 factor) (hsc : scale ≤ 32) (hf : factor ≠ 0) :
    (∃ GA GB es fs, IsRandomGraph (2 ^ scale) (2 ^ scale * factor) 0 100 GA ∧ IsRandomGraph (2 ^ scale) (2 ^ scale * factor) 0 100 GB ∧
      GraphEntries env.add (GA.map fun e => (e.1, e.2.1, env.ofInt e.2.2)) es ∧ GraphEntries env.add (GB.map fun e => (e.1, e.2.1, env.ofInt e.2.2)) fs ∧
      Input env neg ("gen".toList :: a2 :: a3 :: a4 :: rest) oA oB (2 ^ scale) (2 ^ scale) es (2 ^ scale) (2 ^ scale) fs) ∨
    ∀ sch, numaMain radixBy env ("gen".toList :: a2 :: a3 :: a4 :: rest) oA oB oF oL oR rA rB tmax sch = ⟨[], .error .diverge⟩ := by
  refine (generated_or neg ha hE hr rest oA oB h3 h4 hsc hf).imp_right fun e sch => ?_
  unfold numaMain NumaMain.setup
  rw [if_neg (by simp), e]
  rfl

/-- C99 for too few arguments: nothing is printed but the usage, no file is read, and the program ends. -/
theorem C99_usage (h : args.length < 3) (sch : Nat → Section × Section) : numaMain radixBy env args oA oB oF oL oR rA rB tmax sch = ⟨[], .ok (some ())⟩ := if_pos h

/-! ## Examples -/

/-- Schedules as required exist, for all sizes and numbers of threads. -/
theorem numa_schedules (r k t u nb K : Nat) (ht : 0 < t) (hu : 0 < u) : ∃ sch : Nat → Section × Section, SectionsOk r k nb sch ∧ SectionsFair K sch ∧
    ∀ i, (sch i).1.threads = t ∧ (sch i).2.threads = u := by
  obtain ⟨s, h1, h2⟩ := outer_schedules r k t nb K ht
  obtain ⟨s', h1', h2'⟩ := outer_schedules r k u nb K hu
  refine ⟨fun i => (⟨t, (s i).sch, (s i).mem⟩, ⟨u, (s' i).sch, (s' i).mem⟩), fun i hi => ?_, fun i hi => ⟨h2 i hi, h2' i hi⟩, fun i => ⟨rfl, rfl⟩⟩
  obtain ⟨a1, a2, a3, a4, a5⟩ := h1 i hi
  obtain ⟨b1, b2, b3, b4, b5⟩ := h1' i hi
  exact ⟨⟨a1, a2, a3, a4, a5⟩, ⟨b1, b2, b3, b4, b5⟩⟩

theorem numaRest_ok (a b c : List Char) : BlockArgs (a :: b :: c :: outerRest) 1 4 :=
  ⟨⟨_, rfl, .digit 1 (by decide)⟩, ⟨_, rfl, .digit 4 (by decide)⟩⟩

/-- The square of a matrix with four rows, four columns and seven entries: four entries in the upper half, 16 entries of the product -/
example {rA rB : Nat → Nat} {tmax : Nat} := C99_partial (rA := rA) (rB := rB) (tmax := tmax) (isort_sorts Prod.fst)
  (pair_input (m := 4) (n := 4) (m' := 4) (n' := 4) (ps := arrowAt) (qs := arrowAt) outerRest (by decide) (by decide) (by decide) (by decide))
  (noEmptyCol_of (by decide)) (noEmptyRow_of (by decide)) (oF := [3, 1, 0, 2]) (oL := [0, 1, 2, 3]) (oR := [0, 2, 1, 3]) (by decide) (by decide) (by decide) (few_of (by decide))
  (numaRest_ok _ _ _) (by decide) (by decide) (by decide) (by decide) (by decide) (by decide) (.inl rfl) (by decide) (by decide) (by decide) arrow_square

/-- Five rows and four columns -/
example {rA rB : Nat → Nat} {tmax : Nat} := C99_halves (rA := rA) (rB := rB) (tmax := tmax) (isort_sorts Prod.fst)
  (pair_input (m := 5) (n := 4) (m' := 4) (n' := 1) (ps := (4, 1) :: arrowAt) (qs := columnAt) outerRest (by decide) (by decide) (by decide) (by decide))
  (noEmptyCol_of (by decide)) (noEmptyRow_of (by decide)) (oF := [3, 1, 0, 2]) (oL := [0, 1, 2, 3]) (oR := [0, 2, 1, 3]) (by decide) (by decide) (by decide) (few_of (by decide))
  (numaRest_ok _ _ _) (by decide) (by decide) (by decide) (by decide) (by decide) (by decide) (by decide) (by decide) (by decide)

/-- A square matrix of size 3, and a column -/
def lowAt : List (Nat × Nat) := [(0, 0), (1, 0), (1, 1), (2, 0), (2, 2)]
def threeAt : List (Nat × Nat) := [(0, 0), (1, 0), (2, 0)]

theorem low_product : ProductEntries (R := Nat) (lowAt.map fun p => (p.1, p.2, 1)) (threeAt.map fun p => (p.1, p.2, 1)) [(0, 0, 1), (1, 0, 2), (2, 0, 2)] where
  nodup := by decide
  mem := by
    intro i j v
    constructor
    · intro h
      simp only [List.mem_cons, List.not_mem_nil, or_false, Prod.mk.injEq] at h
      rcases h with ⟨rfl, rfl, rfl⟩ | ⟨rfl, rfl, rfl⟩ | ⟨rfl, rfl, rfl⟩ <;>
      exact ⟨⟨0, ⟨(_, 0, 1), by simp [lowAt], rfl⟩, (0, 0, 1), by simp [threeAt], rfl⟩, by decide⟩
    · rintro ⟨⟨k, ⟨e, he, e'⟩, f, hf, f'⟩, rfl⟩
      obtain ⟨rfl, -⟩ := Prod.mk.inj e'
      obtain ⟨-, rfl⟩ := Prod.mk.inj f'
      simp only [lowAt, threeAt, List.map_cons, List.map_nil, List.mem_cons, List.not_mem_nil, or_false] at he hf
      rcases he with rfl | rfl | rfl | rfl | rfl <;> rcases hf with rfl | rfl | rfl <;> decide

/-- The rows 1 and 2 are stored as one. -/
example {rA rB : Nat → Nat} {tmax : Nat} := C99_violated_folded (rA := rA) (rB := rB) (tmax := tmax) (isort_sorts Prod.fst)
  (pair_input (m := 3) (n := 3) (m' := 3) (n' := 1) (ps := lowAt) (qs := threeAt) outerRest (by decide) (by decide) (by decide) (by decide))
  (noEmptyCol_of (by decide)) (noEmptyRow_of (by decide)) (oF := [1, 0, 2]) (oL := [0, 1, 2]) (oR := [0, 2, 1]) (by decide) (by decide) (by decide) (few_of (by decide))
  (numaRest_ok _ _ _) (by decide) (by decide) (by decide) (by decide) (by decide) (by decide) (by decide) (by decide) (by decide) low_product (i := 1) (i' := 2) (j := 0)
  (by decide) (by decide) (by decide) ⟨0, ⟨(1, 0, 1), by decide, rfl⟩, (0, 0, 1), by decide, rfl⟩ ⟨0, ⟨(2, 0, 1), by decide, rfl⟩, (0, 0, 1), by decide, rfl⟩

/-- Only the files are given. -/
example {rA rB : Nat → Nat} {tmax : Nat} := C99_violated_arguments (rA := rA) (rB := rB) (tmax := tmax) (isort_sorts Prod.fst)
  (pair_input (m := 4) (n := 4) (m' := 4) (n' := 4) (ps := arrowAt) (qs := arrowAt) [] (by decide) (by decide) (by decide) (by decide))
  (noEmptyCol_of (by decide)) (noEmptyRow_of (by decide)) (oF := [3, 1, 0, 2]) (oL := [0, 1, 2, 3]) (oR := [0, 2, 1, 3]) (by decide) (by decide) (by decide) (few_of (by decide))
  (by decide) (by decide)

/-- Two rows and four columns -/
example {rA rB : Nat → Nat} {tmax : Nat} := C99_violated_wide (rA := rA) (rB := rB) (tmax := tmax) (isort_sorts Prod.fst)
  (pair_input (m := 2) (n := 4) (m' := 4) (n' := 1) (ps := [(0, 0), (0, 1), (1, 2), (1, 3)]) (qs := columnAt) outerRest (by decide) (by decide) (by decide) (by decide))
  (noEmptyCol_of (by decide)) (noEmptyRow_of (by decide)) (oF := [3, 1, 0, 2]) (oL := [0, 1, 2, 3]) (oR := [0, 2, 1, 3]) (by decide) (by decide) (by decide) (few_of (by decide))
  (numaRest_ok _ _ _) (by decide) (by decide) (by decide) (by decide) (e := (1, 2, 1)) (by decide) (by decide) (by decide)

example {rA rB : Nat → Nat} {tmax : Nat} := C99_violated_rows (rA := rA) (rB := rB) (tmax := tmax) (isort_sorts Prod.fst)
  (pair_input (m := 262142) (n := 2) (m' := 2) (n' := 1) (ps := (0, 1) :: tallAt 262142) (qs := [(0, 0), (1, 0)]) outerRest
    (fun p hp => by
      rcases List.mem_cons.1 hp with rfl | hp
      · decide
      · have := tallAt_lt (n := 262142) (k := 1) (by decide) p hp
        omega) (by decide) (by decide) (by rw [List.length_cons, tallAt_length]; decide))
  (noEmptyCol_of fun j hj => by
    rw [List.map_cons, List.mem_cons]
    by_cases h : j = 1
    · exact .inl h
    · right
      rw [tallAt, List.map_map]
      exact List.mem_map.2 ⟨0, List.mem_range.2 (by decide), by dsimp; omega⟩)
  (noEmptyRow_of (by decide)) (oF := [1, 0]) (oL := [0, 1]) (oR := [1, 0]) (by decide) (by decide) (by decide)
  (few_of (by rw [List.length_map, List.length_cons, tallAt_length]; decide)) (by decide) (by decide)

/-- No block -/
example {rA rB : Nat → Nat} {tmax : Nat} := C99_violated_blocks (rA := rA) (rB := rB) (tmax := tmax) (isort_sorts Prod.fst)
  (pair_input (m := 4) (n := 4) (m' := 4) (n' := 4) (ps := arrowAt) (qs := arrowAt) ["x".toList, "2".toList, "0".toList, "4".toList] (by decide) (by decide) (by decide) (by decide))
  (noEmptyCol_of (by decide)) (noEmptyRow_of (by decide)) (oF := [3, 1, 0, 2]) (oL := [0, 1, 2, 3]) (oR := [0, 2, 1, 3]) (by decide) (by decide) (by decide) (few_of (by decide))
  ⟨⟨_, rfl, .digit 0 (by decide)⟩, ⟨_, rfl, .digit 4 (by decide)⟩⟩ (by decide) (by decide) (by decide)

example {rA rB : Nat → Nat} {tmax : Nat} := C99_violated_columns (rA := rA) (rB := rB) (tmax := tmax) (oF := [0]) (oL := [0]) (oR := [0]) (isort_sorts Prod.fst)
  (pair_input (m := 4) (n := 1) (m' := 1) (n' := 4) (ps := columnAt) (qs := rowAt) outerRest (by decide) (by decide) (by decide) (by decide))
  (noEmptyCol_of (by decide)) (noEmptyRow_of (by decide)) (by decide) (by decide)

/-- A matrix with four rows and one entry -/
example {rA rB : Nat → Nat} {tmax : Nat} := C99_violated_empty (rA := rA) (rB := rB) (tmax := tmax) (oF := [0, 1, 2, 3]) (oL := []) (oR := []) (isort_sorts Prod.fst)
  (pair_input (m := 4) (n := 4) (m' := 4) (n' := 4) (ps := arrowAt) (qs := [(1, 2)]) outerRest (by decide) (by decide) (by decide) (by decide))
  (.inr fun h => by
    obtain ⟨j, e, he, h⟩ := h 0 (by decide)
    simp only [List.map_cons, List.map_nil, List.mem_singleton] at he
    subst he
    simp at h)

example {rA rB : Nat → Nat} {tmax : Nat} := C99_violated_missing (env := pairEnv [] []) (rA := rA) (rB := rB) (tmax := tmax) (oA := []) (oB := []) (oF := []) (oL := []) (oR := [])
  (a1 := "text".toList) (a2 := "c.mtx".toList) (a3 := "b.mtx".toList) (rest := []) (by decide) (by decide) (.inl (by decide))

example {rA rB : Nat → Nat} {tmax : Nat} := C99_usage (env := pairEnv [] []) (rA := rA) (rB := rB) (tmax := tmax) (oA := []) (oB := []) (oF := []) (oL := []) (oR := [])
  (args := ["gen".toList, "rmat".toList]) (by decide)

example {rA rB : Nat → Nat} {tmax : Nat} := C99_generated (env := pairEnv [] []) (oA := []) (oB := []) (oF := []) (oL := []) (oR := []) (rA := rA) (rB := rB) (tmax := tmax) (fun v => v)
  ⟨fun a b c => Nat.add_assoc a b c, fun a b => Nat.add_comm a b⟩ edgeSort_sorts (fun i => by simp only [pairEnv, ratStreams]; norm_num) (a2 := "rmat".toList)
  ["2".toList, "1".toList, "4".toList] (.digit 2 (by decide)) (.digit 2 (by decide)) (by decide) (by decide)

end Verif.Props
