import Verif.Lemmas.OuterMain
import Verif.Props.C97

/-! # C98: the sample programs for outer products -/

namespace Verif.Props

open Verif.Model Verif.Model.SampleMain Verif.Model.OuterMain Verif.Spec
open _root_.Verif.Model.Bench (Out seqAll Gives)
open _root_.Verif.Model.Sample (Env setInput)
open _root_.Verif.Model.MaskedAll (Good seq_good seq_done seq_stop)

variable {R F : Type} [Semiring R] {env : Env R F} {neg : R → R} {args : List (List Char)} {m k n m' n' : Nat} {es fs : List (Nat × Nat × R)}
  {oA oB oF : List Nat} {rA rB : Nat → Nat} {t nb width : Nat}

/-- Each of the first `n` columns has an entry. -/
def NoEmptyCol (n : Nat) (es : List (Nat × Nat × R)) : Prop := ∀ j < n, ∃ i, Stored es i j

/-- For each column of the first matrix, there are fewer than `2^31` products of its entries and those of the row of the second matrix. -/
def FewProducts (es fs : List (Nat × Nat × R)) : Prop :=
  ∀ k, (es.countP fun e => decide (e.2.1 = k)) * (fs.countP fun f => decide (k = f.1)) < 2 ^ 31

/-- The arguments 5, 6 and 7 are the numbers of threads, of blocks and of products in a buffer. -/
structure OuterArgs (args : List (List Char)) (t nb width : Nat) : Prop where
  threads : ∃ a, args[4]? = some a ∧ Numeral a t
  blocks : ∃ a, args[5]? = some a ∧ Numeral a nb
  width : ∃ a, args[6]? = some a ∧ Numeral a width
  pos : 0 < t

theorem OuterArgs.tnums (h : OuterArgs args t nb width) : tnums [1] args 4 = [t] := by
  obtain ⟨a, ha, hn⟩ := h.threads
  refine tnums_eq ?_
  have : args.drop 4 = a :: args.drop 5 := by
    obtain ⟨hl, e⟩ := List.getElem?_eq_some_iff.1 ha
    rw [List.drop_eq_getElem_cons hl, e]
  rw [this]
  exact .given _ _ _ hn h.pos

theorem OuterArgs.nums (h : OuterArgs args t nb width) (h1 : nb < 2 ^ 16) (h2 : width < 2 ^ 16) : OuterMain.blocks args = .ok (some (nb, width)) := by
  obtain ⟨a, ha, hn⟩ := h.blocks
  obtain ⟨b, hb, hm⟩ := h.width
  rw [blocks_ok ha hb hn hm, Nat.mod_eq_of_lt h1, Nat.mod_eq_of_lt h2]

theorem OuterArgs.given (h : OuterArgs args t nb width) : ¬ args.length < 3 := by
  obtain ⟨a, ha, -⟩ := h.threads
  have := (List.getElem?_eq_some_iff.1 ha).1
  omega

/-- The schedules of the sixteen calls fit `k` columns, `t` threads and `nb` blocks, and the array of `m + 1` row pointers holds anything. -/
def OuterCalls (m k t nb : Nat) (sch : Nat → Call Outer.Sched) : Prop :=
  ∀ i < 16, (sch i).mem.length = m + 1 ∧ (sch i).sch.flop.Perm (List.range k) ∧ ((List.range t).flatMap (sch i).sch.asg).Perm (List.range k) ∧
    (sch i).sch.sort.Perm (List.range nb) ∧ (sch i).sch.copy.Perm (List.range nb)

/-- Each thread gets at least `K` turns in each of these calls. -/
def OuterFair (K t : Nat) (sch : Nat → Call Outer.Sched) : Prop := ∀ i < 16, ∀ t' < t, K ≤ (sch i).sch.main.count t'

/-- The same for the other program, which distributes the columns itself -/
def BalancedCalls (m nb : Nat) (sch : Nat → Call Outer2.Sched) : Prop :=
  ∀ i < 16, (sch i).mem.length = m + 1 ∧ (sch i).sch.sort.Perm (List.range nb) ∧ (sch i).sch.copy.Perm (List.range nb)

def BalancedFair (K t : Nat) (sch : Nat → Call Outer2.Sched) : Prop := ∀ i < 16, ∀ t' < t, K ≤ (sch i).sch.main.count t'

theorem add_assocComm : AssocComm (fun x y : R => x + y) := ⟨fun x y z => add_assoc x y z, fun x y => add_comm x y⟩

/-- C98 for the program `OuterSpGEMM`: with input of matching sizes (files or generated, see `C98_generated`), the first without empty columns and the second without empty
rows, a number of threads, a number of blocks of at most 4096 rows each, and the size of the buffers, the program prints twice the number of products of
entries, and then this number itself and the number of entries of the product. For all random numbers and every schedule; if the threads get enough
turns, the program comes to its end.

What is missing: calls without these arguments (see `C98_violated_arguments`), empty columns and rows (see `C98_violated_empty`),
`2^17 - 1` or more rows (see `C98_violated_rows`), numbers of blocks that do not fit into two bytes (see `C98_violated_blocks`), larger blocks, more than
`2^20` columns (see `C98_violated_wide_columns`). -/
theorem C98_outer_partial (hs : SortsBy Prod.fst env.sortf) (h : Input env neg args oA oB m k es k n fs) (hA : NoEmptyCol k es) (hB : NoEmptyRow k fs)
    (hoF : oF.Perm (List.range k)) (hc : FewProducts es fs) (ha : OuterArgs args t nb width) (h1 : 0 < nb) (h2 : nb < 2 ^ 16) (h3 : 0 < width) (h4 : width < 2 ^ 16)
    (hm : m + 1 < 2 ^ 17) (hr : m ≤ 4096 * nb) (hn : n ≤ 2 ^ 20) :
    ∃ P, ProductEntries es fs P ∧
      let want : List OuterMain.Event := [.flop (2 * pairings es fs), .result (pairings es fs) P.length t]
      (∀ sch, OuterCalls m k t nb (sch 0) → outerMain radixBy env args oA oB oF rA rB sch = ⟨want, .ok (some ())⟩ ∨
        ((outerMain radixBy env args oA oB oF rA rB sch).status = .ok none ∧ (outerMain radixBy env args oA oB oF rA rB sch).events <+: want)) ∧
      ∃ K, ∀ sch, OuterCalls m k t nb (sch 0) → OuterFair K t (sch 0) → outerMain radixBy env args oA oB oF rA rB sch = ⟨want, .ok (some ())⟩ := by
  obtain ⟨A, B, hx, wA, rA', cA, pA, wB, rB', cB, pB⟩ := setup_ok (rA := rA) (rB := rB) true hs h hA hB hoF hc
  have hAB := cA.trans rB'.symm
  subst rA' cA cB
  obtain ⟨C, hC, hg⟩ := C91_outer (mul := fun x y : R => x * y) add_assocComm ⟨wA, wB, hAB⟩ (n := t) h3 h1 h2 hm hr hn
  refine ⟨triples C, outer_entries hAB wA pA pB hC, outcome (adm := fun sch : Nat → Nat → Call Outer.Sched => OuterCalls A.rows A.cols t nb (sch 0))
    (fair := fun K sch => OuterFair K t (sch 0)) ⟨2 + pairings es fs + nb, fun sch hadm => ?_⟩⟩
  unfold outerMain
  rw [if_neg ha.given, andThen_ok hx, ha.tnums]
  refine seq_good (w := [_]) (say_good _) ?_
  refine (seqAll_one _).symm ▸ ?_
  dsimp only
  rw [andThen_ok (ha.nums h2 h4)]
  refine andThen_good (calls_give (x := C) (f := fun c : Call Outer.Sched => Outer.outerSpGEMM (fun x y => x * y) (fun x y => x + y) radixBy A B t nb width c.mem c.sch)
    (sch := sch 0) fun i hi => ?_) ?_
  · obtain ⟨a1, a2, a3, a4, a5⟩ := hadm i hi
    rcases hg _ a1 _ ⟨a2, a3, a4, a5⟩ with ⟨e, t', ht', hle⟩ | e
    · refine .inr ⟨fun hf => ?_, e⟩
      have := hf i hi t' ht'
      have := part_le hAB pA pB a3 ht'
      omega
    · exact .inl e
  · rw [Nat.mul_div_cancel_left _ (by decide), ← Bench.triples_length hC.wf]
    exact say_good _

/-- C98 for the program `OuterSpGEMM2`: if the first matrix is square, not empty and without empty columns, and the second without empty rows, both with at most
`2^16` columns, then the program prints twice the number of products of entries, the numbers of entries of the matrices and the number of rows, and the numbers
of products and of entries of the product. For all random numbers and every schedule; if the threads get enough turns, the program comes to its end.

What is missing: as for `C98_outer_partial`, and other sizes (see `C98_violated_shape`). -/
theorem C98_outer2_partial (hs : SortsBy Prod.fst env.sortf) (h : Input env neg args oA oB m m es m n fs) (hA : NoEmptyCol m es) (hB : NoEmptyRow m fs)
    (hoF : oF.Perm (List.range m)) (hc : FewProducts es fs) (ha : OuterArgs args t nb width) (h1 : 0 < nb) (h2 : nb < 2 ^ 16) (h3 : 0 < width) (h4 : width < 2 ^ 16)
    (h0 : 0 < m) (hm : m ≤ 2 ^ 16) (hn : n ≤ 2 ^ 16) :
    ∃ P, ProductEntries es fs P ∧
      let want : List OuterMain.Event := [.flop (2 * pairings es fs), .left es.length fs.length m, .result (pairings es fs) P.length t]
      (∀ sch, BalancedCalls m nb (sch 0) → outer2Main radixBy env args oA oB oF rA rB sch = ⟨want, .ok (some ())⟩ ∨
        ((outer2Main radixBy env args oA oB oF rA rB sch).status = .ok none ∧ (outer2Main radixBy env args oA oB oF rA rB sch).events <+: want)) ∧
      ∃ K, ∀ sch, BalancedCalls m nb (sch 0) → BalancedFair K t (sch 0) → outer2Main radixBy env args oA oB oF rA rB sch = ⟨want, .ok (some ())⟩ := by
  obtain ⟨A, B, hx, wA, rA', cA, pA, wB, rB', cB, pB⟩ := setup_ok (rA := rA) (rB := rB) false hs h hA hB hoF hc
  have hAB := cA.trans rB'.symm
  have hsq := rA'.trans cA.symm
  subst rA' cB
  obtain ⟨C, cs, hC, hcs, hg⟩ := C91_outer2 (mul := fun x y : R => x * y) add_assocComm ⟨wA, wB, hAB⟩ hsq h0 (n := t) ha.pos h3 h1 h2 hm hn
  refine ⟨triples C, outer_entries hAB wA pA pB hC, outcome (adm := fun sch : Nat → Nat → Call Outer2.Sched => BalancedCalls A.rows nb (sch 0))
    (fair := fun K sch => BalancedFair K t (sch 0)) ⟨2 + pairings es fs + nb, fun sch hadm => ?_⟩⟩
  unfold outer2Main
  rw [if_neg ha.given, andThen_ok hx, ha.tnums]
  refine seq_good (w := [_]) (say_good _) ?_
  refine (seqAll_one _).symm ▸ ?_
  dsimp only
  rw [andThen_ok (ha.nums h2 h4)]
  refine andThen_good (calls_give (x := C) (f := fun c : Call Outer2.Sched => Outer2.outerSpGEMM (fun x y => x * y) (fun x y => x + y) radixBy A B t nb width c.mem c.sch)
    (sch := sch 0) fun i hi => ?_) ?_
  · obtain ⟨a1, a2, a3⟩ := hadm i hi
    rcases hg _ a1 _ ⟨a2, a3⟩ with ⟨e, t', ht', hle⟩ | e
    · refine .inr ⟨fun hf => ?_, e⟩
      have := hf i hi t' ht'
      have := part_le hAB pA pB (.of_eq hcs) ht'
      omega
    · exact .inl e
  · rw [Nat.mul_div_cancel_left _ (by decide), ← Bench.triples_length hC.wf, ← Bench.triples_length wB, ← HeatMap.triplesC_length wA, pA.length_eq, pB.length_eq]
    exact seq_good (w := [_]) (say_good _) (say_good _)

/-! ## Violations -/

/-- Runs that print the number of operations and do not come to their end -/
def OnlyFlop (es fs : List (Nat × Nat × R)) (o : Out OuterMain.Event) : Prop := o.events = [.flop (2 * pairings es fs)] ∧ o.status ≠ .ok (some ())

/-- C98 is violated if fewer than seven arguments are given, although three are accepted: after the number of operations, both programs read arguments that do not
exist. -/
theorem C98_violated_arguments (hs : SortsBy Prod.fst env.sortf) (h : Input env neg args oA oB m k es k n fs) (hA : NoEmptyCol k es) (hB : NoEmptyRow k fs)
    (hoF : oF.Perm (List.range k)) (hc : FewProducts es fs) (hl : args.length < 7) :
    (∀ sch, outerMain radixBy env args oA oB oF rA rB sch = ⟨[.flop (2 * pairings es fs)], .error .oob⟩) ∧
    (∀ sch, outer2Main radixBy env args oA oB oF rA rB sch = ⟨[.flop (2 * pairings es fs)], .error .oob⟩) := by
  obtain ⟨hg, -⟩ := h.read hs
  obtain ⟨u, hu⟩ : ∃ u, tnums [1] args 4 = [u] := by
    unfold SampleMain.tnums
    cases args[4]? with
    | none => exact ⟨_, rfl⟩
    | some a => exact ⟨_, rfl⟩
  have hb : OuterMain.blocks args = .error .oob := by
    unfold OuterMain.blocks rd
    rw [List.getElem?_eq_none (l := args) (i := 6) (by omega)]
    cases args[5]? <;> rfl
  constructor
  · intro sch
    obtain ⟨A, B, hx, -⟩ := setup_ok (rA := rA) (rB := rB) true hs h hA hB hoF hc
    unfold outerMain
    rw [if_neg hg, andThen_ok hx, hu, hb]
    rfl
  · intro sch
    obtain ⟨A, B, hx, -⟩ := setup_ok (rA := rA) (rB := rB) false hs h hA hB hoF hc
    unfold outer2Main
    rw [if_neg hg, andThen_ok hx, hu, hb]
    rfl

/-- C98 is violated for all first matrices with an empty column and all second matrices with an empty row: nothing is printed. -/
theorem C98_violated_empty (hs : SortsBy Prod.fst env.sortf) (h : Input env neg args oA oB m k es m' n' fs) (he : ¬ NoEmptyCol k es ∨ ¬ NoEmptyRow m' fs) :
    (∀ sch, (outerMain radixBy env args oA oB oF rA rB sch).events = [] ∧ (outerMain radixBy env args oA oB oF rA rB sch).status ≠ .ok (some ())) ∧
    (∀ sch, (outer2Main radixBy env args oA oB oF rA rB sch).events = [] ∧ (outer2Main radixBy env args oA oB oF rA rB sch).status ≠ .ok (some ())) := by
  obtain ⟨hg, -⟩ := h.read hs
  constructor
  · intro sch
    unfold outerMain
    rw [if_neg hg]
    exact andThen_events_nil (fun x => setup_fails true hs h he _) _
  · intro sch
    unfold outer2Main
    rw [if_neg hg]
    exact andThen_events_nil (fun x => setup_fails false hs h he _) _

/-- If the first call does not return, only the number of operations is printed. -/
theorem outer_only (hs : SortsBy Prod.fst env.sortf) (h : Input env neg args oA oB m k es k n fs) (hA : NoEmptyCol k es) (hB : NoEmptyRow k fs)
    (hoF : oF.Perm (List.range k)) (hc : FewProducts es fs) (ha : OuterArgs args t nb width) :
    ((∀ (A : CSC R) (B : CSR R) mem sch C, ValidOuter A B → A.rows = m → A.cols = k →
      Outer.outerSpGEMM (fun x y => x * y) (fun x y => x + y) radixBy A B t (nb % 2 ^ 16) (width % 2 ^ 16) mem sch ≠ .ok (some C)) →
        ∀ sch, OnlyFlop es fs (outerMain radixBy env args oA oB oF rA rB sch)) ∧
    ((∀ (A : CSC R) (B : CSR R) mem sch C, ValidOuter A B → A.rows = m → A.cols = k →
      Outer2.outerSpGEMM (fun x y => x * y) (fun x y => x + y) radixBy A B t (nb % 2 ^ 16) (width % 2 ^ 16) mem sch ≠ .ok (some C)) →
        ∀ sch, OnlyFlop es fs (outer2Main radixBy env args oA oB oF rA rB sch)) := by
  obtain ⟨a, h5, hn⟩ := ha.blocks
  obtain ⟨b, h6, hm⟩ := ha.width
  have hb := blocks_ok h5 h6 hn hm
  constructor
  · intro hf sch
    obtain ⟨A, B, hx, wA, rA', cA, pA, wB, rB', cB, pB⟩ := setup_ok (rA := rA) (rB := rB) true hs h hA hB hoF hc
    unfold outerMain
    rw [if_neg ha.given, andThen_ok hx, ha.tnums]
    refine after_say ((seqAll_one _).symm ▸ ?_)
    dsimp only
    rw [andThen_ok hb]
    exact andThen_events_nil (calls_fail (sch := sch 0) fun C => hf A B _ _ C ⟨wA, wB, cA.trans rB'.symm⟩ rA' cA) _
  · intro hf sch
    obtain ⟨A, B, hx, wA, rA', cA, pA, wB, rB', cB, pB⟩ := setup_ok (rA := rA) (rB := rB) false hs h hA hB hoF hc
    unfold outer2Main
    rw [if_neg ha.given, andThen_ok hx, ha.tnums]
    refine after_say ((seqAll_one _).symm ▸ ?_)
    dsimp only
    rw [andThen_ok hb]
    exact andThen_events_nil (calls_fail (sch := sch 0) fun C => hf A B _ _ C ⟨wA, wB, cA.trans rB'.symm⟩ rA' cA) _

/-- C98 is violated for many rows: with `2^17 - 1` or more rows in the first matrix both programs print the number of operations and no other line, and do not
come to their end. -/
theorem C98_violated_rows (hs : SortsBy Prod.fst env.sortf) (h : Input env neg args oA oB m k es k n fs) (hA : NoEmptyCol k es) (hB : NoEmptyRow k fs)
    (hoF : oF.Perm (List.range k)) (hc : FewProducts es fs) (ha : OuterArgs args t nb width) (hbig : 2 ^ 17 ≤ m + 1) :
    (∀ sch, OnlyFlop es fs (outerMain radixBy env args oA oB oF rA rB sch)) ∧ ∀ sch, OnlyFlop es fs (outer2Main radixBy env args oA oB oF rA rB sch) := by
  obtain ⟨g1, g2⟩ := outer_only (rA := rA) (rB := rB) hs h hA hB hoF hc ha
  exact ⟨g1 fun A B mem sch C _ hr _ => C64_violated_rows ha.pos (hr ▸ hbig) mem sch C, g2 fun A B mem sch C _ hr _ => C85_violated_rows ha.pos (hr ▸ hbig) mem sch C⟩

/-- C98 is violated if the number of blocks is a multiple of `2^16`, for which there is no message: the number has two bytes and becomes 0, by which the programs
divide. -/
theorem C98_violated_blocks (hs : SortsBy Prod.fst env.sortf) (h : Input env neg args oA oB m k es k n fs) (hA : NoEmptyCol k es) (hB : NoEmptyRow k fs)
    (hoF : oF.Perm (List.range k)) (hc : FewProducts es fs) (ha : OuterArgs args t nb width) (hnb : nb % 2 ^ 16 = 0) :
    (0 < m → ∀ sch, OnlyFlop es fs (outerMain radixBy env args oA oB oF rA rB sch)) ∧
      (k ≤ m → ∀ sch, OnlyFlop es fs (outer2Main radixBy env args oA oB oF rA rB sch)) := by
  obtain ⟨g1, g2⟩ := outer_only (rA := rA) (rB := rB) hs h hA hB hoF hc ha
  refine ⟨fun hm => g1 fun A B mem sch C _ hr _ => ?_, fun hkm => g2 fun A B mem sch C hv hr hk => ?_⟩
  · rw [hnb, C64_violated_empty (hr ▸ hm)]
    simp
  · rw [(C85_violated_empty radixBy hv t _ _ mem sch).2 (by omega) (.inl hnb)]
    simp

/-- C98 is violated for all first matrices that are not square or have no row, if there is at least one block: `OuterSpGEMM2` prints the number of operations and no
other line, and does not come to its end. -/
theorem C98_violated_shape (hs : SortsBy Prod.fst env.sortf) (h : Input env neg args oA oB m k es k n fs) (hA : NoEmptyCol k es) (hB : NoEmptyRow k fs)
    (hoF : oF.Perm (List.range k)) (hc : FewProducts es fs) (ha : OuterArgs args t nb width) (hnb : 0 < nb % 2 ^ 16) (hsq : m ≠ k ∨ m = 0)
    (sch : Nat → Nat → Call Outer2.Sched) : OnlyFlop es fs (outer2Main radixBy env args oA oB oF rA rB sch) := by
  refine (outer_only (rA := rA) (rB := rB) hs h hA hB hoF hc ha).2 (fun A B mem sch C hv hr hk => ?_) sch
  obtain ⟨s1, s2⟩ := C85_violated_shape (mul := fun x y : R => x * y) (add := fun x y => x + y) hv radixBy ha.pos hnb (width % 2 ^ 16) mem sch
  rcases Nat.lt_trichotomy m k with hlt | heq | hlt
  · rw [s1 (by omega)]
    simp
  · rw [(C85_violated_empty radixBy hv t _ _ mem sch).1 (by omega) ha.pos hnb]
    simp
  · exact s2 (by omega) C

/-- C98 is violated if a text file is missing: nothing is printed, and the programs do not come to their end. They have no message for this case. -/
theorem C98_violated_missing {a1 a2 a3 : List Char} {rest : List (List Char)} (h1 : a1 ≠ "gen".toList) (h2 : a1 ≠ "binary".toList)
    (h : env.text a2 = none ∨ env.text a3 = none) :
    (∀ sch, (outerMain radixBy env (a1 :: a2 :: a3 :: rest) oA oB oF rA rB sch).events = [] ∧
      (outerMain radixBy env (a1 :: a2 :: a3 :: rest) oA oB oF rA rB sch).status ≠ .ok (some ())) ∧
    (∀ sch, (outer2Main radixBy env (a1 :: a2 :: a3 :: rest) oA oB oF rA rB sch).events = [] ∧
      (outer2Main radixBy env (a1 :: a2 :: a3 :: rest) oA oB oF rA rB sch).status ≠ .ok (some ())) := by
  have hin : ∀ both r, OuterMain.setup both env (a1 :: a2 :: a3 :: rest) oA oB oF rA rB ≠ .ok r := by
    intro both r hr
    unfold OuterMain.setup at hr
    obtain ⟨_, hr, -⟩ := MatObj.bind_eq_ok hr
    unfold setInput at hr
    simp only [rd, List.getElem?_cons_zero, List.getElem?_cons_succ, ok_bind] at hr
    rw [if_neg h1, if_neg h2] at hr
    obtain ⟨_, e1, hr⟩ := MatObj.bind_eq_ok hr
    obtain ⟨_, e2, hr⟩ := MatObj.bind_eq_ok hr
    rcases h with h | h
    · rw [h, C65_violated_missing] at e1; cases e1
    · rw [h, C65_violated_missing] at e2; cases e2
  refine ⟨fun sch => ?_, fun sch => ?_⟩
  · unfold outerMain
    rw [if_neg (by simp)]
    exact andThen_events_nil (fun x => hin _ _) _
  · unfold outer2Main
    rw [if_neg (by simp)]
    exact andThen_events_nil (fun x => hin _ _) _

/-- C98 for generated matrices: with a scale of at most 32 and a number of edges that is not 0, the input is the weight matrices of two random graphs, to which
the other theorems apply, or the generator does not end, and nothing is printed. -/
theorem C98_generated (neg : R → R) (ha : AssocComm env.add) (hE : SortsEdges env.sortE) (hr : ∀ i, 0 ≤ env.st.s2 i ∧ env.st.s2 i < 1) {a2 a3 a4 : List Char}
    (rest : List (List Char)) {scale factor : Nat} (h3 : Numeral a3 scale) (h4 : Numeral a4 factor) (hsc : scale ≤ 32) (hf : factor ≠ 0) :
    (∃ GA GB es fs, IsRandomGraph (2 ^ scale) (2 ^ scale * factor) 0 100 GA ∧ IsRandomGraph (2 ^ scale) (2 ^ scale * factor) 0 100 GB ∧
      GraphEntries env.add (GA.map fun e => (e.1, e.2.1, env.ofInt e.2.2)) es ∧ GraphEntries env.add (GB.map fun e => (e.1, e.2.1, env.ofInt e.2.2)) fs ∧
      Input env neg ("gen".toList :: a2 :: a3 :: a4 :: rest) oA oB (2 ^ scale) (2 ^ scale) es (2 ^ scale) (2 ^ scale) fs) ∨
    ((∀ sch, outerMain radixBy env ("gen".toList :: a2 :: a3 :: a4 :: rest) oA oB oF rA rB sch = ⟨[], .error .diverge⟩) ∧
      (∀ sch, outer2Main radixBy env ("gen".toList :: a2 :: a3 :: a4 :: rest) oA oB oF rA rB sch = ⟨[], .error .diverge⟩)) := by
  refine (generated_or neg ha hE hr rest oA oB h3 h4 hsc hf).imp_right fun e => ⟨fun sch => ?_, fun sch => ?_⟩
  · unfold outerMain OuterMain.setup
    rw [if_neg (by simp), e]
    rfl
  · unfold outer2Main OuterMain.setup
    rw [if_neg (by simp), e]
    rfl

/-- C98 for too few arguments: nothing is printed but the usage, no file is read, and the programs end. -/
theorem C98_usage (h : args.length < 3) : (∀ sch, outerMain radixBy env args oA oB oF rA rB sch = ⟨[], .ok (some ())⟩) ∧
    ∀ sch, outer2Main radixBy env args oA oB oF rA rB sch = ⟨[], .ok (some ())⟩ :=
  ⟨fun _ => if_pos h, fun _ => if_pos h⟩

/-! ## Examples -/

/-- Schedules as required exist, for all sizes. -/
theorem outer_schedules (m k t nb K : Nat) (ht : 0 < t) : ∃ sch : Nat → Call Outer.Sched, OuterCalls m k t nb sch ∧ OuterFair K t sch := by
  refine ⟨fun _ => ⟨⟨List.range k, fun t' => if t' = 0 then List.range k else [], (List.range t).flatMap fun t' => List.replicate K t', List.range nb, [], [], List.range nb, [], []⟩,
    List.replicate (m + 1) 7⟩, fun i _ => ⟨by simp, .refl _, ?_, .refl _, .refl _⟩, fun i _ t' ht' => ?_⟩
  · obtain ⟨t, rfl⟩ : ∃ u, t = u + 1 := ⟨t - 1, by omega⟩
    have key : (List.range (t + 1)).flatMap (fun t' => if t' = 0 then List.range k else []) = List.range k := by
      rw [List.range_succ_eq_map, List.flatMap_cons, List.flatMap_map, if_pos rfl]
      simp
    exact .of_eq key
  · dsimp only
    rw [List.count_flatMap]
    refine le_trans ?_ (List.single_le_sum (fun _ _ => Nat.zero_le _) _ (List.mem_map.2 ⟨t', List.mem_range.2 ht', rfl⟩))
    simp

theorem balanced_schedules (m t nb K : Nat) : ∃ sch : Nat → Call Outer2.Sched, BalancedCalls m nb sch ∧ BalancedFair K t sch := by
  refine ⟨fun _ => ⟨⟨(List.range t).flatMap fun t' => List.replicate K t', List.range nb, [], [], List.range nb, [], []⟩, List.replicate (m + 1) 7⟩,
    fun i _ => ⟨by simp, .refl _, .refl _⟩, fun i _ t' ht' => ?_⟩
  dsimp only
  rw [List.count_flatMap]
  refine le_trans ?_ (List.single_le_sum (fun _ _ => Nat.zero_le _) _ (List.mem_map.2 ⟨t', List.mem_range.2 ht', rfl⟩))
  simp

theorem noEmptyCol_of {n : Nat} {ps : List (Nat × Nat)} (h : ∀ j < n, j ∈ ps.map Prod.snd) : NoEmptyCol n (ps.map fun p => (p.1, p.2, (1 : Nat))) := by
  intro j hj
  obtain ⟨p, hp, rfl⟩ := List.mem_map.1 (h j hj)
  exact ⟨p.1, _, List.mem_map.2 ⟨p, hp, rfl⟩, rfl⟩

theorem few_of {es fs : List (Nat × Nat × R)} (h : es.length * fs.length < 2 ^ 31) : FewProducts es fs := fun _ =>
  lt_of_le_of_lt (Nat.mul_le_mul List.countP_le_length List.countP_le_length) h

/-- Two threads, one block, buffers for four products -/
def outerRest : List (List Char) := ["x".toList, "2".toList, "1".toList, "4".toList]

theorem outerRest_ok (a b c : List Char) : OuterArgs (a :: b :: c :: outerRest) 2 1 4 :=
  ⟨⟨_, rfl, .digit 2 (by decide)⟩, ⟨_, rfl, .digit 1 (by decide)⟩, ⟨_, rfl, .digit 4 (by decide)⟩, by decide⟩

example {rA rB : Nat → Nat} := C98_outer_partial (rA := rA) (rB := rB) (isort_sorts Prod.fst)
  (pair_input (m := 4) (n := 1) (m' := 1) (n' := 4) (ps := columnAt) (qs := rowAt) outerRest (by decide) (by decide) (by decide) (by decide))
  (noEmptyCol_of (by decide)) (noEmptyRow_of (by decide)) (oF := [0]) (by decide) (few_of (by decide)) (outerRest_ok _ _ _) (by decide) (by decide) (by decide) (by decide)
  (by decide) (by decide) (by decide)

/-- The lines of this run: 32 operations, 16 products, 16 entries -/
example : ∃ P, ProductEntries (R := Nat) (columnAt.map fun p => (p.1, p.2, 1)) (rowAt.map fun p => (p.1, p.2, 1)) P ∧ P.length = 16 ∧
    pairings (R := Nat) (columnAt.map fun p => (p.1, p.2, 1)) (rowAt.map fun p => (p.1, p.2, 1)) = 16 := ⟨_, outer_product, by decide, by decide⟩

example {rA rB : Nat → Nat} := C98_outer2_partial (rA := rA) (rB := rB) (isort_sorts Prod.fst)
  (pair_input (m := 4) (n := 4) (m' := 4) (n' := 1) (ps := arrowAt) (qs := columnAt) outerRest (by decide) (by decide) (by decide) (by decide))
  (noEmptyCol_of (by decide)) (noEmptyRow_of (by decide)) (oF := [3, 1, 0, 2]) (by decide) (few_of (by decide)) (outerRest_ok _ _ _) (by decide) (by decide) (by decide)
  (by decide) (by decide) (by decide) (by decide)

/-- Only the files are given. -/
example {rA rB : Nat → Nat} := C98_violated_arguments (rA := rA) (rB := rB) (isort_sorts Prod.fst) outer_pair
  (noEmptyCol_of (by decide)) (noEmptyRow_of (by decide)) (oF := [0]) (by decide) (few_of (by decide)) (by decide)

/-- A matrix with four rows and one entry -/
example {rA rB : Nat → Nat} := C98_violated_empty (rA := rA) (rB := rB) (oF := [0, 1, 2, 3]) (isort_sorts Prod.fst)
  (pair_input (m := 4) (n := 4) (m' := 4) (n' := 4) (ps := arrowAt) (qs := [(1, 2)]) outerRest (by decide) (by decide) (by decide) (by decide))
  (.inr fun h => by
    obtain ⟨j, e, he, h⟩ := h 0 (by decide)
    simp only [List.map_cons, List.map_nil, List.mem_singleton] at he
    subst he
    simp at h)

example {rA rB : Nat → Nat} := C98_violated_rows (rA := rA) (rB := rB) (isort_sorts Prod.fst)
  (pair_input (m := 131071) (n := 1) (m' := 1) (n' := 1) (ps := tallAt 131071) (qs := [(0, 0)]) outerRest (tallAt_lt (by decide)) (by decide) (by decide)
    (by rw [tallAt_length]; decide)) (noEmptyCol_of fun j hj => by rw [tallAt, List.map_map]; exact List.mem_map.2 ⟨0, List.mem_range.2 (by decide), by dsimp; omega⟩)
  (noEmptyRow_of (by decide)) (oF := [0]) (by decide) (few_of (by rw [List.length_map, tallAt_length]; decide)) (outerRest_ok _ _ _) (by decide)

/-- No block -/
example {rA rB : Nat → Nat} := C98_violated_blocks (rA := rA) (rB := rB) (isort_sorts Prod.fst)
  (pair_input (m := 4) (n := 1) (m' := 1) (n' := 4) (ps := columnAt) (qs := rowAt) ["x".toList, "2".toList, "0".toList, "4".toList] (by decide) (by decide) (by decide) (by decide))
  (noEmptyCol_of (by decide)) (noEmptyRow_of (by decide)) (oF := [0]) (by decide) (few_of (by decide))
  ⟨⟨_, rfl, .digit 2 (by decide)⟩, ⟨_, rfl, .digit 0 (by decide)⟩, ⟨_, rfl, .digit 4 (by decide)⟩, by decide⟩ (by decide)

example {rA rB : Nat → Nat} := C98_violated_shape (rA := rA) (rB := rB) (isort_sorts Prod.fst)
  (pair_input (m := 4) (n := 1) (m' := 1) (n' := 4) (ps := columnAt) (qs := rowAt) outerRest (by decide) (by decide) (by decide) (by decide))
  (noEmptyCol_of (by decide)) (noEmptyRow_of (by decide)) (oF := [0]) (by decide) (few_of (by decide)) (outerRest_ok _ _ _) (by decide) (.inl (by decide))

example {rA rB : Nat → Nat} := C98_violated_missing (env := pairEnv [] []) (rA := rA) (rB := rB) (oA := []) (oB := []) (oF := []) (a1 := "text".toList) (a2 := "c.mtx".toList)
  (a3 := "b.mtx".toList) (rest := []) (by decide) (by decide) (.inl (by decide))

example {rA rB : Nat → Nat} := C98_usage (env := pairEnv [] []) (rA := rA) (rB := rB) (oA := []) (oB := []) (oF := []) (args := ["gen".toList, "rmat".toList]) (by decide)

example {rA rB : Nat → Nat} := C98_generated (env := pairEnv [] []) (oA := []) (oB := []) (oF := []) (rA := rA) (rB := rB) (fun v => v) ⟨fun a b c => Nat.add_assoc a b c, fun a b => Nat.add_comm a b⟩
  edgeSort_sorts (fun i => by simp only [pairEnv, ratStreams]; norm_num) (a2 := "rmat".toList) ["2".toList, "1".toList, "4".toList] (.digit 2 (by decide)) (.digit 2 (by decide)) (by decide)
  (by decide)

end Verif.Props
