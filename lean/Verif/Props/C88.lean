import Verif.Lemmas.BlockedTc
import Verif.Lemmas.BlockedCount
import Verif.Props.C82

/-! # C88: counting triangles in a matrix that is split into blocks -/

namespace Verif.Props

open Verif.Model Verif.Model.BlockedTc Verif.Spec
open _root_.Verif.Model.Bench (Gives)

variable {neg : ℚ → ℚ} {g : Nat} {w : Nat → Nat} {es : Nat → Nat → List (Nat × Nat × ℚ)} {files : Nat → Nat → Option (List Char)}
  {orders : Nat → Nat → List Nat} {sortf : List (Nat × ℚ) → List (Nat × ℚ)} {nd : Nat}

/-- The program prints the totals `T`, in every order of the iterations and with every schedule, unless a thread got too few turns. -/
structure PrintsTotals (run : List Nat → (Nat → Sch) → Res (Option Counts)) (g : Nat) (w : Nat → Nat) (T : Counts) : Prop where
  safe : ∀ order, order.Perm (List.range (g * g * g)) → ∀ sch : Nat → Sch, (∀ q < g * g * g, BlockedTc.Adm (w (q / (g * g))) (sch q)) →
    run order sch = .ok none ∨ run order sch = .ok (some T)
  live : ∀ order, order.Perm (List.range (g * g * g)) → ∀ sch : Nat → Sch, (∀ q < g * g * g, BlockedTc.Adm (w (q / (g * g))) (sch q)) →
    (∀ q < g * g * g, FairSch (sch q)) → run order sch = .ok (some T)

/-- C88 for blocks with at least one row, fewer than `2^17 - 1` rows, and columns that exist in the blocks of every other column of the grid (as
with blocks of the same size): the number of operations is that of the whole matrix times itself, and the number of
triangles is the sum of the entries of the product of the whole matrix with itself at its own positions `L`. The two numbers of entries of the masked
product are the same, and count a position once for each block through which it gets a product; so does the number of entries of the product. -/
theorem C88_partial (hsort : SortsBy Prod.fst sortf) (hnd : 0 < nd) (h : BlockFiles neg g w es files orders) (hfit : Fits g w es) :
    let E := assembled g w es
    ∃ T L, MaskedEntries E E E L ∧ T.flps = 2 * pairings E E ∧ (T.triangles : ℚ) = (L.map fun e => e.2.2).sum ∧ T.inner = T.masked ∧
      T.masked = {t : Nat × Nat × Nat | Stored E t.1 t.2.1 ∧ Through w E t.1 t.2.1 t.2.2}.ncard ∧
      T.nnzs = {t : Nat × Nat × Nat | Through w E t.1 t.2.1 t.2.2}.ncard ∧
      PrintsTotals (fun order sch => main sortf nd g g orders files order sch) g w T := by
  intro E
  obtain ⟨c, P, L, hc, hmain⟩ := main_gives hsort hnd h hfit
  have hb := h.bounded
  have hndE := Blocked.nodup_assembled hb h.nodup
  obtain ⟨LE, hLE⟩ : ∃ LE, MaskedEntries E E E LE := entries_of_list hndE
  refine ⟨totals (tab (g * g * g) c), LE, hLE, ?_, ?_, ?_, ?_, ?_, fun order ho sch hs => ?_, fun order ho sch hs hf => ?_⟩
  · rw [totals_tab]
    show ∑ q ∈ Finset.range (g * g * g), (c q).flps = _
    rw [Finset.sum_congr rfl fun q hq => (hc q (Finset.mem_range.1 hq)).flps, ← Finset.mul_sum,
      sum_digits g fun i j k => pairings (es i k) (es k j), Blocked.pairings_assembled hb]
    congr 1
    exact Finset.sum_congr rfl fun i _ => Finset.sum_comm
  · rw [totals_tab]
    show ((∑ q ∈ Finset.range (g * g * g), (c q).triangles : ℤ) : ℚ) = _
    rw [Blocked.sum_entries hLE hndE, Blocked.maskedSum_assembled hb, ← sum_digits g fun i j k => Blocked.maskedSum (es i k) (es k j) (es i j)]
    push_cast
    refine Finset.sum_congr rfl fun q hq => ?_
    have hq := Finset.mem_range.1 hq
    obtain ⟨hi, hj, hk⟩ := digits hq
    rw [(hc q hq).triangles, Blocked.sum_entries (hc q hq).entries (h.nodup _ hi _ hj)]
  · rw [totals_tab]
    exact Finset.sum_congr rfl fun q hq => (hc q (Finset.mem_range.1 hq)).inner.trans (hc q (Finset.mem_range.1 hq)).masked.symm
  · rw [totals_tab]
    show ∑ q ∈ Finset.range (g * g * g), (c q).masked = _
    rw [count_positions hb (P := fun q => (L q).map fun e => (e.1, e.2.1)) (p := fun u v => Stored E u v) (fun q hq => (hc q hq).entries.nodup)]
    · exact Finset.sum_congr rfl fun q hq => by rw [(hc q (Finset.mem_range.1 hq)).masked, List.length_map]
    · rintro q hq ⟨r, s⟩
      obtain ⟨hi, hj, hk⟩ := digits hq
      rw [List.mem_map]
      constructor
      · rintro ⟨⟨r', s', v⟩, hx, e⟩
        cases e
        have := ((hc q hq).entries.mem _ _ _).1 hx
        refine ⟨?_, this.2.1⟩
        obtain ⟨e, he, e2⟩ := this.1
        have hbe := hb _ hi _ hj e he
        cases e2
        exact (Blocked.stored_assembled hb hi hj hbe.1 hbe.2).2 this.1
      · rintro ⟨h1, h2⟩
        refine ⟨(r, s, _), ((hc q hq).entries.mem r s _).2 ⟨?_, h2, rfl⟩, rfl⟩
        obtain ⟨y, ⟨a, ha, ea⟩, ⟨b, hb', eb⟩⟩ := h2
        have h3 := hb _ hi _ hk a ha
        have h4 := hb _ hk _ hj b hb'
        simp only [Prod.mk.injEq] at ea eb
        exact (Blocked.stored_assembled hb hi hj (ea.1 ▸ h3.1) (eb.2 ▸ h4.2)).1 h1
  · rw [totals_tab]
    show ∑ q ∈ Finset.range (g * g * g), (c q).nnzs = _
    have := count_positions hb (P := P) (p := fun _ _ => True) (fun q hq => (hc q hq).nodup) (fun q hq x => by rw [(hc q hq).mem]; simp)
    simp only [true_and] at this
    rw [this]
    exact Finset.sum_congr rfl fun q hq => (hc q (Finset.mem_range.1 hq)).nnzs
  · rcases hmain order ho sch hs with e | ⟨-, e⟩
    · exact .inr e
    · exact .inl e
  · rcases hmain order ho sch hs with e | ⟨hn, -⟩
    · exact e
    · exact absurd hf hn

/-- C88 for a strictly lower triangular matrix of ones: the program prints the number of triangles of the graph of the whole matrix. -/
theorem C88_triangles_partial (hsort : SortsBy Prod.fst sortf) (hnd : 0 < nd) (h : BlockFiles neg g w es files orders) (hfit : Fits g w es)
    (h1 : ∀ e ∈ assembled g w es, e.2.2 = 1) (hlow : ∀ e ∈ assembled g w es, e.2.1 < e.1) :
    ∃ T : Counts, T.triangles = (triangles (graphOf (blockStart w g) (assembled g w es)) : ℤ) ∧
      PrintsTotals (fun order sch => main sortf nd g g orders files order sch) g w T := by
  obtain ⟨T, L, hL, -, hT, -, -, -, hP⟩ := C88_partial hsort hnd h hfit
  have hb := h.bounded
  refine ⟨T, ?_, hP⟩
  have hn : ∀ e ∈ assembled g w es, e.1 < blockStart w g := by
    intro e he
    obtain ⟨i, hi, -, -, r, hr, -, -, e1, -⟩ := Blocked.stored_split hb (u := e.1) (v := e.2.1) ⟨e, he, rfl⟩
    have := Blocked.blockStart_mono w (show i + 1 ≤ g from hi)
    rw [Blocked.blockStart_succ] at this
    omega
  rw [Blocked.sum_entries hL (Blocked.nodup_assembled hb h.nodup), Blocked.masked_triangles (Blocked.nodup_assembled hb h.nodup) h1 hlow hn] at hT
  exact_mod_cast hT

/-- C88, violated for the numbers of entries: the "total number of masked nnz outputs" is at least the number of entries `L.length` of the masked
product of the whole matrix, and equal to it if and only if no position gets products through two different blocks. The same holds for the "nonzeros"
of the product without a mask. -/
theorem C88_violated_nnz (hsort : SortsBy Prod.fst sortf) (hnd : 0 < nd) (h : BlockFiles neg g w es files orders) (hfit : Fits g w es) :
    let E := assembled g w es
    let nnz := {x : Nat × Nat | ∃ y, Stored E x.1 y ∧ Stored E y x.2}.ncard
    ∃ T L, MaskedEntries E E E L ∧ PrintsTotals (fun order sch => main sortf nd g g orders files order sch) g w T ∧
      L.length ≤ T.masked ∧ (T.masked = L.length ↔ ∀ u v k k', Stored E u v → Through w E u v k → Through w E u v k' → k = k') ∧
      nnz ≤ T.nnzs ∧ (T.nnzs = nnz ↔ ∀ u v k k', Through w E u v k → Through w E u v k' → k = k') := by
  intro E nnz
  obtain ⟨T, L, hL, -, -, -, hm, hn, hP⟩ := C88_partial hsort hnd h hfit
  have hb := h.bounded
  have c1 := Blocked.through_count hb fun u v => Stored E u v
  have c2 := Blocked.through_count hb fun _ _ => True
  simp only [true_and, true_implies] at c2
  have e1 : {x : Nat × Nat | Stored E x.1 x.2 ∧ ∃ y, Stored E x.1 y ∧ Stored E y x.2}.ncard = L.length := by
    rw [← List.length_map (as := L) (f := fun e => (e.1, e.2.1))]
    refine Blocked.ncard_list hL.nodup ?_
    rintro ⟨u, v⟩
    rw [List.mem_map]
    constructor
    · rintro ⟨h1, h2⟩
      exact ⟨(u, v, productAt E E u v), (hL.mem u v _).2 ⟨h1, h2, rfl⟩, rfl⟩
    · rintro ⟨⟨u', v', x⟩, hx, e⟩
      obtain rfl : u = u' := (congrArg Prod.fst e).symm
      obtain rfl : v = v' := (congrArg Prod.snd e).symm
      have := (hL.mem u v x).1 hx
      exact ⟨this.1, this.2.1⟩
  refine ⟨T, L, hL, hP, ?_, ?_, ?_, ?_⟩
  · rw [hm, ← e1]; exact c1.1
  · rw [hm, ← e1]; exact c1.2
  · rw [hn]; exact c2.1
  · rw [hn]; exact c2.2

/-- C88, violated for blocks of different sizes: if a block `(i, k)` has an entry in a column that does not exist in some column `j` of the grid, then no run
prints the totals. The inner product reads the column pointers of block `(k, j)` at the columns of block `(i, k)`. -/
theorem C88_violated_shape (hsort : SortsBy Prod.fst sortf) (h : BlockFiles neg g w es files orders) {i j k : Nat} (hi : i < g) (hj : j < g) (hk : k < g)
    {e : Nat × Nat × ℚ} (he : e ∈ es i k) (hc : w j ≤ e.2.1) {order : List Nat} (ho : order.Perm (List.range (g * g * g))) {sch : Nat → Sch}
    (hs : ∀ q < g * g * g, BlockedTc.Adm (w (q / (g * g))) (sch q)) (T : Counts) : main sortf nd g g orders files order sch ≠ .ok (some T) := by
  intro hrun
  obtain ⟨X, eX, hX⟩ := load_ok hsort h
  obtain ⟨q, hq, rfl, rfl, rfl⟩ := of_digits hi hj hk
  unfold main at hrun
  rw [check, if_pos (by simp), ok_bind, eX, ok_bind] at hrun
  obtain ⟨cs, hcs, -⟩ := andThen_some hrun
  obtain ⟨c, hcell⟩ := fill_some hcs q (ho.mem_iff.2 (List.mem_range.2 hq))
  unfold iteration at hcell
  rw [blockAt_eq X hi hk, ok_bind, blockAt_eq X hk hj, ok_bind, blockAt_eq X hi hj, ok_bind] at hcell
  have hM := mats hX hi hj hk
  unfold cell at hcell
  obtain ⟨_, -, hcell⟩ := Alias.bind_ok' hcell
  obtain ⟨_, -, hcell⟩ := andThen_some hcell
  obtain ⟨_, -, hcell⟩ := Alias.bind_ok' hcell
  obtain ⟨_, -, hcell⟩ := andThen_some hcell
  obtain ⟨_, -, hcell⟩ := andThen_some hcell
  obtain ⟨_, -, hcell⟩ := Alias.bind_ok' hcell
  obtain ⟨_, hdot, -⟩ := andThen_some hcell
  have hrow := (h.bounded _ hi _ hk e he).1
  refine C53_violated_shape (fun x y : ℚ => x * y) (fun x y => x + y) 0 ⟨hM.wA, hM.wBc, hM.wM, hM.cA.trans (hM.rB.symm.trans hM.same.rows.symm),
    hM.rM.trans hM.rA.symm, hM.cM.trans (hM.cB.symm.trans hM.same.cols.symm), by rw [hM.rA]; omega, hM.sA, hM.sBc⟩ (c := e.2.1) ?_ ?_
    (by rw [hM.rA]; exact (hs q hq).dot) _ hdot
  · rw [← (MatObj.triples_snd hM.wA).1]
    exact List.mem_map.2 ⟨e, hM.pA.mem_iff.2 he, rfl⟩
  · rw [hM.same.cols, hM.cB]; exact hc

/-- C88, violated for many rows: if a block has `2^17 - 1` rows or more then no run prints the totals. -/
theorem C88_violated_rows (hsort : SortsBy Prod.fst sortf) (hnd : 0 < nd) (h : BlockFiles neg g w es files orders) {i : Nat} (hi : i < g)
    (hbig : 2 ^ 17 ≤ w i + 1) {order : List Nat} (ho : order.Perm (List.range (g * g * g))) {sch : Nat → Sch} (T : Counts) :
    main sortf nd g g orders files order sch ≠ .ok (some T) := by
  intro hrun
  obtain ⟨X, eX, hX⟩ := load_ok hsort h
  obtain ⟨q, hq, rfl, hj, hk⟩ := of_digits hi hi hi
  unfold main at hrun
  rw [check, if_pos (by simp), ok_bind, eX, ok_bind] at hrun
  obtain ⟨cs, hcs, -⟩ := andThen_some hrun
  obtain ⟨c, hcell⟩ := fill_some hcs q (ho.mem_iff.2 (List.mem_range.2 hq))
  obtain ⟨hi, hj, hk⟩ := digits hq
  unfold iteration at hcell
  rw [blockAt_eq X hi hk, ok_bind, blockAt_eq X hk hj, ok_bind, blockAt_eq X hi hj, ok_bind] at hcell
  unfold cell at hcell
  obtain ⟨_, -, hcell⟩ := Alias.bind_ok' hcell
  obtain ⟨_, hprod, -⟩ := andThen_some hcell
  exact C34_violated _ _ _ _ _ (by rw [(mats hX hi hj hk).rA]; exact hbig) hnd _ _ hprod

/-- With different numbers of rows and columns of blocks the program stops with a message. -/
theorem C88_grid {gx gy : Nat} (hne : gx ≠ gy) (order : List Nat) (sch : Nat → Sch) : main sortf nd gx gy orders files order sch = .error .assertion := by
  unfold main
  rw [check, if_neg (by simpa using hne)]
  rfl

/-! ## Examples -/

/-- A file with two rows and columns and entries with the value 1 -/
def onesFile (ls : List String) : MMText :=
  { field := .integer, sym := .general, comments := [], size := ("2 2 " ++ toString ls.length).toList, entries := ls.map fun l => (l ++ " 1").toList }

def text00 : List Char := Spec.banner .integer .general ++ "\n2 2 1\n2 1 1\n".toList
def text01 : List Char := Spec.banner .integer .general ++ "\n2 2 0\n".toList
def text10 : List Char := Spec.banner .integer .general ++ "\n2 2 3\n2 1 1\n2 2 1\n1 1 1\n".toList

theorem text00_of : FileOf (fun z : ℤ => (z : ℚ)) (fun v => -v) text00 2 2 [(1, 0, 1)] := by
  refine ⟨onesFile ["2 1"], [(1, 0, 1)], ⟨by decide +kernel, ?_, ?_, by decide, fun _ => rfl⟩, rfl, by decide +kernel, by decide,
    by rintro ⟨_, c, hc, _⟩; simp [onesFile] at hc, .inl ⟨[], by decide +kernel⟩, by decide⟩
  · exact .mk ['2'] ['2'] ['1'] 2 2 1 (.digit 2 (by decide)) (.digit 2 (by decide)) (.digit 1 (by decide))
  · exact .cons (.value ['2'] ['1'] ['1'] 1 0 1 (.digit 2 (by decide)) (.digit 1 (by decide)) ⟨1, .pos ['1'] 1 (.digit 1 (by decide)), by simp⟩) .nil

theorem text01_of : FileOf (fun z : ℤ => (z : ℚ)) (fun v => -v) text01 2 2 [] := by
  refine ⟨onesFile [], [], ⟨by decide +kernel, ?_, ?_, by decide, fun _ => rfl⟩, rfl, by decide +kernel, by decide,
    by rintro ⟨_, c, hc, _⟩; simp [onesFile] at hc, .inl ⟨[], by decide +kernel⟩, by decide⟩
  · exact .mk ['2'] ['2'] ['0'] 2 2 0 (.digit 2 (by decide)) (.digit 2 (by decide)) (.digit 0 (by decide))
  · exact .nil

theorem text10_of : FileOf (fun z : ℤ => (z : ℚ)) (fun v => -v) text10 2 2 [(1, 0, 1), (1, 1, 1), (0, 0, 1)] := by
  refine ⟨onesFile ["2 1", "2 2", "1 1"], [(1, 0, 1), (1, 1, 1), (0, 0, 1)], ⟨by decide +kernel, ?_, ?_, by decide, fun _ => rfl⟩, rfl, by decide +kernel, by decide,
    by rintro ⟨_, c, hc, _⟩; simp [onesFile] at hc, .inl ⟨[], by decide +kernel⟩, by decide⟩
  · exact .mk ['2'] ['2'] ['3'] 2 2 3 (.digit 2 (by decide)) (.digit 2 (by decide)) (.digit 3 (by decide))
  · exact .cons (.value ['2'] ['1'] ['1'] 1 0 1 (.digit 2 (by decide)) (.digit 1 (by decide)) ⟨1, .pos ['1'] 1 (.digit 1 (by decide)), by simp⟩)
      (.cons (.value ['2'] ['2'] ['1'] 1 1 1 (.digit 2 (by decide)) (.digit 2 (by decide)) ⟨1, .pos ['1'] 1 (.digit 1 (by decide)), by simp⟩)
      (.cons (.value ['1'] ['1'] ['1'] 0 0 1 (.digit 1 (by decide)) (.digit 1 (by decide)) ⟨1, .pos ['1'] 1 (.digit 1 (by decide)), by simp⟩) .nil))

/-- The entries of the blocks of a matrix with four rows -/
def exBlocks (i j : Nat) : List (Nat × Nat × ℚ) :=
  if i = 0 then (if j = 0 then [(1, 0, 1)] else []) else (if j = 0 then [(1, 0, 1), (1, 1, 1), (0, 0, 1)] else [(1, 0, 1)])

def exFiles (i j : Nat) : Option (List Char) := if i = 0 then (if j = 0 then some text00 else some text01) else (if j = 0 then some text10 else some text00)

theorem exBlocks_files : BlockFiles (fun v => -v) 2 (fun _ => 2) exBlocks exFiles (fun _ _ => [1, 0]) where
  files := by
    intro i hi j hj
    have hi : i = 0 ∨ i = 1 := by omega
    have hj : j = 0 ∨ j = 1 := by omega
    rcases hi with rfl | rfl <;> rcases hj with rfl | rfl
    · exact ⟨_, rfl, text00_of⟩
    · exact ⟨_, rfl, text01_of⟩
    · exact ⟨_, rfl, text10_of⟩
    · exact ⟨_, rfl, text00_of⟩
  orders := by intro i _ j _; decide

theorem exBlocks_assembled : assembled 2 (fun _ => 2) exBlocks = [(1, 0, 1), (3, 0, 1), (3, 1, 1), (2, 0, 1), (3, 2, 1)] := rfl

theorem exBlocks_fits : Fits 2 (fun _ => 2) exBlocks :=
  ⟨fun _ _ => by decide, fun _ _ => by decide, fun i hi k hk e he _ _ => (exBlocks_files.bounded i hi k hk e he).2⟩

example := C88_triangles_partial (isort_sorts Prod.fst) (nd := 4) (by decide) exBlocks_files exBlocks_fits
  (by rw [exBlocks_assembled]; simp) (by rw [exBlocks_assembled]; simp)

/-- The number of entries that the program prints for the example is wrong. -/
theorem C88_example : ∃ T L, MaskedEntries (assembled 2 (fun _ => 2) exBlocks) (assembled 2 (fun _ => 2) exBlocks) (assembled 2 (fun _ => 2) exBlocks) L ∧
    PrintsTotals (fun order sch => main (isort Prod.fst) 4 2 2 (fun _ _ => [1, 0]) exFiles order sch) 2 (fun _ => 2) T ∧ L.length < T.masked := by
  obtain ⟨T, L, hL, hP, hle, hiff, -⟩ := C88_violated_nnz (isort_sorts Prod.fst) (nd := 4) (by decide) exBlocks_files exBlocks_fits
  refine ⟨T, L, hL, hP, lt_of_le_of_ne hle fun e => ?_⟩
  have st : ∀ u v, (u, v, (1 : ℚ)) ∈ assembled 2 (fun _ => 2) exBlocks → Stored (assembled 2 (fun _ => 2) exBlocks) u v := fun u v h => ⟨_, h, rfl⟩
  have := hiff.1 e.symm 3 0 0 1 (st 3 0 (by rw [exBlocks_assembled]; simp))
    ⟨1, by decide, by decide, st 3 1 (by rw [exBlocks_assembled]; simp), st 1 0 (by rw [exBlocks_assembled]; simp)⟩
    ⟨2, by decide, by decide, st 3 2 (by rw [exBlocks_assembled]; simp), st 2 0 (by rw [exBlocks_assembled]; simp)⟩
  exact absurd this (by decide)

/-- Schedules as required exist. -/
theorem blocked_schedule (rows : Nat) : ∃ s, BlockedTc.Adm rows s ∧ FairSch s := by
  let b : Bin.Sched := { intprod := List.range rows, s1 := [], s2 := [], threads := List.range 1, ids := List.range rows }
  let l := List.replicate (2 ^ 17) 0
  have hl : 2 ^ 17 ≤ l.count 0 := (List.count_replicate_self (a := 0) (n := 2 ^ 17)).ge
  let t : TwoPassSched := { bin := b, count := l, s1 := [], s2 := [], fill := l }
  exact ⟨⟨⟨b, l, [], [], l⟩, List.range rows, List.range rows, [], [], List.range rows, t, fun n => [List.range n], { bin := b, main := l }, t⟩,
    ⟨⟨.refl _, .refl _, .refl _⟩, .refl _, .refl _, .refl _, ⟨.refl _, .refl _, .refl _⟩, fun n => by simp [Splits], ⟨.refl _, .refl _, .refl _⟩,
      ⟨.refl _, .refl _, .refl _⟩⟩, ⟨⟨hl, hl⟩, ⟨hl, hl⟩, hl, ⟨hl, hl⟩⟩⟩

/-- A file without entries -/
theorem empty_of {size : List Char} {m n : Nat} (h : SizeLine size m n 0) (hlen : size.length ≤ 255) (hline : '\n' ∉ size) :
    FileOf (fun z : ℤ => (z : ℚ)) (fun v => -v) (Spec.banner .integer .general ++ '\n' :: size ++ ['\n']) m n [] := by
  let t : MMText := { field := .integer, sym := .general, comments := [], size := size, entries := [] }
  refine ⟨t, [], ⟨?_, h, .nil, by simp, fun h => by simp [t] at h⟩, rfl, ?_, by simp [t], by rintro ⟨_, c, hc, _⟩; simp [t] at hc, .inl ⟨[], by simp [t, MMText.lines]⟩, by simp⟩
  all_goals
    intro l hl
    simp only [t, MMText.lines, List.map_nil, List.nil_append, List.mem_cons, List.not_mem_nil, or_false] at hl
    rcases hl with rfl | rfl
  · decide
  · exact hline
  · decide
  · exact hlen

/-- Blocks of two sizes: the first block has an entry in a column that the last block does not have. -/
def unevenWidths (i : Nat) : Nat := if i = 0 then 2 else 1

def unevenBlocks (i j : Nat) : List (Nat × Nat × ℚ) := if i = 0 ∧ j = 0 then [(1, 0, 1), (1, 1, 1), (0, 0, 1)] else []

def unevenFiles (i j : Nat) : Option (List Char) :=
  if i = 0 then (if j = 0 then some text10 else some (Spec.banner .integer .general ++ '\n' :: "2 1 0".toList ++ ['\n']))
  else (if j = 0 then some (Spec.banner .integer .general ++ '\n' :: "1 2 0".toList ++ ['\n'])
    else some (Spec.banner .integer .general ++ '\n' :: "1 1 0".toList ++ ['\n']))

theorem uneven_files : BlockFiles (fun v => -v) 2 unevenWidths unevenBlocks unevenFiles (fun _ j => List.range (unevenWidths j)) where
  files := by
    intro i hi j hj
    have hi : i = 0 ∨ i = 1 := by omega
    have hj : j = 0 ∨ j = 1 := by omega
    rcases hi with rfl | rfl <;> rcases hj with rfl | rfl
    · exact ⟨_, rfl, text10_of⟩
    · exact ⟨_, rfl, empty_of (.mk ['2'] ['1'] ['0'] 2 1 0 (.digit 2 (by decide)) (.digit 1 (by decide)) (.digit 0 (by decide))) (by decide) (by decide)⟩
    · exact ⟨_, rfl, empty_of (.mk ['1'] ['2'] ['0'] 1 2 0 (.digit 1 (by decide)) (.digit 2 (by decide)) (.digit 0 (by decide))) (by decide) (by decide)⟩
    · exact ⟨_, rfl, empty_of (.mk ['1'] ['1'] ['0'] 1 1 0 (.digit 1 (by decide)) (.digit 1 (by decide)) (.digit 0 (by decide))) (by decide) (by decide)⟩
  orders := by intro i _ j _; exact .refl _

example {order : List Nat} (ho : order.Perm (List.range 8)) {sch : Nat → Sch} (hs : ∀ q < 8, BlockedTc.Adm (unevenWidths (q / 4)) (sch q)) (T : Counts) :
    main (isort Prod.fst) 4 2 2 (fun _ j => List.range (unevenWidths j)) unevenFiles order sch ≠ .ok (some T) :=
  C88_violated_shape (isort_sorts Prod.fst) uneven_files (i := 0) (j := 1) (k := 0) (by decide) (by decide) (by decide) (e := (1, 1, 1))
    (by simp [unevenBlocks]) (by decide) ho hs T

/-- A single block with `2^17 - 1` rows -/
theorem bigBlock_size : SizeLine "131071 131071 0".toList 131071 131071 0 := by
  have h : Numeral ['1', '3', '1', '0', '7', '1'] 131071 :=
    .snoc ['1', '3', '1', '0', '7'] 13107 1 (.snoc ['1', '3', '1', '0'] 1310 7 (.snoc ['1', '3', '1'] 131 0 (.snoc ['1', '3'] 13 1
      (.snoc ['1'] 1 3 (.digit 1 (by decide)) (by decide)) (by decide)) (by decide)) (by decide)) (by decide)
  exact .mk _ _ ['0'] _ _ 0 h h (.digit 0 (by decide))

example {order : List Nat} (ho : order.Perm (List.range 1)) (sch : Nat → Sch) (T : Counts) :
    main (isort Prod.fst) 4 1 1 (fun _ _ => List.range 131071) (fun _ _ => some (Spec.banner .integer .general ++ '\n' :: "131071 131071 0".toList ++ ['\n']))
      order sch ≠ .ok (some T) :=
  C88_violated_rows (w := fun _ => 131071) (es := fun _ _ => []) (isort_sorts Prod.fst) (by decide)
    ⟨fun _ _ _ _ => ⟨_, rfl, empty_of bigBlock_size (by decide) (by decide)⟩, fun _ _ _ _ => .refl _⟩ (i := 0) (by decide) (by decide) ho T

end Verif.Props
