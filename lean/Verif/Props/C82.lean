import Verif.Lemmas.MaskedAll

/-! # C82: the program for three matrices -/

namespace Verif.Props

open Verif.Model Verif.Model.MaskedAll Verif.Spec
open _root_.Verif.Model.Bench (Out seqAll)

variable {R : Type} [Semiring R] {ofInt : Int → R} {neg : R → R} {sortf : List (Nat × R) → List (Nat × R)} {a : Args} {m k n : Nat}
  {es fs ms : List (Nat × Nat × R)} {ta tb tm : List Char} {o : Orders} {enc : R → List UInt8}

/-- What the program should print for the algorithms `names`: the number of operations `flop`, the number of entries of the product `L` and
their checksums, and the same in a line for the log with the name of the file -/
def linesFor (enc : R → List UInt8) (file : List Char) (tnum flop : Nat) (L : List (Nat × Nat × R)) (names : List (List Char)) : List Event :=
  names.flatMap fun name => [.total flop, .result name tnum L.length (shownCheck enc L), .log file name tnum L.length (shownCheck enc L)]

/-- The program is called with three files that describe matrices of matching sizes and with a number of threads, the path of the first file
has a directory. -/
structure Called (ofInt : Int → R) (neg : R → R) (a : Args) (o : Orders) (m k n tnum : Nat) (es fs ms : List (Nat × Nat × R)) : Prop where
  fileA : ∃ t, a.fileA = some t ∧ FileOf ofInt neg t m k es
  fileB : ∃ t, a.fileB = some t ∧ FileOf ofInt neg t k n fs
  fileM : ∃ t, a.fileM = some t ∧ FileOf ofInt neg t m n ms
  readA : o.readA.Perm (List.range k)
  readB : o.readB.Perm (List.range n)
  readM : o.readM.Perm (List.range n)
  flop : o.flop.Perm (List.range n)
  threads : a.threads = some tnum
  pos : 0 < tnum
  path : '/' ∈ a.path
  rows : 0 < m
  small : m + 1 < 2 ^ 17

theorem Called.setup {tnum : Nat} (h : Called ofInt neg a o m k n tnum es fs ms) (hsort : SortsBy Prod.fst sortf) :
    ∃ base x, IsFileName a.path base ∧ setup ofInt sortf o a = .ok x ∧ x.fileName = some base ∧ Mats m k n es fs ms x.A x.B x.M x.Bc ∧
      x.flop = pairings es fs * 2 := by
  obtain ⟨_, eA, hA⟩ := h.fileA
  obtain ⟨_, eB, hB⟩ := h.fileB
  obtain ⟨_, eM, hM⟩ := h.fileM
  exact setup_ok hsort hA hB hM eA eB eM h.readA h.readB h.readM h.flop h.threads h.path

theorem main_eq {tnum : Nat} (h : Called ofInt neg a o m k n tnum es fs ms) {x : Inputs R} (e : MaskedAll.setup ofInt sortf o a = .ok x)
    (sch : Nat × Nat × Nat × Nat → Sch) :
    main ofInt enc sortf o a sch = rounds enc x [tnum] (a.outer.getD 1) (a.inner.getD 1) sch := by
  unfold main
  rw [e]
  show rounds enc x a.tnums _ _ _ = _
  unfold Args.tnums
  rw [h.threads]

theorem seqAll_flatMap {α E : Type} (l : List α) (g : α → List (Out E)) : seqAll (l.flatMap g) = seqAll (l.map fun x => seqAll (g x)) := by
  induction l with
  | nil => rfl
  | cons b l ih => rw [List.flatMap_cons, seqAll_append, ih]; rfl

/-- C82 for three files with the same positions, square, in which each column that has an entry is also a row that has an entry (as in graphs without
vertices that only have incoming edges): the program prints for each of the ten algorithms, in each round, the number of products
of entries times two, the number of entries of the product at the positions of the mask, and the same checksums, which are those of
these entries. For any numbers of threads and iterations and every schedule of every call. -/
theorem C82_same_positions (hsort : SortsBy Prod.fst sortf) {tnum : Nat} (h : Called ofInt neg a o m m m tnum es fs ms)
    (hf : ∀ i j, Stored fs i j ↔ Stored es i j) (hms : ∀ i j, Stored ms i j ↔ Stored es i j) (hout : ∀ i k, Stored es i k → ∃ j, Stored es k j)
    (heven : ∀ v, (enc v).length % 2 = 0) :
    ∃ base L, IsFileName a.path base ∧ MaskedEntries es fs ms L ∧
      let want := (List.replicate (a.outer.getD 1) (linesFor enc base tnum (pairings es fs * 2) L (sevenNames ++ mcaNames))).flatten
      (∀ sch, (∀ i, SchAdm m tnum (sch i)) → main ofInt enc sortf o a sch = ⟨want, .ok (some ())⟩ ∨
        ((main ofInt enc sortf o a sch).status = .ok none ∧ (main ofInt enc sortf o a sch).events <+: want)) ∧
      ∃ K, ∀ sch, (∀ i, SchAdm m tnum (sch i)) → (∀ i, SchFair tnum K (sch i)) → main ofInt enc sortf o a sch = ⟨want, .ok (some ())⟩ := by
  obtain ⟨base, x, hb, hx, hxf, hM, hfl⟩ := h.setup hsort
  obtain ⟨L, hL⟩ := entries_exist hM
  have hcols : ∀ e ∈ es, e.2.1 < m := by
    intro e he
    have := (Graph.mem_triples.1 (hM.pA.mem_iff.2 (show (e.1, e.2.1, e.2.2) ∈ es from he))).2
    rw [← hM.cA]
    exact CSR.row_lt hM.wA this
  obtain ⟨K, hK⟩ := runs_lines hM h.rows h.small hcols h.pos heven hL kernels (by
    intro y _
    unfold Ker.Needs
    split
    · exact mca_needs hM hf hms hout _
    · trivial)
  have key : ∀ sch : Nat × Nat × Nat × Nat → Sch, (∀ i, SchAdm m tnum (sch i)) → Good (∀ i, SchFair tnum K (sch i))
      ((List.replicate (a.outer.getD 1) (linesFor enc base tnum (pairings es fs * 2) L (sevenNames ++ mcaNames))).flatten) (main ofInt enc sortf o a sch) := by
    intro sch hadm
    rw [main_eq h hx]
    unfold rounds
    rw [seqAll_flatMap]
    have := seqAll_good (st := ∀ i, SchFair tnum K (sch i)) (List.range (a.outer.getD 1))
      (f := fun r => seqAll (kernels.zipIdx.map fun k =>
        run enc x.fileName k.1.1 (k.1.2.call x.A x.B x.M x.Bc) (a.inner.getD 1) [tnum] x.flop fun j i => sch (r, k.2, j, i)))
      (w := fun _ => linesFor enc base tnum (pairings es fs * 2) L (sevenNames ++ mcaNames)) (by
        intro r _
        rw [hxf, hfl]
        exact Good.weaken (hK base (a.inner.getD 1) (pairings es fs * 2) (fun c j i => sch (r, c, j, i)) 0 (fun c j i => hadm _)) fun hh c j i => hh _)
    rwa [List.flatMap_def, List.map_const', List.length_range] at this
  refine ⟨base, L, hb, hL, fun sch hadm => ?_, K, fun sch hadm hfair => ?_⟩
  · rcases key sch hadm with e | ⟨-, e⟩
    · exact .inl e
    · exact .inr e
  · rcases key sch hadm with e | ⟨hn, -⟩
    · exact e
    · exact absurd hfair hn

/-- The calls of the first seven algorithms and the rest of the program -/
theorem main_split {tnum : Nat} (h : Called ofInt neg a o m k n tnum es fs ms) (hout : 0 < a.outer.getD 1) {x : Inputs R}
    (e : MaskedAll.setup ofInt sortf o a = .ok x) (sch : Nat × Nat × Nat × Nat → Sch) : ∃ rest,
    main ofInt enc sortf o a sch =
      (seqAll ((kernels.take 7).zipIdx.map fun k =>
        run enc x.fileName k.1.1 (k.1.2.call x.A x.B x.M x.Bc) (a.inner.getD 1) [tnum] x.flop fun j i => sch (0, k.2, j, i))).seq
      ((run enc x.fileName "HeapSpGEMM<rowAlg::MCA_v1> CSR".toList (Ker.call (.mca .v1) x.A x.B x.M x.Bc) (a.inner.getD 1) [tnum] x.flop
        fun j i => sch (0, 7, j, i)).seq rest) := by
  rw [main_eq h e]
  unfold rounds
  obtain ⟨q, hq⟩ : ∃ q, a.outer.getD 1 = q + 1 := ⟨a.outer.getD 1 - 1, by omega⟩
  rw [hq, List.range_succ_eq_map, List.flatMap_cons, seqAll_append]
  have hk : kernels.zipIdx = (kernels.take 7).zipIdx ++ (("HeapSpGEMM<rowAlg::MCA_v1> CSR".toList, Ker.mca .v1), 7) :: (kernels.drop 8).zipIdx 8 := rfl
  rw [hk, List.map_append, seqAll_append, List.map_cons, seq_assoc]
  generalize seqAll (List.flatMap _ _) = rest
  refine ⟨Out.seq (seqAll (((kernels.drop 8).zipIdx 8).map fun k =>
        run enc x.fileName k.1.1 (k.1.2.call x.A x.B x.M x.Bc) (a.inner.getD 1) [tnum] x.flop fun j i => sch (0, k.2, j, i))) rest, ?_⟩
  congr 1
  exact seq_assoc _ _ _

theorem first_seven (hsort : SortsBy Prod.fst sortf) {tnum : Nat} (h : Called ofInt neg a o m k n tnum es fs ms)
    (hcols : ∀ e ∈ es, e.2.1 < n) (heven : ∀ v, (enc v).length % 2 = 0) :
    ∃ base x L K, IsFileName a.path base ∧ MaskedEntries es fs ms L ∧ MaskedAll.setup ofInt sortf o a = .ok x ∧
      Mats m k n es fs ms x.A x.B x.M x.Bc ∧ x.flop = pairings es fs * 2 ∧ x.fileName = some base ∧
      ∀ sch : Nat × Nat × Nat × Nat → Sch, (∀ i, SchAdm m tnum (sch i)) → Good (∀ i, SchFair tnum K (sch i)) (linesFor enc base tnum (pairings es fs * 2) L sevenNames)
        (seqAll ((kernels.take 7).zipIdx.map fun k =>
          run enc x.fileName k.1.1 (k.1.2.call x.A x.B x.M x.Bc) (a.inner.getD 1) [tnum] x.flop fun j i => sch (0, k.2, j, i))) := by
  obtain ⟨base, x, hb, hx, hxf, hM, hfl⟩ := h.setup hsort
  obtain ⟨L, hL⟩ := entries_exist hM
  obtain ⟨K, hK⟩ := runs_lines hM h.rows h.small hcols h.pos heven hL (kernels.take 7) (by
    intro y hy
    have : ∀ z ∈ kernels.take 7, ∀ v, z.2 ≠ .mca v := by intro z hz v; revert z; cases v <;> decide
    unfold Ker.Needs
    split
    · rename_i v e
      exact absurd e (this y hy v)
    · trivial)
  refine ⟨base, x, L, K, hb, hL, hx, hM, hfl, hxf, fun sch hadm => ?_⟩
  rw [hxf, hfl]
  exact Good.weaken (hK base (a.inner.getD 1) (pairings es fs * 2) (fun c j i => sch (0, c, j, i)) 0 (fun c j i => hadm _)) fun hh c j i => hh _

/-- C82 for the seven algorithms that do not use mask compressed accumulators, in the first round, for any three files with matrices of matching
sizes: the program prints the lines described above for these algorithms, whatever it does later.

What is missing: the last three algorithms and with them later rounds (see `C82_violated_mca`), files with repeated positions, first matrices
with entries in columns that the second does not have, and more than `2^17 - 2` rows. -/
theorem C82_seven_partial (hsort : SortsBy Prod.fst sortf) {tnum : Nat} (h : Called ofInt neg a o m k n tnum es fs ms) (hrounds : 0 < a.outer.getD 1)
    (hcols : ∀ e ∈ es, e.2.1 < n) (heven : ∀ v, (enc v).length % 2 = 0) :
    ∃ base L, IsFileName a.path base ∧ MaskedEntries es fs ms L ∧
      let want := linesFor enc base tnum (pairings es fs * 2) L sevenNames
      (∀ sch, (∀ i, SchAdm m tnum (sch i)) → want <+: (main ofInt enc sortf o a sch).events ∨
        ((main ofInt enc sortf o a sch).status = .ok none ∧ (main ofInt enc sortf o a sch).events <+: want)) ∧
      ∃ K, ∀ sch, (∀ i, SchAdm m tnum (sch i)) → (∀ i, SchFair tnum K (sch i)) → want <+: (main ofInt enc sortf o a sch).events := by
  obtain ⟨base, x, L, K, hb, hL, hx, -, -, -, hK⟩ := first_seven hsort h hcols heven
  have key : ∀ sch : Nat × Nat × Nat × Nat → Sch, (∀ i, SchAdm m tnum (sch i)) → Starts (∀ i, SchFair tnum K (sch i))
      (linesFor enc base tnum (pairings es fs * 2) L sevenNames) (main ofInt enc sortf o a sch) := by
    intro sch hadm
    obtain ⟨rest, e⟩ := main_split (enc := enc) h hrounds hx sch
    rw [e]
    exact starts_seq _ (hK sch hadm)
  refine ⟨base, L, hb, hL, fun sch hadm => ?_, K, fun sch hadm hfair => ?_⟩
  · rcases key sch hadm with e | ⟨-, e⟩
    · exact .inl e
    · exact .inr e
  · rcases key sch hadm with e | ⟨hn, -⟩
    · exact e
    · exact absurd hfair hn

/-! ## Violations -/

theorem calls_never {V : Type} {f : CSR V → Sch → Res (Option (CSR V))} {niters : Nat} {sch : Nat → Sch} (h : ∀ C0 i C, f C0 (sch i) ≠ .ok (some C))
    (C : CSR V) : calls f niters sch ≠ .ok (some C) := by
  unfold calls
  by_cases h1 : niters = 1
  · subst h1
    rw [if_neg (by simp)]
    simp only [Bench.repeatCall, ok_bind, List.range_one, List.map_cons, List.map_nil]
    have := h (Bench.makeEmpty Bench.newObj) 1
    revert this
    show _ → (f (Bench.makeEmpty Bench.newObj) (sch 1) >>= _) ≠ _
    cases f (Bench.makeEmpty Bench.newObj) (sch 1) with
    | error e => intro _ h; cases h
    | ok r =>
      cases r with
      | none => intro _ h; cases h
      | some C' => exact fun this => absurd rfl (this C')
  · rw [if_pos h1]
    simp only [Bench.repeatCall]
    have := h Bench.newObj 0
    revert this
    cases f Bench.newObj (sch 0) with
    | error e => intro _ h; cases h
    | ok r =>
      cases r with
      | none => intro _ h; cases h
      | some C' => exact fun this => absurd rfl (this C')

theorem runOne_never {V : Type} {enc : V → List UInt8} {file : Option (List Char)} {name : List Char} {f : CSR V → Sch → Res (Option (CSR V))}
    {niters : Nat} {sch : Nat → Sch} {tnum : Nat} (h : ∀ C0 i C, f C0 (sch i) ≠ .ok (some C)) :
    (runOne enc file name f niters sch tnum).events = [] ∧ (runOne enc file name f niters sch tnum).status ≠ .ok (some ()) := by
  have := calls_never (niters := niters) h
  unfold runOne
  revert this
  cases calls f niters sch with
  | error e => intro _; exact ⟨rfl, by simp⟩
  | ok r =>
    cases r with
    | none => intro _; exact ⟨rfl, by simp⟩
    | some C => exact fun this => absurd rfl (this C)

/-- C82 is violated for every call with a row of the first two matrices that gets a product, if the mask has no entry in that row or after it: the
first algorithm with mask compressed accumulators never comes to its end, so the program prints at most the lines of the first seven algorithms
in the first round and the number of operations once more, and does not come to its end. -/
theorem C82_violated_mca (hsort : SortsBy Prod.fst sortf) {tnum : Nat} (h : Called ofInt neg a o m k n tnum es fs ms) (hrounds : 0 < a.outer.getD 1)
    (hcols : ∀ e ∈ es, e.2.1 < n) (heven : ∀ v, (enc v).length % 2 = 0) {i : Nat} (hprod : ∃ k j, Stored es i k ∧ Stored fs k j)
    (hmask : ∀ e ∈ ms, e.1 < i) :
    ∃ base L, IsFileName a.path base ∧ MaskedEntries es fs ms L ∧ ∀ sch, (∀ i, SchAdm m tnum (sch i)) →
      (main ofInt enc sortf o a sch).status ≠ .ok (some ()) ∧
      (main ofInt enc sortf o a sch).events <+: linesFor enc base tnum (pairings es fs * 2) L sevenNames ++ [.total (pairings es fs * 2)] := by
  obtain ⟨base, x, L, K, hb, hL, hx, hM, hfl, hxf, hK⟩ := first_seven hsort h hcols heven
  refine ⟨base, L, hb, hL, fun sch hadm => ?_⟩
  obtain ⟨k', j', hk', hj'⟩ := hprod
  have hi : i < x.A.rows := by
    obtain ⟨e, he, e'⟩ := hk'
    have := (Graph.mem_triples.1 (hM.pA.mem_iff.2 (show (e.1, e.2.1, e.2.2) ∈ es from he))).1
    rwa [(Prod.mk.inj e').1] at this
  have hv : Valid x.A x.B x.M := ⟨hM.wA, hM.wB, hM.wM, ⟨hM.cA.trans hM.rB.symm, hM.rM.trans hM.rA.symm, hM.cM.trans hM.cB.symm⟩, hM.rA ▸ h.rows⟩
  have htouch : touched x.A x.B i ≠ [] := by
    obtain ⟨v, hv⟩ := (dot_isSome (mul := fun x y => x * y) (add := fun x y => x + y) hM.wA hM.wB hv.shapes.ab hM.pA hM.pB hi).2 ⟨k', hk', hj'⟩
    rw [touched_eq]
    exact List.ne_nil_of_mem (dot_mem_visits hv)
  have hptr : x.M.ptr i = x.M.nnz := by
    have : ∀ d, i + d ≤ x.M.rows → x.M.ptr (i + d) = x.M.ptr i := by
      intro d
      induction d with
      | zero => intro _; rfl
      | succ d ih =>
        intro hd
        rw [← ih (by omega)]
        refine (rowCols_eq_nil hM.wM (i := i + d) (by omega)).1 ?_
        rw [List.eq_nil_iff_forall_not_mem]
        intro j hj
        obtain ⟨e, he, e'⟩ := (Bench.stored_iff hM.wM hM.pM (by omega)).1 hj
        have h1 := hmask e he
        have h2 := (Prod.mk.inj e').1
        omega
    have hr : i ≤ x.M.rows := by rw [hM.rM, ← hM.rA]; exact Nat.le_of_lt hi
    have := this (x.M.rows - i) (by omega)
    rw [← this, show i + (x.M.rows - i) = x.M.rows by omega]
    exact hM.wM.ptrLast
  obtain ⟨rest, e⟩ := main_split (enc := enc) h hrounds hx sch
  have hr1 := runOne_never (enc := enc) (file := x.fileName) (name := "HeapSpGEMM<rowAlg::MCA_v1> CSR".toList)
    (f := Ker.call (.mca .v1) x.A x.B x.M x.Bc tnum) (niters := a.inner.getD 1) (sch := fun i => sch (0, 7, 0, i)) (tnum := tnum) (by
      intro C0 c C
      exact C75_violated_empty (by decide) _ _ 0 hv (nodup_of_sorted hM.sM) hi htouch hptr _ tnum h.pos (.inl (by have := h.small; rw [hM.rA]; omega))
        _ (by rw [hM.rA]; exact (hadm (0, 7, 0, c)).gen) C)
  have hrun : (run enc x.fileName "HeapSpGEMM<rowAlg::MCA_v1> CSR".toList (Ker.call (.mca .v1) x.A x.B x.M x.Bc) (a.inner.getD 1) [tnum] x.flop
        fun j i => sch (0, 7, j, i)).events = [.total (pairings es fs * 2)] ∧
      (run enc x.fileName "HeapSpGEMM<rowAlg::MCA_v1> CSR".toList (Ker.call (.mca .v1) x.A x.B x.M x.Bc) (a.inner.getD 1) [tnum] x.flop
        fun j i => sch (0, 7, j, i)).status ≠ .ok (some ()) := by
    unfold run
    show (Out.seq ⟨[.total x.flop], .ok (some ())⟩ (Out.seq (runOne _ _ _ _ _ _ _) _)).events = _ ∧ (Out.seq ⟨[.total x.flop], .ok (some ())⟩ (Out.seq (runOne _ _ _ _ _ _ _) _)).status ≠ _
    rw [seq_done rfl, seq_stop hr1.2]
    refine ⟨?_, hr1.2⟩
    show [Event.total x.flop] ++ (runOne _ _ _ _ _ _ _).events = _
    rw [hr1.1, hfl]
    rfl
  rw [e]
  rcases hK sch hadm with hg | ⟨-, h2, h3⟩
  · rw [hg, seq_done rfl, seq_stop hrun.2]
    refine ⟨hrun.2, ?_⟩
    show _ ++ Out.events (run _ _ _ _ _ _ _ _) <+: _
    rw [hrun.1]
  · rw [seq_stop (by rw [h2]; simp)]
    exact ⟨by rw [h2]; simp, h3.trans (List.prefix_append _ _)⟩

/-- C82 is violated for every call without a number of threads, in which the program should run with 4, 8, 16, 32 and 64 threads: the name of
the file is not set, so the program prints at most the number of operations and the result of the first algorithm with 4 threads, never a
line for the log, and does not come to its end. -/
theorem C82_violated_default (ofInt : Int → R) (sortf : List (Nat × R) → List (Nat × R)) (o : Orders) (enc : R → List UInt8)
    (hthreads : a.threads = none) (hrounds : 0 < a.outer.getD 1) (sch : Nat × Nat × Nat × Nat → Sch) :
    (main ofInt enc sortf o a sch).status ≠ .ok (some ()) ∧ (main ofInt enc sortf o a sch).events.length ≤ 2 ∧
      ∀ file name t z c, Event.log file name t z c ∉ (main ofInt enc sortf o a sch).events := by
  unfold main
  cases hx : MaskedAll.setup ofInt sortf o a with
  | error e => exact ⟨by simp, by simp, by simp⟩
  | ok x =>
    have hf : x.fileName = none := by
      unfold MaskedAll.setup at hx
      rw [hthreads] at hx
      simp only [ok_bind] at hx
      obtain ⟨_, -, hx⟩ := MatObj.bind_eq_ok hx
      obtain ⟨_, -, hx⟩ := MatObj.bind_eq_ok hx
      obtain ⟨_, -, hx⟩ := MatObj.bind_eq_ok hx
      obtain ⟨_, -, hx⟩ := MatObj.bind_eq_ok hx
      obtain ⟨_, -, hx⟩ := MatObj.bind_eq_ok hx
      obtain ⟨_, -, hx⟩ := MatObj.bind_eq_ok hx
      obtain ⟨_, -, hx⟩ := MatObj.bind_eq_ok hx
      obtain ⟨_, -, hx⟩ := MatObj.bind_eq_ok hx
      obtain ⟨_, -, hx⟩ := MatObj.bind_eq_ok hx
      obtain ⟨_, -, hx⟩ := MatObj.bind_eq_ok hx
      rw [← Except.ok.inj hx]
    show (rounds _ _ _ _ _ _).status ≠ _ ∧ (rounds _ _ _ _ _ _).events.length ≤ 2 ∧ ∀ file name t z c, Event.log file name t z c ∉ (rounds _ _ _ _ _ _).events
    have ht : a.tnums = [4, 8, 16, 32, 64] := by unfold Args.tnums; rw [hthreads]
    obtain ⟨q, hq⟩ : ∃ q, a.outer.getD 1 = q + 1 := ⟨a.outer.getD 1 - 1, by omega⟩
    have hone : ∀ (name : List Char) (f : CSR R → Sch → Res (Option (CSR R))) (niters : Nat) (s : Nat → Sch) (t : Nat),
        (runOne enc none name f niters s t).status ≠ .ok (some ()) ∧ ((runOne enc none name f niters s t).events = [] ∨
          ∃ z c, (runOne enc none name f niters s t).events = [.result name t z c]) := by
      intro name f niters s t
      unfold runOne
      cases calls f niters s with
      | error e => exact ⟨by simp, .inl rfl⟩
      | ok r =>
        cases r with
        | none => exact ⟨by simp, .inl rfl⟩
        | some C => exact ⟨by simp, .inr ⟨_, _, rfl⟩⟩
    unfold rounds
    rw [ht, hq, List.range_succ_eq_map, hf]
    obtain ⟨h1, h2⟩ := hone "MaskedSPASpGEMM CSR".toList (Ker.call .spa x.A x.B x.M x.Bc 4) (a.inner.getD 1) (fun i => sch (0, 0, 0, i)) 4
    have hsplit : ∃ r1 r2, seqAll ((0 :: List.map Nat.succ (List.range q)).flatMap fun r => kernels.zipIdx.map fun k =>
        run enc none k.1.1 (k.1.2.call x.A x.B x.M x.Bc) (a.inner.getD 1) [4, 8, 16, 32, 64] x.flop fun j i => sch (r, k.2, j, i)) =
        (Out.seq ⟨[.total x.flop], .ok (some ())⟩ ((runOne enc none "MaskedSPASpGEMM CSR".toList (Ker.call .spa x.A x.B x.M x.Bc 4) (a.inner.getD 1) (fun i => sch (0, 0, 0, i)) 4).seq r1)).seq r2 :=
      ⟨_, _, rfl⟩
    obtain ⟨r1, r2, e⟩ := hsplit
    rw [e, seq_done (a := ⟨[Event.total x.flop], .ok (some ())⟩) rfl, seq_stop h1, seq_stop (by exact h1)]
    refine ⟨h1, ?_, ?_⟩
    · show ([Event.total x.flop] ++ Out.events _).length ≤ 2
      rcases h2 with h2 | ⟨z, c, h2⟩ <;> rw [h2] <;> simp
    · intro file name t z c
      show _ ∉ [Event.total x.flop] ++ Out.events _
      rcases h2 with h2 | ⟨z, c, h2⟩ <;> rw [h2] <;> simp

/-- C82 is violated for every call with a number of threads and a path without a directory: the program reads in front of the path before it reads
any file. -/
theorem C82_violated_path (ofInt : Int → R) (sortf : List (Nat × R) → List (Nat × R)) (o : Orders) (enc : R → List UInt8) {tnum : Nat}
    (hthreads : a.threads = some tnum) (hpath : '/' ∉ a.path) (sch : Nat × Nat × Nat × Nat → Sch) :
    main ofInt enc sortf o a sch = ⟨[], .error .oob⟩ := by
  have : MaskedAll.setup ofInt sortf o a = .error .oob := by
    unfold MaskedAll.setup
    rw [hthreads]
    simp only [C80_violated hpath]
    rfl
  unfold main
  rw [this]

/-! ## Examples -/

/-- Schedules as required exist, for all numbers of rows and threads. -/
theorem schedule_exists (rows n K : Nat) : ∃ s, SchAdm rows n s ∧ SchFair n K s := by
  obtain ⟨g, hg, hgf⟩ := fair_exists rows n K
  let b : Bin.Sched := { intprod := List.range rows, s1 := [], s2 := [], threads := List.range n, ids := List.range rows }
  refine ⟨{ two := { bin := b, count := g.first, s1 := [], s2 := [], fill := g.second }, dot := { bin := b, main := g.first }, order1 := List.range rows, s1 := [], s2 := [], order2 := List.range rows, gen := g }, ?_, ?_⟩
  · exact ⟨⟨.refl _, .refl _, .refl _⟩, ⟨.refl _, .refl _, .refl _⟩, .refl _, .refl _, hg⟩
  · exact ⟨fun t ht => ⟨(hgf t ht).2.2.1, (hgf t ht).2.2.2⟩, fun t ht => (hgf t ht).2.2.1, hgf⟩

/-- Two vertices joined in both directions, and a loop -/
def loopFile : MMText :=
  { field := .integer, sym := .general, comments := [], size := "2 2 3".toList, entries := ["1 1 2".toList, "1 2 3".toList, "2 1 4".toList] }

def loopText : List Char := Spec.banner .integer .general ++ "\n2 2 3\n1 1 2\n1 2 3\n2 1 4\n".toList

theorem loopText_of : FileOf Int.toNat (fun v => v) loopText 2 2 [(0, 0, 2), (0, 1, 3), (1, 0, 4)] := by
  refine ⟨loopFile, [(0, 0, 2), (0, 1, 3), (1, 0, 4)], ⟨by decide +kernel, ?_, ?_, by decide, fun _ => rfl⟩, rfl, by decide +kernel, by decide,
    by rintro ⟨_, c, hc, _⟩; simp [loopFile] at hc, .inl ⟨[], by decide +kernel⟩, by decide⟩
  · exact .mk ['2'] ['2'] ['3'] 2 2 3 (.digit 2 (by decide)) (.digit 2 (by decide)) (.digit 3 (by decide))
  · exact .cons (.value ['1'] ['1'] ['2'] 0 0 2 (.digit 1 (by decide)) (.digit 1 (by decide)) ⟨2, .pos ['2'] 2 (.digit 2 (by decide)), rfl⟩)
      (.cons (.value ['1'] ['2'] ['3'] 0 1 3 (.digit 1 (by decide)) (.digit 2 (by decide)) ⟨3, .pos ['3'] 3 (.digit 3 (by decide)), rfl⟩)
      (.cons (.value ['2'] ['1'] ['4'] 1 0 4 (.digit 2 (by decide)) (.digit 1 (by decide)) ⟨4, .pos ['4'] 4 (.digit 4 (by decide)), rfl⟩) .nil))

/-- A mask with one entry in the first row -/
def cornerFile : MMText := { field := .integer, sym := .general, comments := [], size := "2 2 1".toList, entries := ["1 1 1".toList] }

def cornerText : List Char := Spec.banner .integer .general ++ "\n2 2 1\n1 1 1\n".toList

theorem cornerText_of : FileOf Int.toNat (fun v => v) cornerText 2 2 [(0, 0, 1)] := by
  refine ⟨cornerFile, [(0, 0, 1)], ⟨by decide +kernel, ?_, ?_, by decide, fun _ => rfl⟩, rfl, by decide +kernel, by decide,
    by rintro ⟨_, c, hc, _⟩; simp [cornerFile] at hc, .inl ⟨[], by decide +kernel⟩, by decide⟩
  · exact .mk ['2'] ['2'] ['1'] 2 2 1 (.digit 2 (by decide)) (.digit 2 (by decide)) (.digit 1 (by decide))
  · exact .cons (.value ['1'] ['1'] ['1'] 0 0 1 (.digit 1 (by decide)) (.digit 1 (by decide)) ⟨1, .pos ['1'] 1 (.digit 1 (by decide)), rfl⟩) .nil

/-- The arguments of the example, with the mask given -/
def callArgs (mask : List Char) : Args :=
  { path := "data/loop.mtx".toList, fileA := some loopText, fileB := some loopText, fileM := some mask, threads := some 4, outer := some 2, inner := some 3 }

def callOrders : Orders := { readA := [1, 0], readB := [0, 1], readM := [0, 1], flop := [1, 0] }

theorem loop_called : Called Int.toNat (fun v => v) (callArgs loopText) callOrders 2 2 2 4 [(0, 0, 2), (0, 1, 3), (1, 0, 4)] [(0, 0, 2), (0, 1, 3), (1, 0, 4)]
    [(0, 0, 2), (0, 1, 3), (1, 0, 4)] :=
  ⟨⟨_, rfl, loopText_of⟩, ⟨_, rfl, loopText_of⟩, ⟨_, rfl, loopText_of⟩, by decide, by decide, by decide, by decide, rfl, by decide, by decide, by decide, by decide⟩

theorem corner_called : Called Int.toNat (fun v => v) (callArgs cornerText) callOrders 2 2 2 4 [(0, 0, 2), (0, 1, 3), (1, 0, 4)] [(0, 0, 2), (0, 1, 3), (1, 0, 4)]
    [(0, 0, 1)] :=
  ⟨⟨_, rfl, loopText_of⟩, ⟨_, rfl, loopText_of⟩, ⟨_, rfl, cornerText_of⟩, by decide, by decide, by decide, by decide, rfl, by decide, by decide, by decide, by decide⟩

example := C82_same_positions (R := Nat) (enc := bytesLE 8) (isort_sorts Prod.fst) loop_called (fun _ _ => .rfl) (fun _ _ => .rfl)
  (by
    rintro i k ⟨e, he, e'⟩
    have : e.2.1 = k := (Prod.mk.inj e').2
    subst this
    revert he
    simp only [List.mem_cons, List.not_mem_nil, or_false]
    rintro (rfl | rfl | rfl)
    · exact ⟨0, (0, 0, 2), by simp, rfl⟩
    · exact ⟨0, (1, 0, 4), by simp, rfl⟩
    · exact ⟨0, (0, 0, 2), by simp, rfl⟩) Bench.bytesLE_even

example := C82_seven_partial (R := Nat) (enc := bytesLE 8) (isort_sorts Prod.fst) corner_called (by decide) (by decide) Bench.bytesLE_even

example := C82_violated_mca (R := Nat) (enc := bytesLE 8) (isort_sorts Prod.fst) corner_called (by decide) (by decide) Bench.bytesLE_even (i := 1)
  ⟨0, 0, ⟨(1, 0, 4), by simp, rfl⟩, ⟨(0, 0, 2), by simp, rfl⟩⟩ (by decide)

/-- The entries of the product in the example -/
example : MaskedEntries (R := Nat) [(0, 0, 2), (0, 1, 3), (1, 0, 4)] [(0, 0, 2), (0, 1, 3), (1, 0, 4)] [(0, 0, 1)] [(0, 0, 16)] where
  nodup := by decide
  mem := by
    intro i j v
    constructor
    · intro h
      simp only [List.mem_singleton, Prod.mk.injEq] at h
      obtain ⟨rfl, rfl, rfl⟩ := h
      exact ⟨⟨(0, 0, 1), by simp, rfl⟩, ⟨0, ⟨(0, 0, 2), by simp, rfl⟩, (0, 0, 2), by simp, rfl⟩, by decide⟩
    · rintro ⟨⟨e, he, e'⟩, -, rfl⟩
      simp only [List.mem_singleton] at he
      subst he
      obtain ⟨rfl, rfl⟩ := Prod.mk.inj e'
      decide

example := C82_violated_default (R := Nat) (a := { callArgs loopText with threads := none }) Int.toNat (fun l => l) callOrders (bytesLE 8) rfl (by decide)

example := C82_violated_path (R := Nat) (a := { callArgs loopText with path := "loop.mtx".toList }) Int.toNat (fun l => l) callOrders (bytesLE 8) rfl (by decide)

end Verif.Props
