import Verif.Lemmas.RaceConvFree
import Verif.Lemmas.RaceConvAcc
import Verif.Props.C24
import Verif.Props.C32

/-!
# C105: data races in sorting, conversion, intersection and transposition

No parallel loop of `CSR::sortIds`, `Intersect`, the constructors of `CSC` from triples, tuples, arrays and edges, and
`csr2csc_atomic_nosort` has a data race. Only sorting and transposition need a valid matrix; without it sorting can be racy
(`C105_sort_needs_valid`).
-/

namespace Verif.Props
open Verif.Model Verif.Model.RaceOld
open RaceConv (loopRun)
open RaceOuter (loopTrace)

variable {V : Type}

/-! ## The programs whose accesses are listed are the loops of the models -/

theorem C105_sort_faithful (sortf : List (Nat × V) → List (Nat × V)) (order : List Nat) (A : CSR V) :
    Reorder.sortIds sortf order A = (do
      let s ← loopRun (RaceConv.sortProg sortf A.rowptr) order (A.colids, A.values)
      .ok { A with colids := s.1, values := s.2 }) := by
  rw [RaceConv.loopRun_eq (RaceConv.exec_sortProg sortf A.rowptr)]
  rfl

theorem C105_intersect_faithful (add : V → V → V) (A B : CSR V) (dflt : V) (n : Nat) (order1 s1 s2 order2 : List Nat)
    (hd : A.rows = B.rows ∧ A.cols = B.cols) :
    Intersect.intersect add A B dflt n order1 s1 s2 order2 = (do
      let s ← loopRun (RaceConv.mergeProg add A B) order1 (List.replicate A.rows 0, List.replicate A.rows [])
      let r ← UtilScan.scan s.1 (A.rows + 1) (List.replicate (A.rows + 1) 0) n s1 s2
      match r with
      | none => .ok none
      | some rowptr => do
        let nnz ← rd rowptr A.rows
        let t ← loopRun (RaceConv.copyProg s.2 rowptr) order2 (List.replicate nnz 0, List.replicate nnz dflt)
        .ok (some { rows := A.rows, cols := A.cols, nnz := nnz, rowptr := rowptr, colids := t.1, values := t.2,
                    zerobased := A.zerobased })) := by
  rw [RaceConv.loopRun_eq (step := fun s i => do
    let xs ← Intersect.mergeRow add A B i
    let vecs ← wr s.2 i xs
    let rowNz ← wr s.1 i xs.length
    .ok (rowNz, vecs)) (fun i g => by rw [RaceConv.exec_mergeProg]; simp only [bind_assoc, ok_bind])]
  unfold Intersect.intersect
  rw [if_neg (by rw [hd.1, hd.2]; simp)]
  refine congrArg _ (funext fun s => ?_)
  obtain ⟨rowNz, vecs⟩ := s
  dsimp only
  refine congrArg _ (funext fun r => ?_)
  cases r with
  | none => rfl
  | some rowptr =>
    dsimp only
    refine congrArg _ (funext fun nnz => ?_)
    rw [RaceConv.loopRun_eq (step := fun x i => do
      let xs ← rd vecs i
      let off ← rd rowptr i
      Intersect.copyRow off xs x) (fun i g => by rw [RaceConv.exec_copyProg]; simp only [bind_assoc])]

theorem C105_triples_faithful (sortf : List (Nat × V) → List (Nat × V)) (order : List Nat) (dflt : V)
    {triples : List (Nat × Nat × V)} (h : triples ≠ []) (m n : Nat) :
    Conv.cscOfTriples sortf order dflt triples m n = (do
      let r ← RaceConv.triplesSetup dflt triples n
      let s ← loopRun (RaceConv.colProg sortf r.1) order
        (r.2, List.replicate triples.length 0, List.replicate triples.length dflt)
      .ok { rows := m, cols := n, nnz := triples.length, colptr := r.1, rowids := s.2.1, values := s.2.2 }) := by
  unfold Conv.cscOfTriples RaceConv.triplesSetup
  have hl : triples.length > 0 := List.length_pos_iff.2 h
  simp only [if_pos hl, bind_assoc, ok_bind]
  refine congrArg _ (funext fun w => ?_)
  refine congrArg _ (funext fun c => ?_)
  refine congrArg _ (funext fun p => ?_)
  refine congrArg _ (funext fun q => ?_)
  refine congrArg _ (funext fun r => ?_)
  rw [RaceConv.loopRun_eq (step := fun s i => do
    let b ← rd q i
    let e ← rd q (i + 1)
    let tosort ← Conv.sortRange sortf s.1 b e
    let x ← forRange b e s.2 (fun ind x => do
      let p ← rd tosort ind
      let rowids ← wr x.1 ind p.1
      let values ← wr x.2 ind p.2
      .ok (rowids, values))
    .ok (tosort, x)) (fun i g => by rw [RaceConv.exec_colProg]; simp only [bind_assoc, ok_bind])]

theorem C105_edges_faithful (sortf : List Nat → List Nat) (order order2 : List Nat) (dflt one : V)
    {edges : List (Nat × Nat)} (h : edges ≠ []) (m n : Nat) :
    Conv.cscOfEdges sortf order order2 dflt one edges m n = (do
      let r ← RaceConv.edgesSetup edges n
      let rowids ← loopRun (RaceConv.edgeProg sortf r.1) order r.2
      let values ← loopRun (RaceConv.oneProg one) order2 (List.replicate edges.length dflt)
      .ok { rows := m, cols := n, nnz := edges.length, colptr := r.1, rowids := rowids, values := values }) := by
  unfold Conv.cscOfEdges RaceConv.edgesSetup
  have hl : edges.length > 0 := List.length_pos_iff.2 h
  simp only [if_pos hl, bind_assoc, ok_bind]
  refine congrArg _ (funext fun w => ?_)
  refine congrArg _ (funext fun c => ?_)
  refine congrArg _ (funext fun p => ?_)
  refine congrArg _ (funext fun q => ?_)
  refine congrArg _ (funext fun r => ?_)
  rw [RaceConv.loopRun_eq (step := fun s i => do
    let b ← rd q i
    let e ← rd q (i + 1)
    Conv.sortRange sortf s b e) (fun i g => by rw [RaceConv.exec_edgeProg]; simp only [bind_assoc]),
    RaceConv.loopRun_eq (step := fun s k => wr s k one) (fun i g => RaceConv.exec_oneProg one i g)]

theorem C105_transpose_faithful (A : CSR V) (past colptr rowidx : List Nat) (val : List V) (order1 order2 : List (Nat × Nat)) :
    Transpose.csr2csc A past colptr rowidx val order1 order2 = (do
      let s ← loopRun (RaceConv.countProg A) order1 (List.replicate A.cols 0 ++ past, List.replicate A.nnz 0)
      let colptr ← RaceConv.pointers A s.1 colptr
      let t ← loopRun (RaceConv.placeProg A colptr s.2) order2 (rowidx, val)
      .ok (colptr, t.1, t.2)) := by
  rw [RaceConv.loopRun_eq (RaceConv.exec_countProg A)]
  unfold Transpose.csr2csc RaceConv.pointers
  simp only [bind_assoc]
  refine congrArg _ (funext fun s => ?_)
  refine congrArg _ (funext fun c => ?_)
  refine congrArg _ (funext fun q => ?_)
  rw [RaceConv.loopRun_eq (RaceConv.exec_placeProg A q s.2)]

/-! ## No races -/

/-- C105 for `sortIds`: every valid matrix, every distribution of the rows among the threads, any sorting function. -/
theorem C105_sort (sortf : List (Nat × V) → List (Nat × V)) (who : Nat → Nat) (order : List Nat) {A : CSR V} (hA : A.WF) :
    ¬ Racy (loopTrace who (RaceConv.sortProg sortf A.rowptr) order (A.colids, A.values)) :=
  RaceConv.sort_free (RaceConv.mono_ptr hA) sortf who order _

/-- C105 for `Intersect`: all matrices, valid or not. -/
theorem C105_intersect (add : V → V → V) (A B : CSR V) (dflt : V) {n : Nat} (hn : 0 < n) (w1 w2 : Nat → Nat)
    (order1 s1 s2 order2 : List Nat) : ∀ tr ∈ RaceConv.intersectTraces add A B dflt n w1 w2 order1 s1 s2 order2, ¬ Racy tr :=
  RaceConv.intersect_free add A B dflt hn w1 w2 order1 s1 s2 order2

/-- C105 for the constructors from triples, tuples and arrays: all arguments, valid or not. -/
theorem C105_triples (sortf : List (Nat × V) → List (Nat × V)) (who : Nat → Nat) (order : List Nat) (dflt : V)
    (triples : List (Nat × Nat × V)) (n : Nat) : ∀ tr ∈ RaceConv.triplesTraces sortf who order dflt triples n, ¬ Racy tr :=
  RaceConv.triples_free sortf who order dflt triples n

/-- C105 for the constructor from edges -/
theorem C105_edges (sortf : List Nat → List Nat) (w1 w2 : Nat → Nat) (order order2 : List Nat) (dflt one : V)
    (edges : List (Nat × Nat)) (n : Nat) :
    ∀ tr ∈ RaceConv.edgesTraces sortf w1 w2 order order2 dflt one edges n, ¬ Racy tr :=
  RaceConv.edges_free sortf w1 w2 order order2 dflt one edges n

/-- C105 for the transposition: every valid matrix and all interleavings of the two loops. The access past the end of the array of
counters between the loops (C32) is let through, whatever is there: otherwise no run gets to the second loop. -/
theorem C105_transpose {A : CSR V} (hA : A.WF) (past colptr rowidx : List Nat) (val : List V) (w1 w2 : Nat → Nat)
    {order1 order2 : List (Nat × Nat)} (h1 : Interleaving A order1) (h2 : Interleaving A order2) :
    ∀ tr ∈ RaceConv.transposeTraces A past colptr rowidx val w1 w2 order1 order2, ¬ Racy tr :=
  RaceConv.transpose_free hA past colptr rowidx val w1 w2 h1 h2

/-! ## The lists are complete

The accesses of a call that returns, written out. Every loop is listed, with all its iterations in their order and with the thread that
runs each of them. -/

/-- Threads with accesses -/
def by_ (t : Nat) (l : List Access) : List (Nat × Access) := l.map fun a => (t, a)

/-- Both arrays at `b`, …, `b + len - 1` -/
def bothAt (write : Bool) (b len : Nat) : List Access :=
  (List.range' b len).flatMap fun k => [⟨.numbers, k, write⟩, ⟨.values, k, write⟩]

/-- `sortIds` reads the cells of the row, then writes them. -/
theorem C105_sort_regions {sortf : List (Nat × V) → List (Nat × V)} (who : Nat → Nat) {order : List Nat} {A C : CSR V}
    (h : Reorder.sortIds sortf order A = .ok C) :
    loopTrace who (RaceConv.sortProg sortf A.rowptr) order (A.colids, A.values) =
      order.flatMap fun i => by_ (who i) (bothAt false (A.rowptr.getD i 0) (A.rowptr.getD (i + 1) 0 - A.rowptr.getD i 0) ++
        bothAt true (A.rowptr.getD i 0) (A.rowptr.getD (i + 1) 0 - A.rowptr.getD i 0)) := by
  rw [C105_sort_faithful] at h
  obtain ⟨s, h1, _⟩ := Alias.bind_ok' h
  exact RaceConv.loopTrace_lists (RaceConv.lists_sort sortf A.rowptr) who _ _ _ h1

/-- `Intersect` writes the row and its length, then the row of the result; `len` are the numbers of entries. -/
theorem C105_intersect_regions {add : V → V → V} {A B : CSR V} {dflt : V} {n : Nat} (w1 w2 : Nat → Nat)
    {order1 s1 s2 order2 : List Nat} {C : CSR V} (hd : A.rows = B.rows ∧ A.cols = B.cols)
    (h : Intersect.intersect add A B dflt n order1 s1 s2 order2 = .ok (some C)) :
    ∃ len : Nat → Nat, RaceConv.intersectTraces add A B dflt n w1 w2 order1 s1 s2 order2 =
      [order1.flatMap fun i => by_ (w1 i) [⟨.values, i, true⟩, ⟨.numbers, i, true⟩],
       order2.flatMap fun i => by_ (w2 i) (bothAt true (C.rowptr.getD i 0) (len i))] := by
  rw [C105_intersect_faithful _ _ _ _ _ _ _ _ _ hd] at h
  obtain ⟨s, h1, h⟩ := Alias.bind_ok' h
  obtain ⟨r, h2, h⟩ := Alias.bind_ok' h
  rcases r with _ | rowptr
  · cases h
  obtain ⟨nnz, h3, h⟩ := Alias.bind_ok' h
  obtain ⟨t, h4, h⟩ := Alias.bind_ok' h
  cases h
  refine ⟨fun i => (s.2.getD i []).length, ?_⟩
  unfold RaceConv.intersectTraces
  rw [if_neg (by rw [hd.1, hd.2]; simp), h1]
  simp only [done, h2, h3]
  rw [RaceConv.loopTrace_lists (RaceConv.lists_merge add A B) w1 _ _ _ h1,
    RaceConv.loopTrace_lists (RaceConv.lists_copy s.2 rowptr) w2 _ _ _ h4]
  rfl

/-- The constructors sort the range of the column, then read every cell of it and write the two arrays. -/
theorem C105_triples_regions {sortf : List (Nat × V) → List (Nat × V)} (who : Nat → Nat) {order : List Nat} {dflt : V}
    {triples : List (Nat × Nat × V)} (ht : triples ≠ []) {m n : Nat} {C : CSC V}
    (h : Conv.cscOfTriples sortf order dflt triples m n = .ok C) :
    RaceConv.triplesTraces sortf who order dflt triples n = [order.flatMap fun i =>
      by_ (who i) (((List.range' (C.colptr.getD i 0) (C.colptr.getD (i + 1) 0 - C.colptr.getD i 0)).map fun k => ⟨.block 0, k, true⟩) ++
        (List.range' (C.colptr.getD i 0) (C.colptr.getD (i + 1) 0 - C.colptr.getD i 0)).flatMap fun k =>
          [⟨.block 0, k, false⟩, ⟨.numbers, k, true⟩, ⟨.values, k, true⟩])] := by
  rw [C105_triples_faithful _ _ _ ht] at h
  obtain ⟨s, h1, h⟩ := Alias.bind_ok' h
  obtain ⟨t, h2, h⟩ := Alias.bind_ok' h
  cases h
  unfold RaceConv.triplesTraces
  rw [h1]
  dsimp only
  rw [RaceConv.loopTrace_lists (RaceConv.lists_col sortf s.1) who _ _ _ h2]
  rfl

/-- The one from edges sorts the range of the column, then writes the values. -/
theorem C105_edges_regions {sortf : List Nat → List Nat} (w1 w2 : Nat → Nat) {order order2 : List Nat} {dflt one : V}
    {edges : List (Nat × Nat)} (ht : edges ≠ []) {m n : Nat} {C : CSC V}
    (h : Conv.cscOfEdges sortf order order2 dflt one edges m n = .ok C) :
    RaceConv.edgesTraces sortf w1 w2 order order2 dflt one edges n =
      [order.flatMap fun i => by_ (w1 i)
        ((List.range' (C.colptr.getD i 0) (C.colptr.getD (i + 1) 0 - C.colptr.getD i 0)).map fun k => ⟨.numbers, k, true⟩),
       order2.flatMap fun k => by_ (w2 k) [⟨.values, k, true⟩]] := by
  rw [C105_edges_faithful _ _ _ _ _ ht] at h
  obtain ⟨s, h1, h⟩ := Alias.bind_ok' h
  obtain ⟨t, h2, h⟩ := Alias.bind_ok' h
  obtain ⟨u, h3, h⟩ := Alias.bind_ok' h
  cases h
  unfold RaceConv.edgesTraces
  rw [h1]
  simp only [h2]
  rw [RaceConv.loopTrace_lists (RaceConv.lists_edge sortf s.1) w1 _ _ _ h2,
    RaceConv.loopTrace_lists (RaceConv.lists_one one) w2 _ _ _ h3]
  rfl

/-- Transposition writes the place of every entry within its column, then the entry at `pos`, which is in or behind the part of its
column. -/
theorem C105_transpose_regions {A : CSR V} {past colptr rowidx : List Nat} {val : List V} (w1 w2 : Nat → Nat)
    {order1 order2 : List (Nat × Nat)} {r : List Nat × List Nat × List V}
    (h : Transpose.csr2csc A past colptr rowidx val order1 order2 = .ok r) :
    ∃ pos : Nat → Nat, (∀ k, r.1.getD (A.colids.getD k 0) 0 ≤ pos k) ∧
      RaceConv.transposeTraces A past colptr rowidx val w1 w2 order1 order2 =
        [order1.flatMap fun p => by_ (w1 p.1) [⟨.values, p.2, true⟩],
         order2.flatMap fun p => by_ (w2 p.1) [⟨.numbers, pos p.2, true⟩, ⟨.values, pos p.2, true⟩]] := by
  rw [C105_transpose_faithful] at h
  obtain ⟨s, h1, h⟩ := Alias.bind_ok' h
  obtain ⟨t, h2, h⟩ := Alias.bind_ok' h
  obtain ⟨u, h3, h⟩ := Alias.bind_ok' h
  cases h
  refine ⟨fun k => t.getD (A.colids.getD k 0) 0 + s.2.getD k 0, fun k => Nat.le_add_right _ _, ?_⟩
  unfold RaceConv.transposeTraces
  rw [h1]
  simp only [h2]
  rw [RaceConv.loopTrace_lists (RaceConv.lists_count A) (fun p => w1 p.1) _ _ _ h1,
    RaceConv.loopTrace_lists (RaceConv.lists_place A t s.2) (fun p => w2 p.1) _ _ _ h3]
  rfl

/-! ## What a call changes is listed as written -/

/-- `sortIds`: a column index or value that is not the old one -/
theorem C105_sort_writes {sortf : List (Nat × V) → List (Nat × V)} (who : Nat → Nat) {order : List Nat} {A C : CSR V}
    (h : Reorder.sortIds sortf order A = .ok C) (k : Nat) :
    (C.colids[k]? ≠ A.colids[k]? → ∃ i ∈ order, (who i, ⟨.numbers, k, true⟩) ∈
      loopTrace who (RaceConv.sortProg sortf A.rowptr) order (A.colids, A.values)) ∧
    (C.values[k]? ≠ A.values[k]? → ∃ i ∈ order, (who i, ⟨.values, k, true⟩) ∈
      loopTrace who (RaceConv.sortProg sortf A.rowptr) order (A.colids, A.values)) := by
  rw [C105_sort_faithful] at h
  obtain ⟨s, h1, h⟩ := Alias.bind_ok' h
  cases h
  have hw := RaceConv.loop_writes (RaceConv.honest_sort sortf A.rowptr) who _ _ _ h1
  exact ⟨fun hne => hw .numbers k (fun e => hne (Option.map_injective Sum.inl_injective e)),
    fun hne => hw .values k (fun e => hne (Option.map_injective Sum.inr_injective e))⟩

/-- `Intersect`: a column index or value that is not the one of the new arrays -/
theorem C105_intersect_writes {add : V → V → V} {A B : CSR V} {dflt : V} {n : Nat} (w1 w2 : Nat → Nat)
    {order1 s1 s2 order2 : List Nat} {C : CSR V} (hd : A.rows = B.rows ∧ A.cols = B.cols)
    (h : Intersect.intersect add A B dflt n order1 s1 s2 order2 = .ok (some C)) (k : Nat) :
    (C.colids[k]? ≠ (List.replicate C.nnz 0)[k]? → ∃ tr ∈ RaceConv.intersectTraces add A B dflt n w1 w2 order1 s1 s2 order2,
      ∃ i ∈ order2, (w2 i, ⟨.numbers, k, true⟩) ∈ tr) ∧
    (C.values[k]? ≠ (List.replicate C.nnz dflt)[k]? → ∃ tr ∈ RaceConv.intersectTraces add A B dflt n w1 w2 order1 s1 s2 order2,
      ∃ i ∈ order2, (w2 i, ⟨.values, k, true⟩) ∈ tr) := by
  rw [C105_intersect_faithful _ _ _ _ _ _ _ _ _ hd] at h
  obtain ⟨s, h1, h⟩ := Alias.bind_ok' h
  obtain ⟨r, h2, h⟩ := Alias.bind_ok' h
  rcases r with _ | rowptr
  · cases h
  obtain ⟨nnz, h3, h⟩ := Alias.bind_ok' h
  obtain ⟨t, h4, h⟩ := Alias.bind_ok' h
  cases h
  have hw := RaceConv.loop_writes (RaceConv.honest_copy s.2 rowptr) w2 _ _ _ h4
  have hm : loopTrace w2 (RaceConv.copyProg s.2 rowptr) order2 (List.replicate nnz 0, List.replicate nnz dflt) ∈
      RaceConv.intersectTraces add A B dflt n w1 w2 order1 s1 s2 order2 := by
    unfold RaceConv.intersectTraces
    rw [if_neg (by rw [hd.1, hd.2]; simp), h1]
    simp only [done, h2, h3]
    exact List.mem_cons_of_mem _ List.mem_cons_self
  exact ⟨fun hne => ⟨_, hm, hw .numbers k (fun e => hne (Option.map_injective Sum.inl_injective e))⟩,
    fun hne => ⟨_, hm, hw .values k (fun e => hne (Option.map_injective Sum.inr_injective e))⟩⟩

/-- The constructors, with a sorting function that keeps the number of entries -/
theorem C105_triples_writes {sortf : List (Nat × V) → List (Nat × V)} (hs : ∀ l, (sortf l).length = l.length) (who : Nat → Nat)
    {order : List Nat} {dflt : V} {triples : List (Nat × Nat × V)} (ht : triples ≠ []) {m n : Nat} {C : CSC V}
    (h : Conv.cscOfTriples sortf order dflt triples m n = .ok C) (k : Nat) :
    (C.rowids[k]? ≠ (List.replicate triples.length 0)[k]? → ∃ tr ∈ RaceConv.triplesTraces sortf who order dflt triples n,
      ∃ i ∈ order, (who i, ⟨.numbers, k, true⟩) ∈ tr) ∧
    (C.values[k]? ≠ (List.replicate triples.length dflt)[k]? → ∃ tr ∈ RaceConv.triplesTraces sortf who order dflt triples n,
      ∃ i ∈ order, (who i, ⟨.values, k, true⟩) ∈ tr) := by
  rw [C105_triples_faithful _ _ _ ht] at h
  obtain ⟨s, h1, h⟩ := Alias.bind_ok' h
  obtain ⟨t, h2, h⟩ := Alias.bind_ok' h
  cases h
  have hw := RaceConv.loop_writes (RaceConv.honest_col hs s.1) who _ _ _ h2
  unfold RaceConv.triplesTraces
  rw [h1]
  exact ⟨fun hne => ⟨_, List.mem_cons_self, hw .numbers k (fun e => hne (Option.map_injective
      (fun a b (e : Sum.inr (Sum.inl a) = Sum.inr (Sum.inl b)) => Sum.inl_injective (Sum.inr_injective e)) e))⟩,
    fun hne => ⟨_, List.mem_cons_self, hw .values k (fun e => hne (Option.map_injective
      (fun a b (e : Sum.inr (Sum.inr a) = Sum.inr (Sum.inr b)) => Sum.inr_injective (Sum.inr_injective e)) e))⟩⟩

/-- The values of the one from edges; the loop over the columns only rearranges cells that it lists (`RaceConv.honest_edge`). -/
theorem C105_edges_writes {sortf : List Nat → List Nat} (w1 w2 : Nat → Nat) {order order2 : List Nat} {dflt one : V}
    {edges : List (Nat × Nat)} (ht : edges ≠ []) {m n : Nat} {C : CSC V}
    (h : Conv.cscOfEdges sortf order order2 dflt one edges m n = .ok C) (k : Nat)
    (hne : C.values[k]? ≠ (List.replicate edges.length dflt)[k]?) :
    ∃ tr ∈ RaceConv.edgesTraces sortf w1 w2 order order2 dflt one edges n, ∃ i ∈ order2, (w2 i, ⟨.values, k, true⟩) ∈ tr := by
  rw [C105_edges_faithful _ _ _ _ _ ht] at h
  obtain ⟨s, h1, h⟩ := Alias.bind_ok' h
  obtain ⟨t, h2, h⟩ := Alias.bind_ok' h
  obtain ⟨u, h3, h⟩ := Alias.bind_ok' h
  cases h
  have hw := RaceConv.loop_writes (RaceConv.honest_one one) w2 _ _ _ h3
  unfold RaceConv.edgesTraces
  rw [h1]
  simp only [h2]
  exact ⟨_, List.mem_cons_of_mem _ List.mem_cons_self, hw .values k hne⟩

/-- Transposition: a row index or value that is not the one found in the arrays of the caller -/
theorem C105_transpose_writes {A : CSR V} {past colptr rowidx : List Nat} {val : List V} (w1 w2 : Nat → Nat)
    {order1 order2 : List (Nat × Nat)} {r : List Nat × List Nat × List V}
    (h : Transpose.csr2csc A past colptr rowidx val order1 order2 = .ok r) (k : Nat) :
    (r.2.1[k]? ≠ rowidx[k]? → ∃ tr ∈ RaceConv.transposeTraces A past colptr rowidx val w1 w2 order1 order2,
      ∃ p ∈ order2, (w2 p.1, ⟨.numbers, k, true⟩) ∈ tr) ∧
    (r.2.2[k]? ≠ val[k]? → ∃ tr ∈ RaceConv.transposeTraces A past colptr rowidx val w1 w2 order1 order2,
      ∃ p ∈ order2, (w2 p.1, ⟨.values, k, true⟩) ∈ tr) := by
  rw [C105_transpose_faithful] at h
  obtain ⟨s, h1, h⟩ := Alias.bind_ok' h
  obtain ⟨t, h2, h⟩ := Alias.bind_ok' h
  obtain ⟨u, h3, h⟩ := Alias.bind_ok' h
  cases h
  have hw := RaceConv.loop_writes (RaceConv.honest_place A t s.2) (fun p => w2 p.1) _ _ _ h3
  have hm : loopTrace (fun p => w2 p.1) (RaceConv.placeProg A t s.2) order2 (rowidx, val) ∈
      RaceConv.transposeTraces A past colptr rowidx val w1 w2 order1 order2 := by
    unfold RaceConv.transposeTraces
    rw [h1]
    simp only [h2]
    exact List.mem_cons_of_mem _ List.mem_cons_self
  exact ⟨fun hne => ⟨_, hm, hw .numbers k (fun e => hne (Option.map_injective Sum.inl_injective e))⟩,
    fun hne => ⟨_, hm, hw .values k (fun e => hne (Option.map_injective Sum.inr_injective e))⟩⟩

/-- Validity is needed for `sortIds`: with row pointers that make two rows overlap, their threads write the same cell. -/
theorem C105_sort_needs_valid : ∃ (A : CSR Nat), ¬ A.WF ∧
    Racy (loopTrace id (RaceConv.sortProg (fun l => l) A.rowptr) (List.range A.rows) (A.colids, A.values)) := by
  refine ⟨⟨3, 3, 3, [0, 2, 1, 3], [0, 1, 2], [5, 6, 7], true⟩, fun h => absurd (h.ptrMono 1 (by decide)) (by decide), ?_⟩
  exact ⟨(0, ⟨.numbers, 1, true⟩), by decide +kernel, (2, ⟨.numbers, 1, true⟩), by decide +kernel, by decide, rfl, rfl, Or.inl rfl⟩

/-! ## Examples -/

example := C105_sort (fun l => l) (fun i => i % 2) [2, 0, 1] Ex.wfA
example := C105_intersect (· + ·) Ex.A Ex.A 0 (n := 2) (by omega) id id [2, 0, 1] [] [] [1, 0, 2]
example := C105_triples (fun l => l) (· % 2) [1, 0] 0 [(0, 1, 5), (1, 1, 6), (0, 0, 7)] 2
example := C105_edges (fun l => l) (· % 2) (· % 2) [1, 0] [2, 0, 1] 0 1 [(0, 1), (1, 1), (0, 0)] 2
example := C105_transpose Ex.wfA [7] [9, 9, 9, 9, 9] [9, 9, 9, 9, 9] [9, 9, 9, 9, 9] id id exInterleaving1 exInterleaving2

/-- Calls that return, as `C105_sort_regions` to `C105_transpose_writes` assume. -/
example : (Reorder.sortIds (fun l => l) [2, 0, 1] Ex.A).isOk = true ∧
    (Intersect.intersect (· + ·) Ex.A Ex.A 0 2 [2, 0, 1] [] [] [1, 0, 2]).toOption.join.isSome = true ∧
    (Conv.cscOfTriples (fun l => l) [1, 0] 0 [(0, 1, 5), (1, 1, 6), (0, 0, 7)] 2 2).isOk = true ∧
    (Conv.cscOfEdges (fun l => l) [1, 0] [2, 0, 1] 0 1 [(0, 1), (1, 1), (0, 0)] 2 2).isOk = true ∧
    (Transpose.csr2csc Ex.A [7] [9, 9, 9, 9, 9] [9, 9, 9, 9, 9] [9, 9, 9, 9, 9]
      [(2, 4), (0, 1), (2, 3), (1, 2), (0, 0)] [(1, 2), (0, 0), (2, 4), (2, 3), (0, 1)]).isOk = true := by decide +kernel

/-- Numbers of accesses in complete runs. -/
example : (RaceConv.intersectTraces (· + ·) Ex.A Ex.A 0 2 id id [2, 0, 1] [] [] [1, 0, 2]).map List.length = [6, 10] ∧
    (RaceConv.triplesTraces (fun l => l) id [1, 0] 0 [(0, 1, 5), (1, 1, 6), (0, 0, 7)] 2).map List.length = [12] ∧
    (RaceConv.edgesTraces (fun l => l) id id [1, 0] [2, 0, 1] 0 1 [(0, 1), (1, 1), (0, 0)] 2).map List.length = [3, 3] ∧
    (RaceConv.transposeTraces Ex.A [7] [9, 9, 9, 9, 9] [9, 9, 9, 9, 9] [9, 9, 9, 9, 9] id id
      [(2, 4), (0, 1), (2, 3), (1, 2), (0, 0)] [(1, 2), (0, 0), (2, 4), (2, 3), (0, 1)]).map List.length = [5, 10] := by
  decide +kernel

/-- Rows 0 and 2 have entries in the same column: their threads write neighbouring cells. -/
example : (RaceConv.transposeTraces Ex.A [7] [9, 9, 9, 9, 9] [9, 9, 9, 9, 9] [9, 9, 9, 9, 9] id id
      [(2, 4), (0, 1), (2, 3), (1, 2), (0, 0)] [(1, 2), (0, 0), (2, 4), (2, 3), (0, 1)])[1]? = some
    [(1, ⟨.numbers, 4, true⟩), (1, ⟨.values, 4, true⟩), (0, ⟨.numbers, 1, true⟩), (0, ⟨.values, 1, true⟩),
      (2, ⟨.numbers, 3, true⟩), (2, ⟨.values, 3, true⟩), (2, ⟨.numbers, 0, true⟩), (2, ⟨.values, 0, true⟩),
      (0, ⟨.numbers, 2, true⟩), (0, ⟨.values, 2, true⟩)] := by decide +kernel

end Verif.Props
