import Verif.Lemmas.BenchRun
import Verif.Props.C80
import Verif.Props.C69
import Verif.Props.C37

/-! # C79: the program for complemented masks -/

namespace Verif.Props

open Verif.Model Verif.Model.Bench Verif.Spec

variable {R : Type} [Semiring R] {n : Nat}

theorem algs_names (nd : Bool) (mode : List Char) :
    (algs nd mode).map (fun a => processName a.text) = (complNames mode).map .ok := by
  by_cases h1 : mode = "heap".toList
  · subst h1; cases nd <;> decide +kernel
  · by_cases h2 : mode = "hash".toList
    · subst h2; cases nd <;> decide +kernel
    · by_cases h3 : mode = "msa".toList
      · subst h3; cases nd <;> decide +kernel
      · by_cases h4 : mode = "all".toList
        · subst h4; cases nd <;> decide +kernel
        · unfold algs complNames
          rw [if_neg (by tauto), if_neg (by tauto), if_neg (by tauto)]
          simp only [if_neg h1, if_neg h2, if_neg h3, if_neg h4]
          rfl

theorem algs_kinds (nd : Bool) (mode : List Char) : ∀ a ∈ algs nd mode, a.kind = .heapC nd ∨ ∃ s, a.kind = .hashC s ∨ a.kind = .msa1C s ∨ a.kind = .msa2C s := by
  intro a ha
  unfold algs at ha
  rw [List.mem_append, List.mem_append] at ha
  rcases ha with (ha | ha) | ha
  · split at ha
    · simp only [List.mem_cons, List.not_mem_nil, or_false] at ha
      rcases ha with rfl | rfl <;> exact .inl rfl
    · cases ha
  · split at ha
    · simp only [List.mem_cons, List.not_mem_nil, or_false] at ha
      rcases ha with rfl | rfl | rfl | rfl <;> exact .inr ⟨_, .inl rfl⟩
    · cases ha
  · split at ha
    · simp only [List.mem_cons, List.not_mem_nil, or_false] at ha
      rcases ha with rfl | rfl | rfl | rfl | rfl | rfl | rfl | rfl <;>
        first | exact .inr ⟨_, .inr (.inl rfl)⟩ | exact .inr ⟨_, .inr (.inr rfl)⟩
    · cases ha

/-- The line that is printed -/
noncomputable def lineOf (n : Nat) (es : List (Nat × Nat × R)) (path : List Char) (tnum : Nat) (check : Nat × Nat × Nat) (name : Res (List Char)) :
    Line R :=
  { file := getFileName path, name := match name with | .ok x => x | .error _ => [], threads := tnum, nnz := (openPairs n es).ncard, sum := openSum n es, check := check }

/-- One call of `run` -/
theorem run_gives {X : CSR R} {A : CSC R} (hX : X.WF) (hr : X.rows = n) (hc : X.cols = n) (hn : 0 < n) {es : List (Nat × Nat × R)}
    (hp : (triples X).Perm es) (hsort : X.SortedRows) {enc : R → List UInt8} (heven : ∀ v, (enc v).length % 2 = 0) {nd : Bool}
    {mode : List Char} {a : Alg} (ha : a ∈ algs nd mode) {tnum : Nat} (ht : 0 < tnum) {parts : Nat → List (List Nat)}
    (hparts : ∀ k, Splits k (parts k)) (path : List Char) :
    (∀ warm timed, warm ++ timed ≠ [] → (∀ s ∈ warm ++ timed, Admissible n s) →
      Gives False (lineOf n es path tnum (Checksum.checksum enc 8 (complMat true (fun x y => x * y) (fun x y => x + y) X X X true)) (processName a.text))
        (run enc path a.text (fun C => (Algo.gen a.kind).call a.two (fun x y => x * y) (fun x y => x + y) X X A X C.zerobased tnum tnum) warm timed tnum parts)) ∧
    ∃ K, ∀ warm timed, warm ++ timed ≠ [] → (∀ s ∈ warm ++ timed, Admissible n s) → (∀ s ∈ warm ++ timed, Fair tnum K s) →
      Gives True (lineOf n es path tnum (Checksum.checksum enc 8 (complMat true (fun x y => x * y) (fun x y => x + y) X X X true)) (processName a.text))
        (run enc path a.text (fun C => (Algo.gen a.kind).call a.two (fun x y => x * y) (fun x y => x + y) X X A X C.zerobased tnum tnum) warm timed tnum parts) := by
  have hv : Valid X X X := ⟨hX, hX, hX, ⟨hc.trans hr.symm, rfl, rfl⟩, hr ▸ hn⟩
  have hnd : X.NodupRows := fun i hi => (hsort i hi).imp fun h => Nat.ne_of_lt h
  have hk := algs_kinds nd mode a ha
  have hreq : (Algo.gen a.kind).Req (fun x y : R => x + y) X X A X := by
    rcases hk with e | ⟨s, e | e | e⟩
    · rw [e]
      refine ⟨Graph.assocComm_add, hsort, hsort, .inr fun i _ ht => ?_⟩
      intro e'
      apply ht
      unfold touched
      have : X.row i = [] := by
        have := CSR.row_map_fst hX i
        rw [e'] at this
        exact List.map_eq_nil_iff.1 this
      rw [this]
      rfl
    all_goals rw [e]; exact hnd
  have hcompl : (Algo.gen a.kind).compl = true := by
    rcases hk with e | ⟨s, e | e | e⟩ <;> rw [e] <;> rfl
  have hst : setNumThreads tnum tnum = tnum := by
    unfold setNumThreads
    split <;> rfl
  have hcomp := algo_computes (.gen a.kind) a.two (fun x y : R => x * y) (fun x y => x + y) hv hreq true (nt := tnum) (dflt := tnum) (by rw [hst]; exact ht)
  obtain ⟨C', hcomp', hdense⟩ := C28_hadamard (.gen a.kind) a.two hv hreq true (nt := tnum) (dflt := tnum) (by rw [hst]; exact ht)
  rw [hcomp'.unique hcomp] at hdense
  unfold algoMat at hcomp hdense
  rw [hcompl, if_pos rfl] at hcomp hdense
  rw [hst] at hcomp
  rw [hr, hc] at hdense
  rw [hr] at hcomp
  have hcheck := compl_check enc heven (Algo.gen a.kind).sorted (fun x y : R => x * y) (fun x y => x + y) (A := X) (M := X) hX
  have hspec : IsComplMasked (fun x y : R => x * y) (fun x y => x + y) X X X _ := complMat_isCompl (Algo.gen a.kind).sorted true
  have hw : (complMat (Algo.gen a.kind).sorted (fun x y : R => x * y) (fun x y => x + y) X X X true).WF := complMat_wf hX
  have hz : (complMat (Algo.gen a.kind).sorted (fun x y : R => x * y) (fun x y => x + y) X X X true).zerobased = true := rfl
  generalize complMat (Algo.gen a.kind).sorted (fun x y : R => x * y) (fun x y => x + y) X X X true = C at *
  have hnnz := compl_nnz hX hr hc hp hw hspec
  have hsum := compl_sum hX hr hc hp hw (hspec.rows.trans hr) (hspec.cols.trans hc) hdense
  have hname : ∃ nm, processName a.text = .ok nm := by
    have hm : processName a.text ∈ (algs nd mode).map (fun a => processName a.text) := List.mem_map_of_mem ha
    rw [algs_names] at hm
    obtain ⟨x, -, e⟩ := List.mem_map.1 hm
    exact ⟨x, e.symm⟩
  obtain ⟨nm, hname⟩ := hname
  have key : ∀ (st : Prop) warm timed, warm ++ timed ≠ [] →
      (∀ s ∈ warm ++ timed, Gives st C ((Algo.gen a.kind).call a.two (fun x y => x * y) (fun x y => x + y) X X A X true tnum tnum s)) →
      Gives st (lineOf n es path tnum (Checksum.checksum enc 8 (complMat true (fun x y => x * y) (fun x y => x + y) X X X true)) (processName a.text))
        (run enc path a.text (fun C => (Algo.gen a.kind).call a.two (fun x y => x * y) (fun x y => x + y) X X A X C.zerobased tnum tnum) warm timed tnum parts) := by
    intro st warm timed hne h
    unfold run
    rcases runCalls_gives (st := st) (call := fun zb => (Algo.gen a.kind).call a.two (fun x y => x * y) (fun x y => x + y) X X A X zb tnum tnum)
      hz hne h with e | ⟨hs, e⟩
    · left
      rw [e, ok_bind]
      simp only [hname, ok_bind]
      rw [SumAll.sumall_acc (acc := fun s v : R => s + v) (f := id) (fun _ _ => rfl) id (by rw [hw.valLen]; exact hparts _), ok_bind, List.map_id]
      unfold lineOf
      rw [← hnnz, ← hsum, ← hcheck]
      rfl
    · exact .inr ⟨hs, by rw [e, ok_bind]⟩
  refine ⟨fun warm timed hne hadm => key False warm timed hne fun s hs => ?_, ?_⟩
  · rcases hcomp.safe s (hadm s hs) with e | e
    · exact .inr ⟨not_false, e⟩
    · exact .inl e
  · obtain ⟨K, hK⟩ := hcomp.live
    exact ⟨K, fun warm timed hne hadm hf => key True warm timed hne fun s hs => .inl (hK s (hadm s hs) (hf s hs))⟩

theorem cols_nodup {V : Type} {A : CSC V} (hA : A.WF) (h : ((triplesC A).map fun t => (t.1, t.2.1)).Nodup) : ∀ j < A.cols, (A.colRows j).Nodup := by
  intro j hj
  unfold triplesC at h
  rw [List.map_flatMap, List.nodup_flatMap] at h
  have := h.1 j (List.mem_range.2 hj)
  rw [List.map_map] at this
  rw [← Inner.col_map_fst hA]
  have e : (A.col j).map ((fun t : Nat × Nat × V => (t.1, t.2.1)) ∘ fun x => (x.1, j, x.2)) = ((A.col j).map Prod.fst).map fun i => (i, j) := by
    rw [List.map_map]
    rfl
  rw [e] at this
  exact .of_map _ this

/-- C79: for every file that describes a square matrix, the program for complemented masks prints for each algorithm of the mode, in each
round, one line: the name of the file, the name of the algorithm, the number of pairs of vertices that are joined by two edges but
not by one, and the sum of the entries of the square of the matrix at the positions that are not stored; and all lines have the same
checksum, also those of algorithms that do not sort their rows. For any number of threads, iterations and warm-up calls (at least one
call), every schedule of every call and every distribution of the final sums. The values may be of any semiring.

What is missing: matrices without rows (`C79_violated_empty`). The claim leaves out files with repeated positions and the files of
`C65_violated_…`. -/
theorem C79_partial {ofInt : Int → R} (neg : R → R) {sortf : List (Nat × R) → List (Nat × R)} (hsort : SortsBy Prod.fst sortf) {t : MMText}
    {es : List (Nat × Nat × R)} (hd : Describes (IntVal ofInt) (ofInt 1) t n n es) (hs : ∀ l ∈ t.lines, l.length ≤ 255) (hk : t.sym ≠ .skew)
    (hm : ¬MisleadingComment t) {text : List Char} (hl : Lines t.lines text) {order : List Nat} (ho : order.Perm (List.range n)) (hn : 0 < n)
    (hnodup : ((fullEntries neg t.sym es).map fun t => (t.1, t.2.1)).Nodup) {enc : R → List UInt8} (heven : ∀ v, (enc v).length % 2 = 0)
    (nd : Bool) (e : Env) (hcalls : e.warmup = some 0 → e.inner ≠ some 0) (path : List Char) {tnum : Nat} (ht : 0 < tnum)
    {parts : Nat → List (List Nat)} (hparts : ∀ k, Splits k (parts k)) :
    ∃ lines, ReturnsAll (complMain nd ofInt enc sortf order e path (some text) tnum parts) n tnum lines ∧
      lines.map (·.name) = (List.replicate (e.outer.getD 1) (complNames ((e.mode.getD []).map Char.toLower))).flatten ∧
      (∀ l ∈ lines, IsFileName path l.file ∧ l.threads = tnum ∧ l.nnz = (openPairs n (fullEntries neg t.sym es)).ncard ∧
        l.sum = openSum n (fullEntries neg t.sym es)) ∧
      ∀ l ∈ lines, ∀ l' ∈ lines, l.check = l'.check := by
  have hcalls : 0 < e.warmupIters + e.innerIters := by
    unfold Env.warmupIters Env.innerIters
    revert hcalls
    cases e.warmup with
    | none => intro _; rcases e.inner with _ | _ | _ | c <;> simp
    | some w => rcases e.inner with _ | _ | c <;> rcases w with _ | w <;> simp
  obtain ⟨A, hA, hAw, hAr, hAc, hAp, -⟩ := C65_partial neg hsort hd hs hk hm hl ho
  obtain ⟨X, hXe, hXw, hXr, hXc, hXp, -, hXs, -⟩ := C21_csc_to_csr (0 : R) hAw
  have hp := hXp.trans hAp
  have hXsort := hXs (cols_nodup hAw (((hAp.map _).nodup_iff).2 hnodup))
  have hmain : ∀ schs, complMain nd ofInt enc sortf order e path (some text) tnum parts schs =
      printAll (fun (j : Nat × Nat × Alg) =>
        run enc path j.2.2.text
          (fun C => (Algo.gen j.2.2.kind).call j.2.2.two (fun x y => x * y) (fun x y => x + y) X X A X C.zerobased tnum tnum)
          ((List.range e.warmupIters).map fun k => schs (j.1, j.2.1, k))
          ((List.range e.innerIters).map fun k => schs (j.1, j.2.1, e.warmupIters + k)) tnum parts) (jobs nd e) := by
    intro schs
    unfold complMain
    rw [hA, ok_bind, hXe, ok_bind]
  have hjob : ∀ j ∈ jobs nd e, j.2.2 ∈ algs nd e.modeStr := by
    intro j hj
    unfold jobs at hj
    simp only [List.mem_flatMap, List.mem_map] at hj
    obtain ⟨o, -, x, hx, rfl⟩ := hj
    exact (List.mem_zipIdx hx).2.2 ▸ List.getElem_mem _
  have hne : ∀ (schs : Nat × Nat × Nat → Scheds) (j : Nat × Nat × Alg), ((List.range e.warmupIters).map fun k => schs (j.1, j.2.1, k)) ++
      ((List.range e.innerIters).map fun k => schs (j.1, j.2.1, e.warmupIters + k)) ≠ [] := by
    intro schs j h
    have := congrArg List.length h
    simp only [List.length_append, List.length_map, List.length_range, List.length_nil] at this
    omega
  have hall : ∀ (P : Scheds → Prop) (schs : Nat × Nat × Nat → Scheds), (∀ i, P (schs i)) → ∀ j : Nat × Nat × Alg,
      ∀ s ∈ ((List.range e.warmupIters).map fun k => schs (j.1, j.2.1, k)) ++
        ((List.range e.innerIters).map fun k => schs (j.1, j.2.1, e.warmupIters + k)), P s := by
    intro P schs h j s hs
    rw [List.mem_append, List.mem_map, List.mem_map] at hs
    rcases hs with ⟨k, -, rfl⟩ | ⟨k, -, rfl⟩ <;> exact h _
  have R1 := fun (j : Nat × Nat × Alg) (hj : j ∈ jobs nd e) => run_gives (A := A) hXw (hXr.trans hAr) (hXc.trans hAc) hn hp hXsort heven (hjob j hj) ht hparts path
  let ck := Checksum.checksum enc 8 (complMat true (fun x y => x * y) (fun x y => x + y) X X X true)
  refine ⟨(jobs nd e).map fun j => lineOf n (fullEntries neg t.sym es) path tnum ck (processName j.2.2.text), ⟨?_, ?_⟩, ?_, ?_, ?_⟩
  · intro schs hadm
    rw [hmain]
    rcases printAll_gives (st := False) (jobs nd e) fun j hj => (R1 j hj).1 _ _ (hne schs j) (hall _ schs hadm j) with h | ⟨-, h⟩
    · exact .inr h
    · exact .inl h
  · have hK : ∀ l : List (Nat × Nat × Alg), (∀ j ∈ l, j ∈ jobs nd e) → ∃ K, ∀ j ∈ l, ∀ schs : Nat × Nat × Nat → Scheds, (∀ i, Admissible n (schs i)) → (∀ i, Fair tnum K (schs i)) →
        Gives True (lineOf n (fullEntries neg t.sym es) path tnum ck (processName j.2.2.text)) (run enc path j.2.2.text
          (fun C => (Algo.gen j.2.2.kind).call j.2.2.two (fun x y => x * y) (fun x y => x + y) X X A X C.zerobased tnum tnum)
          ((List.range e.warmupIters).map fun k => schs (j.1, j.2.1, k))
          ((List.range e.innerIters).map fun k => schs (j.1, j.2.1, e.warmupIters + k)) tnum parts) := by
      intro l
      induction l with
      | nil => intro _; exact ⟨0, fun j hj => by cases hj⟩
      | cons j l ih =>
        intro hsub
        obtain ⟨K, hK⟩ := ih fun i hi => hsub i (by simp [hi])
        obtain ⟨K', hK'⟩ := (R1 j (hsub j (by simp))).2
        refine ⟨max K K', fun i hi schs hadm hf => ?_⟩
        rcases List.mem_cons.1 hi with rfl | hi
        · exact hK' _ _ (hne schs i) (hall _ schs hadm i) (hall _ schs (fun k t ht => by have := hf k t ht; omega) i)
        · exact hK i hi schs hadm fun k t ht => by have := hf k t ht; omega
    obtain ⟨K, hK⟩ := hK (jobs nd e) fun _ h => h
    refine ⟨K, fun schs hadm hf => ?_⟩
    rw [hmain]
    rcases printAll_gives (st := True) (jobs nd e) fun j hj => hK j hj schs hadm hf with h | ⟨h, -⟩
    · exact h
    · exact absurd trivial h
  · rw [List.map_map]
    unfold jobs
    rw [List.map_flatMap]
    have e1 : ∀ o : Nat, ((algs nd e.modeStr).zipIdx.map fun a => (o, a.2, a.1)).map
        ((·.name) ∘ fun j : Nat × Nat × Alg => lineOf n (fullEntries neg t.sym es) path tnum ck (processName j.2.2.text)) =
          complNames ((e.mode.getD []).map Char.toLower) := by
      intro o
      have e2 := algs_names nd e.modeStr
      have e3 : (algs nd e.modeStr) = (algs nd e.modeStr).zipIdx.map Prod.fst := by rw [List.zipIdx_map_fst]
      rw [e3, List.map_map] at e2
      rw [List.map_map]
      have e4 := congrArg (List.map fun r : Res (List Char) => match r with | .ok x => x | .error _ => []) e2
      rw [List.map_map, List.map_map] at e4
      have e5 : (complNames e.modeStr).map ((fun r : Res (List Char) => match r with | .ok x => x | .error _ => []) ∘ Except.ok) = complNames e.modeStr :=
        List.map_id' _
      rw [e5] at e4
      exact e4
    simp only [e1]
    clear * -
    unfold Env.outerIters
    induction e.outer.getD 1 with
    | zero => rfl
    | succ m ih => rw [List.range_succ, List.flatMap_append, ih, List.replicate_succ', List.flatten_append]; simp
  · intro l hl
    obtain ⟨j, -, rfl⟩ := List.mem_map.1 hl
    exact ⟨C80_file path, rfl, rfl, rfl⟩
  · intro l hl l' hl'
    obtain ⟨j, -, rfl⟩ := List.mem_map.1 hl
    obtain ⟨j', -, rfl⟩ := List.mem_map.1 hl'
    rfl

/-- Without calls (`INNER_ITERS=0 WARMUP_ITERS=0`) every algorithm reports an empty result, whatever the matrix. -/
theorem C79_no_calls {enc : R → List UInt8} {path text name : List Char} (h : processName text = .ok name)
    (f : CSR R → Scheds → Res (Option (CSR R))) (tnum : Nat) {parts : Nat → List (List Nat)} (hparts : ∀ k, Splits k (parts k)) :
    run enc path text f [] [] tnum parts = .ok (some { file := getFileName path, name := name, threads := tnum, nnz := 0, sum := 0, check := (65535, 65535, 65535) }) := by
  unfold run runCalls
  simp only [repeatCall, ok_bind, h]
  rw [SumAll.sumall_acc (acc := fun s v : R => s + v) (f := id) (fun _ _ => rfl) id (by exact hparts _), ok_bind]
  have hc : Checksum.calculateChecksum [] = 65535 := by decide +kernel
  have : Checksum.checksum enc 8 newObj = (65535, 65535, 65535) := by
    simp [Checksum.checksum, newObj, hc]
  rw [this]
  rfl

/-- C79, violated by the file of a matrix without rows: as soon as an algorithm is called, the program writes outside an array
(`C37_zero_rows_violated`), whatever the schedule. -/
theorem C79_violated_empty {ofInt : Int → R} (neg : R → R) {sortf : List (Nat × R) → List (Nat × R)} (hsort : SortsBy Prod.fst sortf) {t : MMText}
    {es : List (Nat × Nat × R)} (hd : Describes (IntVal ofInt) (ofInt 1) t 0 0 es) (hs : ∀ l ∈ t.lines, l.length ≤ 255) (hk : t.sym ≠ .skew)
    (hm : ¬MisleadingComment t) {text : List Char} (hl : Lines t.lines text) (enc : R → List UInt8)
    (nd : Bool) (e : Env) (hcalls : e.warmup = some 0 → e.inner ≠ some 0) (hout : e.outer ≠ some 0)
    (hmode : (e.mode.getD []).map Char.toLower ∈ ["heap".toList, "hash".toList, "msa".toList, "all".toList])
    (path : List Char) (tnum : Nat) (parts : Nat → List (List Nat)) (schs : Nat × Nat × Nat → Scheds) (ha : ∀ i, Admissible 0 (schs i)) :
    complMain nd ofInt enc sortf [] e path (some text) tnum parts schs = .error .oob := by
  have hcalls : 0 < e.warmupIters + e.innerIters := by
    unfold Env.warmupIters Env.innerIters
    revert hcalls
    cases e.warmup with
    | none => intro _; rcases e.inner with _ | _ | _ | c <;> simp
    | some w => rcases e.inner with _ | _ | c <;> rcases w with _ | w <;> simp
  have hout : 0 < e.outerIters := by
    unfold Env.outerIters
    rcases h : e.outer with _ | _ | c
    · decide
    · exact absurd h hout
    · simp
  obtain ⟨A, hA, hAw, hAr, hAc, hAp, -⟩ := C65_partial neg hsort hd hs hk hm hl (order := []) (by simp)
  obtain ⟨X, hXe, hXw, hXr, hXc, -, -, -, -⟩ := C21_csc_to_csr (0 : R) hAw
  have hX0 : X.rows = 0 := hXr.trans hAr
  have hX1 : X.cols = 0 := hXc.trans hAc
  have hcall : ∀ (a : Alg) zb s, Admissible 0 s →
      (Algo.gen a.kind).call a.two (fun x y : R => x * y) (fun x y => x + y) X X A X zb tnum tnum s = .error .oob := by
    intro a zb s hs
    exact C37_zero_rows_violated _ _ _ _ ⟨hX1.trans hX0.symm, rfl, rfl⟩ ⟨hXr.symm, hXc.symm⟩ hX0 _ _ _ _ (by rw [hX0]; exact hs)
  have hrep : ∀ (f : CSR R → Scheds → Res (Option (CSR R))) (l : List Scheds) C, (∀ C, ∀ s ∈ l, f C s = .error .oob) → l ≠ [] →
      repeatCall f l C = .error .oob := by
    intro f l C hf hl
    cases l with
    | nil => exact absurd rfl hl
    | cons s l =>
      unfold repeatCall
      rw [hf C s (by simp)]
      rfl
  have hrun : ∀ j : Nat × Nat × Alg, run enc path j.2.2.text
      (fun C => (Algo.gen j.2.2.kind).call j.2.2.two (fun x y => x * y) (fun x y => x + y) X X A X C.zerobased tnum tnum)
      ((List.range e.warmupIters).map fun k => schs (j.1, j.2.1, k))
      ((List.range e.innerIters).map fun k => schs (j.1, j.2.1, e.warmupIters + k)) tnum parts = .error .oob := by
    intro j
    have : runCalls (fun C => (Algo.gen j.2.2.kind).call j.2.2.two (fun x y : R => x * y) (fun x y => x + y) X X A X C.zerobased tnum tnum)
        ((List.range e.warmupIters).map fun k => schs (j.1, j.2.1, k))
        ((List.range e.innerIters).map fun k => schs (j.1, j.2.1, e.warmupIters + k)) = .error .oob := by
      unfold runCalls
      by_cases hw : e.warmupIters = 0
      · rw [hw]
        simp only [List.range_zero, List.map_nil, repeatCall, ok_bind]
        refine hrep _ _ _ ?_ ?_
        · intro C s hs
          obtain ⟨k, -, rfl⟩ := List.mem_map.1 hs
          exact hcall _ _ _ (ha _)
        · intro h
          have := congrArg List.length h
          simp only [List.length_map, List.length_range, List.length_nil] at this
          omega
      · rw [hrep]
        · rfl
        · intro C s hs
          obtain ⟨k, -, rfl⟩ := List.mem_map.1 hs
          exact hcall _ _ _ (ha _)
        · intro h
          have := congrArg List.length h
          simp only [List.length_map, List.length_range, List.length_nil] at this
          omega
    unfold run
    rw [this]
    rfl
  have hjobs : jobs nd e ≠ [] := by
    obtain ⟨a, as, hal⟩ : ∃ a as, algs nd e.modeStr = a :: as := by
      have : e.modeStr ∈ ["heap".toList, "hash".toList, "msa".toList, "all".toList] := hmode
      simp only [List.mem_cons, List.not_mem_nil, or_false] at this
      rcases this with h | h | h | h <;> rw [h] <;> exact ⟨_, _, rfl⟩
    intro h
    unfold jobs at h
    rw [List.flatMap_eq_nil_iff] at h
    have := h 0 (List.mem_range.2 hout)
    rw [hal] at this
    simp at this
  unfold complMain
  rw [hA, ok_bind, hXe, ok_bind]
  cases hj : jobs nd e with
  | nil => exact absurd hj hjobs
  | cons j js =>
    unfold printAll
    rw [hrun j]
    rfl

/-! ## Example: a path of two edges -/

def pathFile : MMText := { field := .integer, sym := .general, comments := [], size := "3 3 2".toList, entries := ["1 2 5".toList, "2 3 7".toList] }

theorem pathFile_describes : Describes (IntVal Int.toNat) (Int.toNat 1) pathFile 3 3 [(0, 1, 5), (1, 2, 7)] where
  noNewline := by decide +kernel
  size := .mk ['3'] ['3'] ['2'] 3 3 2 (.digit 3 (by decide)) (.digit 3 (by decide)) (.digit 2 (by decide))
  entries := .cons (.value ['1'] ['2'] ['5'] 0 1 5 (.digit 1 (by decide)) (.digit 2 (by decide)) ⟨5, .pos ['5'] 5 (.digit 5 (by decide)), rfl⟩)
    (.cons (.value ['2'] ['3'] ['7'] 1 2 7 (.digit 2 (by decide)) (.digit 3 (by decide)) ⟨7, .pos ['7'] 7 (.digit 7 (by decide)), rfl⟩) .nil)
  inBounds := by decide
  square := fun _ => rfl

def pathText : List Char := Spec.banner .integer .general ++ "\n3 3 2\n1 2 5\n2 3 7\n".toList

example := C79_partial (R := Nat) (fun v => v) (isort_sorts Prod.fst) pathFile_describes (by decide +kernel) (by decide)
  (by rintro ⟨_, c, hc, _⟩; simp [pathFile] at hc) (text := pathText) (.inl ⟨[], by decide +kernel⟩) (order := [0, 1, 2]) (by decide) (by decide)
  (by decide) (enc := bytesLE 8) bytesLE_even true { mode := some "All".toList, inner := some 3 } (by decide) "data/path.mtx".toList (tnum := 2) (by decide) splits_one

def emptyMM : MMText := { field := .integer, sym := .general, comments := [], size := "0 0 0".toList, entries := [] }

theorem emptyMM_describes : Describes (IntVal Int.toNat) (Int.toNat 1) emptyMM 0 0 [] where
  noNewline := by decide +kernel
  size := .mk ['0'] ['0'] ['0'] 0 0 0 (.digit 0 (by decide)) (.digit 0 (by decide)) (.digit 0 (by decide))
  entries := .nil
  inBounds := by decide
  square := fun _ => rfl

example (schs : Nat × Nat × Nat → Scheds) (ha : ∀ i, Admissible 0 (schs i)) :=
  C79_violated_empty (R := Nat) (fun v => v) (isort_sorts Prod.fst) emptyMM_describes (by decide +kernel) (by decide)
    (by rintro ⟨_, c, hc, _⟩; simp [emptyMM] at hc) (text := Spec.banner .integer .general ++ "\n0 0 0\n".toList) (.inl ⟨[], by decide +kernel⟩)
    (bytesLE 8) true { mode := some "All".toList, inner := some 3 } (by decide) (by decide) (by decide +kernel) "data/empty.mtx".toList 2
    (fun k => [List.range k]) schs ha

end Verif.Props
