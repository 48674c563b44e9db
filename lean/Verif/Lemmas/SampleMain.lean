import Verif.SpecSample
import Verif.Model.SampleMain
import Verif.Lemmas.MaskedAll
import Verif.Props.C24
import Verif.Props.C33
import Verif.Props.C54
import Verif.Props.C58

/-! # Lemmas for the sample programs -/

namespace Verif.Model.SampleMain

open Verif.Spec Verif.Model.Bench
open Verif.Model.MaskedAll (Ker Good seq_good seq_done seq_stop seqAll_good seqAll_append Mats SchAdm SchFair kernel_gives masked_entries masked_unique
  contribs_pairs productAt_eq dot_isSome)

variable {V E α σ : Type} {st : Prop}

/-! ## Parts of a program -/

theorem andThen_good {r : Res (Option α)} {x : α} {k : α → Out E} {w : List E} (h : Gives st x r) (hk : Good st w (k x)) : Good st w (andThen r k) := by
  unfold andThen
  rcases h with e | ⟨hs, e⟩
  · rw [e]
    exact hk
  · rw [e]
    exact .inr ⟨hs, rfl, List.nil_prefix⟩

theorem andThen_ok {r : Res (Option α)} {x : α} (h : r = .ok (some x)) (k : α → Out E) : andThen r k = k x := by
  rw [h]
  rfl

theorem say_good (e : E) : Good st [e] (say e) := .inl rfl

theorem block_good {name : List Char} {f : CSR V → Sch → Res (Option (CSR V))} (iters tnum : Nat) {sch : Nat → Sch} {C : CSR V}
    (h : ∀ C0 : CSR V, C0.nnz = 0 → C0.zerobased = true → ∀ i, Gives st C (f C0 (sch i))) (hz : C.zerobased = true) :
    Good st [.result name tnum C.nnz] (block name f iters tnum sch) := by
  unfold block
  refine andThen_good (x := C) ?_ (say_good _)
  unfold runCalls
  rcases h newObj rfl rfl 0 with e | ⟨hs, e⟩
  · simp only [repeatCall, e, ok_bind]
    have := repeat_gives (st := st) (f := fun C => f (Bench.makeEmpty C)) hz ((List.range iters).map fun i => sch (i + 1)) C hz (by
      intro s hs C' hC'
      obtain ⟨i, -, rfl⟩ := List.mem_map.1 hs
      exact h (makeEmpty C') rfl hC' _)
    rwa [show (if (List.range iters).map (fun i => sch (i + 1)) = [] then C else C) = C by split <;> rfl] at this
  · simp only [repeatCall, e, ok_bind]
    exact .inr ⟨hs, rfl⟩

theorem lastOf_gives {f : σ → Res (Option α)} {x : α} (s : σ) (ss : List σ) (h : ∀ s' ∈ s :: ss, Gives st x (f s')) : Gives st x (lastOf f s ss) := by
  induction ss generalizing s with
  | nil => exact h s (by simp)
  | cons a ss ih =>
    unfold lastOf
    rcases h s (by simp) with e | ⟨hs, e⟩
    · rw [e, ok_bind]
      exact ih a fun s' hs' => h s' (by simp [List.mem_cons.1 hs'])
    · rw [e, ok_bind]
      exact .inr ⟨hs, rfl⟩

/-- The same for all numbers of threads, with one bound for the turns -/
theorem forThreads_good {Adm : Nat → Sch → Prop} {Fair : Nat → Nat → Sch → Prop} (hmono : ∀ {t K K' s}, K ≤ K' → Fair t K' s → Fair t K s)
    {body : Nat → (Nat → Sch) → Out E} {w : Nat → List E} (ts : List Nat)
    (h : ∀ t ∈ ts, ∃ K, ∀ s : Nat → Sch, (∀ i, Adm t (s i)) → Good (∀ i, Fair t K (s i)) (w t) (body t s)) :
    ∃ K, ∀ sch : Nat → Nat → Sch, (∀ x ∈ ts.zipIdx, ∀ i, Adm x.1 (sch x.2 i)) →
      Good (∀ x ∈ ts.zipIdx, ∀ i, Fair x.1 K (sch x.2 i)) (ts.flatMap w) (forThreads ts sch body) := by
  unfold forThreads
  generalize 0 = off
  induction ts generalizing off with
  | nil => exact ⟨0, fun _ _ => .inl rfl⟩
  | cons t ts ih =>
    obtain ⟨K1, h1⟩ := h t (by simp)
    obtain ⟨K2, h2⟩ := ih (fun t ht => h t (by simp [ht])) (off + 1)
    refine ⟨max K1 K2, fun sch hadm => ?_⟩
    rw [List.zipIdx_cons] at hadm ⊢
    rw [List.map_cons, List.flatMap_cons]
    exact seq_good
      (MaskedAll.Good.weaken (h1 (sch off) (hadm (t, off) (by simp))) fun hh i => hmono (Nat.le_max_left _ _) (hh (t, off) (by simp) i))
      (MaskedAll.Good.weaken (h2 sch fun x hx => hadm x (by simp [hx])) fun hh x hx i => hmono (Nat.le_max_right _ _) (hh x (by simp [hx]) i))

/-! ## The first values -/

theorem values_upto (C : CSR V) : ∀ n ≤ C.values.length,
    seqAll ((List.range n).map fun i => andThen ((rd C.values i).map some) fun v => say (Event.value v)) =
      ⟨(C.values.take n).map .value, .ok (some ())⟩ := by
  intro n
  induction n with
  | zero => intro _; rfl
  | succ n ih =>
    intro hn
    rw [List.range_succ, List.map_append, seqAll_append, ih (by omega), seq_done rfl, List.map_singleton]
    have : rd C.values n = .ok C.values[n] := by unfold rd; rw [List.getElem?_eq_getElem (by omega)]
    rw [this]
    show (⟨_ ++ ([Event.value C.values[n]] ++ []), .ok (some ())⟩ : Out (Event V)) = _
    rw [List.append_nil, List.take_add_one, List.getElem?_eq_getElem (by omega), List.map_append]
    rfl

theorem values_ten {C : CSR V} (h : 10 ≤ C.values.length) : values C = ⟨(C.values.take 10).map .value, .ok (some ())⟩ := values_upto C 10 h

theorem values_short {C : CSR V} (h : C.values.length < 10) : values C = ⟨C.values.map .value, .error .oob⟩ := by
  unfold values
  obtain ⟨k, hk⟩ : ∃ k, 10 = C.values.length + (1 + k) := ⟨10 - C.values.length - 1, by omega⟩
  rw [hk, List.range_add, List.map_append, seqAll_append, values_upto C _ (Nat.le_refl _), seq_done rfl, List.take_length, List.range_add, List.map_append,
    List.map_append, seqAll_append]
  have : rd C.values (C.values.length + 0) = .error .oob := by unfold rd; rw [List.getElem?_eq_none (by omega)]
  simp only [List.range_one, List.map_cons, List.map_nil, this]
  have h0 : seqAll [andThen ((Except.error Err.oob : Res V).map some) fun v => say (Event.value v)] = ⟨[], .error .oob⟩ := rfl
  rw [h0, seq_stop (by simp), List.append_nil]

/-! ## Products -/

section
variable {R : Type} [Semiring R]

theorem product_entries {A B C : CSR R} (hA : A.WF) (hB : B.WF) (hAB : A.cols = B.rows) {es fs : List (Nat × Nat × R)} (hp : (triples A).Perm es)
    (hq : (triples B).Perm fs) {sorted : Bool} (h : IsPlainProduct (fun x y => x * y) (fun x y => x + y) sorted A B C) :
    ProductEntries es fs (triples C) where
  nodup := triples_nodup h.wf h.nodup
  mem := by
    intro i j v
    rw [Graph.mem_triples, h.rows]
    by_cases hi : i < A.rows
    · rw [h.entries i hi, ← dot_isSome hA hB hAB hp hq hi (mul := fun x y => x * y) (add := fun x y => x + y), productAt_eq hA hAB hp hq hi]
      have := Props.sum1_add (contribs (fun x y => x * y) A B i j)
      constructor
      · rintro ⟨-, h2⟩
        exact ⟨⟨v, h2⟩, ((this v).2 h2).symm⟩
      · rintro ⟨⟨w, h2⟩, rfl⟩
        refine ⟨hi, ?_⟩
        rw [(this w).2 h2]
        exact h2
    · constructor
      · exact fun h => absurd h.1 hi
      · rintro ⟨⟨k, ⟨e, he, e'⟩, -⟩, -⟩
        exfalso
        obtain ⟨rfl, rfl⟩ := Prod.mk.inj e'
        have := (Graph.mem_triples.1 (hp.mem_iff.2 he)).1
        omega

theorem product_unique {es fs P P' : List (Nat × Nat × R)} (h : ProductEntries es fs P) (h' : ProductEntries es fs P') : P.Perm P' := by
  rw [List.perm_ext_iff_of_nodup (.of_map _ h.nodup) (.of_map _ h'.nodup)]
  rintro ⟨i, j, v⟩
  rw [h.mem, h'.mem]

/-- The turns that `HashSpGEMM` needs -/
def HashFair (n K : Nat) (s : Sch) : Prop := ∀ t < n, K ≤ s.hash.sym.count t ∧ K ≤ s.hash.num.count t

theorem hash_gives (sorted : Bool) {sortf : List (Nat × R) → List (Nat × R)} (hs : SortsBy Prod.fst sortf) {A B : CSR R} (hA : A.WF) (hB : B.WF)
    (hAB : A.cols = B.rows) (hpos : 0 < A.rows) (hsmall : A.rows + 1 < 2 ^ 17) {tnum : Nat} (ht : 0 < tnum) :
    ∃ C, IsPlainProduct (fun x y => x * y) (fun x y => x + y) sorted A B C ∧ ∀ s : Sch, HashMult.Adm A.rows tnum s.hash →
      Gives (HashFair tnum (A.rows + 2) s) C (hash sorted sortf A B tnum s) := by
  obtain ⟨C, h1, h2⟩ := Props.C34_hash_partial (sorted := sorted) hs (fun x y : R => x * y) (fun x y => x + y) 0 hA hB hAB hpos hsmall ht tnum
  have hflip : (fun a b : R => b + a) = fun a b => a + b := by funext a b; exact add_comm b a
  refine ⟨C, hflip ▸ h1, fun s hadm => ?_⟩
  rcases h2 s.hash hadm with ⟨e, t, ht', h⟩ | e
  · refine .inr ⟨fun hf => ?_, e⟩
    have := hf t ht'
    omega
  · exact .inl e

/-- `sortIds` and `Intersect` -/
theorem intersect_gives {sortf : List (Nat × R) → List (Nat × R)} (hs : SortsBy Prod.fst sortf) {A B M C : CSR R} (hM : M.WF) (sM : M.SortedRows)
    (h : IsPlainProduct (fun x y => x * y) (fun x y => x + y) false A B C) (hA : A.WF) (hB : B.WF) (hAB : A.cols = B.rows) (hr : M.rows = A.rows)
    (hc : M.cols = B.cols) (hsmall : A.rows + 1 < 2 ^ 17) {tnum : Nat} (ht : 0 < tnum) {es fs ms L : List (Nat × Nat × R)} (hp : (triples A).Perm es)
    (hq : (triples B).Perm fs) (hm : (triples M).Perm ms) (hL : MaskedEntries es fs ms L) {s : Sch} (o : s.sort.Perm (List.range A.rows))
    (o1 : s.inter1.Perm (List.range A.rows)) (o2 : s.inter2.Perm (List.range A.rows)) :
    ∃ T, sortIntersect sortf M C tnum s = .ok (some T) ∧ T.nnz = L.length := by
  obtain ⟨D, e1, hD, -, sD⟩ := Props.C58_sort hs h.wf (order := s.sort) (by rw [h.rows]; exact o)
  obtain ⟨T, e2, hT⟩ := Props.C24_intersect_partial (fun x y : R => x + y) hM hD.wf sM (sD h.nodup) (hr.trans (h.rows.symm.trans hD.rows.symm))
    (hc.trans (h.cols.symm.trans hD.cols.symm)) (by rw [hr]; exact hsmall) 0 ht (order1 := s.inter1) (order2 := s.inter2) (by rw [hr]; exact o1)
    (by rw [hr]; exact o2) s.is1 s.is2
  refine ⟨T, ?_, ?_⟩
  · unfold sortIntersect
    rw [e1, ok_bind, e2]
  · have hnd : T.NodupRows := fun i hi => (hT.sorted i hi).imp fun h => Nat.ne_of_lt h
    have hpos : ((triples T).map fun e => (e.1, e.2.1)).Perm (L.map fun e => (e.1, e.2.1)) := by
      rw [List.perm_ext_iff_of_nodup (triples_nodup hT.wf hnd) hL.nodup]
      rintro ⟨i, j⟩
      have h1 : (i, j) ∈ ((triples T).map fun e => (e.1, e.2.1)) ↔ i < A.rows ∧ ∃ v, (j, v) ∈ T.row i := by
        simp only [List.mem_map, Prod.mk.injEq]
        constructor
        · rintro ⟨x, hx, rfl, rfl⟩
          have := Graph.mem_triples.1 hx
          rw [hT.rows, hr] at this
          exact ⟨this.1, _, this.2⟩
        · rintro ⟨hi, v, hv⟩
          exact ⟨(i, j, v), Graph.mem_triples.2 ⟨by rw [hT.rows, hr]; exact hi, hv⟩, rfl, rfl⟩
      have h2 : (i, j) ∈ (L.map fun e => (e.1, e.2.1)) ↔ Stored ms i j ∧ ∃ k, Stored es i k ∧ Stored fs k j := by
        simp only [List.mem_map, Prod.mk.injEq]
        constructor
        · rintro ⟨x, hx, rfl, rfl⟩
          have := (hL.mem x.1 x.2.1 x.2.2).1 hx
          exact ⟨this.1, this.2.1⟩
        · rintro ⟨a, b⟩
          exact ⟨(i, j, _), (hL.mem i j _).2 ⟨a, b, rfl⟩, rfl, rfl⟩
      rw [h1, h2]
      by_cases hi : i < A.rows
      · have hrow : ∀ X : CSR R, X.WF → ((∃ v, (j, v) ∈ X.row i) ↔ j ∈ X.rowCols i) := by
          intro X hX
          rw [← CSR.row_map_fst hX i, List.mem_map]
          constructor
          · rintro ⟨v, hv⟩; exact ⟨_, hv, rfl⟩
          · rintro ⟨⟨c, v⟩, hv, rfl⟩; exact ⟨v, hv⟩
        rw [← stored_iff hM hm (hr ▸ hi), ← dot_isSome hA hB hAB hp hq hi (mul := fun x y => x * y) (add := fun x y => x + y), ← hrow M hM]
        have hDC : ∀ v, (j, v) ∈ D.row i ↔ dot (fun x y => x * y) (fun x y => x + y) A B i j = some v := by
          intro v
          rw [(hD.perm i (by rw [h.rows]; exact hi)).mem_iff, h.entries i hi]
        simp only [hT.entries i (hr ▸ hi), hDC]
        constructor
        · rintro ⟨-, v, a, b, ha, hb, -⟩
          exact ⟨⟨a, ha⟩, b, hb⟩
        · rintro ⟨⟨a, ha⟩, b, hb⟩
          exact ⟨hi, _, a, b, ha, hb, rfl⟩
      · constructor
        · exact fun h => absurd h.1 hi
        · rintro ⟨⟨e, he, e'⟩, -⟩
          obtain ⟨rfl, rfl⟩ := Prod.mk.inj e'
          have := (Graph.mem_triples.1 (hm.mem_iff.2 he)).1
          omega
    have := hpos.length_eq
    rwa [List.length_map, List.length_map, triples_length hT.wf] at this

end

/-! ## Reading the files -/

theorem forThreads_cons (t : Nat) (ts : List Nat) (sch : Nat → Nat → Sch) (body : Nat → (Nat → Sch) → Out E) :
    ∃ rest, forThreads (t :: ts) sch body = (body t (sch 0)).seq rest := ⟨_, rfl⟩

theorem tnums_eq {deflt ts : List Nat} {args : List (List Char)} {k : Nat} (h : Threads deflt (args.drop k) ts) : tnums deflt args k = ts := by
  unfold tnums
  generalize hd : args.drop k = d at h
  have h0 : d[0]? = args[k]? := by rw [← hd, List.getElem?_drop]; rfl
  cases h with
  | default => rw [← h0]; rfl
  | given a rest t h pos =>
    rw [← h0]
    have := ReadIO.atoi_digits (ReadIO.numeral_digits h) (r := []) (by intro c hc; cases hc)
    rw [List.append_nil] at this
    simp [this]

theorem threads_pos {deflt ts : List Nat} {l : List (List Char)} (h : Threads deflt l ts) (hd : ∀ t ∈ deflt, 0 < t) : ∀ t ∈ ts, 0 < t := by
  cases h with
  | default => exact hd
  | given a rest t h pos => simpa using pos

theorem andThen_events_nil {r : Res (Option α)} (h : ∀ x, r ≠ .ok (some x)) (k : α → Out E) :
    (andThen r k).events = [] ∧ (andThen r k).status ≠ .ok (some ()) := by
  unfold andThen
  cases r with
  | error e => exact ⟨rfl, by simp⟩
  | ok r =>
    cases r with
    | none => exact ⟨rfl, by simp⟩
    | some x => exact absurd rfl (h x)

theorem block_never {name : List Char} {f : CSR V → Sch → Res (Option (CSR V))} (iters tnum : Nat) {sch : Nat → Sch}
    (h : ∀ C0 i C, f C0 (sch i) ≠ .ok (some C)) :
    (block name f iters tnum sch).events = [] ∧ (block name f iters tnum sch).status ≠ .ok (some ()) := by
  unfold block
  refine andThen_events_nil (fun C hC => ?_) _
  unfold runCalls at hC
  simp only [repeatCall] at hC
  have := h newObj 0
  cases e : f newObj (sch 0) with
  | error e' => rw [e] at hC; cases hC
  | ok r =>
    cases r with
    | none => rw [e] at hC; cases hC
    | some C' => exact this C' e

/-- A program that prints one line and then fails -/
theorem after_say {e : E} {o : Out E} (h : o.events = [] ∧ o.status ≠ .ok (some ())) :
    ((say e).seq o).events = [e] ∧ ((say e).seq o).status ≠ .ok (some ()) := by
  unfold say
  rw [seq_done rfl]
  exact ⟨by rw [h.1]; rfl, h.2⟩

theorem seq_fails {a b : Out E} (h : a.events = [] ∧ a.status ≠ .ok (some ())) : (a.seq b).events = [] ∧ (a.seq b).status ≠ .ok (some ()) := by
  rw [seq_stop h.2]
  exact h

section
variable {R : Type} [Semiring R]

theorem load_ok {w : World R} {neg : R → R} (hs : SortsBy Prod.fst w.sortf) {name text : List Char} (ht : w.text name = some text) {m n : Nat}
    {es : List (Nat × Nat × R)} (h : FileOf w.ofInt neg text m n es) {order : List Nat} (ho : order.Perm (List.range n)) :
    ∃ Ac A, load w order name = .ok (Ac, A) ∧ Ac.WF ∧ Ac.SortedCols ∧ A.WF ∧ A.rows = m ∧ A.cols = n ∧ (triples A).Perm es ∧ A.SortedRows ∧ SameMat A Ac := by
  obtain ⟨Ac, A, -, h1, h2, -, h3, -, -, -, h4, h5, h6, h7, h8, h9, h10⟩ := MaskedAll.read_file hs h ho
  refine ⟨Ac, A, ?_, h3, h4, h5, h6, h7, h8, h9, h10⟩
  unfold load
  rw [ht, h1, ok_bind, h2, ok_bind]

theorem load_missing {w : World R} {order : List Nat} {name : List Char} (h : w.text name = none) : load w order name = .error .uninit := by
  unfold load
  rw [h, Props.C65_violated_missing]
  rfl

/-- Some entry of the first matrix is in a column that is not a row of the second. -/
theorem flop_fails {A B : CSR R} (hA : A.WF) (hB : B.WF) {i j : Nat} (hi : i < A.rows) (hj : j ∈ A.rowCols i) (hc : B.rows ≤ j) (r : Nat) :
    Flops.csrCsr A B ≠ .ok r := by
  intro h
  unfold Flops.csrCsr at h
  obtain ⟨f, h, -⟩ := MatObj.bind_eq_ok h
  refine Gen.forRange_fail (Nat.zero_le i) hi (fun s r e => ?_) 0 f h
  obtain ⟨l, e, -⟩ := MatObj.bind_eq_ok e
  unfold Gen.flopRow at e
  rw [CSR.rd_ptr hA (by omega), ok_bind, CSR.rd_ptr hA (by omega), ok_bind] at e
  unfold CSR.rowCols slice at hj
  obtain ⟨q, hq, hj⟩ := List.mem_iff_getElem.1 hj
  rw [List.length_take, List.length_drop] at hq
  rw [List.getElem_take, List.getElem_drop] at hj
  refine Gen.forRange_fail (j := A.ptr i + q) (by omega) (by omega) (fun s r e => ?_) 0 l e
  have hrd : rd A.colids (A.ptr i + q) = .ok j := by unfold rd; rw [List.getElem?_eq_getElem (by omega), hj]
  have hrd2 : rd B.rowptr (j + 1) = .error .oob := by unfold rd; rw [List.getElem?_eq_none (by rw [hB.ptrLen]; omega)]
  rw [hrd, ok_bind, hrd2] at e
  cases e

theorem spa_gives {m k n : Nat} {es fs ms : List (Nat × Nat × R)} {A B M : CSR R} {Bc : CSC R} (h : Mats m k n es fs ms A B M Bc)
    (hm : 0 < m) (hsmall : m + 1 < 2 ^ 17) {tnum : Nat} (ht : 0 < tnum) :
    ∃ C, IsMaskedSet (fun x y => x * y) (fun x y => x + y) A B M C ∧ ∃ K, ∀ C0 : CSR R, C0.nnz = 0 → C0.zerobased = true →
      ∀ s, SchAdm m tnum s → Gives (SchFair tnum K s) C (Ker.spa.call A B M Bc tnum C0 s) := by
  have hv : Valid A B M := ⟨h.wA, h.wB, h.wM, ⟨h.cA.trans h.rB.symm, h.rM.trans h.rA.symm, h.cM.trans h.cB.symm⟩, h.rA ▸ hm⟩
  have hs2 : A.rows + 1 < 2 ^ 17 := h.rA ▸ hsmall
  have eA := h.rA
  subst eA
  have hflip : (fun a b : R => b + a) = fun a b => a + b := by funext a b; exact add_comm b a
  obtain ⟨C, h1, -, h2⟩ := Props.C31_spa_partial (fun x y : R => x * y) (fun x y => x + y) hv hs2 0 ht tnum
  refine ⟨C, hflip ▸ h1, A.rows + 2, fun C0 _ _ s hs => MaskedAll.of_two (h2 s.two hs.two) fun hf t ht' hp => ?_⟩
  have := hf.two t ht'
  omega

/-- A part of a program with one of the masked kernels -/
theorem kernel_block {m k n : Nat} {es fs ms L : List (Nat × Nat × R)} {A B M : CSR R} {Bc : CSC R} (h : Mats m k n es fs ms A B M Bc)
    (hL : MaskedEntries es fs ms L) (name : List Char) (x : Ker) {tnum : Nat} (iters : Nat)
    (hC : ∃ C, IsMaskedSet (fun x y => x * y) (fun x y => x + y) A B M C ∧ ∃ K, ∀ C0 : CSR R, C0.nnz = 0 → C0.zerobased = true →
      ∀ s, SchAdm m tnum s → Gives (SchFair tnum K s) C (x.call A B M Bc tnum C0 s)) :
    ∃ K, ∀ s : Nat → Sch, (∀ i, SchAdm m tnum (s i).mask) → Good (∀ i, SchFair tnum K (s i).mask) [.result name tnum L.length]
      (block name (fun C s => x.call A B M Bc tnum C s.mask) iters tnum s) := by
  obtain ⟨C, hC, K, hK⟩ := hC
  refine ⟨K, fun s hadm => ?_⟩
  have hl : C.nnz = L.length := by
    rw [← triples_length hC.wf]
    exact (masked_unique (masked_entries h.wA h.wB h.wM (h.cA.trans h.rB.symm) (h.rM.trans h.rA.symm) h.pA h.pB h.pM hC) hL).length_eq
  rw [← hl]
  exact block_good iters tnum (fun C0 h1 h2 i => MaskedAll.Gives.weaken (hK C0 h1 h2 _ (hadm i)) fun hh => hh i) hC.wf.zero

end

end Verif.Model.SampleMain
