import Verif.SpecMaskedAll
import Verif.Model.MaskedAll
import Verif.Lemmas.BenchRun
import Verif.Lemmas.Flops
import Verif.Props.C21
import Verif.Props.C31
import Verif.Props.C53
import Verif.Props.C65
import Verif.Props.C74
import Verif.Props.C71
import Verif.Props.C79
import Verif.Props.C80
import Mathlib.Data.List.Perm.Basic

/-! # Lemmas for the benchmark for three matrices -/

namespace Verif.Model.MaskedAll

open Verif.Spec Verif.Model.Bench

/-! ## Parts of the program -/

/-- The part prints `want` and goes on, or (unless `st`) ends early after a part of it because a thread got too few turns. -/
def Good {E : Type} (st : Prop) (want : List E) (o : Out E) : Prop :=
  o = ⟨want, .ok (some ())⟩ ∨ (¬st ∧ o.status = .ok none ∧ o.events <+: want)

/-- The part prints `want` and maybe more, or ends early after a part of it because a thread got too few turns. -/
def Starts {E : Type} (st : Prop) (want : List E) (o : Out E) : Prop :=
  want <+: o.events ∨ (¬st ∧ o.status = .ok none ∧ o.events <+: want)

variable {st : Prop} {E : Type}

theorem seq_done {a b : Out E} (h : a.status = .ok (some ())) : a.seq b = ⟨a.events ++ b.events, b.status⟩ := by
  unfold Out.seq
  rw [h]

theorem seq_stop {a b : Out E} (h : a.status ≠ .ok (some ())) : a.seq b = a := by
  unfold Out.seq
  split
  · rename_i e; exact absurd e h
  · rfl

theorem seq_good {w w' : List E} {a b : Out E} (ha : Good st w a) (hb : Good st w' b) : Good st (w ++ w') (a.seq b) := by
  rcases ha with rfl | ⟨h1, h2, h3⟩
  · rw [seq_done rfl]
    rcases hb with rfl | ⟨h1, h2, h3⟩
    · exact .inl rfl
    · exact .inr ⟨h1, h2, (List.prefix_append_right_inj w).2 h3⟩
  · rw [seq_stop (by rw [h2]; simp)]
    exact .inr ⟨h1, h2, h3.trans (List.prefix_append _ _)⟩

theorem seqAll_good {α : Type} (l : List α) {f : α → Out E} {w : α → List E} (h : ∀ a ∈ l, Good st (w a) (f a)) :
    Good st (l.flatMap w) (seqAll (l.map f)) := by
  induction l with
  | nil => exact .inl rfl
  | cons a l ih => exact seq_good (h a (by simp)) (ih fun b hb => h b (by simp [hb]))

theorem seq_assoc (a b c : Out E) : (a.seq b).seq c = a.seq (b.seq c) := by
  by_cases h : a.status = .ok (some ())
  · rw [seq_done h, seq_done h]
    by_cases h' : b.status = .ok (some ())
    · rw [seq_done h', seq_done (by exact h'), List.append_assoc]
    · rw [seq_stop h', seq_stop (by exact h')]
  · rw [seq_stop h, seq_stop h, seq_stop h]

theorem seqAll_append (l l' : List (Out E)) : seqAll (l ++ l') = (seqAll l).seq (seqAll l') := by
  induction l with
  | nil =>
    show seqAll l' = Out.seq ⟨[], .ok (some ())⟩ (seqAll l')
    rw [seq_done rfl]
    rfl
  | cons a l ih =>
    show a.seq (seqAll (l ++ l')) = (a.seq (seqAll l)).seq (seqAll l')
    rw [ih, seq_assoc]

theorem starts_seq {w : List E} {a : Out E} (b : Out E) (h : Good st w a) : Starts st w (a.seq b) := by
  rcases h with rfl | ⟨h1, h2, h3⟩
  · rw [seq_done rfl]
    exact .inl (List.prefix_append _ _)
  · rw [seq_stop (by rw [h2]; simp)]
    exact .inr ⟨h1, h2, h3⟩

/-! ## `run` -/

section
variable {V : Type}

theorem calls_gives {f : CSR V → Sch → Res (Option (CSR V))} (niters : Nat) {sch : Nat → Sch} {C : CSR V}
    (h : ∀ C0 : CSR V, C0.nnz = 0 → C0.zerobased = true → ∀ i, Gives st C (f C0 (sch i))) (hz : C.zerobased = true) :
    Gives st C (calls f niters sch) := by
  unfold calls
  have hrep := fun C0 h0 => repeat_gives (st := st) (f := fun C => f (Bench.makeEmpty C)) hz ((List.range niters).map fun i => sch (i + 1)) C0 h0 (by
    intro s hs C' hC'
    obtain ⟨i, -, rfl⟩ := List.mem_map.1 hs
    exact h (makeEmpty C') rfl hC' _)
  by_cases h1 : niters = 1
  · subst h1
    rw [if_neg (by simp)]
    have := hrep newObj rfl
    rw [if_neg (by simp)] at this
    exact this
  · rw [if_pos h1]
    rcases h newObj rfl rfl 0 with e | ⟨hs, e⟩
    · simp only [repeatCall, e, ok_bind]
      have := hrep C hz
      split at this <;> exact this
    · simp only [repeatCall, e, ok_bind]
      exact .inr ⟨hs, rfl⟩

theorem runOne_good {enc : V → List UInt8} (file name : List Char) {f : CSR V → Sch → Res (Option (CSR V))} (niters : Nat) {sch : Nat → Sch}
    (tnum : Nat) {C : CSR V} (h : ∀ C0 : CSR V, C0.nnz = 0 → C0.zerobased = true → ∀ i, Gives st C (f C0 (sch i))) (hz : C.zerobased = true) :
    Good st [.result name tnum C.nnz (checksum enc C), .log file name tnum C.nnz (checksum enc C)]
      (runOne enc (some file) name f niters sch tnum) := by
  unfold runOne
  rcases calls_gives niters h hz with e | ⟨hs, e⟩
  · rw [e]
    exact .inl rfl
  · rw [e]
    exact .inr ⟨hs, rfl, List.nil_prefix⟩

theorem run_good {enc : V → List UInt8} (file name : List Char) {f : Nat → CSR V → Sch → Res (Option (CSR V))} (niters nfop : Nat)
    {sch : Nat → Nat → Sch} (tnum : Nat) {C : CSR V}
    (h : ∀ C0 : CSR V, C0.nnz = 0 → C0.zerobased = true → ∀ j i, Gives st C (f tnum C0 (sch j i))) (hz : C.zerobased = true) :
    Good st [.total nfop, .result name tnum C.nnz (checksum enc C), .log file name tnum C.nnz (checksum enc C)]
      (run enc (some file) name f niters [tnum] nfop sch) := by
  have := runOne_good (enc := enc) (st := st) file name (f := f tnum) niters (sch := sch 0) tnum (fun C0 h1 h2 i => h C0 h1 h2 0 i) hz
  have h2 := seq_good this (w' := []) (b := ⟨[], .ok (some ())⟩) (.inl rfl)
  exact seq_good (w := [.total nfop]) (a := ⟨[.total nfop], .ok (some ())⟩) (.inl rfl) h2

end

/-! ## The product as a list of entries -/

section
variable {R : Type}

theorem product_filterMap {α β γ : Type} (g : α × β → Option γ) (l : List α) (m : List β) :
    (l ×ˢ m).filterMap g = l.flatMap fun a => m.filterMap fun b => g (a, b) := by
  induction l with
  | nil => rfl
  | cons a l ih => rw [List.product_cons, List.filterMap_append, ih, List.flatMap_cons, List.filterMap_map]; rfl

theorem flatMap_bucket {α β : Type} (i : Nat) (g : α → List β) (l : List (Nat × α)) :
    (l.flatMap fun a => if a.1 = i then g a.2 else []) = (Conv.bucket l i).flatMap g := by
  unfold Conv.bucket
  induction l with
  | nil => rfl
  | cons a l ih =>
    rw [List.flatMap_cons, ih]
    by_cases h : a.1 = i
    · rw [if_pos h, List.filterMap_cons_some (b := a.2) (by simp [h]), List.flatMap_cons]
    · rw [if_neg h, List.filterMap_cons_none (by simp [h]), List.nil_append]

variable [Semiring R]

theorem contribs_pairs {A B : CSR R} (hA : A.WF) (hAB : A.cols = B.rows) {i : Nat} (hi : i < A.rows) (j : Nat) :
    ((triples A ×ˢ triples B).filterMap fun p => if p.1.1 = i ∧ p.1.2.1 = p.2.1 ∧ p.2.2.1 = j then some (p.1.2.2 * p.2.2.2) else none) =
      contribs (fun x y => x * y) A B i j := by
  rw [product_filterMap]
  have : ∀ a : Nat × Nat × R, ((triples B).filterMap fun b => if a.1 = i ∧ a.2.1 = b.1 ∧ b.2.1 = j then some (a.2.2 * b.2.2) else none) =
      if a.1 = i then (triples B).filterMap (fun b => if a.2.1 = b.1 ∧ b.2.1 = j then some (a.2.2 * b.2.2) else none) else [] := by
    intro a
    by_cases h : a.1 = i
    · simp [h]
    · rw [if_neg h, List.filterMap_eq_nil_iff]
      intro b _
      rw [if_neg fun hh => h hh.1]
  simp only [this]
  rw [flatMap_bucket i fun x : Nat × R => (triples B).filterMap (fun b => if x.1 = b.1 ∧ b.2.1 = j then some (x.2 * b.2.2) else none),
    Graph.bucket_triples A hi]
  unfold contribs
  apply Conv.flatMap_congr_mem
  intro x hx
  have hx' : x.1 < B.rows := hAB ▸ CSR.row_lt hA hx
  rw [← Graph.bucket_triples B hx']
  unfold Conv.bucket
  rw [List.filterMap_filterMap]
  refine List.filterMap_congr fun b _ => ?_
  by_cases h1 : b.1 = x.1
  · simp [h1]
  · simp [h1, Ne.symm h1]

theorem productAt_eq {A B : CSR R} (hA : A.WF) (hAB : A.cols = B.rows) {es fs : List (Nat × Nat × R)} (hp : (triples A).Perm es)
    (hq : (triples B).Perm fs) {i : Nat} (hi : i < A.rows) (j : Nat) :
    productAt es fs i j = (contribs (fun x y => x * y) A B i j).sum := by
  unfold productAt
  rw [← contribs_pairs hA hAB hi]
  exact ((hp.product hq).filterMap _).sum_eq.symm

omit [Semiring R] in
theorem dot_isSome {mul add : R → R → R} {A B : CSR R} (hA : A.WF) (hB : B.WF) (hAB : A.cols = B.rows) {es fs : List (Nat × Nat × R)}
    (hp : (triples A).Perm es) (hq : (triples B).Perm fs) {i j : Nat} (hi : i < A.rows) :
    (∃ v, dot mul add A B i j = some v) ↔ ∃ k, Stored es i k ∧ Stored fs k j := by
  have hv : (∃ v, dot mul add A B i j = some v) ↔ j ∈ (visits A B i).map (·.1) :=
    ⟨fun ⟨_, h⟩ => dot_mem_visits h, fun h => mem_visits_dot mul add h⟩
  rw [hv, List.mem_map]
  unfold visits
  simp only [List.mem_flatMap, List.mem_map]
  constructor
  · rintro ⟨_, ⟨ka, hka, jb, hjb, rfl⟩, rfl⟩
    have hk : ka.1 < B.rows := hAB ▸ CSR.row_lt hA hka
    refine ⟨ka.1, (stored_iff hA hp hi).1 ?_, (stored_iff hB hq hk).1 ?_⟩
    · rw [← CSR.row_map_fst hA i]; exact List.mem_map_of_mem hka
    · rw [← CSR.row_map_fst hB ka.1]; exact List.mem_map_of_mem hjb
  · rintro ⟨k, h1, h2⟩
    rw [← stored_iff hA hp hi] at h1
    have hk : k < B.rows := hAB ▸ CSR.rowCols_lt hA h1
    rw [← stored_iff hB hq hk, ← CSR.row_map_fst hB k, List.mem_map] at h2
    rw [← CSR.row_map_fst hA i, List.mem_map] at h1
    obtain ⟨ka, hka, rfl⟩ := h1
    obtain ⟨jb, hjb, rfl⟩ := h2
    exact ⟨_, ⟨ka, hka, jb, hjb, rfl⟩, rfl⟩

/-- The entries of a masked product -/
theorem masked_entries {A B M C : CSR R} (hA : A.WF) (hB : B.WF) (hM : M.WF) (hAB : A.cols = B.rows) (hMA : M.rows = A.rows)
    {es fs ms : List (Nat × Nat × R)} (hp : (triples A).Perm es) (hq : (triples B).Perm fs) (hr : (triples M).Perm ms)
    (h : IsMaskedSet (fun x y => x * y) (fun x y => x + y) A B M C) : MaskedEntries es fs ms (triples C) where
  nodup := triples_nodup h.wf h.nodup
  mem := by
    intro i j v
    rw [Graph.mem_triples, h.rows]
    by_cases hi : i < A.rows
    · rw [h.entries i hi, ← stored_iff hM hr (hMA ▸ hi), ← dot_isSome hA hB hAB hp hq hi (mul := fun x y => x * y) (add := fun x y => x + y),
        productAt_eq hA hAB hp hq hi]
      have := Props.sum1_add (contribs (fun x y => x * y) A B i j)
      constructor
      · rintro ⟨-, h1, h2⟩
        exact ⟨h1, ⟨v, h2⟩, ((this v).2 h2).symm⟩
      · rintro ⟨h1, ⟨w, h2⟩, rfl⟩
        refine ⟨hi, h1, ?_⟩
        rw [(this w).2 h2]
        exact h2
    · constructor
      · exact fun h => absurd h.1 hi
      · rintro ⟨⟨e, he, e'⟩, -⟩
        exfalso
        obtain ⟨rfl, rfl⟩ := Prod.mk.inj e'
        have := (Graph.mem_triples.1 (hr.mem_iff.2 he)).1
        omega

theorem masked_unique {es fs ms L L' : List (Nat × Nat × R)} (h : MaskedEntries es fs ms L) (h' : MaskedEntries es fs ms L') : L.Perm L' := by
  rw [List.perm_ext_iff_of_nodup (.of_map _ h.nodup) (.of_map _ h'.nodup)]
  rintro ⟨i, j, v⟩
  rw [h.mem, h'.mem]

/-- The two numbers that are printed for the entries `L` -/
def checkOf (enc : R → List UInt8) (L : List (Nat × Nat × R)) : Nat × Nat :=
  (Checksum.calculateChecksum (L.flatMap fun e => enc e.2.2), Checksum.calculateChecksum (L.flatMap fun e => bytesLE 4 e.2.1))

omit [Semiring R] in
theorem bytes4_even : ∀ v, (bytesLE 4 v).length % 2 = 0 := by
  have : ∀ k n, (bytesLE k n).length = k := by
    intro k
    induction k with
    | zero => intro n; rfl
    | succ k ih => intro n; simp [bytesLE, ih]
  intro v
  rw [this]

omit [Semiring R] in
theorem checkOf_perm {enc : R → List UInt8} (heven : ∀ v, (enc v).length % 2 = 0) {L L' : List (Nat × Nat × R)} (h : L.Perm L') :
    checkOf enc L = checkOf enc L' := by
  unfold checkOf
  rw [checksum_perm (fun e : Nat × Nat × R => enc e.2.2) (fun e => heven _) h,
    checksum_perm (fun e : Nat × Nat × R => bytesLE 4 e.2.1) (fun e => bytes4_even _) h]

omit [Semiring R] in
theorem checksum_eq (enc : R → List UInt8) {C : CSR R} (hC : C.WF) : checksum enc C = checkOf enc (triples C) := by
  unfold checksum checkOf
  rw [← (MatObj.triples_snd hC).1, ← (MatObj.triples_snd hC).2, List.flatMap_map, List.flatMap_map]

end

/-! ## The multiplications -/

/-- The loops of a call run over all rows (and threads). -/
structure SchAdm (rows n : Nat) (s : Sch) : Prop where
  two : s.two.Adm rows n
  dot : s.dot.Adm rows n
  order1 : s.order1.Perm (List.range rows)
  order2 : s.order2.Perm (List.range rows)
  gen : Admissible rows s.gen

/-- Each thread gets at least `K` turns in every part of the call. -/
structure SchFair (n K : Nat) (s : Sch) : Prop where
  two : ∀ t < n, K ≤ s.two.count.count t ∧ K ≤ s.two.fill.count t
  dot : ∀ t < n, K ≤ s.dot.main.count t
  gen : Fair n K s.gen

theorem SchFair.mono {n K K' : Nat} {s : Sch} (h : SchFair n K' s) (hK : K ≤ K') : SchFair n K s :=
  ⟨fun t ht => ⟨hK.trans (h.two t ht).1, hK.trans (h.two t ht).2⟩, fun t ht => hK.trans (h.dot t ht),
    fun t ht => ⟨hK.trans (h.gen t ht).1, hK.trans (h.gen t ht).2.1, hK.trans (h.gen t ht).2.2.1, hK.trans (h.gen t ht).2.2.2⟩⟩

/-- The matrices with the entries `es`, `fs` and `ms` -/
structure Mats {R : Type} (m k n : Nat) (es fs ms : List (Nat × Nat × R)) (A B M : CSR R) (Bc : CSC R) : Prop where
  wA : A.WF
  wB : B.WF
  wM : M.WF
  wBc : Bc.WF
  rA : A.rows = m
  cA : A.cols = k
  rB : B.rows = k
  cB : B.cols = n
  rM : M.rows = m
  cM : M.cols = n
  pA : (triples A).Perm es
  pB : (triples B).Perm fs
  pM : (triples M).Perm ms
  sA : A.SortedRows
  sB : B.SortedRows
  sM : M.SortedRows
  sBc : Bc.SortedCols
  same : SameMat B Bc

/-- What the algorithm needs beyond `Mats` -/
def Ker.Needs {R : Type} (A B M : CSR R) : Ker → Prop
  | .mca v => Props.McaInputs v A B M
  | _ => True

section
variable {R : Type} [Semiring R]

theorem nodup_of_sorted {A : CSR R} (h : A.SortedRows) : A.NodupRows := fun i hi => (h i hi).imp fun h => Nat.ne_of_lt h

theorem masked_set {A B M C : CSR R} {mul add : R → R → R} (hw : C.WF) (h : IsMasked mul add A B M C) : IsMaskedSet mul add A B M C :=
  ⟨hw, h.rows, h.cols, h.entries, h.nodup⟩

theorem of_two {r : Res (Option (CSR R))} {C : CSR R} {K n : Nat} {s : Sch} {p : Nat → Prop}
    (h : (r = .ok none ∧ ∃ t < n, p t) ∨ r = .ok (some C)) (hp : SchFair n K s → ∀ t < n, ¬p t) : Gives (SchFair n K s) C r := by
  rcases h with ⟨e, t, ht, h⟩ | e
  · exact .inr ⟨fun hf => hp hf t ht h, e⟩
  · exact .inl e

theorem of_computes {call : Scheds → Res (Option (CSR R))} {rows n : Nat} {C : CSR R} (h : Computes call rows n C) :
    ∃ K, ∀ s : Sch, SchAdm rows n s → Gives (SchFair n K s) C (call s.gen) := by
  obtain ⟨K, hK⟩ := h.live
  refine ⟨K, fun s hs => ?_⟩
  rcases h.safe _ hs.gen with e | e
  · refine .inr ⟨fun hf => ?_, e⟩
    rw [hK _ hs.gen hf.gen] at e
    simp at e
  · exact .inl e

theorem kernel_gives {m k n : Nat} {es fs ms : List (Nat × Nat × R)} {A B M : CSR R} {Bc : CSC R} (h : Mats m k n es fs ms A B M Bc)
    (hm : 0 < m) (hsmall : m + 1 < 2 ^ 17) (hcols : ∀ e ∈ es, e.2.1 < n) (x : Ker) (hx : x.Needs A B M) {tnum : Nat} (ht : 0 < tnum) :
    ∃ C, IsMaskedSet (fun x y => x * y) (fun x y => x + y) A B M C ∧ ∃ K, ∀ C0 : CSR R, C0.nnz = 0 → C0.zerobased = true →
      ∀ s, SchAdm m tnum s → Gives (SchFair tnum K s) C (x.call A B M Bc tnum C0 s) := by
  have hv : Valid A B M := ⟨h.wA, h.wB, h.wM, ⟨h.cA.trans h.rB.symm, h.rM.trans h.rA.symm, h.cM.trans h.cB.symm⟩, h.rA ▸ hm⟩
  have hs2 : A.rows + 1 < 2 ^ 17 := h.rA ▸ hsmall
  have hbig : A.rows < 2 ^ 17 ∨ tnum ≤ A.rows := .inl (by omega)
  have eA := h.rA
  subst eA
  have hflip : (fun a b : R => b + a) = fun a b => a + b := by funext a b; exact add_comm b a
  cases x with
  | spa =>
    obtain ⟨C, h1, -, h2⟩ := Props.C31_spa_partial (fun x y : R => x * y) (fun x y => x + y) hv hs2 0 ht tnum
    refine ⟨C, hflip ▸ h1, A.rows + 2, fun C0 _ _ s hs => of_two (h2 s.two hs.two) fun hf t ht' hp => ?_⟩
    have := hf.two t ht'
    omega
  | hash =>
    obtain ⟨C, h1, h2⟩ := Props.C31_hash_partial (fun x y : R => x * y) (fun x y => x + y) hv hs2 0 ht tnum
    refine ⟨C, h1, A.rows + 2, fun C0 _ _ s hs => of_two (h2 s.two hs.two) fun hf t ht' hp => ?_⟩
    have := hf.two t ht'
    omega
  | wobin =>
    obtain ⟨C, h1, h2⟩ := Props.C31_wobin_partial (fun x y : R => x * y) (fun x y => x + y) hv hs2 0 tnum
    exact ⟨C, h1, 0, fun C0 _ _ s hs => .inl (h2 _ _ _ _ hs.order1 hs.order2)⟩
  | inner =>
    have hvc : ValidC A Bc M := ⟨h.wA, h.wBc, h.wM, h.cA.trans (h.rB.symm.trans h.same.rows.symm), h.rM, h.cM.trans (h.cB.symm.trans h.same.cols.symm),
      hm, h.sA, h.sBc⟩
    have hc : ∀ c ∈ A.colids, c < Bc.cols := by
      intro c hc
      rw [← (MatObj.triples_snd h.wA).1, List.mem_map] at hc
      obtain ⟨e, he, rfl⟩ := hc
      rw [h.same.cols, h.cB]
      exact hcols e (h.pA.mem_iff.1 he)
    obtain ⟨C, h1, hw, h2⟩ := Props.C53_inner_partial (fun x y : R => x * y) (fun x y => x + y) 0 (fun x y => zero_add _) hvc
      (nodup_of_sorted h.sM) hc hs2 ht tnum
    refine ⟨C, masked_set hw (isMasked_of_csc h.wA h.wBc h.wB h.wM hv.shapes.ab hv.shapes.mb h.same (nodup_of_sorted h.sB) h.sBc h1), A.rows + 2,
      fun C0 h0 _ s hs => ?_⟩
    unfold Ker.call
    dsimp only
    rw [h0]
    refine of_two (h2 s.dot hs.dot) fun hf t ht' hp => ?_
    have := hf.dot t ht'
    omega
  | heap v =>
    obtain ⟨C, h1, hw, h2⟩ := Props.C74_masked_heaps v (fun x y : R => x * y) (fun x y => x + y) Graph.assocComm_add 0 hv h.sB h.sM true tnum ht hbig
    rw [Nat.max_self] at h2
    obtain ⟨K, hK⟩ := of_computes h2
    refine ⟨C, masked_set (hw rfl) h1, K, fun C0 _ hz s hs => ?_⟩
    unfold Ker.call
    dsimp only
    rw [hz]
    exact hK s hs
  | mca v =>
    obtain ⟨C, h1, hw, h2⟩ := Props.C75_mca_partial v (fun x y : R => x * y) (fun x y => x + y) 0 hv hx true tnum ht hbig
    rw [Nat.max_self] at h2
    obtain ⟨K, hK⟩ := of_computes h2
    refine ⟨C, masked_set (hw rfl) h1, K, fun C0 _ hz s hs => ?_⟩
    unfold Ker.call
    dsimp only
    rw [hz]
    exact hK s hs

theorem checkOf_eq (enc : R → List UInt8) (L : List (Nat × Nat × R)) : checkOf enc L = shownCheck enc L := by
  unfold checkOf shownCheck
  rw [Props.C71_value, Props.C71_value]

/-- What is printed for the algorithm `name` -/
def lines (enc : R → List UInt8) (file : List Char) (tnum flop : Nat) (L : List (Nat × Nat × R)) (name : List Char) : List Event :=
  [.total flop, .result name tnum L.length (shownCheck enc L), .log file name tnum L.length (shownCheck enc L)]

theorem Gives.weaken {α : Type} {p q : Prop} {x : α} {r : Res (Option α)} (h : Gives p x r) (hpq : q → p) : Gives q x r := by
  rcases h with e | ⟨h, e⟩
  · exact .inl e
  · exact .inr ⟨fun hq => h (hpq hq), e⟩

theorem run_lines {m k n : Nat} {es fs ms : List (Nat × Nat × R)} {A B M : CSR R} {Bc : CSC R} (h : Mats m k n es fs ms A B M Bc)
    (hm : 0 < m) (hsmall : m + 1 < 2 ^ 17) (hcols : ∀ e ∈ es, e.2.1 < n) (x : Ker) (hx : x.Needs A B M) {tnum : Nat} (ht : 0 < tnum)
    {enc : R → List UInt8} (heven : ∀ v, (enc v).length % 2 = 0) {L : List (Nat × Nat × R)} (hL : MaskedEntries es fs ms L) :
    ∃ K, ∀ (file name : List Char) (niters flop : Nat) (sch : Nat → Nat → Sch), (∀ j i, SchAdm m tnum (sch j i)) →
      Good (∀ j i, SchFair tnum K (sch j i)) (lines enc file tnum flop L name)
        (run enc (some file) name (x.call A B M Bc) niters [tnum] flop sch) := by
  obtain ⟨C, hC, K, hK⟩ := kernel_gives h hm hsmall hcols x hx ht
  refine ⟨K, fun file name niters flop sch hadm => ?_⟩
  have hp := masked_unique (masked_entries h.wA h.wB h.wM (h.cA.trans h.rB.symm) (h.rM.trans h.rA.symm) h.pA h.pB h.pM hC) hL
  have e1 : C.nnz = L.length := by rw [← hp.length_eq, triples_length hC.wf]
  have e2 : checksum enc C = shownCheck enc L := by rw [checksum_eq enc hC.wf, checkOf_perm heven hp, checkOf_eq]
  have := run_good (enc := enc) (st := ∀ j i, SchFair tnum K (sch j i)) file name (f := x.call A B M Bc) niters flop (sch := sch) tnum (C := C)
    (fun C0 h0 hz j i => Gives.weaken (hK C0 h0 hz _ (hadm j i)) fun hh => hh j i) hC.wf.zero
  rw [e1, e2] at this
  exact this

/-- There is a list of the entries of the product. -/
theorem entries_exist {m k n : Nat} {es fs ms : List (Nat × Nat × R)} {A B M : CSR R} {Bc : CSC R} (h : Mats m k n es fs ms A B M Bc) :
    ∃ L, MaskedEntries es fs ms L :=
  ⟨_, masked_entries h.wA h.wB h.wM (h.cA.trans h.rB.symm) (h.rM.trans h.rA.symm) h.pA h.pB h.pM
    (masked_set (maskedMat_wf h.wB) (maskedMat_isMasked (h.rM.trans h.rA.symm) true (nodup_of_sorted h.sM)))⟩

theorem Good.weaken {E : Type} {p q : Prop} {w : List E} {o : Out E} (h : Good p w o) (hpq : q → p) : Good q w o := by
  rcases h with e | ⟨h, e⟩
  · exact .inl e
  · exact .inr ⟨fun hq => h (hpq hq), e⟩

/-- A list of algorithms, each with its lines -/
theorem runs_lines {m k n : Nat} {es fs ms : List (Nat × Nat × R)} {A B M : CSR R} {Bc : CSC R} (h : Mats m k n es fs ms A B M Bc)
    (hm : 0 < m) (hsmall : m + 1 < 2 ^ 17) (hcols : ∀ e ∈ es, e.2.1 < n) {tnum : Nat} (ht : 0 < tnum)
    {enc : R → List UInt8} (heven : ∀ v, (enc v).length % 2 = 0) {L : List (Nat × Nat × R)} (hL : MaskedEntries es fs ms L)
    (ks : List (List Char × Ker)) (hx : ∀ x ∈ ks, x.2.Needs A B M) :
    ∃ K, ∀ (file : List Char) (niters flop : Nat) (sch : Nat → Nat → Nat → Sch) (off : Nat), (∀ c j i, SchAdm m tnum (sch c j i)) →
      Good (∀ c j i, SchFair tnum K (sch c j i)) (ks.flatMap fun x => lines enc file tnum flop L x.1)
        (seqAll ((ks.zipIdx off).map fun x => run enc (some file) x.1.1 (x.1.2.call A B M Bc) niters [tnum] flop (sch x.2))) := by
  induction ks with
  | nil => exact ⟨0, fun _ _ _ _ _ _ => .inl rfl⟩
  | cons a ks ih =>
    obtain ⟨K1, h1⟩ := run_lines h hm hsmall hcols a.2 (hx a (by simp)) ht heven hL
    obtain ⟨K2, h2⟩ := ih fun x hx' => hx x (by simp [hx'])
    refine ⟨max K1 K2, fun file niters flop sch off hadm => ?_⟩
    rw [List.zipIdx_cons, List.map_cons, List.flatMap_cons]
    exact seq_good
      (Good.weaken (h1 file a.1 niters flop (sch off) (hadm off)) fun hh j i => (hh off j i).mono (Nat.le_max_left _ _))
      (Good.weaken (h2 file niters flop sch (off + 1) hadm) fun hh c j i => (hh c j i).mono (Nat.le_max_right _ _))

end

/-! ## The inputs -/

section
variable {R : Type} [Semiring R]

theorem read_file {ofInt : Int → R} {neg : R → R} {sortf : List (Nat × R) → List (Nat × R)} (hsort : SortsBy Prod.fst sortf) {text : List Char}
    {m n : Nat} {es : List (Nat × Nat × R)} (h : FileOf ofInt neg text m n es) {order : List Nat} (ho : order.Perm (List.range n)) :
    ∃ Ac A T, ReadIO.readASCII sortf order ofInt (some text) = .ok Ac ∧ Conv.csrOfCsc 0 Ac = .ok A ∧ Conv.csrOfCscT 0 Ac true = .ok T ∧
      Ac.WF ∧ Ac.rows = m ∧ Ac.cols = n ∧ (triplesC Ac).Perm es ∧ Ac.SortedCols ∧
      A.WF ∧ A.rows = m ∧ A.cols = n ∧ (triples A).Perm es ∧ A.SortedRows ∧ SameMat A Ac := by
  obtain ⟨t, es0, hd, rfl, hs, hk, hm, hl, hnd⟩ := h
  obtain ⟨Ac, h1, h2, h3, h4, h5, h6⟩ := Props.C65_partial neg hsort hd hs hk hm hl ho
  have hcn := Props.cols_nodup h2 (((h5.map _).nodup_iff).2 hnd)
  obtain ⟨A, g1, g2, g3, g4, g5, -, g7, g8⟩ := Props.C21_csc_to_csr (0 : R) h2
  obtain ⟨T, t1, -⟩ := Props.C21_transposing (0 : R) h2
  refine ⟨Ac, A, T, h1, g1, t1, h2, h3, h4, h5, ?_, g2, g3.trans h3, g4.trans h4, g5.trans h5, g7 hcn, g8⟩
  intro j hj
  have := (h6 j (h4 ▸ hj)).and (hcn j hj)
  exact this.imp fun ⟨a, b⟩ => Nat.lt_of_le_of_ne a b

variable {ofInt : Int → R} {neg : R → R} {sortf : List (Nat × R) → List (Nat × R)} {a : Args} {m k n : Nat} {es fs ms : List (Nat × Nat × R)}
  {ta tb tm : List Char} {o : Orders}

theorem setup_ok (hsort : SortsBy Prod.fst sortf) (hA : FileOf ofInt neg ta m k es) (hB : FileOf ofInt neg tb k n fs)
    (hM : FileOf ofInt neg tm m n ms) (eA : a.fileA = some ta) (eB : a.fileB = some tb) (eM : a.fileM = some tm)
    (oA : o.readA.Perm (List.range k)) (oB : o.readB.Perm (List.range n)) (oM : o.readM.Perm (List.range n)) (oF : o.flop.Perm (List.range n))
    {tnum : Nat} (ht : a.threads = some tnum) (hpath : '/' ∈ a.path) :
    ∃ base x, IsFileName a.path base ∧ setup ofInt sortf o a = .ok x ∧ x.fileName = some base ∧ Mats m k n es fs ms x.A x.B x.M x.Bc ∧
      x.flop = pairings es fs * 2 := by
  obtain ⟨base, hb1, hb2⟩ := Props.C80_file_masked_partial hpath
  obtain ⟨Ac, A, TA, a1, a2, a3, a4, a5, a6, a7, a8, a9, a10, a11, a12, a13, a14⟩ := read_file hsort hA oA
  obtain ⟨Bc, B, TB, b1, b2, b3, b4, b5, b6, b7, b8, b9, b10, b11, b12, b13, b14⟩ := read_file hsort hB oB
  obtain ⟨Mc, M, TM, c1, c2, c3, c4, c5, c6, c7, c8, c9, c10, c11, c12, c13, c14⟩ := read_file hsort hM oM
  have hf := Flops.cscCsc_eq a4 b4 (a6.trans b5.symm) (order := o.flop) (by rw [b6]; exact oF)
  refine ⟨base, { fileName := some base, A := A, B := B, Bc := Bc, M := M, flop := pairings (triplesC Ac) (triplesC Bc) * 2 }, hb2, ?_, rfl, ?_, ?_⟩
  · unfold setup
    rw [ht, eA, eB, eM]
    simp only [hb1, a1, a2, a3, b1, b2, b3, c1, c2, c3, hf, ok_bind]
    rfl
  · exact { wA := a9, wB := b9, wM := c9, wBc := b4, rA := a10, cA := a11, rB := b10, cB := b11, rM := c10, cM := c11, pA := a12, pB := b12, pM := c12, sA := a13, sB := b13, sM := c13, sBc := b8, same := b14 }
  · show pairings (triplesC Ac) (triplesC Bc) * 2 = _
    rw [Flops.pairings_perm a7 b7]

/-- Files with the same positions in which each column with an entry is a row with an entry -/
theorem mca_needs {A B M : CSR R} {Bc : CSC R} (h : Mats m m m es fs ms A B M Bc) (hf : ∀ i j, Stored fs i j ↔ Stored es i j)
    (hms : ∀ i j, Stored ms i j ↔ Stored es i j) (hout : ∀ i k, Stored es i k → ∃ j, Stored es k j) (v : Gen.MVer) : Props.McaInputs v A B M := by
  have rows_eq : ∀ {X Y : CSR R}, X.SortedRows → Y.SortedRows → X.rows = m → Y.rows = m →
      (∀ i j, i < m → (j ∈ X.rowCols i ↔ j ∈ Y.rowCols i)) → ∀ i < m, X.rowCols i = Y.rowCols i := by
    intro X Y sX sY rX rY hxy i hi
    have nX := nodup_of_sorted sX i (rX ▸ hi)
    have nY := nodup_of_sorted sY i (rY ▸ hi)
    exact ((List.perm_ext_iff_of_nodup nX nY).2 fun j => hxy i j hi).eq_of_pairwise' (sX i (rX ▸ hi)) (sY i (rY ▸ hi))
  have inA : ∀ i j, i < m → (j ∈ A.rowCols i ↔ Stored es i j) := fun i j hi => stored_iff h.wA h.pA (h.rA ▸ hi)
  have inB : ∀ i j, i < m → (j ∈ B.rowCols i ↔ Stored fs i j) := fun i j hi => stored_iff h.wB h.pB (h.rB ▸ hi)
  have inM : ∀ i j, i < m → (j ∈ M.rowCols i ↔ Stored ms i j) := fun i j hi => stored_iff h.wM h.pM (h.rM ▸ hi)
  have eB := rows_eq h.sA h.sB h.rA h.rB fun i j hi => by rw [inA i j hi, inB i j hi, hf]
  have eM := rows_eq h.sA h.sM h.rA h.rM fun i j hi => by rw [inA i j hi, inM i j hi, hms]
  have colids : ∀ X : CSR R, X.WF → X.colids = (List.range X.rows).flatMap X.rowCols := by
    intro X hX
    rw [← (MatObj.triples_snd hX).1]
    unfold triples
    rw [List.map_flatMap]
    apply Conv.flatMap_congr_mem
    intro i _
    rw [← CSR.row_map_fst hX i, List.map_map]
    rfl
  have hne : ∀ k, (∃ i, i < m ∧ k ∈ A.rowCols i) → k < m ∧ B.rowCols k ≠ [] := by
    rintro k ⟨i, hi, hk⟩
    have hk' : k < m := h.cA ▸ CSR.rowCols_lt h.wA hk
    obtain ⟨j, hj⟩ := hout i k ((inA i k hi).1 hk)
    have : j ∈ B.rowCols k := by rw [← eB k hk', inA k j hk']; exact hj
    exact ⟨hk', List.ne_nil_of_mem this⟩
  refine ⟨h.sB, h.sM, ?_, ?_, ?_⟩
  · intro _ i hi ht e
    rw [h.rA] at hi
    apply ht
    rw [← eM i hi, ← CSR.row_map_fst h.wA i, List.map_eq_nil_iff] at e
    unfold touched
    rw [e]
    rfl
  · intro i hi j _ hj
    rw [h.rA] at hi
    have h1 : (M.rowCols i).idxOf j < (M.rowCols i).length := List.idxOf_lt_length_iff.2 hj
    refine Nat.lt_of_lt_of_le h1 ?_
    rw [← eM i hi, ← CSR.row_map_fst h.wA i, List.length_map]
    unfold touched
    rw [List.length_flatMap]
    have : ∀ l : List (Nat × R), (∀ x ∈ l, B.row x.1 ≠ []) → l.length ≤ (l.map fun x => ((B.row x.1).map Prod.fst).length).sum := by
      intro l
      induction l with
      | nil => intro _; exact Nat.le_refl _
      | cons x l ih =>
        intro hl
        have h1 := ih fun y hy => hl y (by simp [hy])
        have h2 := List.length_pos_iff.2 (hl x (by simp))
        simp only [List.map_cons, List.sum_cons, List.length_cons, List.length_map] at h1 ⊢
        omega
    refine this _ fun x hx e => ?_
    have hx' : x.1 ∈ A.rowCols i := by rw [← CSR.row_map_fst h.wA i]; exact List.mem_map_of_mem hx
    apply (hne x.1 ⟨i, hi, hx'⟩).2
    rw [← CSR.row_map_fst h.wB, e]
    rfl
  · intro _
    have e : A.colids = B.colids := by
      rw [colids A h.wA, colids B h.wB, h.rA, h.rB]
      exact Conv.flatMap_congr_mem _ _ _ fun i hi => eB i (List.mem_range.1 hi)
    refine ⟨e, fun k hk => ?_⟩
    rw [colids A h.wA, List.mem_flatMap] at hk
    obtain ⟨i, hi, hk⟩ := hk
    obtain ⟨hkm, hkne⟩ := hne k ⟨i, h.rA ▸ List.mem_range.1 hi, hk⟩
    have hkB : k < B.rows := h.rB.symm ▸ hkm
    have h1 : B.ptr (k + 1) ≠ B.ptr k := fun e => hkne ((rowCols_eq_nil h.wB hkB).2 e)
    have h2 := h.wB.ptrMono k hkB
    have h3 := CSR.ptr_le_nnz h.wB (i := k + 1) hkB
    omega

end

end Verif.Model.MaskedAll
