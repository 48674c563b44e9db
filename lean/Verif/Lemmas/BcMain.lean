import Verif.Lemmas.Bc
import Verif.Lemmas.Never
import Verif.Lemmas.PathSum
import Verif.Lemmas.KTrussMain
import Verif.Lemmas.TriGrbMain
import Verif.Model.BcMain
import Verif.SpecBcMain
import Mathlib.Data.Rat.Floor
import Mathlib.Tactic.Linarith

/-! # The betweenness centrality program: reading, the calls of an algorithm, the number of sources -/

namespace Verif.Model.BcMain

open Verif.Spec Verif.Model.Bench Verif.Model.Bc Verif.Paths
open _root_.Verif.Model.MaskedAll (Good)

variable {V : Type} {n : Nat}

/-! ## Reading -/

/-- The file is read as the adjacency matrix of the directed graph of its entries. -/
theorem read_ok (y : Sys V) {t : MMText} {es : List (Nat × Nat × V)} (h : Describes (IntVal y.ofInt) (y.ofInt 1) t n n es)
    (hs : ∀ l ∈ t.lines, l.length ≤ 255) {text : List Char} (hl : Lines t.lines text) :
    ∃ A, read y (some text) = .ok A ∧ RepresentsD (arcs n (ReadIO.symFlag t) es) A := by
  obtain ⟨es', F, hpos, -, -, he, hperm⟩ := Props.triples_run (fun v => v) y.fresh true y.rnd true (.of_describes h) hs hl
  have et : ReadIO.toNats (((n : Int), (n : Int)), F.map Props.castE) = .ok ((n, n), F) := by
    unfold ReadIO.toNats
    rw [if_pos]
    · simp [Props.castE, Function.comp_def]
    · refine ⟨by simp, by simp, ?_⟩
      intro t ht
      rw [List.mem_map] at ht
      obtain ⟨x, _, rfl⟩ := ht
      simp [Props.castE]
  obtain ⟨g, hg, hg'⟩ := Grb.build_eq y.min n n F
  refine ⟨Grb.build y.min n n F, ?_, ?_⟩
  · unfold read ReadIO.readTriples
    rw [he, ok_bind, et, ok_bind]
  rw [hg]
  refine ⟨Grb.scan_wf _ _ _, rfl, rfl, Grb.scan_sorted _ _ _, ?_⟩
  intro i j
  rw [ofRows_rowCols _ _ _ _ i.2, Grb.mem_scan, hg', and_iff_right j.2]
  have hes : ∀ u v : Nat, (∃ e ∈ es', e.1 = u ∧ e.2.1 = v) ↔ ∃ e ∈ es, e.1 = u ∧ e.2.1 = v := by
    intro u v
    have : (u, v) ∈ es'.map (fun e => (e.1, e.2.1)) ↔ (u, v) ∈ es.map (fun e => (e.1, e.2.1)) := by rw [hpos]
    simpa only [List.mem_map, Prod.mk.injEq] using this
  unfold arcs
  rw [← hes, ← hes]
  simp only [hperm.mem_iff]
  have hij : i ≠ j ↔ i.val ≠ j.val := not_congr Fin.ext_iff
  rw [hij]
  cases ReadIO.symFlag t
  · simp only [Bool.false_eq_true, if_false, fullEntries, List.mem_filter, Bool.true_and, Bool.not_eq_true', decide_eq_false_iff_not, false_and, or_false]
    constructor
    · rintro ⟨e, ⟨h1, h2⟩, h3, h4⟩
      exact ⟨by omega, e, h1, h3, h4⟩
    · rintro ⟨h0, e, h1, h3, h4⟩
      exact ⟨e, ⟨h1, by omega⟩, h3, h4⟩
  · simp only [if_true, fullEntries, List.mem_append, List.mem_map, List.mem_filter, Bool.true_and, Bool.not_eq_true', decide_eq_false_iff_not, true_and]
    constructor
    · rintro ⟨t, ⟨h1, h2⟩ | ⟨e, ⟨⟨h1, h2⟩, -⟩, rfl⟩, h3, h4⟩
      · exact ⟨by omega, .inl ⟨t, h1, h3, h4⟩⟩
      · exact ⟨by simp only at h3 h4; omega, .inr ⟨e, h1, h4, h3⟩⟩
    · rintro ⟨h0, ⟨e, h1, h3, h4⟩ | ⟨e, h1, h3, h4⟩⟩
      · exact ⟨e, .inl ⟨h1, by omega⟩, h3, h4⟩
      · exact ⟨(e.2.1, e.1, e.2.2), .inr ⟨e, ⟨⟨h1, by omega⟩, by simp only [ne_eq, decide_not, Bool.not_eq_true', decide_eq_false_iff_not]; omega⟩, rfl⟩, h4, h3⟩

theorem nnz_arcs {R : Fin n → Fin n → Prop} {A : CSR V} (h : RepresentsD R A) : A.nnz = {p : Fin n × Fin n | R p.1 p.2}.ncard :=
  TriGrb.Dir.nnz ⟨h.wf, h.rows, h.cols, Graph.nodup_of_sorted h.sorted, h.adj⟩

/-! ## The number of sources -/

theorem ceil_eq (q : Rat) : q.ceil = ⌈q⌉ := by
  rw [Rat.ceil_eq_neg_floor_neg]
  rfl

theorem toInt_floor (y : Sys V) {q : Rat} {s : Nat} (h1 : (s : Rat) ≤ q) (h2 : q < s + 1) (hs : s < 2 ^ 31) : toInt y q = s := by
  have h0 : ¬q < 0 := not_lt.2 (le_trans (by exact_mod_cast Nat.zero_le s) h1)
  have hf : q.floor = (s : Int) := by
    have := (Int.floor_eq_iff (a := q) (z := (s : Int))).2 ⟨by exact_mod_cast h1, by exact_mod_cast h2⟩
    exact this
  unfold toInt
  simp only [if_neg h0, hf]
  rw [if_pos]
  omega

theorem sources_eq (y : Sys V) {x : Rat} {s : Nat} (h : IsCount x (y.mul n x) s) (hpos : 0 < s) (hs : s < 2 ^ 31) (hn : n < 2 ^ 31) :
    sources y x n = (min s n : Nat) := by
  have key : (if x < 1 then toInt y (nearest (y.mul n x) : Rat) else toInt y x) = s := by
    unfold IsCount at h
    split at h
    · rename_i hx
      rw [if_pos hx]
      have h1 : (1 : Rat) ≤ s := by exact_mod_cast hpos
      have hnear : nearest (y.mul n x) = s := by
        unfold nearest
        rw [if_neg (by linarith [h.1])]
        exact (Int.floor_eq_iff (a := y.mul n x + 1 / 2) (z := (s : Int))).2 ⟨by push_cast; linarith [h.1], by push_cast; linarith [h.2]⟩
      rw [hnear]
      exact toInt_floor y (by simp) (by simp) hs
    · rename_i hx
      rw [if_neg hx]
      exact toInt_floor y h.1 h.2 hs
  unfold sources
  simp only [key]
  split
  · rename_i h
    rw [Int.bmod_eq_of_le (by omega) (by omega)]
    omega
  · omega

/-- A negative number of sources: all -/
theorem sources_neg (y : Sys V) {x : Rat} (hx : x < 1) (h1 : y.mul n x ≤ -1 / 2) (h2 : -2 ^ 31 ≤ y.mul n x) (hn : n < 2 ^ 31) : sources y x n = n := by
  have hz : nearest (y.mul n x) ≤ -1 ∧ -2 ^ 31 ≤ nearest (y.mul n x) := by
    unfold nearest
    rw [if_pos (by linarith)]
    constructor
    · exact Rat.ceil_le_iff.2 (by push_cast; linarith)
    · have : (-2 ^ 31 - 1 : Int) < (y.mul n x - 1 / 2).ceil := Rat.lt_ceil_iff.2 (by push_cast; linarith)
      omega
  unfold sources
  simp only [if_pos hx]
  generalize nearest (y.mul n x) = z at hz
  have : toInt y (z : Rat) = z := by
    unfold toInt
    have hz0 : (z : Rat) < 0 := by
      have : (z : Rat) ≤ -1 := by exact_mod_cast hz.1
      linarith
    have hc : (z : Rat).ceil = z := Rat.ceil_intCast z
    simp only [if_pos hz0, hc]
    rw [if_pos]
    omega
  rw [this, if_pos (by omega), Int.bmod_eq_of_le (by omega) (by omega)]

/-- Less than half a source: none -/
theorem sources_zero (y : Sys V) {x : Rat} (hx : x < 1) (h1 : -1 / 2 < y.mul n x) (h2 : y.mul n x < 1 / 2) : sources y x n = 0 := by
  have hz : nearest (y.mul n x) = 0 := by
    unfold nearest
    split
    · rw [ceil_eq]
      exact (Int.ceil_eq_iff (a := y.mul n x - 1 / 2) (z := 0)).2 ⟨by push_cast; linarith, by push_cast; linarith⟩
    · exact (Int.floor_eq_iff (a := y.mul n x + 1 / 2) (z := 0)).2 ⟨by push_cast; linarith, by push_cast; linarith⟩
  unfold sources
  simp only [if_pos hx, hz]
  have : toInt y ((0 : Int) : Rat) = 0 := by
    have := toInt_floor y (q := ((0 : Int) : Rat)) (s := 0) (by simp) (by simp) (by decide)
    exact_mod_cast this
  rw [this, if_neg (by omega)]

variable [Field V] [DecidableEq V] [CharZero V] {R : Fin n → Fin n → Prop} {srcs : List (Fin n)}

/-! ## The multiplications -/

theorem grb_mul (compl : Bool) (T : Nat) {s : Nat} {A B M : CSR V} {fA : Fin n → Fin n → Option V} {fB fM : Fin n → Fin s → Option V}
    (hA : Bc.Has A fA) (hB : Bc.Has B fB) (hM : Bc.Has M fM) : Mul (grbMul compl) T compl A B M fA fB fM := by
  refine ⟨_, ⟨fun sch _ => .inr rfl, 0, fun sch _ _ => rfl⟩, ?_⟩
  refine ofEntries_has hA.rows hB.cols fun i j => ?_
  rw [hM.entry, Bc.dot_eq hA hB]

theorem repD_has {A : CSR V} (h : RepresentsD R A) : Bc.Has A fun i j : Fin n => Bc.entry A i j := by
  refine ⟨h.wf, h.rows, h.cols, h.sorted, fun i j v => ?_⟩
  unfold Bc.entry
  rw [find_key]
  rw [CSR.row_map_fst h.wf]
  exact Graph.nodup_of_sorted h.sorted i (by rw [h.rows]; exact i.2)

/-- What the computation asks of an algorithm: the heap algorithm with assertions works if the sources are closed under arcs. -/
def Method.Fits (R : Fin n → Fin n → Prop) (srcs : List (Fin n)) : Method → Prop
  | .grb => True
  | .msp fp fc => OkPlain fp.kind (n * srcs.length) ∧ (fc.kind.compl = true ∧ fc.kind.sorted = true) ∧
      (fc.kind = .heapC false → ∀ u v, R u v → u ∈ srcs → v ∈ srcs)

theorem run_ok {m : Method} (hm : m.Fits R srcs) {y : Sys V} (hfuel : n < y.fuel) {A : CSR V} (hA : RepresentsD R A) (hs : srcs ≠ []) {tnum : Nat}
    (ht : 0 < tnum) :
    ∃ K, ∀ sch sch', (∀ i, Admissible n (sch i)) → (∀ i, Admissible n (sch' i)) →
      Gives ((∀ i, Fair tnum K (sch i)) ∧ ∀ i, Fair tnum K (sch' i)) (List.ofFn fun v : Fin n => some (centrality V R srcs v))
        (m.run y A (srcs.map Fin.val) tnum sch sch') := by
  have hAh := repD_has hA
  have hadj : ∀ u v : Fin n, Bc.entry A u v ≠ none ↔ R u v := fun u v => by rw [← hAh.mem_cols, hA.adj]
  have hn : 0 < n := (srcs[0]'(List.length_pos_of_ne_nil hs)).pos
  have hT : setNumThreads tnum tnum = tnum := by unfold setNumThreads; split <;> omega
  have key : ∀ mulp mulc : CSR V → CSR V → CSR V → Scheds → Res (Option (CSR V)),
      (∃ K, ∀ fuel, n < fuel →
      (∀ sch sch', (∀ i, Admissible n (sch i)) → (∀ i, Admissible n (sch' i)) →
        bcWith mulp mulc A (srcs.map Fin.val) sch sch' fuel = .ok none ∨
        bcWith mulp mulc A (srcs.map Fin.val) sch sch' fuel =
          .ok (some (List.ofFn fun v : Fin n => some (centrality V R srcs v)))) ∧
      (∀ sch sch', (∀ i, Admissible n (sch i)) → (∀ i, Admissible n (sch' i)) →
        (∀ i, Fair tnum K (sch i)) → (∀ i, Fair tnum K (sch' i)) →
        bcWith mulp mulc A (srcs.map Fin.val) sch sch' fuel =
          .ok (some (List.ofFn fun v : Fin n => some (centrality V R srcs v))))) →
      ∃ K, ∀ sch sch', (∀ i, Admissible n (sch i)) → (∀ i, Admissible n (sch' i)) →
        Gives ((∀ i, Fair tnum K (sch i)) ∧ ∀ i, Fair tnum K (sch' i)) (List.ofFn fun v : Fin n => some (centrality V R srcs v))
          (bcWith mulp mulc A (srcs.map Fin.val) sch sch' y.fuel) := by
    rintro mulp mulc ⟨K, hK⟩
    refine ⟨K, fun sch sch' h1 h2 => ?_⟩
    obtain ⟨hsafe, hlive⟩ := hK y.fuel hfuel
    rcases hsafe sch sch' h1 h2 with h | h
    · refine .inr ⟨fun hf => ?_, h⟩
      rw [hlive sch sch' h1 h2 hf.1 hf.2] at h
      cases h
    · exact .inl h
  cases m with
  | grb =>
    refine key (grbMul false) (grbMul true) (bcWith_ok (fun W P fW fP hW hP => grb_mul false tnum hAh hW hP) (fun k F N hF hN => ?_) hAh hadj hs)
    exact grb_mul true tnum hAh.transpose hF hN
  | msp fp fc =>
    obtain ⟨hp, hc, hcl⟩ := hm
    refine key (multPack fp tnum tnum) (multPack fc tnum tnum) (bcWith_ok (fun W P fW fP hW hP => ?_) (fun k F N hF hN => ?_) hAh hadj hs)
    · have := multPack_plain hn hp hAh hW hP (nt := tnum) (dflt := tnum) (by rw [hT]; exact ht)
      rwa [hT] at this
    · have := multPack_cmpl hn hc (fun h => closed_fN (hcl h) hadj k) hAh.transpose hF hN (nt := tnum) (dflt := tnum) (by rw [hT]; exact ht)
      rwa [hT] at this

theorem sum_ofFn_some (f : Fin n → V) : ((List.ofFn fun v => some (f v)).filterMap id).sum = ∑ v, f v := by
  rw [← List.sum_ofFn]
  congr 1
  rw [List.ofFn_eq_map, List.ofFn_eq_map, List.filterMap_map]
  simp

/-- The line of an algorithm for one number of threads -/
theorem runThreads_good {y : Sys V} (hfuel : n < y.fuel) {e : Env} (hit : 0 < e.warmupIters + e.innerIters) (file : List Char)
    {A : CSR V} (hA : RepresentsD R A) (hs : srcs ≠ []) {a : List Char × Method} {name : List Char} (hname : processName a.1 = .ok name)
    (ha : a.2.Fits R srcs) {tnum : Nat} (ht : 0 < tnum) :
    ∃ K, ∀ sch sch' : Nat → Nat → Scheds, (∀ i s, Admissible n (sch i s)) → (∀ i s, Admissible n (sch' i s)) →
      Good ((∀ i s, Fair tnum K (sch i s)) ∧ ∀ i s, Fair tnum K (sch' i s)) [.log (getFileName file) name tnum (betweenAll R srcs : V)]
        (runThreads y e file A (srcs.map Fin.val) a tnum sch sch') := by
  obtain ⟨K, hK⟩ := run_ok ha hfuel hA hs ht
  refine ⟨K, fun sch sch' h1 h2 => ?_⟩
  have h := KTruss.lastOf_gives (st := (∀ i s, Fair tnum K (sch i s)) ∧ ∀ i s, Fair tnum K (sch' i s)) (List.range (e.warmupIters + e.innerIters)) none
    fun i _ => MaskedAll.Gives.weaken (hK (sch i) (sch' i) (h1 i) (h2 i)) fun hh => ⟨hh.1 i, hh.2 i⟩
  rw [if_neg (by rw [List.range_eq_nil]; omega)] at h
  unfold runThreads
  rcases h with h | ⟨hn, h⟩
  · rw [h]
    dsimp only
    rw [hname]
    dsimp only
    rw [sum_ofFn_some, Paths.centrality_sum]
    exact .inl rfl
  · rw [h]
    exact .inr ⟨hn, rfl, List.nil_prefix⟩

/-! ## The heap algorithm with assertions -/

/-- If there is an arc from a source to another vertex that is not a source, the first multiplication never returns. -/
theorem mult_never (two : Bool) {A : CSR V} (hA : RepresentsD R A) {F N : CSR V} (hF : Bc.Has F (fF V R srcs 0)) (hN : Bc.Has N (fN V R srcs 0)) {u v : Fin n}
    (huv : R u v) (hu : u ∈ srcs) (hv : v ∉ srcs) {nt dflt : Nat} (hT : 0 < setNumThreads nt dflt) {sch : Scheds} (hadm : Admissible n sch) (C : CSR V) :
    mult ⟨.heapC false, two⟩ (transpose A) F N nt dflt sch ≠ .ok (some C) := by
  have hAt := (repD_has hA).transpose
  have hval := valid_of v.pos hAt hF hN
  obtain ⟨k, hk, rfl⟩ := List.mem_iff_getElem.1 hu
  have hFk : fF V R srcs 0 srcs[k] ⟨k, hk⟩ ≠ none := by
    rw [Ne, fF_eq_none, not_not]
    exact ⟨reach_self _, dst_self _⟩
  have htouch : touched (transpose A) F v ≠ [] := by
    have h1 := (hAt.mem_cols v srcs[k]).2 (by rw [← (repD_has hA).mem_cols, hA.adj]; exact huv)
    have h2 := (hF.mem_cols srcs[k] ⟨k, hk⟩).2 hFk
    rw [← CSR.row_map_fst hAt.wf, List.mem_map] at h1
    rw [← CSR.row_map_fst hF.wf, List.mem_map] at h2
    obtain ⟨x, hx, hx'⟩ := h1
    obtain ⟨z, hz, hz'⟩ := h2
    refine List.ne_nil_of_mem (a := z.1) ?_
    unfold touched
    refine List.mem_flatMap.2 ⟨x, hx, ?_⟩
    rw [hx']
    exact List.mem_map.2 ⟨z, hz, rfl⟩
  have hempty : N.rowCols v = [] := by
    rw [List.eq_nil_iff_forall_not_mem]
    intro j hj
    have hjc := CSR.rowCols_lt hN.wf hj
    rw [hN.cols] at hjc
    have := (hN.mem_cols v ⟨j, hjc⟩).1 hj
    rw [Ne, fN_eq_none, not_not] at this
    obtain ⟨h1, h2⟩ := this
    have h3 : dst R srcs[j] v = 0 := Nat.le_zero.1 h2
    have : srcs[j] = v := dst_eq_zero h1 h3
    exact hv (this ▸ List.getElem_mem _)
  have hnv := heapC_never (mul := fun _ y : V => y) (add := fun x y => x + y) hval (i := v) (by rw [hAt.rows]; exact v.2) htouch hempty F.zerobased hT sch
    (by rw [hAt.rows]; exact hadm)
  unfold mult
  cases two
  · have e0 : Kind.alg (V := V) (.heapC false) = Heap.heapC false := rfl
    simp only [Alias.spgemm1p_eq (s := store (transpose A) F N) (a := 0) (b := 1) (m := 2) (c := 1) rfl rfl rfl rfl, e0]
    revert hnv
    rcases spgemm1p (Heap.heapC false) (fun _ y => y) (fun x y => x + y) (transpose A) F N F.zerobased nt dflt sch with e | _ | C'
    · intro _ h; cases h
    · intro _ h; cases h
    · intro h; exact absurd rfl (h C').1
  · have e0 : Kind.alg (V := V) (.heapC false) = Heap.heapC false := rfl
    simp only [Alias.spgemm2p_eq (s := store (transpose A) F N) (a := 0) (b := 1) (m := 2) (c := 1) rfl rfl rfl rfl, e0]
    revert hnv
    rcases spgemm2p (Heap.heapC false) (fun _ y => y) (fun x y => x + y) (transpose A) F N F.zerobased nt dflt sch with e | _ | C'
    · intro _ h; cases h
    · intro _ h; cases h
    · intro h; exact absurd rfl (h C').2

theorem bcWith_never {mulp : CSR V → CSR V → CSR V → Scheds → Res (Option (CSR V))} {two : Bool} {A : CSR V} (hA : RepresentsD R A) {u v : Fin n}
    (huv : R u v) (hu : u ∈ srcs) (hv : v ∉ srcs) {nt dflt : Nat} (hT : 0 < setNumThreads nt dflt) {sch sch' : Nat → Scheds}
    (hadm : Admissible n (sch 0)) (fuel : Nat) (d : List (Option V)) :
    bcWith mulp (multPack ⟨.heapC false, two⟩ nt dflt) A (srcs.map Fin.val) sch sch' fuel ≠ .ok (some d) := by
  have hlen : 0 < srcs.length := List.length_pos_of_mem hu
  let j0 : Fin srcs.length := ⟨0, hlen⟩
  have hF0 : Bc.Has (avoidIso (build n srcs.length ((srcs.map Fin.val).zipIdx.map fun x => (x.1, x.2, (1 : V)))) 1
      (srcs[j0] : Fin n).val 0) (fF V R srcs 0) := by
    refine (build_has srcs).avoidIso (i := srcs[j0]) (j := j0) ?_
    unfold fF
    rw [if_pos ⟨reach_self _, dst_self _⟩, sig_self]
    simp
  have hN0 : Bc.Has (avoidIso (build n srcs.length ((srcs.map Fin.val).zipIdx.map fun x => (x.1, x.2, (1 : V)))) 1
      (srcs[j0] : Fin n).val 0) (fN V R srcs 0) := hF0.congr fun v j => by
    unfold fF fN
    by_cases h : Reach R srcs[j] v ∧ dst R srcs[j] v = 0
    · rw [if_pos h, if_pos ⟨h.1, Nat.le_of_eq h.2⟩]
    · rw [if_neg h, if_neg fun h' => h ⟨h'.1, Nat.le_zero.1 h'.2⟩]
  have hrd : rd (srcs.map Fin.val) 0 = .ok (srcs[j0] : Fin n).val := by
    unfold rd
    have : (srcs.map Fin.val)[0]? = some (srcs[j0] : Fin n).val := by
      rw [List.getElem?_map, List.getElem?_eq_getElem hlen]
      rfl
    rw [this]
  have hno := mult_never two hA hF0 hN0 huv hu hv hT hadm
  unfold bcWith
  rw [hrd, ok_bind, hA.rows, List.length_map]
  generalize avoidIso (build n srcs.length ((srcs.map Fin.val).zipIdx.map fun x => (x.1, x.2, (1 : V)))) 1 (srcs[j0] : Fin n).val 0 = F at hno
  cases fuel with
  | zero => intro h; cases h
  | succ m =>
    unfold sigmaLoop
    dsimp only
    rw [if_pos hlen]
    unfold multPack
    revert hno
    rcases mult ⟨.heapC false, two⟩ (transpose A) F F nt dflt (sch 0) with x | _ | C
    · intro _ h; cases h
    · intro _ h; cases h
    · intro h; exact absurd rfl (h C)

theorem run_never {fp : Callee} {two : Bool} {y : Sys V} {A : CSR V} (hA : RepresentsD R A) {u v : Fin n} (huv : R u v) (hu : u ∈ srcs) (hv : v ∉ srcs)
    {tnum : Nat} (ht : 0 < tnum) {sch sch' : Nat → Scheds} (hadm : Admissible n (sch 0)) (d : List (Option V)) :
    (Method.msp fp ⟨.heapC false, two⟩).run y A (srcs.map Fin.val) tnum sch sch' ≠ .ok (some d) :=
  bcWith_never hA huv hu hv (by unfold setNumThreads; split <;> omega) hadm y.fuel d

end Verif.Model.BcMain
