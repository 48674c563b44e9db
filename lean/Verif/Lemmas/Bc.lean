import Verif.Model.Bc
import Verif.Lemmas.Paths
import Verif.Lemmas.Graph
import Verif.Lemmas.Alias
import Mathlib.Algebra.BigOperators.Group.Finset.Basic
import Mathlib.Tactic.Ring

/-! # Lemmas about the betweenness centrality program -/

namespace Verif.Model.Bc

open Verif.Spec Verif.Paths
open Verif.Model.Alias (Store Obj)
open Verif.Model.Graph (nodup_of_sorted nnz_eq_psum)

variable {V : Type} {r c : Nat}

/-! ## Matrices and their entries -/

/-- `X` is a well-formed matrix with sorted rows and the entries `f`. -/
structure Has (X : CSR V) (f : Fin r → Fin c → Option V) : Prop where
  wf : X.WF
  rows : X.rows = r
  cols : X.cols = c
  sorted : X.SortedRows
  entries : ∀ (i : Fin r) (j : Fin c) v, (j.val, v) ∈ X.row i ↔ f i j = some v

theorem Has.congr {X : CSR V} {f g : Fin r → Fin c → Option V} (h : Has X f) (e : ∀ i j, f i j = g i j) : Has X g :=
  ⟨h.wf, h.rows, h.cols, h.sorted, fun i j v => by rw [h.entries, e]⟩

theorem find_key {l : List (Nat × V)} (hd : (l.map Prod.fst).Nodup) {j : Nat} {v : V} :
    ((l.find? fun e => e.1 == j).map Prod.snd) = some v ↔ (j, v) ∈ l := by
  induction l with
  | nil => simp
  | cons e l ih =>
    rw [List.map_cons, List.nodup_cons] at hd
    by_cases he : e.1 = j
    · rw [List.find?_cons_of_pos (by simpa using he)]
      subst he
      simp only [Option.map_some, Option.some.injEq, List.mem_cons]
      constructor
      · rintro rfl; exact .inl rfl
      · rintro (h | h)
        · rw [← h]
        · exact absurd (List.mem_map_of_mem (f := Prod.fst) h) hd.1
    · rw [List.find?_cons_of_neg (by simpa using he), ih hd.2, List.mem_cons]
      constructor
      · exact .inr
      · rintro (h | h)
        · exact absurd (by rw [← h]) he
        · exact h

theorem Has.entry {X : CSR V} {f : Fin r → Fin c → Option V} (h : Has X f) (i : Fin r) (j : Fin c) :
    entry X i j = f i j := by
  have hd : ((X.row i).map Prod.fst).Nodup := by
    rw [CSR.row_map_fst h.wf]
    exact nodup_of_sorted h.sorted i (by rw [h.rows]; exact i.2)
  apply Option.ext
  intro v
  unfold Bc.entry
  rw [find_key hd, h.entries]

theorem Has.mem_cols {X : CSR V} {f : Fin r → Fin c → Option V} (h : Has X f) (i : Fin r) (j : Fin c) :
    j.val ∈ X.rowCols i ↔ f i j ≠ none := by
  rw [← CSR.row_map_fst h.wf, List.mem_map]
  constructor
  · rintro ⟨⟨j', v⟩, h1, rfl⟩
    rw [(h.entries i j v).1 h1]
    simp
  · intro hne
    obtain ⟨v, hv⟩ := Option.ne_none_iff_exists'.1 hne
    exact ⟨(j.val, v), (h.entries i j v).2 hv, rfl⟩

theorem has_ofEntries (r c : Nat) (g : Nat → Nat → Option V) :
    Has (ofEntries r c g) (fun (i : Fin r) (j : Fin c) => g i j) where
  wf := ofRows_wf _ _ _ _ rfl fun i _ x hx => by
    simp only [List.mem_filterMap, List.mem_range] at hx
    obtain ⟨j, hj, h⟩ := hx
    rcases hg : g i j with _ | v
    · simp [hg] at h
    · rw [hg] at h
      simp only [Option.map_some, Option.some.injEq] at h
      rw [← h]; exact hj
  rows := rfl
  cols := rfl
  sorted := fun i (hi : i < r) => by
    unfold ofEntries
    rw [ofRows_rowCols _ _ _ _ hi, List.map_filterMap]
    have : ∀ l : List Nat, l.Pairwise (· < ·) → (l.filterMap fun j => ((g i j).map fun v => (j, v)).map Prod.fst).Pairwise (· < ·) := by
      intro l hl
      refine hl.sublist ?_
      have e : (l.filterMap fun j => ((g i j).map fun v => (j, v)).map Prod.fst) = l.filter fun j => (g i j).isSome := by
        induction l with
        | nil => rfl
        | cons a l ih =>
          rw [List.pairwise_cons] at hl
          rw [List.filterMap_cons, List.filter_cons, ih hl.2]
          rcases hg : g i a with _ | v <;> simp
      rw [e]
      exact List.filter_sublist
    exact this _ List.pairwise_lt_range
  entries := fun i j v => by
    unfold ofEntries
    rw [ofRows_row _ _ _ _ i.2, List.mem_filterMap]
    constructor
    · rintro ⟨j', -, h⟩
      rcases hg : g i j' with _ | w
      · simp [hg] at h
      · rw [hg] at h
        simp only [Option.map_some, Option.some.injEq, Prod.mk.injEq] at h
        obtain ⟨rfl, rfl⟩ := h
        exact hg
    · intro h
      exact ⟨j, List.mem_range.2 j.2, by rw [h]; rfl⟩

section ops
variable {X Y C : CSR V} {f g h : Fin r → Fin c → Option V}

theorem ofEntries_has {G : Nat → Nat → Option V} {r' c' : Nat} (hr : r' = r) (hc : c' = c)
    (e : ∀ (i : Fin r) (j : Fin c), G i j = f i j) : Has (ofEntries r' c' G) f := by
  subst hr hc
  exact (has_ofEntries r' c' G).congr e

theorem Has.setElem (hX : Has X f) (v : V) (i : Fin r) (j : Fin c) :
    Has (setElem X v i j) fun i' j' => if i' = i ∧ j' = j then some v else f i' j' :=
  ofEntries_has hX.rows hX.cols fun i' j' => by simp only [hX.entry, Fin.ext_iff]

theorem Has.avoidIso [Zero V] (hX : Has X f) {v : V} {i : Fin r} {j : Fin c} (h : f i j = some v) :
    Has (avoidIso X v i j) f :=
  ((hX.setElem 0 i j).setElem v i j).congr fun i' j' => by
    split
    · rename_i h'; rw [h'.1, h'.2, h]
    · rfl

theorem Has.transpose (hX : Has X f) : Has (transpose X) fun i j => f j i :=
  ofEntries_has hX.cols hX.rows fun i j => hX.entry j i

theorem Has.eWiseAdd (hX : Has X f) (hY : Has Y g) (op : V → V → V) :
    Has (eWiseAdd op X Y) fun i j => union op (f i j) (g i j) :=
  ofEntries_has hX.rows hX.cols fun i j => by rw [hX.entry, hY.entry]

theorem Has.eWiseMultMask [Zero V] [DecidableEq V] (hC : Has C h) (hX : Has X f) (hY : Has Y g) (op : V → V → V)
    (hz : ∀ i j v, h i j = some v → v ≠ 0) :
    Has (eWiseMultMask C op X Y) fun i j => if h i j = none then none else inter op (f i j) (g i j) :=
  ofEntries_has hX.rows hX.cols fun i j => by
    simp only [hX.entry, hY.entry, hC.entry]
    rcases e : h i j with _ | v
    · simp
    · simp [hz i j v e]

theorem Has.eWiseMultAccum (hC : Has C h) (hX : Has X f) (hY : Has Y g) (ac op : V → V → V) :
    Has (eWiseMultAccum C ac op X Y) fun i j => union ac (h i j) (inter op (f i j) (g i j)) :=
  ofEntries_has hC.rows hC.cols fun i j => by rw [hX.entry, hY.entry, hC.entry]

theorem Has.apply (hX : Has X f) (op : V → V) : Has (apply op X) fun i j => (f i j).map op :=
  ofEntries_has hX.rows hX.cols fun i j => by rw [hX.entry]

theorem Has.pack (hX : Has X f) : pack r c X = .ok X := by
  unfold Bc.pack
  rw [if_pos ⟨hX.rows, hX.cols, hX.sorted⟩]

theorem Has.nnz_eq_zero (hX : Has X f) : X.nnz = 0 ↔ ∀ i j, f i j = none := by
  constructor
  · intro h i j
    by_contra hne
    have h1 := (hX.mem_cols i j).2 hne
    have : X.colids = [] := List.length_eq_zero_iff.1 (by rw [hX.wf.colLen, h])
    rw [CSR.rowCols, this] at h1
    simp [slice] at h1
  · intro h
    rw [nnz_eq_psum hX.wf]
    have : ∀ i < X.rows, (X.rowCols i).length = 0 := by
      intro i hi
      rw [List.length_eq_zero_iff, List.eq_nil_iff_forall_not_mem]
      intro j hj
      have hjc := CSR.rowCols_lt hX.wf hj
      rw [hX.rows] at hi; rw [hX.cols] at hjc
      exact (hX.mem_cols ⟨i, hi⟩ ⟨j, hjc⟩).1 hj (h _ _)
    have h0 : ∀ m ≤ X.rows, psum (fun i => (X.rowCols i).length) m = 0 := by
      intro m
      induction m with
      | zero => intro _; rfl
      | succ m ih => intro hm; simp only [psum]; rw [ih (by omega), this m hm]
    exact h0 _ (Nat.le_refl _)

theorem Has.nnz_le (hX : Has X f) : X.nnz ≤ r * c := by
  rw [nnz_eq_psum hX.wf, hX.rows]
  have hl : ∀ i < r, (X.rowCols i).length ≤ c := by
    intro i hi
    have hs := nodup_of_sorted hX.sorted i (by rw [hX.rows]; exact hi)
    have : (X.rowCols i) ⊆ List.range c := fun j hj => by
      have := CSR.rowCols_lt hX.wf hj
      rw [hX.cols] at this
      exact List.mem_range.2 this
    have := (hs.subperm this).length_le
    simpa using this
  have : ∀ m ≤ r, psum (fun i => (X.rowCols i).length) m ≤ m * c := by
    intro m
    induction m with
    | zero => intro _; simp [psum]
    | succ m ih =>
      intro hm
      have h1 := ih (by omega)
      have h2 := hl m hm
      simp only [psum]
      rw [Nat.succ_mul]; omega
  exact this r (Nat.le_refl _)

end ops

/-! ## The product -/

section product
variable [Field V] {n s : Nat}

/-- entry of the product with the operator `second` -/
noncomputable def dotv (fA : Fin n → Fin n → Option V) (fB : Fin n → Fin s → Option V) (i : Fin n) (j : Fin s) :
    Option V := by
  classical
  exact if ∃ k, fA i k ≠ none ∧ fB k j ≠ none then
    some (∑ k, if fA i k ≠ none then (fB k j).getD 0 else 0) else none

theorem sum1_eq (l : List V) : sum1 (fun x y => x + y) l = if l = [] then none else some l.sum := by
  cases l with
  | nil => rfl
  | cons a l =>
    have : ∀ (l : List V) (a : V), l.foldl (fun a b => a + b) a = a + l.sum := by
      intro l
      induction l with
      | nil => simp
      | cons b l ih => intro a; simp only [List.foldl_cons, List.sum_cons]; rw [ih, add_assoc]
    simp [sum1, this]

omit [Field V] in
theorem filterMap_key' {l : List (Nat × V)} (hd : (l.map Prod.fst).Nodup) (j : Nat) :
    (l.filterMap fun e => if e.1 = j then some e.2 else none) =
      ((l.find? fun e => e.1 == j).map Prod.snd).toList := by
  induction l with
  | nil => rfl
  | cons e l ih =>
    rw [List.map_cons, List.nodup_cons] at hd
    by_cases he : e.1 = j
    · have : (l.filterMap fun e => if e.1 = j then some e.2 else none) = [] := by
        rw [List.filterMap_eq_nil_iff]
        intro x hx
        rw [if_neg]
        rintro rfl
        exact hd.1 (he ▸ List.mem_map_of_mem (f := Prod.fst) hx)
      simp [he, this]
    · simp [he, ih hd.2]

theorem dot_eq {A B : CSR V} {fA : Fin n → Fin n → Option V} {fB : Fin n → Fin s → Option V} (hA : Has A fA)
    (hB : Has B fB) (i : Fin n) (j : Fin s) : dot (fun _ y => y) (fun x y => x + y) A B i j = dotv fA fB i j := by
  classical
  have e1 : contribs (fun _ y => y) A B i j = (A.rowCols i).flatMap fun k => (entry B k j).toList := by
    unfold contribs
    rw [← CSR.row_map_fst hA.wf, List.flatMap_map]
    apply List.flatMap_congr
    intro ka hka
    have hk := CSR.row_lt hA.wf hka
    have hd : ((B.row ka.1).map Prod.fst).Nodup := by
      rw [CSR.row_map_fst hB.wf]
      exact nodup_of_sorted hB.sorted _ (by rw [hB.rows, ← hA.cols]; exact hk)
    exact filterMap_key' hd j
  have hlt : ∀ k ∈ A.rowCols i, k < n := fun k hk => by
    have := CSR.rowCols_lt hA.wf hk
    rwa [hA.cols] at this
  have hnd : (A.rowCols i).Nodup := nodup_of_sorted hA.sorted i (by rw [hA.rows]; exact i.2)
  have e2 : contribs (fun _ y => y) A B i j = [] ↔ ¬ ∃ k, fA i k ≠ none ∧ fB k j ≠ none := by
    rw [e1, List.flatMap_eq_nil_iff]
    constructor
    · rintro h ⟨k, h1, h2⟩
      have := h k ((hA.mem_cols i k).2 h1)
      rw [hB.entry] at this
      exact h2 (by simpa using this)
    · intro h k hk
      by_contra hne
      refine h ⟨⟨k, hlt k hk⟩, (hA.mem_cols i ⟨k, hlt k hk⟩).1 hk, ?_⟩
      rw [← hB.entry]
      simpa using hne
  have e3 : (contribs (fun _ y => y) A B i j).sum = ∑ k, if fA i k ≠ none then (fB k j).getD 0 else 0 := by
    rw [e1, List.flatMap_def, List.sum_flatten, List.map_map]
    have : (List.sum ∘ fun k => (entry B k j).toList) = fun k => (entry B k j).getD 0 := by
      funext k
      simp only [Function.comp_apply]
      rcases entry B k j with _ | v <;> simp
    rw [this, ← List.sum_toFinset _ hnd]
    have h3 : ∀ k : Fin n, (if fA i k ≠ none then (fB k j).getD 0 else 0) =
        (fun k : Nat => if k ∈ A.rowCols i then (entry B k j).getD 0 else 0) k.val := by
      intro k
      simp only [hA.mem_cols i k, hB.entry]
    rw [Finset.sum_congr rfl fun k _ => h3 k,
      Fin.sum_univ_eq_sum_range (fun k : Nat => if k ∈ A.rowCols i then (entry B k j).getD 0 else 0) n,
      ← Finset.sum_filter]
    refine Finset.sum_congr ?_ fun _ _ => rfl
    ext k
    simp only [List.mem_toFinset, Finset.mem_filter, Finset.mem_range]
    exact ⟨fun h => ⟨hlt k h, h⟩, fun h => h.2⟩
  unfold dot dotv
  rw [sum1_eq, e3]
  by_cases h : ∃ k, fA i k ≠ none ∧ fB k j ≠ none
  · rw [if_neg (fun h' => (e2.1 h') h), if_pos h]
  · rw [if_pos (e2.2 h), if_neg h]

/-- Under every schedule the call makes no error and returns `C` if it returns; and it returns when the threads get
enough turns. -/
structure Does (call : Scheds → Res (Option (CSR V))) (n T : Nat) (C : CSR V) : Prop where
  safe : ∀ sch, Admissible n sch → call sch = .ok none ∨ call sch = .ok (some C)
  live : ∃ K, ∀ sch, Admissible n sch → Fair T K sch → call sch = .ok (some C)

theorem mult_does {f : Callee} {A B M : CSR V} (h : Valid A B M) (hr : f.kind.Req (fun x y => x + y) A B M)
    {nt dflt : Nat} (ht : 0 < setNumThreads nt dflt) :
    Does (mult f A B M nt dflt) A.rows (setNumThreads nt dflt)
      (algoMat (.gen f.kind) (fun _ y => y) (fun x y => x + y) A B M B.zerobased) := by
  have hc := algo_computes (.gen f.kind) f.two (fun _ y => y) (fun x y => x + y)
    (Bc := ⟨0, 0, 0, [0], [], [], true⟩) h hr B.zerobased ht
  have e : ∀ sch, mult f A B M nt dflt sch =
      (Algo.gen f.kind).call f.two (fun _ y => y) (fun x y => x + y) A B ⟨0, 0, 0, [0], [], [], true⟩ M B.zerobased
        nt dflt sch := by
    intro sch
    unfold mult
    rcases hf : f.two with _ | _
    · simp only [Alias.spgemm1p_eq (s := store A B M) (a := 0) (b := 1) (m := 2) (c := 1) rfl rfl rfl rfl, Algo.call]
      rcases spgemm1p f.kind.alg (fun _ y => y) (fun x y => x + y) A B M B.zerobased nt dflt sch with e | _ | C
      · rfl
      · rfl
      · rfl
    · simp only [Alias.spgemm2p_eq (s := store A B M) (a := 0) (b := 1) (m := 2) (c := 1) rfl rfl rfl rfl, Algo.call]
      rcases spgemm2p f.kind.alg (fun _ y => y) (fun x y => x + y) A B M B.zerobased nt dflt sch with e | _ | C
      · rfl
      · rfl
      · rfl
  refine ⟨fun sch hs => ?_, ?_⟩
  · rw [e]; exact hc.safe sch hs
  · obtain ⟨K, hK⟩ := hc.live
    exact ⟨K, fun sch hs hf => by rw [e]; exact hK sch hs hf⟩

theorem assocComm_plus : AssocComm (fun x y : V => x + y) := ⟨add_assoc, add_comm⟩

section calls
variable {f : Callee} {A B M : CSR V} {fA : Fin n → Fin n → Option V} {fB fM : Fin n → Fin s → Option V}

omit [Field V] in
theorem valid_of (hn : 0 < n) (hA : Has A fA) (hB : Has B fB) (hM : Has M fM) : Valid A B M :=
  ⟨hA.wf, hB.wf, hM.wf, ⟨by rw [hA.cols, hB.rows], by rw [hM.rows, hA.rows], by rw [hM.cols, hB.cols]⟩,
    by rw [hA.rows]; exact hn⟩

omit [Field V] in
theorem touched_has (hA : Has A fA) (hB : Has B fB) (i : Fin n) (h : touched A B i ≠ []) : ∃ k j, fA i k ≠ none ∧ fB k j ≠ none := by
  obtain ⟨c, hc⟩ := List.exists_mem_of_ne_nil _ h
  unfold touched at hc
  rw [List.mem_flatMap] at hc
  obtain ⟨ka, hka, hc⟩ := hc
  rw [List.mem_map] at hc
  obtain ⟨jb, hjb, -⟩ := hc
  have h1 := CSR.row_lt hA.wf hka
  have h2 := CSR.row_lt hB.wf hjb
  rw [hA.cols] at h1
  rw [hB.cols] at h2
  refine ⟨⟨ka.1, h1⟩, ⟨jb.1, h2⟩, ?_, ?_⟩
  · rw [(hA.entries i ⟨ka.1, h1⟩ ka.2).1 hka]; simp
  · rw [(hB.entries ⟨ka.1, h1⟩ ⟨jb.1, h2⟩ jb.2).1 hjb]; simp

theorem mult_cmpl (hn : 0 < n) (hk : f.kind.compl = true ∧ f.kind.sorted = true)
    (hh : f.kind = .heapC false → ∀ i, (∃ k j, fA i k ≠ none ∧ fB k j ≠ none) → ∃ j, fM i j ≠ none)
    (hA : Has A fA) (hB : Has B fB) (hM : Has M fM) {nt dflt : Nat} (ht : 0 < setNumThreads nt dflt) :
    ∃ C, Does (mult f A B M nt dflt) n (setNumThreads nt dflt) C ∧
      Has C fun i j => if fM i j = none then dotv fA fB i j else none := by
  have hv := valid_of hn hA hB hM
  have hr : f.kind.Req (fun x y => x + y) A B M := by
    obtain ⟨h1, h2⟩ := hk
    generalize f.kind = k at *
    match k with
    | .msa1C _ | .msa2C _ | .hashC _ => exact nodup_of_sorted hM.sorted
    | .heapC true => exact ⟨assocComm_plus, hB.sorted, hM.sorted, .inl rfl⟩
    | .heapC false =>
      refine ⟨assocComm_plus, hB.sorted, hM.sorted, .inr fun i hi ht => ?_⟩
      rw [hA.rows] at hi
      obtain ⟨j, hj⟩ := hh rfl ⟨i, hi⟩ (touched_has hA hB ⟨i, hi⟩ ht)
      exact List.ne_nil_of_mem ((hM.mem_cols ⟨i, hi⟩ j).2 hj)
    | .msa1 | .msa2 | .hash | .mca | .heap _ => simp [Kind.compl] at h1
  refine ⟨_, by have := mult_does hv hr ht; rwa [hA.rows] at this, ?_⟩
  have e : algoMat (.gen f.kind) (fun _ y => y) (fun x y => x + y) A B M B.zerobased =
      complMat true (fun _ y => y) (fun x y => x + y) A B M true := by
    simp [algoMat, Algo.compl, Algo.sorted, hk.1, hk.2, hB.wf.zero]
  rw [e]
  have hp := complMat_isCompl (A := A) (B := B) (M := M) true (mul := fun _ y : V => y) (add := fun x y => x + y) true
  exact ⟨complMat_wf hB.wf, by rw [hp.rows, hA.rows], by rw [hp.cols, hB.cols], complMat_sorted true, fun i j v => by
    rw [hp.entries i (by rw [hA.rows]; exact i.2), hM.mem_cols, dot_eq hA hB, not_not]
    by_cases h : fM i j = none <;> simp [h]⟩

theorem mult_plain (hn : 0 < n) (hk : OkPlain f.kind (n * s)) (hA : Has A fA) (hB : Has B fB) (hM : Has M fM)
    {nt dflt : Nat} (ht : 0 < setNumThreads nt dflt) :
    ∃ C, Does (mult f A B M nt dflt) n (setNumThreads nt dflt) C ∧
      Has C fun i j => if fM i j = none then none else dotv fA fB i j := by
  have hv := valid_of hn hA hB hM
  have hnd := nodup_of_sorted hM.sorted
  have hle := hM.nnz_le
  have hr : f.kind.Req (fun x y => x + y) A B M := by
    obtain ⟨h1, h2⟩ := hk
    generalize f.kind = k at *
    match k with
    | .msa1 | .msa2 | .hash => exact hnd
    | .mca => exact ⟨hB.sorted, hM.sorted⟩
    | .heap d =>
      refine ⟨assocComm_plus, hB.sorted, hM.sorted, ?_⟩
      rcases h2 d rfl with h | h | h
      · exact .inl h
      · exact .inr (.inl h)
      · exact .inr (.inr (by omega))
    | .msa1C _ | .msa2C _ | .hashC _ | .heapC _ => simp [Kind.compl] at h1
  refine ⟨_, by have := mult_does hv hr ht; rwa [hA.rows] at this, ?_⟩
  have e : algoMat (.gen f.kind) (fun _ y => y) (fun x y => x + y) A B M B.zerobased =
      maskedMat (fun _ y => y) (fun x y => x + y) A B M true := by
    simp [algoMat, Algo.compl, hk.1, hB.wf.zero]
  rw [e]
  have hp := maskedMat_isMasked (B := B) (mul := fun _ y : V => y) (add := fun x y => x + y) hv.shapes.ma true hnd
  refine ⟨maskedMat_wf hB.wf, by rw [hp.rows, hA.rows], by rw [hp.cols, hB.cols], fun i hi => ?_, fun i j v => ?_⟩
  · exact (hM.sorted i (by rw [hM.rows, ← hA.rows]; exact hi)).sublist (hp.order i hi)
  · rw [hp.entries i (by rw [hA.rows]; exact i.2), hM.mem_cols, dot_eq hA hB]
    by_cases h : fM i j = none <;> simp [h]

/-- `mul` multiplies: with the mask, or with its complement. -/
def Mul (mul : CSR V → CSR V → CSR V → Scheds → Res (Option (CSR V))) (T : Nat) (compl : Bool) (A B M : CSR V) (fA : Fin n → Fin n → Option V)
    (fB fM : Fin n → Fin s → Option V) : Prop :=
  ∃ C, Does (mul A B M) n T C ∧ Has C fun i j => if (fM i j).isNone = compl then dotv fA fB i j else none

omit [Field V] in
theorem multPack_does [Add V] {r c : Nat} {g : Fin r → Fin c → Option V} {B C : CSR V} {nt dflt T : Nat} (hr : B.rows = r) (hc : B.cols = c)
    (h : Does (mult f A B M nt dflt) n T C) (hC : Has C g) : Does (multPack f nt dflt A B M) n T C := by
  have e : ∀ sch, mult f A B M nt dflt sch = .ok (some C) → multPack f nt dflt A B M sch = .ok (some C) := by
    intro sch h
    unfold multPack
    rw [h, ok_bind]
    dsimp only
    rw [hr, hc, hC.pack, ok_bind]
  refine ⟨fun sch hs => ?_, ?_⟩
  · rcases h.safe sch hs with h | h
    · left
      unfold multPack
      rw [h, ok_bind]
    · exact .inr (e sch h)
  · obtain ⟨K, hK⟩ := h.live
    exact ⟨K, fun sch hs hf => e sch (hK sch hs hf)⟩

theorem multPack_cmpl (hn : 0 < n) (hk : f.kind.compl = true ∧ f.kind.sorted = true)
    (hh : f.kind = .heapC false → ∀ i, (∃ k j, fA i k ≠ none ∧ fB k j ≠ none) → ∃ j, fM i j ≠ none)
    (hA : Has A fA) (hB : Has B fB) (hM : Has M fM) {nt dflt : Nat} (ht : 0 < setNumThreads nt dflt) :
    Mul (multPack f nt dflt) (setNumThreads nt dflt) true A B M fA fB fM := by
  obtain ⟨C, h1, h2⟩ := mult_cmpl hn hk hh hA hB hM ht
  refine ⟨C, multPack_does hB.rows hB.cols h1 h2, h2.congr fun i j => ?_⟩
  cases fM i j <;> simp

theorem multPack_plain (hn : 0 < n) (hk : OkPlain f.kind (n * s)) (hA : Has A fA) (hB : Has B fB) (hM : Has M fM)
    {nt dflt : Nat} (ht : 0 < setNumThreads nt dflt) : Mul (multPack f nt dflt) (setNumThreads nt dflt) false A B M fA fB fM := by
  obtain ⟨C, h1, h2⟩ := mult_plain hn hk hA hB hM ht
  refine ⟨C, multPack_does hB.rows hB.cols h1 h2, h2.congr fun i j => ?_⟩
  cases fM i j <;> simp

end calls
end product

theorem Has.row_sum [Field V] {X : CSR V} {f : Fin r → Fin c → Option V} (hX : Has X f) (i : Fin r) :
    ((X.row i).map Prod.snd).sum = ∑ j, (f i j).getD 0 := by
  classical
  have hnd : (X.rowCols i).Nodup := nodup_of_sorted hX.sorted i (by rw [hX.rows]; exact i.2)
  have hlt : ∀ k ∈ X.rowCols i, k < c := fun k hk => by
    have := CSR.rowCols_lt hX.wf hk
    rwa [hX.cols] at this
  have e1 : (X.row i).map Prod.snd = (X.rowCols i).map fun j => (Bc.entry X i j).getD 0 := by
    rw [← CSR.row_map_fst hX.wf, List.map_map]
    refine List.map_congr_left fun e he => ?_
    have h1 : Bc.entry X i e.1 = some e.2 := by
      unfold Bc.entry
      rw [find_key (by rw [CSR.row_map_fst hX.wf]; exact hnd)]
      exact he
    simp [h1]
  rw [e1, ← List.sum_toFinset _ hnd]
  have h3 : ∀ j : Fin c, (f i j).getD 0 =
      (fun j : Nat => if j ∈ X.rowCols i then (Bc.entry X i j).getD 0 else 0) j.val := by
    intro j
    simp only [hX.mem_cols i j, hX.entry]
    rcases f i j with _ | v <;> simp
  rw [Finset.sum_congr rfl fun k _ => h3 k,
    Fin.sum_univ_eq_sum_range (fun j : Nat => if j ∈ X.rowCols i then (Bc.entry X i j).getD 0 else 0) c,
    ← Finset.sum_filter]
  refine Finset.sum_congr ?_ fun _ _ => rfl
  ext k
  simp only [List.mem_toFinset, Finset.mem_filter, Finset.mem_range]
  exact ⟨fun h => ⟨hlt k h, h⟩, fun h => h.2⟩

/-! ## The loops -/

section loops
open Classical
variable {n : Nat} {R : Fin n → Fin n → Prop} {srcs : List (Fin n)}

theorem dst_lt {s v : Fin n} (h : Reach R s v) : dst R s v < n := by
  have key : ∀ k v, Reach R s v → dst R s v = k → ∀ j ≤ k, ∃ u, Reach R s u ∧ dst R s u = j := by
    intro k
    induction k with
    | zero => intro v hv hk j hj; exact ⟨v, hv, by omega⟩
    | succ k ih =>
      intro v hv hk j hj
      rcases Nat.lt_or_ge j (k + 1) with hlt | hge
      · obtain ⟨u, -, hu, hd⟩ := exists_pred hv hk
        exact ih u hu hd j (by omega)
      · exact ⟨v, hv, by omega⟩
  have hsub : Finset.range (dst R s v + 1) ⊆ Finset.univ.image (dst R s) := by
    intro j hj
    obtain ⟨u, -, hu⟩ := key _ v h rfl j (by have := Finset.mem_range.1 hj; omega)
    exact Finset.mem_image.2 ⟨u, Finset.mem_univ u, hu⟩
  have h1 := Finset.card_le_card hsub
  have h2 := Finset.card_image_le (s := Finset.univ) (f := dst R s)
  simp only [Finset.card_range, Finset.card_univ, Fintype.card_fin] at h1 h2
  omega

variable (V) in
/-- the frontier after `k` rounds -/
noncomputable def fF [Field V] (R : Fin n → Fin n → Prop) (srcs : List (Fin n)) (k : Nat) (v : Fin n)
    (j : Fin srcs.length) : Option V :=
  if Reach R srcs[j] v ∧ dst R srcs[j] v = k then some (sig R srcs[j] v : V) else none

variable (V) in
/-- the numbers of paths after `k` rounds -/
noncomputable def fN [Field V] (R : Fin n → Fin n → Prop) (srcs : List (Fin n)) (k : Nat) (v : Fin n)
    (j : Fin srcs.length) : Option V :=
  if Reach R srcs[j] v ∧ dst R srcs[j] v ≤ k then some (sig R srcs[j] v : V) else none

variable (V) in
/-- the dependencies when the vertices further away than `d` have been treated -/
noncomputable def fB [Field V] (R : Fin n → Fin n → Prop) (srcs : List (Fin n)) (d : Nat) (v : Fin n)
    (j : Fin srcs.length) : Option V :=
  some (if Reach R srcs[j] v ∧ d < dst R srcs[j] v then dep V R srcs[j] v else 1)

variable [Field V] [DecidableEq V]

omit [DecidableEq V] in
theorem fF_eq_none {k : Nat} {v : Fin n} {j : Fin srcs.length} :
    fF V R srcs k v j = none ↔ ¬ (Reach R srcs[j] v ∧ dst R srcs[j] v = k) := by
  unfold fF
  split <;> simp_all

omit [DecidableEq V] in
theorem fN_eq_none {k : Nat} {v : Fin n} {j : Fin srcs.length} :
    fN V R srcs k v j = none ↔ ¬ (Reach R srcs[j] v ∧ dst R srcs[j] v ≤ k) := by
  unfold fN
  split <;> simp_all

omit [DecidableEq V] in
/-- one round of the first loop -/
theorem sigma_step {fA : Fin n → Fin n → Option V} (hA : ∀ u v, fA u v ≠ none ↔ R u v) (k : Nat) (v : Fin n)
    (j : Fin srcs.length) :
    (if fN V R srcs k v j = none then dotv (fun a b => fA b a) (fF V R srcs k) v j else none) =
      fF V R srcs (k + 1) v j := by
  by_cases hN : Reach R srcs[j] v ∧ dst R srcs[j] v ≤ k
  · rw [if_neg (fun h => fN_eq_none.1 h hN)]
    symm
    rw [fF_eq_none]
    omega
  · rw [if_pos (fN_eq_none.2 hN)]
    by_cases hF : Reach R srcs[j] v ∧ dst R srcs[j] v = k + 1
    · obtain ⟨u, h1, h2, h3⟩ := exists_pred hF.1 hF.2
      unfold dotv
      rw [if_pos ⟨u, (hA u v).2 h1, by rw [ne_eq, fF_eq_none]; exact not_not.2 ⟨h2, h3⟩⟩]
      conv => rhs; unfold fF
      rw [if_pos hF, sig_succ hF.1 hF.2]
      congr 1
      push_cast
      refine Finset.sum_congr rfl fun u _ => ?_
      by_cases hu : R u v
      · rw [if_pos ((hA u v).2 hu)]
        unfold fF
        by_cases hr : Reach R srcs[j] u ∧ dst R srcs[j] u = k
        · rw [if_pos hr, if_pos ⟨hu, hr⟩]; rfl
        · rw [if_neg hr, if_neg (fun h => hr h.2)]; rfl
      · rw [if_neg (fun h => hu ((hA u v).1 h)), if_neg (fun h => hu h.1)]
    · rw [fF_eq_none.2 hF]
      unfold dotv
      rw [if_neg]
      rintro ⟨u, h1, h2⟩
      have h1 := (hA u v).1 h1
      rw [ne_eq, fF_eq_none, not_not] at h2
      have h3 := reach_step h2.1 h1
      refine hF ⟨h3.1, ?_⟩
      have : ¬ dst R srcs[j] v ≤ k := fun h => hN ⟨h3.1, h⟩
      omega

omit [DecidableEq V] in
theorem fN_succ (k : Nat) (v : Fin n) (j : Fin srcs.length) :
    union (fun x y => x + y) (fN V R srcs k v j) (fF V R srcs (k + 1) v j) = fN V R srcs (k + 1) v j := by
  unfold fN fF
  by_cases h1 : Reach R srcs[j] v ∧ dst R srcs[j] v ≤ k
  · rw [if_pos h1, if_neg (by omega), if_pos ⟨h1.1, by omega⟩]; rfl
  · rw [if_neg h1]
    by_cases h2 : Reach R srcs[j] v ∧ dst R srcs[j] v = k + 1
    · rw [if_pos h2, if_pos ⟨h2.1, by omega⟩]; rfl
    · rw [if_neg h2, if_neg]
      · rfl
      · rintro ⟨h3, h4⟩
        have h5 : ¬ dst R srcs[j] v ≤ k := fun h => h1 ⟨h3, h⟩
        exact h2 ⟨h3, by omega⟩

/-- `preds` after `k` rounds -/
def Preds (R : Fin n → Fin n → Prop) (srcs : List (Fin n)) (k : Nat) (preds : List (CSR V)) : Prop :=
  preds.length = k ∧ ∀ i < k, ∃ P, preds[i]? = some P ∧ Has P (fF V R srcs (i + 1))

omit [DecidableEq V] in
theorem sigma_ok {mul : CSR V → CSR V → CSR V → Scheds → Res (Option (CSR V))} {T : Nat} {Atr : CSR V} {fA : Fin n → Fin n → Option V}
    (hmul : ∀ k F N, Has F (fF V R srcs k) → Has N (fN V R srcs k) →
      Mul mul T true Atr F N (fun a b => fA b a) (fF V R srcs k) (fN V R srcs k))
    (hA : ∀ u v, fA u v ≠ none ↔ R u v) :
    ∀ m k nvals (F N : CSR V) preds, n < k + m → k ≤ n → Has F (fF V R srcs k) → Has N (fN V R srcs k) →
      Preds R srcs k preds → (nvals = 0 ↔ ∀ v j, fF V R srcs k v j = none) →
      ∃ N' preds' D K, Has N' (fN V R srcs D) ∧ Preds R srcs D preds' ∧ (∀ v j, fF V R srcs D v j = none) ∧
        ∀ fuel, m ≤ fuel →
          (∀ sch, (∀ i, Admissible n (sch i)) →
            sigmaLoop mul Atr sch fuel nvals F N preds k = .ok none ∨
            sigmaLoop mul Atr sch fuel nvals F N preds k = .ok (some (N', preds', D))) ∧
          (∀ sch, (∀ i, Admissible n (sch i)) → (∀ i, Fair T K (sch i)) →
            sigmaLoop mul Atr sch fuel nvals F N preds k = .ok (some (N', preds', D))) := by
  intro m
  induction m with
  | zero => intro k nvals F N preds h1 h2; omega
  | succ m ih =>
    intro k nvals F N preds hm hk hF hN hP hv
    by_cases h0 : nvals = 0
    · refine ⟨N, preds, k, 0, hN, hP, hv.1 h0, fun fuel hle => ?_⟩
      obtain ⟨fuel, rfl⟩ : ∃ f', fuel = f' + 1 := ⟨fuel - 1, by omega⟩
      have e : ∀ sch, sigmaLoop mul Atr sch (fuel + 1) nvals F N preds k = .ok (some (N, preds, k)) := by
        intro sch
        rw [sigmaLoop, if_neg (by omega)]
      exact ⟨fun sch _ => .inr (e sch), fun sch _ _ => e sch⟩
    · have hex : ∃ v j, fF V R srcs k v j ≠ none := by
        by_contra hno
        push Not at hno
        exact h0 (hv.2 hno)
      obtain ⟨v, j, hvj⟩ := hex
      rw [ne_eq, fF_eq_none, not_not] at hvj
      have hkn : k < n := by rw [← hvj.2]; exact dst_lt hvj.1
      obtain ⟨C, hC, hCf⟩ := hmul k F N hF hN
      have hCf : Has C (fF V R srcs (k + 1)) := hCf.congr fun v j => by
        rw [← sigma_step hA k]
        cases fN V R srcs k v j <;> simp
      have hN' : Has (eWiseAdd (fun x y => x + y) N C) (fN V R srcs (k + 1)) :=
        (hN.eWiseAdd hCf _).congr (fN_succ k)
      have hP' : Preds R srcs (k + 1) (preds ++ [C]) := by
        obtain ⟨hl, hp⟩ := hP
        refine ⟨by simp [hl], fun i hi => ?_⟩
        rcases Nat.lt_or_ge i k with h | h
        · obtain ⟨P, h1, h2⟩ := hp i h
          exact ⟨P, by rw [List.getElem?_append_left (by omega)]; exact h1, h2⟩
        · have : i = k := by omega
          subst this
          exact ⟨C, by rw [List.getElem?_append_right (by omega), hl]; simp, hCf⟩
      obtain ⟨N', preds', D, K2, r1, r2, r3, r4⟩ :=
        ih (k + 1) C.nnz C _ _ (by omega) hkn hCf hN' hP' hCf.nnz_eq_zero
      obtain ⟨K1, hK1⟩ := hC.live
      have e : ∀ fuel sch, mul Atr F N (sch k) = .ok (some C) →
          sigmaLoop mul Atr sch (fuel + 1) nvals F N preds k =
            sigmaLoop mul Atr sch fuel C.nnz C (eWiseAdd (fun x y => x + y) N C) (preds ++ [C]) (k + 1) := by
        intro fuel sch h
        rw [sigmaLoop, if_pos (by omega), h, ok_bind]
      refine ⟨N', preds', D, max K1 K2, r1, r2, r3, fun fuel hle => ?_⟩
      obtain ⟨fuel, rfl⟩ : ∃ f', fuel = f' + 1 := ⟨fuel - 1, by omega⟩
      obtain ⟨s1, s2⟩ := r4 fuel (by omega)
      refine ⟨fun sch ha => ?_, fun sch ha hfair => ?_⟩
      · rcases hC.safe (sch k) (ha k) with h | h
        · left
          rw [sigmaLoop, if_pos (by omega), h, ok_bind]
        · rw [e fuel sch h]
          exact s1 sch ha
      · rw [e fuel sch (hK1 _ (ha k) fun t htt => by have := hfair k t htt; omega)]
        exact s2 sch ha fun i t htt => by have := hfair i t htt; omega

variable [CharZero V]

omit [DecidableEq V] in
/-- one round of the second loop -/
theorem delta_step {fA : Fin n → Fin n → Option V} (hA : ∀ u v, fA u v ≠ none ↔ R u v) {d D : Nat} (hd : d + 1 < D)
    (u : Fin n) (j : Fin srcs.length) :
    union (fun x y => x + y) (fB V R srcs (d + 1) u j)
      (inter (fun x y => x * y)
        (if fF V R srcs (d + 1) u j = none then none
          else dotv fA (fun v j => if fF V R srcs (d + 1 + 1) v j = none then none
            else inter (fun x y => x * y) ((fN V R srcs D v j).map fun x => x⁻¹) (fB V R srcs (d + 1) v j)) u j)
        (fN V R srcs D u j)) = fB V R srcs d u j := by
  have hW : ∀ v, (if fF V R srcs (d + 1 + 1) v j = none then none
      else inter (fun x y => x * y) ((fN V R srcs D v j).map fun x => x⁻¹) (fB V R srcs (d + 1) v j)) =
      if Reach R srcs[j] v ∧ dst R srcs[j] v = d + 1 + 1 then some ((sig R srcs[j] v : V)⁻¹ * dep V R srcs[j] v)
        else none := by
    intro v
    by_cases h : Reach R srcs[j] v ∧ dst R srcs[j] v = d + 1 + 1
    · rw [if_neg (fun h' => fF_eq_none.1 h' h), if_pos h]
      unfold fN fB
      rw [if_pos ⟨h.1, by omega⟩, if_pos ⟨h.1, by omega⟩]
      rfl
    · rw [if_pos (fF_eq_none.2 h), if_neg h]
  by_cases h : Reach R srcs[j] u ∧ dst R srcs[j] u = d + 1
  · have h1 : (sig R srcs[j] u : V) ≠ 0 := by exact_mod_cast sig_ne.2 h.1
    rw [if_neg (fun h' => fF_eq_none.1 h' h)]
    have hN : fN V R srcs D u j = some (sig R srcs[j] u : V) := by
      unfold fN
      rw [if_pos ⟨h.1, by omega⟩]
    have hB : fB V R srcs (d + 1) u j = some 1 := by
      unfold fB
      rw [if_neg (by omega)]
    have hB' : fB V R srcs d u j = some (dep V R srcs[j] u) := by
      unfold fB
      rw [if_pos ⟨h.1, by omega⟩]
    rw [hN, hB, hB', dep_rec h.1]
    unfold dotv
    have hs : (∑ k, if fA u k ≠ none then ((if fF V R srcs (d + 1 + 1) k j = none then none
      else inter (fun x y => x * y) ((fN V R srcs D k j).map fun x => x⁻¹) (fB V R srcs (d + 1) k j)) : Option V).getD 0
        else 0) = ∑ w, if R u w ∧ dst R srcs[j] w = dst R srcs[j] u + 1 then dep V R srcs[j] w / sig R srcs[j] w
          else 0 := by
      refine Finset.sum_congr rfl fun w _ => ?_
      rw [hW w]
      by_cases hw : R u w
      · rw [if_pos ((hA u w).2 hw)]
        have hr := (reach_step h.1 hw).1
        by_cases hdw : dst R srcs[j] w = d + 1 + 1
        · rw [if_pos ⟨hr, hdw⟩, if_pos ⟨hw, by omega⟩, Option.getD_some, div_eq_inv_mul]
        · rw [if_neg (fun h => hdw h.2), if_neg (by omega)]; rfl
      · rw [if_neg (fun h => hw ((hA u w).1 h)), if_neg (fun h => hw h.1)]
    split
    · rw [hs]
      simp only [inter, union]
      rw [mul_comm]
    · rename_i hno
      have h0 : (∑ w, if R u w ∧ dst R srcs[j] w = dst R srcs[j] u + 1 then dep V R srcs[j] w / sig R srcs[j] w
          else 0) = 0 := by
        refine Finset.sum_eq_zero fun w _ => ?_
        rw [if_neg]
        rintro ⟨hw, hdw⟩
        refine hno ⟨w, (hA u w).2 hw, ?_⟩
        beta_reduce
        rw [hW w, if_pos ⟨(reach_step h.1 hw).1, by omega⟩]
        simp
      rw [h0]
      simp [inter, union]
  · rw [if_pos (fF_eq_none.2 h)]
    have : fB V R srcs d u j = fB V R srcs (d + 1) u j := by
      unfold fB
      congr 1
      by_cases h' : Reach R srcs[j] u ∧ d + 1 < dst R srcs[j] u
      · rw [if_pos h', if_pos ⟨h'.1, by omega⟩]
      · rw [if_neg h', if_neg]
        rintro ⟨h3, h4⟩
        by_cases h5 : d + 1 < dst R srcs[j] u
        · exact h' ⟨h3, h5⟩
        · exact h ⟨h3, by omega⟩
    rw [this]
    unfold fB
    rfl

theorem delta_ok {mul : CSR V → CSR V → CSR V → Scheds → Res (Option (CSR V))} {T : Nat} {A N Ninv : CSR V}
    {fA : Fin n → Fin n → Option V}
    (hmul : ∀ W P (fW fP : Fin n → Fin srcs.length → Option V), Has W fW → Has P fP → Mul mul T false A W P fA fW fP) (hA : ∀ u v, fA u v ≠ none ↔ R u v) {D : Nat}
    (hN : Has N (fN V R srcs D)) (hNi : Has Ninv fun v j => (fN V R srcs D v j).map fun x => x⁻¹)
    {preds : List (CSR V)} (hP : Preds R srcs D preds) :
    ∀ d BCu, d ≤ D - 1 → Has BCu (fB V R srcs d) →
      ∃ B' K, Has B' (fB V R srcs 0) ∧
        (∀ sch, (∀ i, Admissible n (sch i)) →
          deltaLoop mul A N Ninv preds sch d BCu = .ok none ∨
          deltaLoop mul A N Ninv preds sch d BCu = .ok (some B')) ∧
        (∀ sch, (∀ i, Admissible n (sch i)) → (∀ i, Fair T K (sch i)) →
          deltaLoop mul A N Ninv preds sch d BCu = .ok (some B')) := by
  intro d
  induction d with
  | zero => intro BCu _ hB; exact ⟨BCu, 0, hB, fun _ _ => .inr rfl, fun _ _ _ => rfl⟩
  | succ d ih =>
    intro BCu hd hB
    obtain ⟨P1, h1, hP1⟩ := hP.2 (d + 1) (by omega)
    obtain ⟨P0, h0, hP0⟩ := hP.2 d (by omega)
    have hW := hP1.eWiseMultMask hNi hB (fun x y => x * y) (fun v j x hx => by
      unfold fF at hx
      split at hx
      · rename_i h
        simp only [Option.some.injEq] at hx
        rw [← hx]
        exact_mod_cast sig_ne.2 h.1
      · cases hx)
    obtain ⟨C, hC, hCf⟩ := hmul _ _ _ _ hW hP0
    have hB' := (hB.eWiseMultAccum hCf hN (fun x y => x + y) (fun x y => x * y)).congr (g := fB V R srcs d) fun u j => by
      rw [← delta_step hA (by omega : d + 1 < D)]
      cases fF V R srcs (d + 1) u j <;> simp
    obtain ⟨B', K2, r1, r2, r3⟩ := ih _ (by omega) hB'
    obtain ⟨K1, hK1⟩ := hC.live
    have hr1 := rd_of_getElem? h1
    have hr0 := rd_of_getElem? h0
    have e : ∀ sch, mul A (eWiseMultMask P1 (fun x y => x * y) Ninv BCu) P0 (sch (d + 1)) = .ok (some C) →
        deltaLoop mul A N Ninv preds sch (d + 1) BCu = deltaLoop mul A N Ninv preds sch d
          (eWiseMultAccum BCu (fun x y => x + y) (fun x y => x * y) C N) := by
      intro sch h
      rw [deltaLoop, hr1, ok_bind, hr0, ok_bind, h, ok_bind]
    refine ⟨B', max K1 K2, r1, fun sch ha => ?_, fun sch ha hfair => ?_⟩
    · rcases hC.safe (sch (d + 1)) (ha _) with h | h
      · left
        rw [deltaLoop, hr1, ok_bind, hr0, ok_bind, h, ok_bind]
      · rw [e sch h]
        exact r2 sch ha
    · rw [e sch (hK1 _ (ha _) fun t htt => by have := hfair (d + 1) t htt; omega)]
      exact r3 sch ha fun i t htt => by have := hfair i t htt; omega

omit [DecidableEq V] in
theorem fB_last {D : Nat} (h : ∀ v j, fF V R srcs D v j = none) (v : Fin n) (j : Fin srcs.length) :
    fB V R srcs (D - 1) v j = some 1 := by
  unfold fB
  congr 1
  rw [if_neg]
  rintro ⟨h1, h2⟩
  -- a vertex at distance `D` exists
  have key : ∀ k w, Reach R srcs[j] w → dst R srcs[j] w = k → D ≤ k → ∃ u, Reach R srcs[j] u ∧ dst R srcs[j] u = D := by
    intro k
    induction k with
    | zero => intro w hw hk hD; exact ⟨w, hw, by omega⟩
    | succ k ih =>
      intro w hw hk hD
      rcases Nat.lt_or_ge D (k + 1) with hlt | hge
      · obtain ⟨u, -, hu, hd⟩ := exists_pred hw hk
        exact ih u hu hd (by omega)
      · exact ⟨w, hw, by omega⟩
  obtain ⟨u, hu⟩ := key _ v h1 rfl (by omega)
  exact fF_eq_none.1 (h u j) hu

omit [DecidableEq V] in
/-- the first frontier -/
theorem build_has (srcs : List (Fin n)) :
    Has (build n srcs.length ((srcs.map Fin.val).zipIdx.map fun x => (x.1, x.2, (1 : V)))) (fF V R srcs 0) := by
  refine (has_ofEntries n srcs.length _).congr fun v j => ?_
  have hj : j.val < (srcs.map Fin.val).length := by simp
  have hmem : ((srcs[j] : Fin n).val, j.val) ∈ (srcs.map Fin.val).zipIdx := by
    rw [List.mem_zipIdx_iff_getElem?]
    simp
  rcases hfind : (((srcs.map Fin.val).zipIdx.map fun x => (x.1, x.2, (1 : V))).find?
      fun t => t.1 == v.val && t.2.1 == j.val) with _ | t
  · rw [hfind, Option.map_none]
    symm
    rw [fF_eq_none]
    rintro ⟨h1, h2⟩
    have h3 := dst_eq_zero h1 h2
    rw [List.find?_eq_none] at hfind
    have := hfind (srcs[j].val, j.val, 1) (List.mem_map.2 ⟨_, hmem, rfl⟩)
    simp [h3] at this
  · have h1 := List.mem_of_find?_eq_some hfind
    have h2 := List.find?_some hfind
    rw [List.mem_map] at h1
    obtain ⟨⟨a, b⟩, hab, rfl⟩ := h1
    simp only [Bool.and_eq_true, beq_iff_eq] at h2
    obtain ⟨rfl, rfl⟩ := h2
    rw [List.mem_zipIdx_iff_getElem?] at hab
    have h3 : srcs[j] = v := by
      apply Fin.ext
      simpa using hab
    rw [hfind, Option.map_some]
    unfold fF
    rw [h3, if_pos ⟨reach_self v, dst_self v⟩, sig_self]
    simp

/-- the whole program -/
theorem bcWith_ok {mulp mulc : CSR V → CSR V → CSR V → Scheds → Res (Option (CSR V))} {T : Nat} {A : CSR V} {fA : Fin n → Fin n → Option V}
    (hmulp : ∀ W P (fW fP : Fin n → Fin srcs.length → Option V), Has W fW → Has P fP → Mul mulp T false A W P fA fW fP)
    (hmulc : ∀ k F N, Has F (fF V R srcs k) → Has N (fN V R srcs k) →
      Mul mulc T true (transpose A) F N (fun a b => fA b a) (fF V R srcs k) (fN V R srcs k))
    (hAh : Has A fA) (hA : ∀ u v, fA u v ≠ none ↔ R u v) (hs : srcs ≠ []) :
    ∃ K, ∀ fuel, n < fuel →
      (∀ sch sch', (∀ i, Admissible n (sch i)) → (∀ i, Admissible n (sch' i)) →
        bcWith mulp mulc A (srcs.map Fin.val) sch sch' fuel = .ok none ∨
        bcWith mulp mulc A (srcs.map Fin.val) sch sch' fuel =
          .ok (some (List.ofFn fun v : Fin n => some (centrality V R srcs v)))) ∧
      (∀ sch sch', (∀ i, Admissible n (sch i)) → (∀ i, Admissible n (sch' i)) →
        (∀ i, Fair T K (sch i)) → (∀ i, Fair T K (sch' i)) →
        bcWith mulp mulc A (srcs.map Fin.val) sch sch' fuel =
          .ok (some (List.ofFn fun v : Fin n => some (centrality V R srcs v)))) := by
  have hlen : 0 < srcs.length := List.length_pos_of_ne_nil hs
  have hn : 0 < n := (srcs[0]).pos
  let j0 : Fin srcs.length := ⟨0, hlen⟩
  have hF0 : Has (avoidIso (build n srcs.length ((srcs.map Fin.val).zipIdx.map fun x => (x.1, x.2, (1 : V)))) 1
      (srcs[j0] : Fin n).val 0) (fF V R srcs 0) := by
    refine (build_has srcs).avoidIso (i := srcs[j0]) (j := j0) ?_
    unfold fF
    rw [if_pos ⟨reach_self _, dst_self _⟩, sig_self]
    simp
  have hN0 : Has (avoidIso (build n srcs.length ((srcs.map Fin.val).zipIdx.map fun x => (x.1, x.2, (1 : V)))) 1
      (srcs[j0] : Fin n).val 0) (fN V R srcs 0) := hF0.congr fun v j => by
    unfold fF fN
    simp only [Nat.le_zero]
  obtain ⟨N', preds', D, K1, r1, r2, r3, r4⟩ := sigma_ok hmulc hA (n + 1) 0 srcs.length _ _ []
    (by omega) (by omega) hF0 hN0 ⟨rfl, fun i hi => absurd hi (Nat.not_lt_zero i)⟩
    ⟨fun h => by omega, fun h => by
      have := h srcs[j0] j0
      rw [fF_eq_none] at this
      exact absurd ⟨reach_self _, dst_self _⟩ this⟩
  have hB0 : Has (avoidIso (assignAll n srcs.length (1 : V)) 1 0 0) (fB V R srcs (D - 1)) := by
    have : Has (assignAll n srcs.length (1 : V)) (fun (_ : Fin n) (_ : Fin srcs.length) => some 1) :=
      has_ofEntries _ _ _
    exact (this.avoidIso (i := ⟨0, hn⟩) (j := j0) rfl).congr fun v j => (fB_last r3 v j).symm
  obtain ⟨B', K2, s1, s2, s3⟩ := delta_ok hmulp hA r1 (r1.apply fun x => x⁻¹) r2 (D - 1) _ (Nat.le_refl _) hB0
  have hout : (reduceRows B').map (Option.map fun x => x + -1 * (srcs.length : V)) =
      List.ofFn fun v : Fin n => some (centrality V R srcs v) := by
    unfold reduceRows
    rw [s1.rows, List.map_map, List.ofFn_eq_map, ← List.map_coe_finRange_eq_range, List.map_map]
    refine List.map_congr_left fun v _ => ?_
    simp only [Function.comp_apply]
    have hne : B'.row v ≠ [] := by
      intro h
      have := (s1.entries v j0 (if Reach R srcs[j0] v ∧ 0 < dst R srcs[j0] v then dep V R srcs[j0] v else 1)).2 rfl
      rw [h] at this
      simp at this
    rw [if_neg hne, s1.row_sum, Option.map_some, centrality_eq]
    congr 1
    have e1 : -1 * (srcs.length : V) = ∑ _j : Fin srcs.length, (-1 : V) := by
      simp
    rw [e1, ← Finset.sum_add_distrib, ← Fin.sum_univ_fun_getElem]
    refine Finset.sum_congr rfl fun j _ => ?_
    unfold fB
    rw [Option.getD_some]
    by_cases hr : Reach R srcs[j] v
    · by_cases hv : v = srcs[j]
      · have hd : dst R srcs[j] v = 0 := by rw [hv]; exact dst_self _
        rw [if_neg (by omega), if_neg (fun h => h.2 hv)]
        ring
      · have hd : dst R srcs[j] v ≠ 0 := fun h => hv (dst_eq_zero hr h).symm
        rw [if_pos ⟨hr, by omega⟩, if_pos ⟨hr, hv⟩, sub_eq_add_neg]
        rfl
    · rw [if_neg (fun h => hr h.1), if_neg (fun h => hr h.1)]
      ring
  have hr0 : rd (srcs.map Fin.val) 0 = .ok (srcs[j0] : Fin n).val := rd_of_getElem? (by simp [j0, hlen])
  have hrows : A.rows = n := hAh.rows
  have hl : (srcs.map Fin.val).length = srcs.length := List.length_map _
  refine ⟨max K1 K2, fun fuel hfuel => ⟨fun sch sch' ha ha' => ?_, fun sch sch' ha ha' hfa hfa' => ?_⟩⟩
  · unfold bcWith
    simp only [hl, hrows, hr0, ok_bind]
    rcases (r4 fuel hfuel).1 sch ha with h | h
    · left; rw [h]; rfl
    · rw [h, ok_bind]
      simp only []
      rcases s2 sch' ha' with h | h
      · left; rw [h]; rfl
      · right; rw [h, ok_bind]; simp only []; rw [hout]
  · unfold bcWith
    simp only [hl, hrows, hr0, ok_bind]
    rw [(r4 fuel hfuel).2 sch ha fun i t htt => by have := hfa i t htt; omega]
    rw [ok_bind]
    simp only []
    rw [s3 sch' ha' fun i t htt => by have := hfa' i t htt; omega]
    rw [ok_bind]
    simp only []
    rw [hout]

/-- The condition under which the heap algorithm with the complemented mask works when assertions are enabled. -/
theorem closed_fN (hcl : ∀ u v, R u v → u ∈ srcs → v ∈ srcs) {fA : Fin n → Fin n → Option V} (hA : ∀ u v, fA u v ≠ none ↔ R u v) (k : Nat)
    (v : Fin n) (h : ∃ u j, fA u v ≠ none ∧ fF V R srcs k u j ≠ none) : ∃ j, fN V R srcs k v j ≠ none := by
  obtain ⟨u, j, h1, h2⟩ := h
  rw [ne_eq, fF_eq_none, not_not] at h2
  have key : ∀ w, Reach R srcs[j] w → w ∈ srcs := by
    have : ∀ m w, Reach R srcs[j] w → dst R srcs[j] w = m → w ∈ srcs := by
      intro m
      induction m with
      | zero => intro w hw hm; rw [← dst_eq_zero hw hm]; exact List.getElem_mem _
      | succ m ih =>
        intro w hw hm
        obtain ⟨u, hu1, hu2, hu3⟩ := exists_pred hw hm
        exact hcl u w hu1 (ih u hu2 hu3)
    exact fun w hw => this _ w hw rfl
  have hv := hcl u v ((hA u v).1 h1) (key u h2.1)
  obtain ⟨i, hi, rfl⟩ := List.getElem_of_mem hv
  refine ⟨⟨i, hi⟩, ?_⟩
  rw [ne_eq, fN_eq_none, not_not]
  exact ⟨reach_self _, by have := dst_self (R := R) (srcs[i]); simp only [Fin.getElem_fin]; omega⟩

/-- the whole program with the library -/
theorem bc_ok {fp fc : Callee} (hp : OkPlain fp.kind (n * srcs.length)) (hc : fc.kind.compl = true ∧ fc.kind.sorted = true)
    (hcl : fc.kind = .heapC false → ∀ u v, R u v → u ∈ srcs → v ∈ srcs) {A : CSR V}
    {fA : Fin n → Fin n → Option V} (hAh : Has A fA) (hA : ∀ u v, fA u v ≠ none ↔ R u v) (hs : srcs ≠ [])
    {nt dflt : Nat} (ht : 0 < setNumThreads nt dflt) :
    ∃ K, ∀ fuel, n < fuel →
      (∀ sch sch', (∀ i, Admissible n (sch i)) → (∀ i, Admissible n (sch' i)) →
        bc fp fc A (srcs.map Fin.val) nt dflt sch sch' fuel = .ok none ∨
        bc fp fc A (srcs.map Fin.val) nt dflt sch sch' fuel =
          .ok (some (List.ofFn fun v : Fin n => some (centrality V R srcs v)))) ∧
      (∀ sch sch', (∀ i, Admissible n (sch i)) → (∀ i, Admissible n (sch' i)) →
        (∀ i, Fair (setNumThreads nt dflt) K (sch i)) → (∀ i, Fair (setNumThreads nt dflt) K (sch' i)) →
        bc fp fc A (srcs.map Fin.val) nt dflt sch sch' fuel =
          .ok (some (List.ofFn fun v : Fin n => some (centrality V R srcs v)))) := by
  have hn : 0 < n := (srcs[0]'(List.length_pos_of_ne_nil hs)).pos
  have e : ∀ sch sch' fuel, bc fp fc A (srcs.map Fin.val) nt dflt sch sch' fuel =
      bcWith (multPack fp nt dflt) (multPack fc nt dflt) A (srcs.map Fin.val) sch sch' fuel := by
    intro sch sch' fuel
    rw [bc, check, if_pos (by simpa using List.length_pos_of_ne_nil hs), ok_bind]
  simp only [e]
  exact bcWith_ok (fun W P fW fP hW hP => multPack_plain hn hp hAh hW hP ht)
    (fun k F N hF hN => multPack_cmpl hn hc (fun h => closed_fN (hcl h) hA k) hAh.transpose hF hN ht) hAh hA hs

end loops

end Verif.Model.Bc
