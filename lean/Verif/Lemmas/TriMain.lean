import Verif.Model.TriMain
import Verif.Lemmas.MaskedAll
import Verif.SpecTriMain
import Verif.Props.C73
import Verif.Props.C39

/-! # Lemmas for the triangle counting program with its modes -/

namespace Verif.Model.TriMain

open Verif.Spec Verif.Model.Bench Verif.Model.MaskedAll

/-! ## Calls one after the other -/

/-- Either there is a result as described by `Q`, or (unless `st`) the calls did not come to their end. -/
def Yields {α : Type} (st : Prop) (Q : α → Prop) (r : Res (Option α)) : Prop := (∃ x, r = .ok (some x) ∧ Q x) ∨ (¬st ∧ r = .ok none)

section
variable {V : Type} {st : Prop}

theorem Yields.weaken {α : Type} {p q : Prop} {P Q : α → Prop} {r : Res (Option α)} (h : Yields p P r) (hpq : q → p) (hPQ : ∀ x, P x → Q x) :
    Yields q Q r := by
  rcases h with ⟨x, e, hx⟩ | ⟨hn, e⟩
  · exact .inl ⟨x, e, hPQ x hx⟩
  · exact .inr ⟨fun h => hn (hpq h), e⟩

theorem of_gives {α : Type} {Q : α → Prop} {x : α} {r : Res (Option α)} (h : Gives st x r) (hQ : Q x) : Yields st Q r :=
  h.imp (fun e => ⟨x, e, hQ⟩) id

theorem repeat_yields {σ : Type} {f : CSR V → σ → Res (Option (CSR V))} {P Q : CSR V → Prop} (hQP : ∀ C, Q C → P C) :
    ∀ (ss : List σ) (C0 : CSR V), P C0 → (∀ s ∈ ss, ∀ C', P C' → Yields st Q (f C' s)) →
      Yields st (fun C => P C ∧ (ss ≠ [] → Q C)) (repeatCall f ss C0) := by
  intro ss
  induction ss with
  | nil => intro C0 h0 _; exact .inl ⟨C0, rfl, h0, fun h => absurd rfl h⟩
  | cons s ss ih =>
    intro C0 h0 h
    unfold repeatCall
    rcases h s (by simp) C0 h0 with ⟨C, e, hC⟩ | ⟨hs, e⟩
    · rw [e, ok_bind]
      rcases ih C (hQP C hC) fun s hs => h s (by simp [hs]) with ⟨D, e', hD⟩ | e'
      · refine .inl ⟨D, e', hD.1, fun _ => ?_⟩
        by_cases hss : ss = []
        · subst hss
          cases e'
          exact hC
        · exact hD.2 hss
      · exact .inr e'
    · rw [e, ok_bind]
      exact .inr ⟨hs, rfl⟩

theorem runCalls_yields {σ : Type} {f : CSR V → σ → Res (Option (CSR V))} {P Q : CSR V → Prop} (hQP : ∀ C, Q C → P C) (hnew : P newObj)
    {warm timed : List σ} (hne : timed ≠ []) (hw : ∀ s ∈ warm, ∀ C', P C' → Yields st P (f C' s))
    (ht : ∀ s ∈ timed, ∀ C', P C' → Yields st Q (f (makeEmpty C') s)) : Yields st Q (runCalls f warm timed) := by
  unfold runCalls
  rcases repeat_yields (fun _ h => h) warm newObj hnew hw with ⟨C, e, hC⟩ | ⟨hs, e⟩
  · rw [e, ok_bind]
    exact (repeat_yields (f := fun C => f (makeEmpty C)) hQP timed C hC.1 ht).weaken id fun _ h => h.2 hne
  · rw [e, ok_bind]
    exact .inr ⟨hs, rfl⟩

end

/-! ## Matrices with the same entries up to order -/

section
variable {V : Type}

/-- Two matrices with rows of the same lengths have the same row pointers. -/
theorem rowptr_eq {C D : CSR V} (hC : C.WF) (hD : D.WF) (hr : C.rows = D.rows) (h : ∀ i < C.rows, (C.rowCols i).length = (D.rowCols i).length) :
    C.rowptr = D.rowptr ∧ C.nnz = D.nnz := by
  have key : ∀ k ≤ C.rows, C.ptr k = D.ptr k := by
    intro k
    induction k with
    | zero => intro _; rw [hC.ptrFirst, hD.ptrFirst]
    | succ k ih =>
      intro hk
      have h1 := h k hk
      rw [CSR.rowCols_length hC hk, CSR.rowCols_length hD (hr ▸ hk)] at h1
      have := ih (by omega)
      have := hC.ptrMono k hk
      have := hD.ptrMono k (hr ▸ hk)
      omega
  constructor
  · refine List.ext_getElem (by rw [hC.ptrLen, hD.ptrLen, hr]) fun k h1 h2 => ?_
    have := key k (by rw [hC.ptrLen] at h1; omega)
    unfold CSR.ptr at this
    simpa [List.getD_eq_getElem?_getD, h1, h2] using this
  · rw [← hC.ptrLast, ← hD.ptrLast, ← hr]
    exact key _ (Nat.le_refl _)

theorem colids_eq {C : CSR V} (h : C.WF) : C.colids = (List.range C.rows).flatMap C.rowCols := by
  have := Conv.flatMap_slice C.colids C.ptr h.ptrFirst C.rows (fun i hi => h.ptrMono i hi) (by rw [h.ptrLast, h.colLen])
  rw [h.ptrLast, ← h.colLen, List.take_length] at this
  exact this.symm

theorem values_eq {C : CSR V} (h : C.WF) : C.values = (List.range C.rows).flatMap fun i => (C.row i).map Prod.snd := by
  rw [← (MatObj.triples_snd h).2]
  unfold triples
  rw [List.map_flatMap]
  simp only [List.map_map]
  rfl

/-- The parts of the checksum that do not depend on the values -/
theorem check_shape {C D : CSR V} (enc : V → List UInt8) (hC : C.WF) (hD : D.WF) (hr : C.rows = D.rows)
    (h : ∀ i < C.rows, (C.rowCols i).Perm (D.rowCols i)) : C.nnz = D.nnz ∧
      (Checksum.checksum enc 8 C).1 = (Checksum.checksum enc 8 D).1 ∧ (Checksum.checksum enc 8 C).2.2 = (Checksum.checksum enc 8 D).2.2 := by
  obtain ⟨h1, h2⟩ := rowptr_eq hC hD hr fun i hi => (h i hi).length_eq
  refine ⟨h2, ?_, ?_⟩
  · unfold Checksum.checksum
    simp only [h1, hr]
  · unfold Checksum.checksum
    refine checksum_perm _ bytesLE_even ?_
    rw [colids_eq hC, colids_eq hD, ← hr]
    exact List.Perm.flatMap_left _ fun i hi => h i (List.mem_range.1 hi)

theorem check_perm {C D : CSR V} (enc : V → List UInt8) (heven : ∀ v, (enc v).length % 2 = 0) (hC : C.WF) (hD : D.WF) (hr : C.rows = D.rows)
    (h : ∀ i < C.rows, (C.row i).Perm (D.row i)) : C.nnz = D.nnz ∧ C.values.Perm D.values ∧ Checksum.checksum enc 8 C = Checksum.checksum enc 8 D := by
  obtain ⟨h1, h2, h3⟩ := check_shape enc hC hD hr fun i hi => by
    rw [← CSR.row_map_fst hC, ← CSR.row_map_fst hD]
    exact (h i hi).map _
  have hv : C.values.Perm D.values := by
    rw [values_eq hC, values_eq hD, ← hr]
    exact List.Perm.flatMap_left _ fun i hi => (h i (List.mem_range.1 hi)).map _
  refine ⟨h1, hv, Prod.ext h2 (Prod.ext ?_ h3)⟩
  exact checksum_perm enc heven hv

end

section
variable {R : Type} [Semiring R]

/-- What all results that are masked products have in common -/
theorem masked_common {A B M C D : CSR R} {mul add : R → R → R} (enc : R → List UInt8) (heven : ∀ v, (enc v).length % 2 = 0)
    (hC : IsMaskedSet mul add A B M C) (hD : IsMaskedSet mul add A B M D) :
    C.nnz = D.nnz ∧ C.values.sum = D.values.sum ∧ Checksum.checksum enc 8 C = Checksum.checksum enc 8 D := by
  obtain ⟨h1, h2, h3⟩ := check_perm enc heven hC.wf hD.wf (hC.rows.trans hD.rows.symm) fun i hi => by
    have hi' := hC.rows ▸ hi
    refine (List.perm_ext_iff_of_nodup (Props.row_nodup hC.wf (hC.nodup i hi)) (Props.row_nodup hD.wf (hD.nodup i (hD.rows ▸ hi')))).2 ?_
    rintro ⟨j, v⟩
    rw [hC.entries i hi', hD.entries i hi']
  exact ⟨h1, h2.sum_eq, h3⟩

/-- A selection of the mask has the same positions. -/
theorem selection_common {A B M C D : CSR R} {mul add : R → R → R} (enc : R → List UInt8) (hM : M.WF)
    (hC : Props.IsSelection mul add A B M C) (hD : IsMaskedSet mul add A B M D) :
    C.nnz = D.nnz ∧ (Checksum.checksum enc 8 C).1 = (Checksum.checksum enc 8 D).1 ∧ (Checksum.checksum enc 8 C).2.2 = (Checksum.checksum enc 8 D).2.2 := by
  refine check_shape enc hC.wf hD.wf (hC.rows.trans hD.rows.symm) fun i hi => ?_
  have hi' := hC.rows ▸ hi
  refine (List.perm_ext_iff_of_nodup (nodup_of_sorted hC.sorted i hi) (hD.nodup i (hD.rows ▸ hi'))).2 fun j => ?_
  rw [← CSR.row_map_fst hC.wf, ← CSR.row_map_fst hD.wf, List.mem_map, List.mem_map]
  constructor
  · rintro ⟨⟨j', v⟩, hx, rfl⟩
    obtain ⟨h1, h2⟩ := (hC.entries i hi' _ _).1 hx
    obtain ⟨w, hw⟩ := Option.ne_none_iff_exists'.1 h2
    refine ⟨(j', w), (hD.entries i hi' _ _).2 ⟨?_, hw⟩, rfl⟩
    rw [← CSR.row_map_fst hM]
    exact List.mem_map_of_mem h1
  · rintro ⟨⟨j', w⟩, hx, rfl⟩
    obtain ⟨h1, h2⟩ := (hD.entries i hi' _ _).1 hx
    rw [← CSR.row_map_fst hM, List.mem_map] at h1
    obtain ⟨⟨j'', v⟩, hv, rfl⟩ := h1
    exact ⟨(j'', v), (hC.entries i hi' _ _).2 ⟨hv, by rw [h2]; simp⟩, rfl⟩

/-- All values of a selection of a mask with a single value are that value. -/
theorem selection_values {A B M C : CSR R} {mul add : R → R → R} {v : R} (hMA : M.rows = A.rows) (hv : ∀ t ∈ triples M, t.2.2 = v)
    (hC : Props.IsSelection mul add A B M C) : C.values = List.replicate C.nnz v := by
  rw [List.eq_replicate_iff]
  refine ⟨hC.wf.valLen, fun w hw => ?_⟩
  rw [values_eq hC.wf, List.mem_flatMap] at hw
  obtain ⟨i, hi, hw⟩ := hw
  obtain ⟨⟨j, w'⟩, hx, rfl⟩ := List.mem_map.1 hw
  have hi' := hC.rows ▸ List.mem_range.1 hi
  exact hv (i, j, w') (Graph.mem_triples.2 ⟨hMA ▸ hi', ((hC.entries i hi' _ _).1 hx).1⟩)

/-! ## The multiplications -/

/-- The loops of a call run over all rows (and threads). -/
structure Adm (rows n : Nat) (s : Sch) : Prop where
  sch : SchAdm rows n s.toSch
  isect : Props.IntersectAdm rows n s.isect

/-- Each thread gets at least `K` turns in every part of the call. -/
structure FairSch (n K : Nat) (s : Sch) : Prop where
  sch : SchFair n K s.toSch
  isect : ∀ t < n, K ≤ s.isect.prod.sym.count t ∧ K ≤ s.isect.prod.num.count t

theorem FairSch.mono {n K K' : Nat} {s : Sch} (h : FairSch n K' s) (hK : K ≤ K') : FairSch n K s :=
  ⟨h.sch.mono hK, fun t ht => ⟨hK.trans (h.isect t ht).1, hK.trans (h.isect t ht).2⟩⟩

/-- The matrix by rows and by columns, as the program passes it -/
structure Square {R : Type} (n : Nat) (X : CSR R) (L : CSC R) : Prop where
  pos : 0 < n
  wX : X.WF
  wL : L.WF
  rows : X.rows = n
  cols : X.cols = n
  sX : X.SortedRows
  sL : L.SortedCols
  same : SameMat X L

theorem Square.valid {n : Nat} {X : CSR R} {L : CSC R} (h : Square n X L) : Valid X X X :=
  Props.valid_self h.wX (h.rows.trans h.cols.symm) (h.rows ▸ h.pos)

/-- Kernels with the partition of the older code -/
def Ker.bins : Ker → Bool
  | .nohash | .spa | .wobin | .hash | .intersect => true
  | _ => false

/-- The row algorithms fit the number of entries -/
def Ker.Fits (nnz : Nat) : Ker → Prop
  | .lib a _ => Graph.Usable a nnz
  | _ => True

theorem lib_yields {n : Nat} {X : CSR R} {L : CSC R} (h : Square n X L) {a : Algo} (ha : Graph.Usable a X.nnz) (two : Bool) {tnum : Nat} (ht : 0 < tnum) :
    ∃ C, IsMaskedSet (fun x y => x * y) (fun x y => x + y) X X X C ∧ ∃ K, ∀ s : Sch, Adm n tnum s →
      Gives (FairSch tnum K s) C (a.call two (fun x y => x * y) (fun x y => x + y) X X L X true tnum tnum s.gen) := by
  have hst : setNumThreads tnum tnum = tnum := by
    unfold setNumThreads
    split <;> rfl
  have hcomp := algo_computes a two (fun x y : R => x * y) (fun x y => x + y) (Bc := L) h.valid
    (TriCnt.req_square' Graph.assocComm_add h.sX h.wL h.sL h.same ha) true (nt := tnum) (dflt := tnum) (by rw [hst]; exact ht)
  unfold algoMat at hcomp
  rw [ha.1, if_neg (by simp), h.rows, hst] at hcomp
  obtain ⟨K, hK⟩ := of_computes hcomp
  exact ⟨_, masked_set (maskedMat_wf h.wX) (maskedMat_isMasked rfl true (Graph.nodup_of_sorted h.sX)), K,
    fun s hs => MaskedAll.Gives.weaken (hK s.toSch hs.sch) fun hf => hf.sch⟩

theorem old_call (k : Props.OldKind) (two : Bool) (X : CSR R) (L : CSC R) (zb : Bool) (tnum : Nat) (s : Scheds) :
    driver k.alg two X zb tnum s = (Algo.gen k.now).call two (fun x y => x * y) (fun x y => x + y) X X L X zb tnum tnum s := by
  unfold driver
  rw [Props.old_eq]
  cases two <;> rfl

theorem old_usable (k : Props.OldKind) (nnz : Nat) : Graph.Usable (.gen k.now) nnz := by
  rcases k with _ | _ | v
  · exact ⟨rfl, fun d hd => by cases hd⟩
  · exact ⟨rfl, fun d hd => by cases hd⟩
  · cases v
    · exact ⟨rfl, fun d hd => by cases hd; omega⟩
    · exact ⟨rfl, fun d hd => by cases hd; omega⟩
    · exact ⟨rfl, fun d hd => by cases hd; omega⟩

theorem of_counts {n : Nat} {X : CSR R} {L : CSC R} (h : Square n X L) {f : CSR R → CSC R → Res (Option (CSR R))} {P st : Prop}
    (hf : Props.CountsWith n f P) (hP : st → ¬P) : Yields st (IsMaskedSet (fun x y => x * y) (fun x y => x + y) X X X) (f X L) := by
  rcases hf X L h.wX h.wL h.rows h.cols h.sX h.sL h.same with ⟨e, hPP⟩ | ⟨C, e, hC⟩
  · exact .inr ⟨fun hs => hP hs hPP, e⟩
  · exact .inl ⟨C, e, hC⟩

/-- Every algorithm but the last two computes the masked product on an empty object. On any object it gives a matrix with 0-based indices. -/
theorem kernel_yields {n : Nat} {X : CSR R} {L : CSC R} (h : Square n X L) (sortf : List (Nat × R) → List (Nat × R)) {k : Ker} (hk : k ≠ .poly)
    (hi : k ≠ .intersect) (hfit : k.Fits X.nnz) (hsmall : k.bins → n + 1 < 2 ^ 17) {tnum : Nat} (ht : 0 < tnum) :
    ∃ K, ∀ s, Adm n tnum s → ∀ C0 : CSR R, C0.zerobased = true →
      Yields (FairSch tnum K s) (fun C => C.zerobased = true) (k.call sortf X L tnum C0 s) ∧
      (C0.nnz = 0 → Yields (FairSch tnum K s) (IsMaskedSet (fun x y => x * y) (fun x y => x + y) X X X) (k.call sortf X L tnum C0 s)) := by
  have both : ∀ {st : Prop} {r : Res (Option (CSR R))} {C0 : CSR R}, Yields st (IsMaskedSet (fun x y => x * y) (fun x y => x + y) X X X) r →
      Yields st (fun C => C.zerobased = true) r ∧ (C0.nnz = 0 → Yields st (IsMaskedSet (fun x y => x * y) (fun x y => x + y) X X X) r) :=
    fun h => ⟨h.weaken id fun C hC => hC.wf.zero, fun _ => h⟩
  have lib : ∀ {a : Algo} (_ : Graph.Usable a X.nnz) (two : Bool), ∃ K, ∀ s, Adm n tnum s → ∀ C0 : CSR R, C0.zerobased = true →
      Yields (FairSch tnum K s) (IsMaskedSet (fun x y => x * y) (fun x y => x + y) X X X)
        (a.call two (fun x y => x * y) (fun x y => x + y) X X L X C0.zerobased tnum tnum s.gen) := by
    intro a ha two
    obtain ⟨C, hC, K, hK⟩ := lib_yields h ha two ht
    exact ⟨K, fun s hs C0 h0 => by rw [h0]; exact of_gives (hK s hs) hC⟩
  have old : ∀ (o : Props.OldKind) (two : Bool), ∃ K, ∀ s, Adm n tnum s → ∀ C0 : CSR R, C0.zerobased = true →
      Yields (FairSch tnum K s) (IsMaskedSet (fun x y => x * y) (fun x y => x + y) X X X) (driver o.alg two X C0.zerobased tnum s.gen) := by
    intro o two
    obtain ⟨K, hK⟩ := lib (old_usable o X.nnz) two
    refine ⟨K, fun s hs C0 h0 => ?_⟩
    rw [old_call o two X L]
    exact hK s hs C0 h0
  cases k with
  | poly => exact absurd rfl hk
  | intersect => exact absurd rfl hi
  | lib a two =>
    obtain ⟨K, hK⟩ := lib hfit two
    exact ⟨K, fun s hs C0 h0 => both (hK s hs C0 h0)⟩
  | msa1Old two =>
    obtain ⟨K, hK⟩ := old .msa1 two
    exact ⟨K, fun s hs C0 h0 => both (hK s hs C0 h0)⟩
  | msa2Old two =>
    obtain ⟨K, hK⟩ := old .msa2 two
    exact ⟨K, fun s hs C0 h0 => both (hK s hs C0 h0)⟩
  | heapOld v two =>
    obtain ⟨K, hK⟩ := old (.heap v) two
    exact ⟨K, fun s hs C0 h0 => both (hK s hs C0 h0)⟩
  | spa =>
    refine ⟨n + 2, fun s hs C0 h0 => both (of_counts h (Props.counts_spa h.pos (hsmall rfl) ht tnum hs.sch.two) ?_)⟩
    rintro hf ⟨t, htt, hh⟩
    have := hf.sch.two t htt
    omega
  | hash =>
    refine ⟨n + 2, fun s hs C0 h0 => both (of_counts h (Props.counts_hash h.pos (hsmall rfl) ht tnum hs.sch.two) ?_)⟩
    rintro hf ⟨t, htt, hh⟩
    have := hf.sch.two t htt
    omega
  | wobin =>
    exact ⟨n + 2, fun s hs C0 h0 => both (of_counts h (Props.counts_wobin h.pos (hsmall rfl) tnum hs.sch.order1 hs.sch.order2) fun _ h => h)⟩
  | nohash =>
    refine ⟨n + 2, fun s hs C0 h0 => ⟨?_, fun hnz => ?_⟩⟩
    · have hv := validC_of h.valid h.same h.sX h.wL h.sL
      have hc : ∀ c ∈ X.colids, c < L.cols := fun c hc => by rw [h.same.cols]; exact h.wX.inBounds c hc
      rcases Dot.innerNohash_ok (mul := fun x y : R => x * y) (add := fun x y => x + y) (zero := 0) hv hc (h.rows ▸ hsmall rfl) ht tnum C0.nnz
        (sch := s.dot) (h.rows ▸ hs.sch.dot) with ⟨e, t, htt, hh⟩ | e
      · refine .inr ⟨fun hf => ?_, e⟩
        have := hf.sch.dot t htt
        have := h.rows
        omega
      · exact .inl ⟨_, e, rfl⟩
    · unfold Ker.call
      dsimp only
      rw [hnz]
      refine of_counts h (Props.counts_inner h.pos (hsmall rfl) ht tnum hs.sch.dot) ?_
      rintro hf ⟨t, htt, hh⟩
      have := hf.sch.dot t htt
      omega

theorem intersect_yields {n : Nat} {X : CSR R} {L : CSC R} (h : Square n X L) {sortf : List (Nat × R) → List (Nat × R)} (hs : SortsBy Prod.fst sortf)
    (hsmall : n + 1 < 2 ^ 17) {tnum : Nat} (ht : 0 < tnum) (s : Sch) (ha : Adm n tnum s) (C0 : CSR R) :
    Yields (FairSch tnum (n + 2) s) (Props.IsSelection (fun x y => x * y) (fun x y => x + y) X X X) (Ker.intersect.call sortf X L tnum C0 s) := by
  rcases Props.C73_positions_partial hs (fun x y : R => x * y) (fun x y => x + y) 0 h.valid h.sX (h.rows ▸ hsmall) ht ht (h.rows ▸ ha.isect) with
    ⟨e, t, htt, hh⟩ | ⟨C, e, hC⟩
  · refine .inr ⟨fun hf => ?_, e⟩
    have := hf.isect t htt
    have := h.rows
    omega
  · exact .inl ⟨C, e, hC⟩

/-! ## `run` -/

/-- The line of an algorithm whose calls give a matrix as described by `Q` -/
theorem runAlg_good {enc : R → List UInt8} {o : Orders R} (hp : ∀ k, Splits k (o.parts k)) {e : Env} (hin : e.inner ≠ some 0) (path : List Char)
    {tnum : Nat} {L : CSC R} {X : CSR R} {a : List Char × Ker} {name : List Char} (hname : processName a.1 = .ok name) {st : Prop} {sch : Nat → Sch}
    {Q : CSR R → Prop} (hQ : ∀ C, Q C → C.WF)
    (hcall : ∀ i, ∀ C0 : CSR R, C0.zerobased = true → Yields st (fun C => C.zerobased = true) (a.2.call o.sortf X L tnum C0 (sch i)) ∧
      (C0.nnz = 0 → Yields st Q (a.2.call o.sortf X L tnum C0 (sch i)))) {z : Nat} {v : R} {c : Nat × Nat × Nat}
    (hres : ∀ C, Q C → C.nnz = z ∧ C.values.sum = v ∧ Checksum.checksum enc 8 C = c) :
    Good st [{ file := getFileName path, name := name, threads := tnum, nnz := z, sum := v, check := c }] (runAlg enc o e path tnum L X a sch) := by
  have hpos : 0 < e.innerIters := by
    unfold Env.innerIters
    revert hin
    rcases e.inner with _ | _ | c <;> simp
  have hy := runCalls_yields (st := st) (f := a.2.call o.sortf X L tnum) (P := fun C => C.zerobased = true) (Q := Q) (fun C hC => (hQ C hC).zero) rfl
    (warm := (List.range e.warmupIters).map sch) (timed := (List.range e.innerIters).map fun k => sch (e.warmupIters + k))
    (by simp; omega)
    (fun s hs C' hC' => by
      obtain ⟨i, -, rfl⟩ := List.mem_map.1 hs
      exact (hcall i C' hC').1)
    (fun s hs C' hC' => by
      obtain ⟨i, -, rfl⟩ := List.mem_map.1 hs
      exact (hcall _ (makeEmpty C') hC').2 rfl)
  unfold runAlg Bench.run
  rcases hy with ⟨C, e', hC⟩ | ⟨hs, e'⟩
  · obtain ⟨rfl, rfl, rfl⟩ := hres C hC
    simp only [e', hname, ok_bind]
    rw [SumAll.sumall_acc (acc := fun s v : R => s + v) (f := id) (fun _ _ => rfl) id (by rw [(hQ C hC).valLen]; exact hp _), List.map_id]
    exact .inl rfl
  · rw [e']
    exact .inr ⟨hs, rfl, List.nil_prefix⟩

end

end Verif.Model.TriMain
