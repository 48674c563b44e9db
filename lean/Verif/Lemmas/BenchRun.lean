import Verif.SpecBench
import Verif.Model.BenchRun
import Verif.Lemmas.Kinds
import Verif.Lemmas.Relabel
import Verif.Lemmas.MatEq
import Verif.Lemmas.SumAll
import Verif.Props.C28
import Verif.Props.C71
import Mathlib.Data.Set.Card

/-! # Lemmas for the benchmark of the complemented algorithms -/

namespace Verif.Model.Bench

open Verif.Spec

/-- Either the result is `x`, or (unless `strict`) the calls did not come to their end. -/
def Gives {α : Type} (strict : Prop) (x : α) (r : Res (Option α)) : Prop := r = .ok (some x) ∨ (¬strict ∧ r = .ok none)

section
variable {V : Type} {st : Prop}

theorem repeat_gives {σ : Type} {f : CSR V → σ → Res (Option (CSR V))} {C : CSR V} (hC : C.zerobased = true) :
    ∀ (ss : List σ) (C0 : CSR V), C0.zerobased = true → (∀ s ∈ ss, ∀ C', C'.zerobased = true → Gives st C (f C' s)) →
      Gives st (if ss = [] then C0 else C) (repeatCall f ss C0) := by
  intro ss
  induction ss with
  | nil => intro C0 _ _; exact .inl rfl
  | cons s ss ih =>
    intro C0 h0 h
    rw [if_neg (by simp)]
    unfold repeatCall
    rcases h s (by simp) C0 h0 with e | ⟨hs, e⟩
    · rw [e, ok_bind]
      have := ih C hC fun s hs => h s (by simp [hs])
      simpa using this
    · rw [e, ok_bind]
      exact .inr ⟨hs, rfl⟩

/-- The object after the calls of `run` is the result of the multiplication, if there is at least one call. -/
theorem runCalls_gives {call : Bool → Scheds → Res (Option (CSR V))} {C : CSR V} (hC : C.zerobased = true) {warm timed : List Scheds}
    (hne : warm ++ timed ≠ []) (h : ∀ s ∈ warm ++ timed, Gives st C (call true s)) :
    Gives st C (runCalls (fun C => call C.zerobased) warm timed) := by
  unfold runCalls
  have h1 := repeat_gives (st := st) (f := fun C => call C.zerobased) hC warm newObj rfl fun s hs C' hC' => by
    rw [hC']; exact h s (by simp [hs])
  rcases h1 with e | ⟨hs, e⟩
  · rw [e, ok_bind]
    have h2 := repeat_gives (st := st) (f := fun C => call (makeEmpty C).zerobased) hC timed (if warm = [] then newObj else C)
      (by split; rfl; exact hC) fun s hs C' hC' => by
        have : (makeEmpty C').zerobased = true := hC'
        rw [this]; exact h s (by simp [hs])
    have e2 : (if timed = [] then (if warm = [] then newObj else C) else C) = C := by
      split
      · rename_i ht
        rw [if_neg]
        rintro rfl
        exact hne (by simp [ht])
      · rfl
    rw [e2] at h2
    exact h2
  · rw [e, ok_bind]
    exact .inr ⟨hs, rfl⟩

theorem printAll_gives {α β : Type} {f : α → Res (Option β)} {g : α → β} : ∀ (l : List α), (∀ a ∈ l, Gives st (g a) (f a)) →
    Gives st (l.map g) (printAll f l) := by
  intro l
  induction l with
  | nil => intro _; exact .inl rfl
  | cons a l ih =>
    intro h
    unfold printAll
    rcases h a (by simp) with e | ⟨hs, e⟩
    · rw [e, ok_bind]
      rcases ih fun b hb => h b (by simp [hb]) with e' | ⟨hs, e'⟩
      · simp only [e', ok_bind]
        exact .inl rfl
      · simp only [e', ok_bind]
        exact .inr ⟨hs, rfl⟩
    · rw [e, ok_bind]
      exact .inr ⟨hs, rfl⟩

end

/-! ## The reported numbers -/

variable {R : Type} [Semiring R] {n : Nat}

theorem stored_iff {V : Type} {X : CSR V} (hX : X.WF) {es : List (Nat × Nat × V)} (hp : (triples X).Perm es) {i j : Nat} (hi : i < X.rows) :
    j ∈ X.rowCols i ↔ Stored es i j := by
  rw [← CSR.row_map_fst hX i, List.mem_map]
  unfold Stored
  constructor
  · rintro ⟨x, hx, rfl⟩
    exact ⟨(i, x.1, x.2), hp.mem_iff.1 (Graph.mem_triples.2 ⟨hi, hx⟩), rfl⟩
  · rintro ⟨e, he, h⟩
    obtain ⟨rfl, rfl⟩ := Prod.mk.inj h
    exact ⟨_, (Graph.mem_triples.1 (hp.mem_iff.2 he)).2, rfl⟩

theorem dense_eq {X : CSR R} (hr : X.rows = n) {es : List (Nat × Nat × R)} (hp : (triples X).Perm es) : dense n n X = entryMat n es := by
  ext i j
  unfold dense entryMat
  rw [Matrix.of_apply, Matrix.of_apply, ← Graph.bucket_triples X (hr ▸ i.2)]
  unfold Conv.bucket
  rw [List.filterMap_filterMap, ← (hp.filterMap _).sum_eq]
  congr 1
  refine List.filterMap_congr fun t _ => ?_
  by_cases h1 : t.1 = i.val <;> by_cases h2 : t.2.1 = j.val <;> simp [h1, h2]

/-- The positions of a matrix without repeated entries are different. -/
theorem triples_nodup {V : Type} {C : CSR V} (h : C.WF) (hn : C.NodupRows) : ((triples C).map fun t => (t.1, t.2.1)).Nodup := by
  unfold triples
  rw [List.map_flatMap, List.nodup_flatMap]
  constructor
  · intro i hi
    rw [List.map_map]
    have e : ((C.row i).map ((fun t : Nat × Nat × V => (t.1, t.2.1)) ∘ fun x => (i, x.1, x.2))) = (C.rowCols i).map fun j => (i, j) := by
      rw [← CSR.row_map_fst h i, List.map_map]
      rfl
    rw [e]
    exact (hn i (List.mem_range.1 hi)).map fun a b h => (Prod.mk.inj h).2
  · refine List.nodup_range.imp ?_
    intro i j hij x hx hy
    simp only [List.mem_map] at hx hy
    obtain ⟨_, ⟨_, _, rfl⟩, rfl⟩ := hx
    obtain ⟨_, ⟨_, _, rfl⟩, h⟩ := hy
    exact hij (Prod.mk.inj h).1.symm

theorem triples_length {V : Type} {C : CSR V} (h : C.WF) : (triples C).length = C.nnz := by
  rw [← h.colLen, ← (MatObj.triples_snd h).1, List.length_map]

/-- The entries do not depend on the order within the rows. -/
theorem compl_perm {V : Type} {mul add : V → V → V} {A B M C C' : CSR V} (hC : C.WF) (hC' : C'.WF)
    (h : IsComplMasked mul add A B M C) (h' : IsComplMasked mul add A B M C') : (triples C).Perm (triples C') := by
  rw [List.perm_ext_iff_of_nodup (.of_map _ (triples_nodup hC h.nodup)) (.of_map _ (triples_nodup hC' h'.nodup))]
  intro t
  rw [Graph.mem_triples, Graph.mem_triples, h.rows, h'.rows]
  constructor
  · rintro ⟨h1, h2⟩
    exact ⟨h1, (h'.entries _ h1 _ _).2 ((h.entries _ h1 _ _).1 h2)⟩
  · rintro ⟨h1, h2⟩
    exact ⟨h1, (h.entries _ h1 _ _).2 ((h'.entries _ h1 _ _).1 h2)⟩

theorem bytesLE_even : ∀ v, (bytesLE 8 v).length % 2 = 0 := by
  have : ∀ k n, (bytesLE k n).length = k := by
    intro k
    induction k with
    | zero => intro n; rfl
    | succ k ih => intro n; rw [bytesLE, List.length_cons, ih]
  intro v
  rw [this]

theorem checksum_perm {α : Type} (enc : α → List UInt8) (heven : ∀ v, (enc v).length % 2 = 0) {l l' : List α} (h : l.Perm l') :
    Checksum.calculateChecksum (l.flatMap enc) = Checksum.calculateChecksum (l'.flatMap enc) := by
  rw [Props.C71_equal_iff, Props.words_flatMap enc heven, Props.words_flatMap enc heven, (h.map _).sum_eq]
  exact ⟨rfl, Iff.rfl⟩

/-- The checksum does not depend on the order within the rows. -/
theorem compl_check {V : Type} (enc : V → List UInt8) (heven : ∀ v, (enc v).length % 2 = 0) (s : Bool) (mul add : V → V → V) {A B M : CSR V}
    (hB : B.WF) : Checksum.checksum enc 8 (complMat s mul add A B M true) = Checksum.checksum enc 8 (complMat true mul add A B M true) := by
  have w := complMat_wf (sorted := s) (mul := mul) (add := add) (A := A) (M := M) hB
  have w' := complMat_wf (sorted := true) (mul := mul) (add := add) (A := A) (M := M) hB
  have hp := compl_perm w w' (complMat_isCompl s true) (complMat_isCompl true true)
  have hc : (complMat s mul add A B M true).colids.Perm (complMat true mul add A B M true).colids := by
    rw [← (MatObj.triples_snd w).1, ← (MatObj.triples_snd w').1]
    exact hp.map _
  have hv : (complMat s mul add A B M true).values.Perm (complMat true mul add A B M true).values := by
    rw [← (MatObj.triples_snd w).2, ← (MatObj.triples_snd w').2]
    exact hp.map _
  have hr : (complMat s mul add A B M true).rowptr = (complMat true mul add A B M true).rowptr := by
    unfold complMat ofRows
    apply tab_ext
    intro i _
    apply psum_congr
    intro k _
    unfold lens
    have : (complRow s mul add A B M k).Perm (complRow true mul add A B M k) := by
      rw [List.perm_ext_iff_of_nodup (.of_map _ (complRow_nodup s mul add A B M k)) (.of_map _ (complRow_nodup true mul add A B M k))]
      rintro ⟨j, v⟩
      rw [mem_complRow, mem_complRow]
    exact this.length_eq
  unfold Checksum.checksum
  rw [checksum_perm enc heven hv, checksum_perm _ bytesLE_even hc, hr]
  rfl

theorem dot_iff {V : Type} {mul add : V → V → V} {X : CSR V} (hX : X.WF) (hsq : X.cols = X.rows) {es : List (Nat × Nat × V)}
    (hp : (triples X).Perm es) {i j : Nat} (hi : i < X.rows) :
    (∃ v, dot mul add X X i j = some v) ↔ ∃ k, Stored es i k ∧ Stored es k j := by
  have hv : (∃ v, dot mul add X X i j = some v) ↔ j ∈ (visits X X i).map (·.1) :=
    ⟨fun ⟨_, h⟩ => dot_mem_visits h, fun h => mem_visits_dot mul add h⟩
  rw [hv, List.mem_map]
  unfold visits
  simp only [List.mem_flatMap, List.mem_map]
  constructor
  · rintro ⟨_, ⟨ka, hka, jb, hjb, rfl⟩, rfl⟩
    have hk : ka.1 < X.rows := hsq ▸ CSR.row_lt hX hka
    refine ⟨ka.1, (stored_iff hX hp hi).1 ?_, (stored_iff hX hp hk).1 ?_⟩
    · rw [← CSR.row_map_fst hX i]; exact List.mem_map_of_mem hka
    · rw [← CSR.row_map_fst hX ka.1]; exact List.mem_map_of_mem hjb
  · rintro ⟨k, h1, h2⟩
    rw [← stored_iff hX hp hi] at h1
    have hk : k < X.rows := hsq ▸ CSR.rowCols_lt hX h1
    rw [← stored_iff hX hp hk, ← CSR.row_map_fst hX k, List.mem_map] at h2
    rw [← CSR.row_map_fst hX i, List.mem_map] at h1
    obtain ⟨ka, hka, rfl⟩ := h1
    obtain ⟨jb, hjb, rfl⟩ := h2
    exact ⟨_, ⟨ka, hka, jb, hjb, rfl⟩, rfl⟩

/-- The number of entries of the result -/
theorem compl_nnz {V : Type} {mul add : V → V → V} {X C : CSR V} (hX : X.WF) (hr : X.rows = n) (hc : X.cols = n) {es : List (Nat × Nat × V)}
    (hp : (triples X).Perm es) (hC : C.WF) (h : IsComplMasked mul add X X X C) : C.nnz = (openPairs n es).ncard := by
  have hn := triples_nodup hC h.nodup
  rw [← triples_length hC, ← List.length_map (fun t : Nat × Nat × V => (t.1, t.2.1)), ← List.toFinset_card_of_nodup hn, ← Set.ncard_coe_finset]
  have hinj : Function.Injective fun p : Fin n × Fin n => (p.1.val, p.2.val) := by
    rintro ⟨a, b⟩ ⟨c, d⟩ e
    obtain ⟨e1, e2⟩ := Prod.mk.inj e
    rw [Prod.mk.injEq]
    exact ⟨Fin.ext e1, Fin.ext e2⟩
  rw [← Set.ncard_image_of_injective _ hinj]
  congr 1
  ext ⟨i, j⟩
  simp only [List.coe_toFinset, Set.mem_ofPred_eq, List.mem_map, Set.mem_image]
  constructor
  · rintro ⟨t, ht, e⟩
    obtain ⟨rfl, rfl⟩ := Prod.mk.inj e
    obtain ⟨h1, h2⟩ := Graph.mem_triples.1 ht
    rw [h.rows] at h1
    have hj : t.2.1 < n := by
      have := CSR.row_lt hC h2
      rw [h.cols, hc] at this
      exact this
    obtain ⟨h3, h4⟩ := (h.entries _ h1 _ _).1 h2
    refine ⟨(⟨t.1, hr ▸ h1⟩, ⟨t.2.1, hj⟩), ⟨?_, ?_⟩, rfl⟩
    · rwa [stored_iff hX hp h1] at h3
    · exact (dot_iff hX (hc.trans hr.symm) hp h1).1 ⟨_, h4⟩
  · rintro ⟨p, ⟨h1, h2⟩, e⟩
    obtain ⟨rfl, rfl⟩ := Prod.mk.inj e
    have hi : p.1.val < X.rows := hr ▸ p.1.2
    obtain ⟨v, hv⟩ := (dot_iff (mul := mul) (add := add) hX (hc.trans hr.symm) hp hi).2 h2
    exact ⟨(p.1.val, p.2.val, v), Graph.mem_triples.2 ⟨h.rows ▸ hi, (h.entries _ hi _ _).2 ⟨by rw [stored_iff hX hp hi]; exact h1, hv⟩⟩, rfl⟩

theorem range_sum (f : Nat → R) : ∀ m, ((List.range m).map f).sum = ∑ i : Fin m, f i
  | 0 => by simp
  | m + 1 => by rw [List.range_succ, List.map_append, List.sum_append, range_sum f m, Fin.sum_univ_castSucc]; simp

/-- The sum of the values of a matrix is the sum of all entries of the dense matrix. -/
theorem values_sum {C : CSR R} (hC : C.WF) (hr : C.rows = n) (hc : C.cols = n) : C.values.sum = ∑ i : Fin n, ∑ j : Fin n, dense n n C i j := by
  have e := Graph.reduce_eq hC
  unfold Graph.reduce at e
  rw [e, hr]
  have key : ∀ i : Nat, ((C.row i).map Prod.snd).sum = ∑ j : Fin n, ((C.row i).filterMap fun e => if e.1 = j.val then some e.2 else none).sum := by
    intro i
    have := Props.sum_by_key (n := n) (fun _ => (1 : R)) (C.row i) fun e he => hc ▸ CSR.row_lt hC he
    simp only [mul_one] at this
    exact this.symm
  rw [List.map_congr_left fun i _ => key i]
  exact range_sum (fun i => ∑ j : Fin n, ((C.row i).filterMap fun e => if e.1 = j.val then some e.2 else none).sum) n

open Matrix in
/-- The sum of the values of the result -/
theorem compl_sum {X C : CSR R} (hX : X.WF) (hr : X.rows = n) (hc : X.cols = n) {es : List (Nat × Nat × R)} (hp : (triples X).Perm es)
    (hC : C.WF) (hCr : C.rows = n) (hCc : C.cols = n)
    (h : dense n n C = pattern true n n X ⊙ (dense n n X * dense n n X)) : C.values.sum = openSum n es := by
  rw [values_sum hC hCr hCc, h, dense_eq hr hp]
  unfold openSum
  refine Finset.sum_congr rfl fun i _ => Finset.sum_congr rfl fun j _ => ?_
  rw [Matrix.hadamard_apply]
  unfold pattern
  rw [Matrix.of_apply]
  have hs := stored_iff hX hp (i := i.val) (j := j.val) (hr ▸ i.2)
  by_cases hm : j.val ∈ X.rowCols i
  · rw [if_pos (hs.1 hm)]
    simp [hm]
  · rw [if_neg fun h' => hm (hs.2 h')]
    simp [hm]

end Verif.Model.Bench
