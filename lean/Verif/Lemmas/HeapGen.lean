import Verif.Model.HeapGen
import Verif.Lemmas.Driver
import Verif.Lemmas.UtilScan
import Verif.Lemmas.Bin

/-! # The generic heap driver: what it stores for a correct row algorithm -/

namespace Verif.Model.Gen

open Bin (nprod)

variable {V : Type}

/-- The buffer holds the pairs `out` behind its first cell and has room for `L` pairs. -/
def Holds (b : Buf V) (out : List (Nat × V)) (L : Nat) : Prop :=
  ∃ c0 v0 rc rv, b.cols = c0 :: (out.map Prod.fst ++ rc) ∧ b.vals = v0 :: (out.map Prod.snd ++ rv) ∧ b.pos = out.length ∧
    out.length + rc.length = L ∧ out.length + rv.length = L

theorem Holds.out {b : Buf V} {out : List (Nat × V)} {L : Nat} (h : Holds b out L) :
    ((b.cols.zip b.vals).drop 1).take out.length = out := by
  obtain ⟨c0, v0, rc, rv, h1, h2, -, h4, h5⟩ := h
  rw [h1, h2, List.zip_cons_cons, List.drop_succ_cons, List.drop_zero, List.zip_append (by simp)]
  rw [List.take_left' (by simp)]
  rw [List.zip_map']
  exact List.map_id out

/-- What the driver needs from a row algorithm: `exp` are the rows to be produced, `bound` is the room that is made for a row, `Inv` is
kept for the auxiliary memory of a thread. -/
structure Contract (alg : Alg V) (mul add : V → V → V) (A B M : CSR V) (exp : Nat → List (Nat × V)) (bound : Nat → Nat)
    (Inv : Nat → Nat → alg.Aux → Prop) : Prop where
  size : ∀ lo hi, lo ≤ hi → hi ≤ A.rows → alg.size M (tab A.rows (nprod A B)) lo hi = .ok (psum bound hi - psum bound lo)
  aux : ∀ lo hi, lo ≤ hi → hi ≤ A.rows → ∃ x, alg.aux A M lo hi = .ok x ∧ Inv lo hi x
  row : ∀ lo hi i x b, lo ≤ i → i < hi → hi ≤ A.rows → Inv lo hi x → Holds b (seg exp lo i) (psum bound hi - psum bound lo) →
    ∃ x' b' k, alg.row mul add A B M i x b = .ok (x', b', k) ∧ Inv lo hi x' ∧
      Holds b' (seg exp lo (i + 1)) (psum bound hi - psum bound lo) ∧ (k = some (exp i).length ∨ k = none ∧ exp i = [])

variable {alg : Alg V} {mul add : V → V → V} {A B M : CSR V} {exp : Nat → List (Nat × V)} {bound : Nat → Nat} {b : Nat → Nat} {n : Nat}
  {Inv : Nat → Nat → alg.Aux → Prop}

/-- Assertion of thread `t` before the first barrier. -/
structure I1 (A : CSR V) (exp : Nat → List (Nat × V)) (bound : Nat → Nat) (b : Nat → Nat) (n : Nat) (Inv : Nat → Nat → alg.Aux → Prop)
    (t : Nat) (g : Sh V) (l : Loc alg.Aux V) : Prop where
  rnLen : g.rowNvals.length = A.rows
  tnLen : g.threadsNvals.length = n
  stop : l.stop = b (t + 1)
  lo : b t ≤ l.row
  hi : l.row ≤ b (t + 1)
  inv : Inv (b t) (b (t + 1)) l.aux
  buf : Holds l.buf (seg exp (b t) l.row) (psum bound (b (t + 1)) - psum bound (b t))
  nvals : l.nvals = (seg exp (b t) l.row).length
  has : ∀ i, b t ≤ i → i < l.row → Has g.rowNvals (lens exp) i
  rest : ∀ i, l.row ≤ i → i < b (t + 1) → Has g.rowNvals (fun _ => 0) i
  fin : l.done = true → l.row = b (t + 1) ∧ Has g.threadsNvals (tnv exp b) t

theorem has_set_ne {l : List (Option Nat)} {X : Nat → Nat} {i j : Nat} {x : Option Nat} (h : Has l X i) (hne : j ≠ i) :
    Has (l.set j x) X i := by
  unfold Has at *
  rw [List.getElem?_set_ne hne]
  exact h

theorem step_ok (hc : Contract alg mul add A B M exp bound Inv) (hs : Split b A.rows n) :
    ∀ t g x, t < n → I1 A exp bound b n Inv t g x → x.done = false →
      ∃ g' x', step alg mul add A B M t g x = .ok (g', x') ∧ I1 A exp bound b n Inv t g' x' ∧
      (x'.done = true ∨ b (t + 1) + 1 - x'.row < b (t + 1) + 1 - x.row) ∧
      ∀ u y, u < n → u ≠ t → I1 A exp bound b n Inv u g y → I1 A exp bound b n Inv u g' y := by
  intro t g x ht hI hfin
  unfold step
  by_cases hrow : x.row < x.stop
  · rw [if_pos hrow]
    have hr1 : x.row < b (t + 1) := hI.stop ▸ hrow
    have hrA : x.row < A.rows := Nat.lt_of_lt_of_le hr1 (hs.le _)
    obtain ⟨x', b', k, e1, e2, e3, e4⟩ := hc.row (b t) (b (t + 1)) x.row x.aux x.buf hI.lo hr1 (hs.le _) hI.inv hI.buf
    rw [e1]
    simp only [ok_bind]
    have hlen : (seg exp (b t) (x.row + 1)).length = (seg exp (b t) x.row).length + (exp x.row).length := by
      rw [seg_snoc exp hI.lo, List.length_append]
    rcases e4 with rfl | ⟨rfl, e4⟩
    · have hwr : wr g.rowNvals x.row (some (exp x.row).length) = .ok (g.rowNvals.set x.row (some (lens exp x.row))) :=
        wr_of_lt (by rw [hI.rnLen]; exact hrA)
      simp only [hwr, ok_bind]
      refine ⟨_, _, rfl, ?_, ?_, ?_⟩
      · refine { rnLen := by simpa using hI.rnLen, tnLen := hI.tnLen, stop := hI.stop, lo := Nat.le_succ_of_le hI.lo, hi := hr1,
                 inv := e2, buf := e3, nvals := ?_, has := ?_, rest := ?_, fin := fun h => by simp [hfin] at h }
        · show x.nvals + _ = _
          rw [hlen, hI.nvals]
        · intro i h1 h2
          by_cases hi : i = x.row
          · subst hi; exact Has.set_self (by rw [hI.rnLen]; exact hrA)
          · exact (hI.has i h1 (by simp only at h2; omega)).set _
        · intro i h1 h2
          simp only at h1
          exact has_set_ne (hI.rest i (by omega) h2) (by omega)
      · right; show b (t + 1) + 1 - (x.row + 1) < _; omega
      · intro u y hu hne hy
        refine { hy with rnLen := by simpa using hy.rnLen, has := ?_, rest := ?_ }
        · intro i h1 h2
          exact (hy.has i h1 h2).set _
        · intro i h1 h2
          refine has_set_ne (hy.rest i h1 h2) ?_
          rintro rfl
          have hmono : ∀ p q, p ≤ q → q ≤ n → b p ≤ b q := by
            intro p q hpq
            induction q with
            | zero => intro _; have : p = 0 := by omega
                      subst this; exact Nat.le_refl _
            | succ q ih =>
              intro hq
              rcases Nat.lt_or_ge p (q + 1) with h | h
              · exact Nat.le_trans (ih (by omega) (by omega)) (hs.mono q (by omega))
              · have : p = q + 1 := by omega
                subst this; exact Nat.le_refl _
          have hlo := hI.lo
          have hylo := hy.lo
          rcases Nat.lt_or_ge u t with h | h
          · have := hmono (u + 1) t (by omega) (by omega); omega
          · have := hmono (t + 1) u (by omega) (by omega); omega
    · refine ⟨_, _, rfl, ?_, ?_, fun u y _ _ hy => hy⟩
      · refine { rnLen := hI.rnLen, tnLen := hI.tnLen, stop := hI.stop, lo := Nat.le_succ_of_le hI.lo, hi := hr1,
                 inv := e2, buf := e3, nvals := ?_, has := ?_, rest := ?_, fin := fun h => by simp [hfin] at h }
        · show x.nvals = _
          rw [hlen, hI.nvals, e4]; rfl
        · intro i h1 h2
          by_cases hi : i = x.row
          · subst hi
            have := hI.rest x.row (Nat.le_refl _) hr1
            unfold Has at *
            rw [this]; simp [lens, e4]
          · exact hI.has i h1 (by simp only at h2; omega)
        · intro i h1 h2
          simp only at h1
          exact hI.rest i (by omega) h2
      · right; show b (t + 1) + 1 - (x.row + 1) < _; omega
  · rw [if_neg hrow]
    have hre : x.row = b (t + 1) := by have := hI.hi; have := hI.stop; omega
    have hlen : x.nvals = tnv exp b t := by
      rw [hI.nvals, seg_length exp hI.lo, hre]; rfl
    rw [wr_of_lt (by rw [hI.tnLen]; exact ht), hlen]
    refine ⟨_, _, rfl, ?_, Or.inl rfl, ?_⟩
    · exact { hI with tnLen := by simpa using hI.tnLen, nvals := hlen ▸ hI.nvals,
                      fin := fun _ => ⟨hre, Has.set_self (by rw [hI.tnLen]; exact ht)⟩ }
    · intro u y _ _ hy
      exact { hy with tnLen := by simpa using hy.tnLen,
                      fin := fun h => ⟨(hy.fin h).1, (hy.fin h).2.set _⟩ }

/-! ## Before the region -/

theorem flopRow_eq (A B : CSR V) (i : Nat) : flopRow A B i = flopsRow A B i := by
  unfold flopRow flopsRow rowLen
  simp only [bind_assoc, ok_bind]

theorem getFlop_eq (hA : A.WF) (hB : B.WF) (hAB : A.cols = B.rows) {order : List Nat} (ho : order.Perm (List.range A.rows)) :
    getFlop A B order (List.replicate A.rows 0) = .ok (tab A.rows (nprod A B), psum (nprod A B) A.rows) := by
  rw [← Bin.setIntprodNum_eq hA hB hAB ho]
  rfl

theorem plan_ok (hA : A.WF) (hB : B.WF) (hAB : A.cols = B.rows) (hrows : 0 < A.rows) {dflt : Nat} (hd : 0 < dflt)
    (hbig : A.rows < 2 ^ 17 ∨ dflt ≤ A.rows) (sch : Scheds) (ho : sch.flops.Perm (List.range A.rows)) :
    (plan A B dflt sch = .ok none ∧ ∃ t < dflt, sch.scan1.count t ≤ A.rows + 2 ∨ sch.scan2.count t ≤ A.rows) ∨
    plan A B dflt sch = .ok (some (tab A.rows (nprod A B), psum (nprod A B) A.rows, tab A.rows (psum (nprod A B)))) := by
  unfold plan
  rw [getFlop_eq hA hB hAB ho]
  simp only [ok_bind]
  rw [wr_of_lt (by simpa using hrows)]
  simp only [ok_bind]
  rcases UtilScan.scan_spec (inp := tab A.rows (nprod A B)) (out := (List.replicate A.rows 0).set 0 0) (f := nprod A B) hrows hd hbig
    (by
      intro i hi
      have : i < A.rows := by rcases hi with ⟨h, -⟩ | h <;> omega
      rw [tab_getElem? this])
    (by simp) sch.scan1 sch.scan2 with ⟨h, h'⟩ | h
  · left; rw [h]; exact ⟨rfl, h'⟩
  · right; rw [h]; rfl

theorem range_eq {rowStart : List Nat} (flops rows n t : Nat) :
    range rowStart flops rows n t = distributeWork flops (rowStart.map some) rows n t := rfl

/-! ## The whole call -/

/-- A thread gets too few steps. -/
def Starved (nd n K : Nat) (sch : Scheds) : Prop :=
  (∃ t < nd, sch.scan1.count t < K ∨ sch.scan2.count t < K) ∨ ∃ t < n, sch.first.count t < K ∨ sch.second.count t < K

/-- State of thread `t` at the beginning. -/
def l0 (zero : V) (bound b : Nat → Nat) (aux : Nat → alg.Aux) (t : Nat) : Loc alg.Aux V :=
  { row := b t, stop := b (t + 1), aux := aux t, nvals := 0,
    buf := ⟨List.replicate (psum bound (b (t + 1)) - psum bound (b t) + 1) 0,
      List.replicate (psum bound (b (t + 1)) - psum bound (b t) + 1) zero, 0⟩ }

theorem holds_init (L : Nat) (zero : V) : Holds ⟨List.replicate (L + 1) 0, List.replicate (L + 1) zero, 0⟩ [] L :=
  ⟨0, zero, List.replicate L 0, List.replicate L zero, rfl, rfl, rfl, by simp, by simp⟩

theorem alloc_ok {rows n : Nat} (hs : Split b rows n) {g : Sh V}
    (rn : ∀ i < rows, Has g.rowNvals (lens exp) i) (tn : ∀ t < n, Has g.threadsNvals (tnv exp b) t) :
    ∃ g', alloc rows n g = .ok g' ∧ Base exp b rows n g' := by
  unfold alloc
  rw [accumulate_eq tn, psum_tnv hs.zero hs.mono n (Nat.le_refl _), hs.last]
  simp only [ok_bind]
  rw [wr_of_lt (by simp)]
  exact ⟨_, rfl, ⟨by simp, by simp, by simp, rn, tn⟩⟩

theorem region_ok (hc : Contract alg mul add A B M exp bound Inv) (zero : V) (zb : Bool) {n : Nat} (hn : 0 < n) (sch : Scheds) :
    (region alg mul add zero A B M zb n (tab A.rows (nprod A B)) (psum (nprod A B) A.rows) (tab A.rows (psum (nprod A B))) sch = .ok none ∧
      ∃ t < n, sch.first.count t < stepBound exp A.rows ∨ sch.second.count t < stepBound exp A.rows) ∨
    region alg mul add zero A B M zb n (tab A.rows (nprod A B)) (psum (nprod A B) A.rows) (tab A.rows (psum (nprod A B))) sch =
      .ok (some (ofRows A.rows B.cols zb exp)) := by
  unfold region
  generalize hP : psum (nprod A B) = P
  generalize hb : bnd P (P A.rows) A.rows n = b
  have hs : Split b A.rows n := hb ▸ split_bnd P (P A.rows) A.rows hn
  have hcum : ∀ i < A.rows, Has ((tab A.rows P).map some) P i := fun i hi => by
    unfold Has; rw [List.getElem?_map, tab_getElem? hi]; rfl
  have hPm : ∀ i j, i ≤ j → j < A.rows → P i ≤ P j := fun i j h _ => by rw [← hP]; exact psum_mono h
  have hdw : ∀ t < n, range (tab A.rows P) (P A.rows) A.rows n t = .ok (b t, b (t + 1)) := fun t ht => by
    rw [range_eq, distributeWork_eq _ ht hcum hPm, hb]
  have hrg : setup n (range (tab A.rows P) (P A.rows) A.rows n) = .ok ((List.range n).map fun t => (b t, b (t + 1))) := by
    apply mapM_ok
    intro t ht
    exact hdw t (by simpa using ht)
  rw [hrg]
  simp only [ok_bind]
  obtain ⟨x0, -, -⟩ := hc.aux 0 0 (Nat.le_refl _) (Nat.zero_le _)
  have haux : ∀ t, ∃ x, t < n → alg.aux A M (b t) (b (t + 1)) = .ok x ∧ Inv (b t) (b (t + 1)) x := by
    intro t
    by_cases ht : t < n
    · obtain ⟨x, h1, h2⟩ := hc.aux (b t) (b (t + 1)) (hs.mono t ht) (hs.le _)
      exact ⟨x, fun _ => ⟨h1, h2⟩⟩
    · exact ⟨x0, fun h => absurd h ht⟩
  obtain ⟨aux, haux⟩ := Classical.axiomOfChoice haux
  have hls : ((List.range n).map fun t => (b t, b (t + 1))).mapM (start alg zero A M (tab A.rows (nprod A B))) =
      .ok ((List.range n).map (l0 zero bound b aux)) := by
    rw [List.mapM_map]
    apply mapM_ok
    intro t ht
    have ht' : t < n := by simpa using ht
    show start alg zero A M (tab A.rows (nprod A B)) (b t, b (t + 1)) = _
    unfold start
    simp only [hc.size (b t) (b (t + 1)) (hs.mono t ht') (hs.le _), (haux t ht').1, ok_bind]
    rfl
  rw [hls]
  simp only [ok_bind]
  obtain ⟨m, rfl⟩ : ∃ m, n = m + 1 := ⟨n - 1, by omega⟩
  generalize hl0 : (List.range (m + 1)).map (l0 zero bound b aux) = ls0
  cases ls0 with
  | nil => simp [List.range_succ] at hl0
  | cons k0 ls1 =>
  simp only
  have hget : ∀ t < m + 1, (k0 :: ls1).getD t k0 = l0 zero bound b aux t := by
    intro t ht
    rw [← hl0, list_getD_map_range _ _ ht]
  rcases phase_inv (I1 A exp bound b (m + 1) Inv) (fun t x => b (t + 1) + 1 - x.row) (step_ok hc hs)
    sch.first { rowNvals := List.replicate A.rows (some 0), threadsNvals := List.replicate (m + 1) (some 0) }
    (fun t => (k0 :: ls1).getD t k0)
    (by
      intro t ht
      rw [hget t ht]
      exact { rnLen := by simp, tnLen := by simp, stop := rfl, lo := Nat.le_refl _, hi := hs.mono t ht, inv := (haux t ht).2,
              buf := by simp only [l0, seg_self]; exact holds_init _ _, nvals := by simp only [l0, seg_self]; rfl,
              has := fun i h1 h2 => by simp only [l0] at h2; omega,
              rest := fun i h1 h2 => by
                have := hs.le (t + 1)
                unfold Has; rw [List.getElem?_replicate, if_pos (by omega)],
              fin := fun h => by simp [l0] at h })
    with ⟨h1, t, ht, h2⟩ | ⟨g1, ls', h1, h2⟩
  · left
    rw [h1]
    refine ⟨rfl, t, ht, ?_⟩
    rw [hget t ht] at h2
    have := hs.le (t + 1)
    left
    unfold stepBound
    simp only [l0] at h2
    omega
  rw [h1]
  simp only [ok_bind]
  obtain ⟨g2, e1, e2⟩ := alloc_ok (exp := exp) (g := g1) hs
    (by
      intro i hi
      obtain ⟨t, ht, h3, h4⟩ := hs.row_cover hi
      obtain ⟨hf1, hI⟩ := h2 t ht
      exact hI.has i h3 (by rw [(hI.fin hf1).1]; exact h4))
    (by
      intro t ht
      obtain ⟨hf1, hI⟩ := h2 t ht
      exact (hI.fin hf1).2)
  rw [e1]
  simp only [ok_bind]
  rcases phase_inv (I3 exp b A.rows (m + 1)) (ticks3 exp b)
    (step3_ok hs (rng := fun t => ((List.range (m + 1)).map fun t => (b t, b (t + 1))).getD t (0, 0))
      (outs := fun t => (ls' t).out)
      (by intro t ht; exact list_getD_map_range _ _ ht)
      (by
        intro t ht
        obtain ⟨hf1, hI⟩ := h2 t ht
        have := hI.buf.out
        rw [(hI.fin hf1).1] at this
        unfold Loc.out
        rw [hI.nvals, (hI.fin hf1).1]
        exact this))
    sch.second g2 (fun _ => .start) (fun t ht => ⟨e2, trivial⟩) with ⟨h3, t, ht, h4⟩ | ⟨g3, ls3, h3, h4⟩
  · left
    rw [h3]
    refine ⟨rfl, t, ht, ?_⟩
    right
    have k1 := hs.le (t + 1)
    have k2 : tnv exp b t ≤ psum (lens exp) A.rows := by
      have := psum_mono (f := lens exp) k1
      unfold tnv; omega
    unfold stepBound
    simp only [ticks3] at h4
    omega
  right
  rw [h3]
  simp only [ok_bind]
  have hdone : ∀ t < m + 1, J3 exp b A.rows (m + 1) t g3 .done := by
    intro t ht
    obtain ⟨hf1, hI⟩ := h4 t ht
    have : ls3 t = .done := by simpa using hf1
    rw [← this]; exact hI.2
  rw [freeze_ok hs hn B.cols zb (h4 0 (by omega)).2.1 (fun t ht => (hdone t ht).1)
    (fun t ht => (hdone t ht).2.1) (fun t ht => (hdone t ht).2.2)]
  rfl

theorem heapSpGEMM_spec (hc : Contract alg mul add A B M exp bound Inv) (hA : A.WF) (hB : B.WF) (hAB : A.cols = B.rows)
    (hrows : 0 < A.rows) (zero : V) (zb : Bool) {nt dflt : Nat} (hd : 0 < dflt) (hbig : A.rows < 2 ^ 17 ∨ dflt ≤ A.rows) (sch : Scheds)
    (ho : sch.flops.Perm (List.range A.rows)) :
    (heapSpGEMM alg mul add zero A B M zb nt dflt sch = .ok none ∧
      Starved dflt (setNumThreads nt dflt) (stepBound exp A.rows) sch) ∨
    heapSpGEMM alg mul add zero A B M zb nt dflt sch = .ok (some (ofRows A.rows B.cols zb exp)) := by
  have hn : 0 < setNumThreads nt dflt := by unfold setNumThreads; split <;> omega
  unfold heapSpGEMM
  simp only
  rcases plan_ok hA hB hAB hrows hd hbig sch ho with ⟨h, t, ht, h'⟩ | h
  · left
    rw [h]
    refine ⟨rfl, Or.inl ⟨t, ht, ?_⟩⟩
    unfold stepBound
    rcases h' with h' | h'
    · left; omega
    · right; omega
  · rw [h]
    simp only [ok_bind]
    rcases region_ok hc zero zb hn sch with ⟨e, h'⟩ | e
    · left; exact ⟨e, Or.inr h'⟩
    · right; exact e

end Verif.Model.Gen
