import Verif.Lemmas.Width
import Verif.Lemmas.Run

/-! # Index types of limited width: the generic drivers -/

namespace Verif.Model.Wid

open Scan (rdu)

variable {V : Type}

/-! ## Sums that stay below `W` -/

theorem accumulate_ok {W : Nat} {l : List (Option Nat)} {f : Nat → Nat} {k : Nat} (h : ∀ i < k, Has l f i)
    (hW : psum f k < W) : accumulate W l k = .ok (psum f k) := by
  unfold accumulate
  obtain ⟨s, h1, h2⟩ := forRange_inv (body := fun i s => (do
      let x ← rdu l i
      .ok ((s + x) % W) : Res Nat)) (fun i r => r = psum f i) 0 k (Nat.zero_le _) 0 rfl (by
    intro i r _ hi hr
    refine ⟨(r + f i) % W, ?_, ?_⟩
    · rw [(h i hi).rdu]; rfl
    · have h3 := psum_mono (f := f) (show i + 1 ≤ k from hi)
      rw [hr]
      exact Nat.mod_eq_of_lt (Nat.lt_of_le_of_lt h3 hW))
  rw [h1, h2]

/-- Prefix sums modulo `W`. -/
def pw (W : Nat) (f : Nat → Nat) (i : Nat) : Nat := psum f i % W

section
variable {A B M : CSR V}

theorem prepare_ok (hA : A.WF) (hB : B.WF) (hM : M.WF) (sh : Spec.Shapes A B M) (compl : Bool) {n : Nat}
    (hn : 0 < n) (hrows : 0 < A.rows) (sch : Scheds) (ho : sch.flops.Perm (List.range A.rows)) {W : Nat}
    (hfl : ∀ i < A.rows, flopsOf compl A B M i < W) :
    (prepare W compl A B M n sch = .ok none ∧ Starved n (A.rows + 3) sch) ∨
    prepare W compl A B M n sch = .ok (some (tab A.rows (fun i => some (flopsOf compl A B M i)),
      pw W (flopsOf compl A B M) A.rows, tab A.rows (fun i => some (pw W (flopsOf compl A B M) i)))) := by
  rw [prepare_sim]
  rcases Model.prepare_ok hA hB hM sh compl hn hrows sch ho with ⟨h, hst⟩ | h
  · left; rw [h]; exact ⟨rfl, hst⟩
  · right
    rw [h]
    show Except.ok _ = Except.ok _
    simp only [Option.map, red_tab]
    have e : (tab A.rows fun i => some (flopsOf compl A B M i % W)) =
        tab A.rows fun i => some (flopsOf compl A B M i) := by
      apply tab_ext
      intro i hi
      rw [Nat.mod_eq_of_lt (hfl i hi)]
    rw [e]; rfl

theorem scanInputs_ok {W : Nat} (hA : A.WF) (hM : M.WF) (hMA : M.rows = A.rows)
    (compl calcC calcA calcM calcF : Bool) {fpr : List (Option Nat)} {b e : Nat} (hbe : b ≤ e)
    (he : e ≤ A.rows) (hf : ∀ i < A.rows, Has fpr (flopsOf compl A B M) i) :
    ∃ sz, scanInputs W compl calcC calcA calcM calcF b e fpr A M = .ok sz ∧
      (calcC = true → psum (boundOf compl A B M) A.rows < W →
        sz.sizeC = psum (boundOf compl A B M) e - psum (boundOf compl A B M) b) ∧
      ∀ i, b ≤ i → i < e → Covers compl calcA calcM calcF A B M sz i := by
  obtain ⟨sz, h1, h2, h3⟩ := Model.scanInputs_ok hA hM hMA compl calcC calcA calcM calcF hbe he hf
  rw [scanInputs_sim, h1]
  refine ⟨_, rfl, ?_, fun i hi1 hi2 => ⟨(h3 i hi1 hi2).1, (h3 i hi1 hi2).2, (h3 i hi1 hi2).3⟩⟩
  intro hc hW
  have := psum_mono (f := boundOf compl A B M) he
  show sz.sizeC % W = _
  rw [h2 hc, Nat.mod_eq_of_lt (by omega)]

end

theorem initC_ok {W : Nat} {exp : Nat → List (Nat × V)} {b : Nat → Nat} {rows n : Nat} (hs : Split b rows n)
    (hnz : psum (lens exp) rows < W) {g : Sh V}
    (rn : ∀ i < rows, Has g.rowNvals (lens exp) i) (tn : ∀ t < n, Has g.threadsNvals (tnv exp b) t) :
    ∃ g', initC W rows n g = .ok g' ∧ Base exp b rows n g' := by
  unfold initC
  have e : psum (tnv exp b) n = psum (lens exp) rows := by
    rw [psum_tnv hs.zero hs.mono n (Nat.le_refl _), hs.last]
  rw [accumulate_ok tn (by omega), e]
  exact ⟨_, rfl, ⟨by simp, by simp, by simp, rn, tn⟩⟩

/-! ## Steps: nothing leaves the range -/

section Steps
variable {alg : RowAlg V} {mul add : V → V → V} {A B M : CSR V} {exp : Nat → List (Nat × V)}
  {fpr : List (Option Nat)} {b : Nat → Nat} {n W : Nat}

theorem step1_ok (hc : Contract1 alg mul add A B M exp) (hs : Split b A.rows n) (hnz : psum (lens exp) A.rows < W)
    (hf : ∀ i < A.rows, Has fpr (flopsOf alg.compl A B M) i)
    {Inv : Nat → alg.N → Prop}
    (hInv : ∀ t < n, ∀ i, b t ≤ i → i < b (t + 1) → flopsOf alg.compl A B M i ≠ 0 → ∀ acc, Inv t acc →
      ∃ acc', alg.numRow mul add A B M i (flopsOf alg.compl A B M i) acc = .ok (acc', exp i) ∧ Inv t acc') :
    ∀ t g x, t < n → I1 alg A B M exp b n Inv t g x → x.done = false →
      ∃ g' x', step1 W alg mul add A B M fpr t g x = .ok (g', x') ∧ I1 alg A B M exp b n Inv t g' x' ∧
      (x'.done = true ∨ b (t + 1) + 1 - x'.row < b (t + 1) + 1 - x.row) ∧
      ∀ u y, u < n → u ≠ t → I1 alg A B M exp b n Inv u g y → I1 alg A B M exp b n Inv u g' y := by
  intro t g x ht hI hfin
  have key : step1 W alg mul add A B M fpr t g x = Model.step1 alg mul add A B M fpr t g x := by
    unfold step1 Model.step1
    by_cases hrow : x.row < x.stop
    · rw [if_pos hrow, if_pos hrow]
      have hr1 : x.row < b (t + 1) := hI.stop ▸ hrow
      have hrA : x.row < A.rows := Nat.lt_of_lt_of_le hr1 (hs.le _)
      rw [(hf _ hrA).rdu]
      simp only [ok_bind]
      by_cases hz : flopsOf alg.compl A B M x.row = 0
      · simp only [hz, ne_eq, not_true_eq_false, if_false]
      · obtain ⟨acc', e1, _⟩ := hInv t ht x.row hI.lo hr1 hz x.acc hI.inv
        have hm : (exp x.row).length % W = (exp x.row).length := by
          have h1 := psum_mono (f := lens exp) (show x.row + 1 ≤ A.rows from hrA)
          have h2 : lens exp x.row = (exp x.row).length := rfl
          simp only [psum] at h1
          exact Nat.mod_eq_of_lt (by omega)
        simp only [ne_eq, hz, not_false_eq_true, if_true, e1, ok_bind, hm]
    · rw [if_neg hrow, if_neg hrow]
      have hm : x.out.length % W = x.out.length := by
        have h1 := psum_mono (f := lens exp) (show x.row ≤ A.rows from Nat.le_trans hI.hi (hs.le _))
        rw [hI.out, seg_length exp hI.lo]
        exact Nat.mod_eq_of_lt (by omega)
      rw [hm]
  rw [key]
  exact Model.step1_ok hc hs hf hInv t g x ht hI hfin

theorem offset_mod {rows : Nat} (hnz : psum (lens exp) rows < W) {i : Nat} (hi : i < rows) :
    (psum (lens exp) i + lens exp i) % W = psum (lens exp) i + lens exp i := by
  have h1 := psum_mono (f := lens exp) (show i + 1 ≤ rows from hi)
  simp only [psum] at h1
  exact Nat.mod_eq_of_lt (by omega)

theorem start_mod {rows : Nat} (hs : Split b rows n) (hnz : psum (lens exp) rows < W) {g : Sh V}
    (hB : Base exp b rows n g) {t : Nat} (ht : t < n) :
    accumulate W g.threadsNvals t = Model.accumulate g.threadsNvals t := by
  have hT : ∀ i < t, Has g.threadsNvals (tnv exp b) i := fun i hi => hB.tn i (by omega)
  rw [accumulate_eq hT, accumulate_ok hT]
  have h1 := psum_mono (f := lens exp) (hs.le t)
  rw [psum_tnv hs.zero hs.mono t (Nat.le_of_lt ht)]
  omega

theorem step3_ok {rows : Nat} (hs : Split b rows n) (hnz : psum (lens exp) rows < W) {rng : Nat → Nat × Nat}
    {outs : Nat → List (Nat × V)} (hr : ∀ t < n, rng t = (b t, b (t + 1)))
    (ho : ∀ t < n, outs t = seg exp (b t) (b (t + 1))) :
    ∀ t g x, t < n → I3 exp b rows n t g x → (x == Ctl3.done) = false →
      ∃ g' x', step3 W rows n rng outs t g x = .ok (g', x') ∧ I3 exp b rows n t g' x' ∧
      ((x' == Ctl3.done) = true ∨ ticks3 exp b t x' < ticks3 exp b t x) ∧
      ∀ u y, u < n → u ≠ t → I3 exp b rows n u g y → I3 exp b rows n u g' y := by
  intro t g x ht hI hfin
  have key : step3 W rows n rng outs t g x = Model.step3 rows n rng outs t g x := by
    obtain ⟨hB, hJ⟩ := hI
    cases x with
    | start => simp only [step3, Model.step3, start_mod hs hnz hB ht]
    | offs i off =>
      obtain ⟨h1, h2, h3, h4⟩ := hJ
      simp only [step3, Model.step3, hr t ht]
      by_cases hi : i < b (t + 1)
      · have hi' : i < rows := Nat.lt_of_lt_of_le hi (hs.le _)
        simp only [if_pos hi, (hB.rn i hi').rdu, ok_bind, h3, offset_mod hnz hi']
      · simp only [if_neg hi]
    | _ => rfl
  rw [key]
  exact Model.step3_ok hs hr ho t g x ht hI hfin

theorem step2_ok (hc : Contract alg mul add A B M exp) (hs : Split b A.rows n) (hnz : psum (lens exp) A.rows < W)
    (hf : ∀ i < A.rows, Has fpr (flopsOf alg.compl A B M) i)
    {Inv : Nat → alg.S → Prop}
    (hInv : ∀ t < n, ∀ i, b t ≤ i → i < b (t + 1) → flopsOf alg.compl A B M i ≠ 0 → ∀ acc, Inv t acc →
      ∃ acc', alg.symRow A B M i (flopsOf alg.compl A B M i) acc = .ok (acc', (exp i).length) ∧ Inv t acc') :
    ∀ t g x, t < n → I2 alg A exp b n Inv t g x → x.done = false →
      ∃ g' x', step2 W alg A B M fpr t g x = .ok (g', x') ∧ I2 alg A exp b n Inv t g' x' ∧
      (x'.done = true ∨ b (t + 1) + 1 - x'.row < b (t + 1) + 1 - x.row) ∧
      ∀ u y, u < n → u ≠ t → I2 alg A exp b n Inv u g y → I2 alg A exp b n Inv u g' y := by
  intro t g x ht hI hfin
  have key : step2 W alg A B M fpr t g x = Model.step2 alg A B M fpr t g x := by
    unfold step2 Model.step2
    by_cases hrow : x.row < x.stop
    · rw [if_pos hrow, if_pos hrow]
      have hr1 : x.row < b (t + 1) := hI.stop ▸ hrow
      have hrA : x.row < A.rows := Nat.lt_of_lt_of_le hr1 (hs.le _)
      have hwr : ∀ v, wr g.rowNvals x.row (some v) = .ok (g.rowNvals.set x.row (some v)) :=
        fun v => wr_of_lt (by rw [hI.rnLen]; exact hrA)
      have hrd : ∀ v, rdu (g.rowNvals.set x.row (some v)) x.row = .ok v := fun v =>
        Has.rdu (X := fun _ => v) (Has.set_self (X := fun _ => v) (by rw [hI.rnLen]; exact hrA))
      have h1 := psum_mono (f := lens exp) (show x.row + 1 ≤ A.rows from hrA)
      have h2 := psum_mono (f := lens exp) hI.lo
      have h3 := hI.out
      have h4 : lens exp x.row = (exp x.row).length := rfl
      simp only [psum] at h1
      rw [(hf _ hrA).rdu]
      simp only [ok_bind]
      by_cases hz : flopsOf alg.compl A B M x.row = 0
      · have h5 : (x.nvals + 0) % W = x.nvals + 0 := Nat.mod_eq_of_lt (by omega)
        simp only [hz, ne_eq, not_true_eq_false, if_false, hwr, hrd, ok_bind, h5]
      · obtain ⟨acc', e1, _⟩ := hInv t ht x.row hI.lo hr1 hz x.acc hI.inv
        have hm : (exp x.row).length % W = (exp x.row).length := Nat.mod_eq_of_lt (by omega)
        have h5 : (x.nvals + (exp x.row).length) % W = x.nvals + (exp x.row).length := Nat.mod_eq_of_lt (by omega)
        simp only [ne_eq, hz, not_false_eq_true, if_true, e1, ok_bind, hm, hwr, hrd, h5]
    · rw [if_neg hrow, if_neg hrow]
  rw [key]
  exact Model.step2_ok hc hs hf hInv t g x ht hI hfin

theorem step4_ok (hc : Contract alg mul add A B M exp) (hs : Split b A.rows n) (hnz : psum (lens exp) A.rows < W)
    {rng : Nat → Nat × Nat} (hr : ∀ t < n, rng t = (b t, b (t + 1)))
    {Inv : Nat → alg.N → Prop}
    (hInv : ∀ t < n, ∀ i, b t ≤ i → i < b (t + 1) → flopsOf alg.compl A B M i ≠ 0 → lens exp i ≠ 0 →
      ∀ acc, Inv t acc → ∃ acc', alg.numRow mul add A B M i (lens exp i) acc = .ok (acc', exp i) ∧ Inv t acc') :
    ∀ t g x, t < n → I4 alg exp b A.rows n Inv t g x → x.fin = false →
      ∃ g' x', step4 W alg mul add A B M n rng t g x = .ok (g', x') ∧ I4 alg exp b A.rows n Inv t g' x' ∧
      (x'.fin = true ∨ ticks4 exp b t x'.ctl < ticks4 exp b t x.ctl) ∧
      ∀ u y, u < n → u ≠ t → I4 alg exp b A.rows n Inv u g y → I4 alg exp b A.rows n Inv u g' y := by
  intro t g x ht hI hfin
  have key : step4 W alg mul add A B M n rng t g x = Model.step4 alg mul add A B M n rng t g x := by
    obtain ⟨hB, _, hJ⟩ := hI
    obtain ⟨ctl, acc⟩ := x
    cases ctl with
    | start => simp only [step4, Model.step4, start_mod hs hnz hB ht]
    | offs i off =>
      obtain ⟨h1, h2, h3, h4⟩ := hJ
      simp only [step4, Model.step4, hr t ht]
      by_cases hi : i < b (t + 1)
      · have hi' : i < A.rows := Nat.lt_of_lt_of_le hi (hs.le _)
        simp only [if_pos hi, (hB.rn i hi').rdu, ok_bind, h3, offset_mod hnz hi']
      · simp only [if_neg hi]
    | _ => rfl
  rw [key]
  exact Model.step4_ok hc hs hr hInv t g x ht hI hfin

end Steps

/-! ## The drivers -/

section Main
variable {alg : RowAlg V} {mul add : V → V → V} {A B M : CSR V} {exp : Nat → List (Nat × V)}

theorem spgemm1p_spec (hA : A.WF) (hB : B.WF) (hM : M.WF) (sh : Spec.Shapes A B M)
    (hc : Contract1 alg mul add A B M exp) (hrows : 0 < A.rows) (zb : Bool) {nt dflt : Nat}
    (hn : 0 < setNumThreads nt dflt) (sch : Scheds) (ho : sch.flops.Perm (List.range A.rows))
    {W : Nat} (hfl : ∀ i < A.rows, flopsOf alg.compl A B M i < W) (hbd : psum (boundOf alg.compl A B M) A.rows < W) :
    (spgemm1p W alg mul add A B M zb nt dflt sch = .ok none ∧
      Starved (setNumThreads nt dflt) (stepBound exp A.rows) sch) ∨
    spgemm1p W alg mul add A B M zb nt dflt sch = .ok (some (ofRows A.rows B.cols zb exp)) := by
  have hnz : psum (lens exp) A.rows < W := by
    have := seg_length_le_bound (alg := alg) (B := B) (M := M) hc.bound (Nat.zero_le A.rows) (Nat.le_refl _)
    simp only [psum] at this
    omega
  unfold spgemm1p
  generalize hnn : setNumThreads nt dflt = n at hn
  simp only
  rcases prepare_ok hA hB hM sh alg.compl hn hrows sch ho hfl with ⟨h, t, ht, hcn⟩ | h
  · left
    rw [h]
    refine ⟨rfl, t, ht, ?_⟩
    unfold stepBound
    rcases hcn with h | h | h | h
    · left; omega
    · right; left; omega
    · right; right; left; omega
    · right; right; right; omega
  rw [h]
  simp only [ok_bind]
  have hPW : pw W (flopsOf alg.compl A B M) A.rows < W := Nat.mod_lt _ (by omega)
  generalize pw W (flopsOf alg.compl A B M) = P at hPW ⊢
  generalize hb : cut P (P A.rows) A.rows n = b
  have hs : Split b A.rows n := hb ▸ split_cut P (P A.rows) A.rows hn
  have hf : ∀ i < A.rows, Has (tab A.rows fun i => some (flopsOf alg.compl A B M i)) (flopsOf alg.compl A B M) i :=
    fun i hi => has_tab hi
  have hcum : ∀ i < A.rows, Has (tab A.rows fun i => some (P i)) P i := fun i hi => has_tab hi
  have hdw : ∀ t < n, distributeWork W (P A.rows) (tab A.rows fun i => some (P i)) A.rows n t =
      .ok (b t, b (t + 1)) := fun t ht => by rw [distributeWork_cut ht hPW hcum, hb]
  -- sizes found by scanInputs
  have hsz : ∀ t, ∃ sz, t < n → scanInputs W alg.compl true alg.calcA alg.calcM alg.calcF (b t) (b (t + 1))
      (tab A.rows fun i => some (flopsOf alg.compl A B M i)) A M = .ok sz ∧
      sz.sizeC = psum (boundOf alg.compl A B M) (b (t + 1)) - psum (boundOf alg.compl A B M) (b t) ∧
      ∀ i, b t ≤ i → i < b (t + 1) → Covers alg.compl alg.calcA alg.calcM alg.calcF A B M sz i := by
    intro t
    by_cases ht : t < n
    · obtain ⟨sz, h1, h2, h3⟩ := scanInputs_ok (W := W) hA hM sh.ma alg.compl true alg.calcA alg.calcM alg.calcF
        (hs.mono t ht) (hs.le (t + 1)) hf
      exact ⟨sz, fun _ => ⟨h1, h2 rfl hbd, h3⟩⟩
    · exact ⟨{}, fun h => absurd h ht⟩
  obtain ⟨sz, hsz⟩ := Classical.axiomOfChoice hsz
  have hls : setup n (init1 W alg A B M n (tab A.rows fun i => some (flopsOf alg.compl A B M i)) (P A.rows)
      (tab A.rows fun i => some (P i))) = .ok ((List.range n).map fun t =>
        l1init alg B b sz t) := by
    apply mapM_ok
    intro t ht
    have ht' : t < n := by simpa using ht
    unfold init1
    rw [hdw t ht']
    simp only [ok_bind]
    rw [(hsz t ht').1]; rfl
  have hrg : setup n (distributeWork W (P A.rows) (tab A.rows fun i => some (P i)) A.rows n) =
      .ok ((List.range n).map fun t => (b t, b (t + 1))) := by
    apply mapM_ok
    intro t ht
    exact hdw t (by simpa using ht)
  rw [hls, hrg]
  simp only [ok_bind]
  obtain ⟨m, rfl⟩ : ∃ m, n = m + 1 := ⟨n - 1, by omega⟩
  generalize hl0 : (List.range (m + 1)).map (fun t => l1init alg B b sz t) = ls0
  cases ls0 with
  | nil => simp [List.range_succ] at hl0
  | cons l0 ls1 =>
  simp only
  have hget : ∀ t < m + 1, (l0 :: ls1).getD t l0 = l1init alg B b sz t := by
    intro t ht
    rw [← hl0, list_getD_map_range _ _ ht]
  obtain ⟨Inv, hInv⟩ := Classical.axiomOfChoice (fun t => hc.num (sz t))
  rcases phase_inv (I1 alg A B M exp b (m + 1) Inv) (fun t x => b (t + 1) + 1 - x.row)
    (step1_ok (W := W) hc hs hnz hf (fun t ht i h1 h2 hz acc hacc =>
      (hInv t).2 i (Nat.lt_of_lt_of_le h2 (hs.le _)) ((hsz t ht).2.2 i h1 h2) hz _ (Or.inl rfl) acc hacc))
    sch.first { rowNvals := List.replicate A.rows none, threadsNvals := List.replicate (m + 1) none }
    (fun t => (l0 :: ls1).getD t l0)
    (by
      intro t ht
      rw [hget t ht]
      exact { rnLen := by simp, tnLen := by simp, stop := rfl, cap := (hsz t ht).2.1,
              lo := Nat.le_refl _, hi := hs.mono t ht, inv := (hInv t).1, out := (seg_self _ _).symm,
              has := fun i h1 h2 => by simp only [l1init] at h2; omega, fin := fun h => by simp [l1init] at h })
    with ⟨h1, t, ht, h2⟩ | ⟨g1, ls', h1, h2⟩
  · left
    rw [h1]
    refine ⟨rfl, t, ht, ?_⟩
    rw [hget t ht] at h2
    have := hs.le (t + 1)
    right; right; left
    unfold stepBound
    simp only [l1init] at h2
    omega
  rw [h1]
  simp only [ok_bind]
  obtain ⟨g2, e1, e2⟩ := initC_ok (W := W) (exp := exp) (g := g1) hs hnz
    (by
      intro i hi
      obtain ⟨t, ht, h3, h4⟩ := hs.row_cover hi
      obtain ⟨hf1, hI⟩ := h2 t ht
      exact hI.has i h3 (by rw [(hI.fin hf1).1]; exact h4))
    (by
      intro t ht
      obtain ⟨hf1, hI⟩ := h2 t ht
      exact (hI.fin hf1).2)
  rw [e1]
  simp only [ok_bind]
  rcases phase_inv (I3 exp b A.rows (m + 1)) (ticks3 exp b)
    (step3_ok (W := W) hs hnz (rng := fun t => ((List.range (m + 1)).map fun t => (b t, b (t + 1))).getD t (0, 0))
      (outs := fun t => (ls' t).out)
      (by intro t ht; exact list_getD_map_range _ _ ht)
      (by
        intro t ht
        obtain ⟨hf1, hI⟩ := h2 t ht
        show (ls' t).out = _
        rw [hI.out, (hI.fin hf1).1]))
    sch.second g2 (fun _ => .start) (fun t ht => ⟨e2, trivial⟩) with ⟨h3, t, ht, h4⟩ | ⟨g3, ls3, h3, h4⟩
  · left
    rw [h3]
    refine ⟨rfl, t, ht, ?_⟩
    right; right; right
    have k1 := hs.le (t + 1)
    have k2 : tnv exp b t ≤ psum (lens exp) A.rows := by
      have := psum_mono (f := lens exp) k1
      unfold tnv; omega
    unfold stepBound
    simp only [ticks3] at h4
    omega
  right
  rw [h3]
  simp only [ok_bind]
  have hdone : ∀ t < m + 1, J3 exp b A.rows (m + 1) t g3 .done := by
    intro t ht
    obtain ⟨hf1, hI⟩ := h4 t ht
    have : ls3 t = .done := by simpa using hf1
    rw [← this]; exact hI.2
  rw [freeze_ok hs hn B.cols zb (h4 0 (by omega)).2.1 (fun t ht => (hdone t ht).1)
    (fun t ht => (hdone t ht).2.1) (fun t ht => (hdone t ht).2.2)]
  rfl

theorem spgemm2p_spec (hA : A.WF) (hB : B.WF) (hM : M.WF) (sh : Spec.Shapes A B M)
    (hc : Contract alg mul add A B M exp) (hrows : 0 < A.rows) (zb : Bool) {nt dflt : Nat}
    (hn : 0 < setNumThreads nt dflt) (sch : Scheds) (ho : sch.flops.Perm (List.range A.rows))
    {W : Nat} (hfl : ∀ i < A.rows, flopsOf alg.compl A B M i < W) (hnz : psum (lens exp) A.rows < W) :
    (spgemm2p W alg mul add A B M zb nt dflt sch = .ok none ∧
      Starved (setNumThreads nt dflt) (stepBound exp A.rows) sch) ∨
    spgemm2p W alg mul add A B M zb nt dflt sch = .ok (some (ofRows A.rows B.cols zb exp)) := by
  unfold spgemm2p
  generalize hnn : setNumThreads nt dflt = n at hn
  simp only
  rcases prepare_ok hA hB hM sh alg.compl hn hrows sch ho hfl with ⟨h, t, ht, hcn⟩ | h
  · left
    rw [h]
    refine ⟨rfl, t, ht, ?_⟩
    unfold stepBound
    rcases hcn with h | h | h | h
    · left; omega
    · right; left; omega
    · right; right; left; omega
    · right; right; right; omega
  rw [h]
  simp only [ok_bind]
  have hPW : pw W (flopsOf alg.compl A B M) A.rows < W := Nat.mod_lt _ (by omega)
  generalize pw W (flopsOf alg.compl A B M) = P at hPW ⊢
  generalize hb : cut P (P A.rows) A.rows n = b
  have hs : Split b A.rows n := hb ▸ split_cut P (P A.rows) A.rows hn
  have hf : ∀ i < A.rows, Has (tab A.rows fun i => some (flopsOf alg.compl A B M i)) (flopsOf alg.compl A B M) i :=
    fun i hi => has_tab hi
  have hcum : ∀ i < A.rows, Has (tab A.rows fun i => some (P i)) P i := fun i hi => has_tab hi
  have hdw : ∀ t < n, distributeWork W (P A.rows) (tab A.rows fun i => some (P i)) A.rows n t =
      .ok (b t, b (t + 1)) := fun t ht => by rw [distributeWork_cut ht hPW hcum, hb]
  have hsz : ∀ t, ∃ sz, t < n → scanInputs W alg.compl false alg.calcA alg.calcM alg.calcF (b t) (b (t + 1))
      (tab A.rows fun i => some (flopsOf alg.compl A B M i)) A M = .ok sz ∧
      ∀ i, b t ≤ i → i < b (t + 1) → Covers alg.compl alg.calcA alg.calcM alg.calcF A B M sz i := by
    intro t
    by_cases ht : t < n
    · obtain ⟨sz, h1, h2, h3⟩ := scanInputs_ok (W := W) hA hM sh.ma alg.compl false alg.calcA alg.calcM alg.calcF
        (hs.mono t ht) (hs.le (t + 1)) hf
      exact ⟨sz, fun _ => ⟨h1, h3⟩⟩
    · exact ⟨{}, fun h => absurd h ht⟩
  obtain ⟨sz, hsz⟩ := Classical.axiomOfChoice hsz
  have hls : setup n (init2 W alg A B M n (tab A.rows fun i => some (flopsOf alg.compl A B M i)) (P A.rows)
      (tab A.rows fun i => some (P i))) = .ok ((List.range n).map fun t =>
        ({ row := b t, acc := alg.initS B.cols (sz t), nvals := 0, stop := b (t + 1) },
          alg.initN B.cols (sz t))) := by
    apply mapM_ok
    intro t ht
    have ht' : t < n := by simpa using ht
    unfold init2
    rw [hdw t ht']
    simp only [ok_bind]
    rw [(hsz t ht').1]; rfl
  have hrg : setup n (distributeWork W (P A.rows) (tab A.rows fun i => some (P i)) A.rows n) =
      .ok ((List.range n).map fun t => (b t, b (t + 1))) := by
    apply mapM_ok
    intro t ht
    exact hdw t (by simpa using ht)
  rw [hls, hrg]
  simp only [ok_bind]
  obtain ⟨m, rfl⟩ : ∃ m, n = m + 1 := ⟨n - 1, by omega⟩
  generalize hl0 : (List.range (m + 1)).map (fun t =>
        (({ row := b t, acc := alg.initS B.cols (sz t), nvals := 0, stop := b (t + 1) } : L2 alg.S),
          alg.initN B.cols (sz t))) = ls0
  cases ls0 with
  | nil => simp [List.range_succ] at hl0
  | cons l0 ls1 =>
  simp only
  have hget : ∀ t < m + 1, (l0 :: ls1).getD t l0 =
      ({ row := b t, acc := alg.initS B.cols (sz t), nvals := 0, stop := b (t + 1) }, alg.initN B.cols (sz t)) := by
    intro t ht
    rw [← hl0, list_getD_map_range _ _ ht]
  obtain ⟨InvN, hInvN⟩ := Classical.axiomOfChoice (fun t => hc.num (sz t))
  obtain ⟨InvS, hInvS⟩ := Classical.axiomOfChoice (fun t => hc.sym (sz t))
  rcases phase_inv (I2 alg A exp b (m + 1) InvS) (fun t x => b (t + 1) + 1 - x.row)
    (step2_ok (W := W) hc hs hnz hf (fun t ht i h1 h2 hz acc hacc =>
      (hInvS t).2 i (Nat.lt_of_lt_of_le h2 (hs.le _)) ((hsz t ht).2 i h1 h2) hz acc hacc))
    sch.first { rowNvals := List.replicate A.rows none, threadsNvals := List.replicate (m + 1) none }
    (fun t => ((l0 :: ls1).getD t l0).1)
    (by
      intro t ht
      rw [hget t ht]
      exact { rnLen := by simp, tnLen := by simp, stop := rfl,
              lo := Nat.le_refl _, hi := hs.mono t ht, inv := (hInvS t).1, out := by simp,
              has := fun i h1 h2 => by simp only at h2; omega, fin := fun h => by simp at h })
    with ⟨h1, t, ht, h2⟩ | ⟨g1, ls', h1, h2⟩
  · left
    rw [h1]
    refine ⟨rfl, t, ht, ?_⟩
    rw [hget t ht] at h2
    have := hs.le (t + 1)
    right; right; left
    unfold stepBound
    simp only at h2
    omega
  rw [h1]
  simp only [ok_bind]
  obtain ⟨g2, e1, e2⟩ := initC_ok (W := W) (exp := exp) (g := g1) hs hnz
    (by
      intro i hi
      obtain ⟨t, ht, h3, h4⟩ := hs.row_cover hi
      obtain ⟨hf1, hI⟩ := h2 t ht
      exact hI.has i h3 (by rw [(hI.fin hf1).1]; exact h4))
    (by
      intro t ht
      obtain ⟨hf1, hI⟩ := h2 t ht
      exact (hI.fin hf1).2)
  rw [e1]
  simp only [ok_bind]
  rcases phase_inv (I4 alg exp b A.rows (m + 1) InvN) (fun t x => ticks4 exp b t x.ctl)
    (step4_ok (W := W) hc hs hnz (rng := fun t => ((List.range (m + 1)).map fun t => (b t, b (t + 1))).getD t (0, 0))
      (by intro t ht; exact list_getD_map_range _ _ ht)
      (fun t ht i h1 h2 hz hl acc hacc =>
      (hInvN t).2 i (Nat.lt_of_lt_of_le h2 (hs.le _)) ((hsz t ht).2 i h1 h2) hz _ (Or.inr ⟨rfl, hl⟩) acc hacc))
    sch.second g2 (fun t => { ctl := .start, acc := ((l0 :: ls1).getD t l0).2 })
    (fun t ht => ⟨e2, by rw [hget t ht]; exact (hInvN t).1, trivial⟩) with ⟨h3, t, ht, h4⟩ | ⟨g3, ls3, h3, h4⟩
  · left
    rw [h3]
    refine ⟨rfl, t, ht, ?_⟩
    right; right; right
    have k1 := hs.le (t + 1)
    have k2 := psum_mono (f := lens exp) k1
    unfold stepBound
    simp only [ticks4, work4] at h4
    omega
  right
  rw [h3]
  simp only [ok_bind]
  have hdone : ∀ t < m + 1, J4 exp b A.rows (m + 1) t g3 .done := by
    intro t ht
    obtain ⟨hf1, hI⟩ := h4 t ht
    have : (ls3 t).ctl = .done := by
      unfold L4.fin at hf1
      split at hf1
      · assumption
      · simp at hf1
    rw [← this]; exact hI.2.2
  rw [freeze_ok hs hn B.cols zb (h4 0 (by omega)).2.1 (fun t ht => (hdone t ht).1)
    (fun t ht => (hdone t ht).2.1) (fun t ht => (hdone t ht).2.2)]
  rfl

theorem computes1p (hA : A.WF) (hB : B.WF) (hM : M.WF) (sh : Spec.Shapes A B M)
    (hc : Contract1 alg mul add A B M exp) (hrows : 0 < A.rows) (zb : Bool) {nt dflt : Nat}
    (hn : 0 < setNumThreads nt dflt) {W : Nat} (hfl : ∀ i < A.rows, flopsOf alg.compl A B M i < W)
    (hbd : psum (boundOf alg.compl A B M) A.rows < W) :
    Spec.Computes (spgemm1p W alg mul add A B M zb nt dflt) A.rows (setNumThreads nt dflt)
      (ofRows A.rows B.cols zb exp) where
  safe := fun sch ho => (spgemm1p_spec hA hB hM sh hc hrows zb hn sch ho hfl hbd).imp (·.1) id
  live := ⟨stepBound exp A.rows, fun sch ho hf =>
    (spgemm1p_spec hA hB hM sh hc hrows zb hn sch ho hfl hbd).resolve_left (fun h => not_starved hf h.2)⟩

theorem computes2p (hA : A.WF) (hB : B.WF) (hM : M.WF) (sh : Spec.Shapes A B M)
    (hc : Contract alg mul add A B M exp) (hrows : 0 < A.rows) (zb : Bool) {nt dflt : Nat}
    (hn : 0 < setNumThreads nt dflt) {W : Nat} (hfl : ∀ i < A.rows, flopsOf alg.compl A B M i < W)
    (hnz : psum (lens exp) A.rows < W) :
    Spec.Computes (spgemm2p W alg mul add A B M zb nt dflt) A.rows (setNumThreads nt dflt)
      (ofRows A.rows B.cols zb exp) where
  safe := fun sch ho => (spgemm2p_spec hA hB hM sh hc hrows zb hn sch ho hfl hnz).imp (·.1) id
  live := ⟨stepBound exp A.rows, fun sch ho hf =>
    (spgemm2p_spec hA hB hM sh hc hrows zb hn sch ho hfl hnz).resolve_left (fun h => not_starved hf h.2)⟩

end Main

end Verif.Model.Wid
