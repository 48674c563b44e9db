import Verif.Lemmas.WidthDriver

/-! # Index types of limited width: the inner-product drivers -/

namespace Verif.Model.Wid.Inner

open Scan (rdu)
open Spec (ValidC)
open Model.Inner (workOf innerRow Rows1 Rows rows1_ok rows_ok ticks1 TC TV off L1.fin Ctl4.fin
  readTmp readTmp_ok work4_succ numericRow_eq symbolicRow_eq innerRow_length_le)

variable {V : Type}

/-! ## Work -/

theorem workRow_sim (W : Nat) (A : CSR V) (B : CSC V) (M : CSR V) (i : Nat) :
    workRow W A B M i = (Model.Inner.workRow A B M i).map (· % W) := by
  unfold workRow Model.Inner.workRow
  rw [bind_map]; congr 1; funext lo
  rw [bind_map]; congr 1; funext hi
  have h := forRange_sim (φ := (· % W)) (f := fun j w => (do
      let lenA ← rowLen A i
      let c ← rd M.colids j
      let bhi ← rd B.colptr (c + 1)
      let blo ← rd B.colptr c
      let lenB := bhi - blo
      .ok (if lenA ≠ 0 ∧ lenB ≠ 0 then w + (lenA + lenB) else w) : Res Nat)) (g := fun j w => (do
      let lenA ← rowLen A i
      let c ← rd M.colids j
      let bhi ← rd B.colptr (c + 1)
      let blo ← rd B.colptr c
      let lenB := bhi - blo
      .ok (if lenA ≠ 0 ∧ lenB ≠ 0 then (w + (lenA + lenB) % W) % W else w) : Res Nat)) (by
    intro j s
    rw [bind_map]; congr 1; funext lenA
    rw [bind_map]; congr 1; funext c
    rw [bind_map]; congr 1; funext bhi
    rw [bind_map]; congr 1; funext blo
    show Except.ok _ = Except.ok _
    congr 1
    split
    · rw [← Nat.add_mod]
    · rfl) lo hi 0
  rw [Nat.zero_mod] at h
  exact h

theorem calculateWork_sim (W : Nat) (A : CSR V) (B : CSC V) (M : CSR V) (order : List Nat) :
    calculateWork W A B M order =
      (Model.Inner.calculateWork A B M order).map fun r => (red W r.1, r.2 % W) := by
  unfold calculateWork Model.Inner.calculateWork
  have e0 : (List.replicate M.rows none, 0) =
      ((fun r : List (Option Nat) × Nat => (red W r.1, r.2 % W)) (List.replicate M.rows none, 0)) := by
    simp [red_replicate]
  conv => lhs; rw [e0]
  refine foldlM_sim (φ := fun r : List (Option Nat) × Nat => (red W r.1, r.2 % W)) ?_ order _
  rintro ⟨wpr, w⟩ i
  simp only
  rw [workRow_sim, map_bind, bind_map]; congr 1; funext f
  rw [wr_red, map_bind, bind_map]; congr 1; funext d
  show Except.ok _ = Except.ok _
  rw [← Nat.add_mod]

theorem prepare_sim (W : Nat) (A : CSR V) (B : CSC V) (M : CSR V) (n : Nat) (sch : Scheds) :
    prepare W A B M n sch = (Model.Inner.prepare A B M n sch).map
      (Option.map fun r => (red W r.1, r.2.1 % W, red W r.2.2)) := by
  unfold prepare Model.Inner.prepare
  rw [bind_map]; congr 1; funext _
  rw [calculateWork_sim, map_bind, bind_map]; congr 1; funext r
  obtain ⟨fpr, fl⟩ := r
  simp only
  have h := exclusiveScan_sim W fpr (List.replicate M.rows none) M.rows n sch.scan1 sch.scan2
  rw [red_replicate] at h
  rw [h, map_bind, bind_map]; congr 1; funext r
  cases r <;> rfl

section
variable {A : CSR V} {B : CSC V} {M : CSR V}

theorem prepare_ok (h : ValidC A B M) {n : Nat} (hn : 0 < n) (sch : Scheds)
    (ho : sch.flops.Perm (List.range A.rows)) {W : Nat} :
    (prepare W A B M n sch = .ok none ∧ Starved n (A.rows + 3) sch) ∨
    prepare W A B M n sch = .ok (some (tab A.rows (fun i => some (workOf A B M i % W)),
      pw W (workOf A B M) A.rows, tab A.rows (fun i => some (pw W (workOf A B M) i)))) := by
  rw [prepare_sim]
  rcases Model.Inner.prepare_ok h hn sch ho with ⟨h, hst⟩ | h
  · left; rw [h]; exact ⟨rfl, hst⟩
  · right
    rw [h]
    show Except.ok _ = Except.ok _
    simp only [Option.map, red_tab]
    rfl

theorem nnz_lt (mul add : V → V → V) (h : ValidC A B M) {W : Nat} (hW : M.nnz < W) :
    psum (lens (innerRow mul add A B M)) A.rows < W := by
  have h1 := Model.Inner.room (M := M) (exp := innerRow mul add A B M) h.wfM
    (fun i hi => innerRow_length_le mul add h (h.ma ▸ hi)) (Nat.zero_le M.rows) (Nat.le_refl _)
  have h2 := CSR.ptr_le_nnz h.wfM (Nat.le_refl M.rows)
  have h3 : psum (lens (innerRow mul add A B M)) 0 = 0 := rfl
  rw [h.ma] at h1 h2
  omega

/-- The rows that the two-phase driver computes: those whose work is a multiple of `W` are left out. -/
def wrapRow (W : Nat) (mul add : V → V → V) (A : CSR V) (B : CSC V) (M : CSR V) (i : Nat) : List (Nat × V) :=
  if workOf A B M i % W = 0 then [] else innerRow mul add A B M i

theorem wrap_ok (W : Nat) (mul add : V → V → V) (h : ValidC A B M) :
    Rows mul add A B M (fun i => workOf A B M i % W) (wrapRow W mul add A B M) where
  num := fun i hi hw => by unfold wrapRow; rw [if_neg hw]; exact numericRow_eq mul add h hi
  sym := fun i hi hw => by
    have e : lens (wrapRow W mul add A B M) i = lens (innerRow mul add A B M) i := by
      unfold lens wrapRow; rw [if_neg hw]
    rw [e]; exact symbolicRow_eq mul add h hi
  nil := fun i hw => by unfold lens wrapRow; rw [if_pos hw]; rfl

theorem psum_le_of {f g : Nat → Nat} (h : ∀ i, f i ≤ g i) (n : Nat) : psum f n ≤ psum g n := by
  induction n with
  | zero => exact Nat.le_refl _
  | succ n ih => have := h n; simp only [psum]; omega

theorem wrap_lt (mul add : V → V → V) (h : ValidC A B M) {W : Nat} (hW : M.nnz < W) :
    psum (lens (wrapRow W mul add A B M)) A.rows < W := by
  refine Nat.lt_of_le_of_lt (psum_le_of ?_ _) (nnz_lt mul add h hW)
  intro i
  unfold lens wrapRow
  split
  · exact Nat.zero_le _
  · exact Nat.le_refl _

end

/-! ## Steps -/

section Steps
variable {mul add : V → V → V} {A : CSR V} {B : CSC V} {M : CSR V} {exp : Nat → List (Nat × V)}
  {wpr : List (Option Nat)} {w : Nat → Nat} {b : Nat → Nat} {n W : Nat}

theorem step1_ok (hM : M.WF) (hMA : M.rows = A.rows) (hR : Rows1 mul add A B M exp) (hs : Split b M.rows n)
    (hnz : psum (lens exp) M.rows < W) (hf : ∀ i < M.rows, Has wpr w i) :
    ∀ t g x, t < n → Model.Inner.I1 M exp b n t g x → x.fin = false →
      ∃ g' x', step1 W mul add A B M wpr t g x = .ok (g', x') ∧ Model.Inner.I1 M exp b n t g' x' ∧
      (x'.fin = true ∨ ticks1 exp b t x' < ticks1 exp b t x) ∧
      ∀ u y, u < n → u ≠ t → Model.Inner.I1 M exp b n u g y → Model.Inner.I1 M exp b n u g' y := by
  intro t g x ht hI hfin
  have key : step1 W mul add A B M wpr t g x = Model.Inner.step1 mul add A B M wpr t g x := by
    have hJ := hI.ctl
    unfold Model.Inner.J1 at hJ
    have hlo := hI.lo
    have hhi := hI.hi
    have hb := hI.base
    have hle := hs.le (t + 1)
    obtain ⟨row, stop, base, cur, beg, ctl⟩ := x
    simp only at hlo hhi hb
    have hp := psum_mono (f := lens exp) (Nat.le_trans hhi hle)
    cases ctl with
    | row =>
      simp only at hJ
      have hm : (cur - base) % W = cur - base := by
        rw [hJ.1, hb, Nat.add_sub_cancel_left]
        unfold off
        exact Nat.mod_eq_of_lt (by omega)
      simp only [step1, Model.Inner.step1, hm]
    | num => rfl
    | flushC em =>
      obtain ⟨j0, jb, k, j1, j2, j3, _⟩ := hJ
      cases em with
      | nil =>
        simp only at j0 jb j1 j3
        have h1 := psum_mono (f := lens exp) (show row + 1 ≤ M.rows by omega)
        simp only [psum] at h1
        have hm : (cur - beg) % W = cur - beg := Nat.mod_eq_of_lt (by omega)
        simp only [step1, Model.Inner.step1, hm]
      | cons y em => rfl
    | flushV v em => rfl
    | done => rfl
  rw [key]
  exact Model.Inner.step1_ok hM hMA hR hs hf t g x ht hI hfin

theorem step2_ok (hMA : M.rows = A.rows) (hR : Rows mul add A B M w exp) (hs : Split b M.rows n)
    (hnz : psum (lens exp) M.rows < W) (hf : ∀ i < M.rows, Has wpr w i) :
    ∀ t g x, t < n → Model.Inner.I2 M exp b n t g x → x.done = false →
      ∃ g' x', step2 W A B M wpr t g x = .ok (g', x') ∧ Model.Inner.I2 M exp b n t g' x' ∧
      (x'.done = true ∨ b (t + 1) + 1 - x'.row < b (t + 1) + 1 - x.row) ∧
      ∀ u y, u < n → u ≠ t → Model.Inner.I2 M exp b n u g y → Model.Inner.I2 M exp b n u g' y := by
  intro t g x ht hI hfin
  have key : step2 W A B M wpr t g x = Model.Inner.step2 A B M wpr t g x := by
    unfold step2 Model.Inner.step2
    by_cases hrow : x.row < x.stop
    · rw [if_pos hrow, if_pos hrow]
      have hr1 : x.row < b (t + 1) := hI.stop ▸ hrow
      have hrM : x.row < M.rows := Nat.lt_of_lt_of_le hr1 (hs.le _)
      have hwr : ∀ v, wr g.rowNvals x.row (some v) = .ok (g.rowNvals.set x.row (some v)) :=
        fun v => wr_of_lt (by rw [hI.rnLen]; exact hrM)
      have hrd : ∀ v, rdu (g.rowNvals.set x.row (some v)) x.row = .ok v := fun v =>
        Has.rdu (X := fun _ => v) (Has.set_self (X := fun _ => v) (by rw [hI.rnLen]; exact hrM))
      have h1 := psum_mono (f := lens exp) (show x.row + 1 ≤ M.rows from hrM)
      have h2 := psum_mono (f := lens exp) hI.lo
      have h3 := hI.out
      simp only [psum] at h1
      rw [(hf _ hrM).rdu]
      simp only [ok_bind]
      by_cases hz : w x.row = 0
      · simp only [hz, if_true]
      · have hm : lens exp x.row % W = lens exp x.row := Nat.mod_eq_of_lt (by omega)
        have h5 : (x.nvals + lens exp x.row) % W = x.nvals + lens exp x.row := Nat.mod_eq_of_lt (by omega)
        simp only [hz, if_false, hR.sym _ (hMA ▸ hrM) hz, ok_bind, hm, hwr, hrd, h5]
    · rw [if_neg hrow, if_neg hrow]
  rw [key]
  exact Model.Inner.step2_ok hMA hR hs hf t g x ht hI hfin

theorem step4_ok (hR : Rows mul add A B M w exp) (hs : Split b A.rows n) (hnz : psum (lens exp) A.rows < W)
    (hf : ∀ i < A.rows, Has wpr w i) {rng : Nat → Nat × Nat}
    (hr : ∀ t < n, rng t = (b t, b (t + 1))) :
    ∀ t g x, t < n → Model.Inner.I4 exp b A.rows n t g x → x.fin = false →
      ∃ g' x', step4 W mul add A B M wpr n rng t g x = .ok (g', x') ∧ Model.Inner.I4 exp b A.rows n t g' x' ∧
      (x'.fin = true ∨ Model.Inner.ticks4 exp b t x' < Model.Inner.ticks4 exp b t x) ∧
      ∀ u y, u < n → u ≠ t → Model.Inner.I4 exp b A.rows n u g y → Model.Inner.I4 exp b A.rows n u g' y := by
  intro t g x ht hI hfin
  have key : step4 W mul add A B M wpr n rng t g x = Model.Inner.step4 mul add A B M wpr n rng t g x := by
    obtain ⟨hB, _, hJ⟩ := hI
    cases x with
    | start => simp only [step4, Model.Inner.step4, start_mod hs hnz hB ht]
    | offs i off =>
      obtain ⟨h1, h2, h3, h4⟩ := hJ
      simp only [step4, Model.Inner.step4, hr t ht]
      by_cases hi : i < b (t + 1)
      · have hi' : i < A.rows := Nat.lt_of_lt_of_le hi (hs.le _)
        simp only [if_pos hi, (hB.rn i hi').rdu, ok_bind, h3, offset_mod hnz hi']
      · simp only [if_neg hi]
    | flushC r em beg cur =>
      obtain ⟨h1, h2, h3, hbg, k, h4, h5, h6, h7, h8⟩ := hJ
      cases em with
      | nil =>
        have hle := hs.le (t + 1)
        have h9 := psum_mono (f := lens exp) (show r + 1 ≤ A.rows by omega)
        simp only [psum] at h9
        have hm : (psum (lens exp) r + k - psum (lens exp) r) % W = psum (lens exp) r + k - psum (lens exp) r :=
          Nat.mod_eq_of_lt (by omega)
        simp only [step4, Model.Inner.step4, h6, hbg, use_some, ok_bind, hm]
      | cons y em => rfl
    | _ => rfl
  rw [key]
  exact Model.Inner.step4_ok hR hs hf hr t g x ht hI hfin

end Steps

/-! ## The drivers -/

section Main
variable {A : CSR V} {B : CSC V} {M : CSR V}

theorem spgemm1p_spec (mul add : V → V → V) (h : ValidC A B M) (zb : Bool) {nt dflt : Nat}
    (hn : 0 < setNumThreads nt dflt) (sch : Scheds) (ho : sch.flops.Perm (List.range A.rows))
    {W : Nat} (hW : M.nnz < W) :
    (spgemm1p W mul add A B M zb nt dflt sch = .ok none ∧
      Starved (setNumThreads nt dflt) (stepBound (innerRow mul add A B M) A.rows) sch) ∨
    spgemm1p W mul add A B M zb nt dflt sch = .ok (some (ofRows A.rows B.cols zb (innerRow mul add A B M))) := by
  have hR := rows1_ok mul add h
  have hnz := nnz_lt mul add h hW
  generalize innerRow mul add A B M = exp at *
  unfold spgemm1p
  generalize hnn : setNumThreads nt dflt = n at hn
  simp only
  rcases prepare_ok h hn sch ho with ⟨h, t, ht, hcn⟩ | hp
  · left
    rw [h]
    refine ⟨rfl, t, ht, ?_⟩
    unfold stepBound
    rcases hcn with h | h | h | h
    · left; omega
    · right; left; omega
    · right; right; left; omega
    · right; right; right; omega
  rw [hp]
  simp only [ok_bind]
  have hPW : pw W (workOf A B M) A.rows < W := Nat.mod_lt _ (by omega)
  generalize pw W (workOf A B M) = P at hPW ⊢
  generalize hb : cut P (P A.rows) A.rows n = b
  have hs : Split b A.rows n := hb ▸ split_cut P (P A.rows) A.rows hn
  have hsM : Split b M.rows n := by rw [h.ma]; exact hs
  have hf : ∀ i < A.rows, Has (tab A.rows fun i => some (workOf A B M i % W)) (fun i => workOf A B M i % W) i :=
    fun i hi => has_tab hi
  have hcum : ∀ i < A.rows, Has (tab A.rows fun i => some (P i)) P i := fun i hi => has_tab hi
  have hdw : ∀ t < n, distributeWork W (P A.rows) (tab A.rows fun i => some (P i)) A.rows n t =
      .ok (b t, b (t + 1)) := fun t ht => by rw [distributeWork_cut ht hPW hcum, hb]
  have hls : setup n (init1 W A M n (P A.rows) (tab A.rows fun i => some (P i))) = .ok ((List.range n).map fun t =>
        ({ row := b t, stop := b (t + 1), base := M.ptr (b t), cur := M.ptr (b t), beg := M.ptr (b t),
           ctl := .row } : Model.Inner.L1 V)) := by
    apply mapM_ok
    intro t ht
    have ht' : t < n := by simpa using ht
    unfold init1
    rw [hdw t ht']
    simp only [ok_bind]
    rw [CSR.rd_ptr h.wfM (hsM.le t)]; rfl
  have hrg : setup n (distributeWork W (P A.rows) (tab A.rows fun i => some (P i)) A.rows n) =
      .ok ((List.range n).map fun t => (b t, b (t + 1))) := by
    apply mapM_ok
    intro t ht
    exact hdw t (by simpa using ht)
  rw [hls, hrg]
  simp only [ok_bind]
  obtain ⟨m, rfl⟩ : ∃ m, n = m + 1 := ⟨n - 1, by omega⟩
  generalize hl0 : (List.range (m + 1)).map (fun t =>
        ({ row := b t, stop := b (t + 1), base := M.ptr (b t), cur := M.ptr (b t), beg := M.ptr (b t),
           ctl := .row } : Model.Inner.L1 V)) = ls0
  cases ls0 with
  | nil => simp [List.range_succ] at hl0
  | cons l0 ls1 =>
  simp only
  have hget : ∀ t < m + 1, (l0 :: ls1).getD t l0 =
        ({ row := b t, stop := b (t + 1), base := M.ptr (b t), cur := M.ptr (b t), beg := M.ptr (b t),
           ctl := .row } : Model.Inner.L1 V) := by
    intro t ht
    rw [← hl0, list_getD_map_range _ _ ht]
  have ho0 : ∀ t, off exp b t (b t) = 0 := fun t => by unfold off; omega
  rcases phase_inv (Model.Inner.I1 M exp b (m + 1)) (ticks1 exp b)
    (step1_ok (W := W) (w := fun i => workOf A B M i % W) (wpr := tab A.rows fun i => some (workOf A B M i % W)) h.wfM h.ma hR hsM (h.ma ▸ hnz) (by rw [h.ma]; exact hf))
    sch.first { rowNvals := List.replicate M.rows none, threadsNvals := List.replicate (m + 1) none,
                tmpC := List.replicate M.nnz none, tmpV := List.replicate M.nnz none }
    (fun t => (l0 :: ls1).getD t l0)
    (by
      intro t ht
      rw [hget t ht]
      exact { rnLen := by simp, tnLen := by simp, tcLen := by simp, tvLen := by simp, stop := rfl, base := rfl,
              lo := Nat.le_refl _, hi := hs.mono t ht,
              has := fun i h1 h2 => by simp only at h2; omega,
              ctl := ⟨by simp only [ho0]; rfl, fun j hj => by simp only [ho0] at hj; omega,
                fun j hj => by simp only [ho0] at hj; omega⟩ })
    with ⟨h1, t, ht, h2⟩ | ⟨g1, ls', h1, h2⟩
  · left
    rw [h1]
    refine ⟨rfl, t, ht, ?_⟩
    rw [hget t ht] at h2
    have k1 := hs.le (t + 1)
    have k2 := psum_mono (f := lens exp) k1
    right; right; left
    unfold stepBound
    simp only [ticks1, work4] at h2
    omega
  rw [h1]
  simp only [ok_bind]
  have hd1 : ∀ t < m + 1, Model.Inner.I1 M exp b (m + 1) t g1 (ls' t) ∧ (ls' t).row = b (t + 1) ∧
      Has g1.threadsNvals (tnv exp b) t ∧ TC M exp b t (tnv exp b t) g1 ∧ TV M exp b t (tnv exp b t) g1 := by
    intro t ht
    obtain ⟨hf1, hI⟩ := h2 t ht
    refine ⟨hI, ?_⟩
    have hJ := hI.ctl
    unfold Model.Inner.J1 at hJ
    unfold L1.fin at hf1
    split at hf1
    · rename_i hc; rw [hc] at hJ; exact hJ
    · simp at hf1
  have houts : setup (m + 1) (fun t => readTmp g1 (ls' t).base t) =
      .ok ((List.range (m + 1)).map fun t => seg exp (b t) (b (t + 1))) := by
    apply mapM_ok
    intro t ht
    have ht' : t < m + 1 := by simpa using ht
    obtain ⟨hI, _, d2, d3, d4⟩ := hd1 t ht'
    rw [hI.base]
    exact readTmp_ok (hs.mono t ht') d2 d3 d4
  rw [houts]
  simp only [ok_bind]
  obtain ⟨g2, e1, e2⟩ := initC_ok (W := W) (exp := exp) (g := g1.toSh) hs hnz
    (by
      intro i hi
      obtain ⟨t, ht, h3, h4⟩ := hs.row_cover hi
      obtain ⟨hI, hr, _⟩ := hd1 t ht
      exact hI.has i h3 (by rw [hr]; exact h4))
    (by
      intro t ht
      exact (hd1 t ht).2.2.1)
  rw [e1]
  simp only [ok_bind]
  rcases phase_inv (I3 exp b A.rows (m + 1)) (ticks3 exp b)
    (step3_ok (W := W) hs hnz (rng := fun t => ((List.range (m + 1)).map fun t => (b t, b (t + 1))).getD t (0, 0))
      (outs := fun t => ((List.range (m + 1)).map fun t => seg exp (b t) (b (t + 1))).getD t [])
      (by intro t ht; exact list_getD_map_range _ _ ht)
      (by intro t ht; exact list_getD_map_range _ _ ht))
    sch.second g2 (fun _ => .start) (fun t ht => ⟨e2, trivial⟩) with ⟨h3, t, ht, h4⟩ | ⟨g3, ls3, h3, h4⟩
  · left
    rw [h3]
    refine ⟨rfl, t, ht, ?_⟩
    right; right; right
    have k1 := hs.le (t + 1)
    have k2 : tnv exp b t ≤ psum (lens exp) A.rows := by
      have := psum_mono (f := lens exp) k1
      unfold tnv; omega
    unfold stepBound
    simp only [ticks3] at h4
    omega
  right
  rw [h3]
  simp only [ok_bind]
  have hdone : ∀ t < m + 1, J3 exp b A.rows (m + 1) t g3 .done := by
    intro t ht
    obtain ⟨hf1, hI⟩ := h4 t ht
    have : ls3 t = .done := by simpa using hf1
    rw [← this]; exact hI.2
  rw [freeze_ok hs hn B.cols zb (h4 0 (by omega)).2.1 (fun t ht => (hdone t ht).1)
    (fun t ht => (hdone t ht).2.1) (fun t ht => (hdone t ht).2.2)]
  rfl

theorem spgemm2p_spec (mul add : V → V → V) (h : ValidC A B M) (zb : Bool) {nt dflt : Nat}
    (hn : 0 < setNumThreads nt dflt) (sch : Scheds) (ho : sch.flops.Perm (List.range A.rows))
    {W : Nat} (hW : M.nnz < W) :
    (spgemm2p W mul add A B M zb nt dflt sch = .ok none ∧
      Starved (setNumThreads nt dflt) (stepBound (wrapRow W mul add A B M) A.rows) sch) ∨
    spgemm2p W mul add A B M zb nt dflt sch = .ok (some (ofRows A.rows B.cols zb (wrapRow W mul add A B M))) := by
  have hR := wrap_ok W mul add h
  have hnz := wrap_lt mul add h hW
  generalize wrapRow W mul add A B M = exp at *
  unfold spgemm2p
  generalize hnn : setNumThreads nt dflt = n at hn
  simp only
  rcases prepare_ok h hn sch ho with ⟨h, t, ht, hcn⟩ | hp
  · left
    rw [h]
    refine ⟨rfl, t, ht, ?_⟩
    unfold stepBound
    rcases hcn with h | h | h | h
    · left; omega
    · right; left; omega
    · right; right; left; omega
    · right; right; right; omega
  rw [hp]
  simp only [ok_bind]
  have hPW : pw W (workOf A B M) A.rows < W := Nat.mod_lt _ (by omega)
  generalize pw W (workOf A B M) = P at hPW ⊢
  generalize hb : cut P (P A.rows) A.rows n = b
  have hs : Split b A.rows n := hb ▸ split_cut P (P A.rows) A.rows hn
  have hsM : Split b M.rows n := by rw [h.ma]; exact hs
  have hf : ∀ i < A.rows, Has (tab A.rows fun i => some (workOf A B M i % W)) (fun i => workOf A B M i % W) i :=
    fun i hi => has_tab hi
  have hcum : ∀ i < A.rows, Has (tab A.rows fun i => some (P i)) P i := fun i hi => has_tab hi
  have hdw : ∀ t < n, distributeWork W (P A.rows) (tab A.rows fun i => some (P i)) A.rows n t =
      .ok (b t, b (t + 1)) := fun t ht => by rw [distributeWork_cut ht hPW hcum, hb]
  have hls : setup n (init2 W A n (P A.rows) (tab A.rows fun i => some (P i))) = .ok ((List.range n).map fun t =>
        ({ row := b t, nvals := 0, stop := b (t + 1) } : Model.Inner.L2)) := by
    apply mapM_ok
    intro t ht
    have ht' : t < n := by simpa using ht
    unfold init2
    rw [hdw t ht']; rfl
  have hrg : setup n (distributeWork W (P A.rows) (tab A.rows fun i => some (P i)) A.rows n) =
      .ok ((List.range n).map fun t => (b t, b (t + 1))) := by
    apply mapM_ok
    intro t ht
    exact hdw t (by simpa using ht)
  rw [hls, hrg]
  simp only [ok_bind]
  obtain ⟨m, rfl⟩ : ∃ m, n = m + 1 := ⟨n - 1, by omega⟩
  generalize hl0 : (List.range (m + 1)).map (fun t =>
        ({ row := b t, nvals := 0, stop := b (t + 1) } : Model.Inner.L2)) = ls0
  cases ls0 with
  | nil => simp [List.range_succ] at hl0
  | cons l0 ls1 =>
  simp only
  have hget : ∀ t < m + 1, (l0 :: ls1).getD t l0 = ({ row := b t, nvals := 0, stop := b (t + 1) } : Model.Inner.L2) := by
    intro t ht
    rw [← hl0, list_getD_map_range _ _ ht]
  rcases phase_inv (Model.Inner.I2 M exp b (m + 1)) (fun t x => b (t + 1) + 1 - x.row)
    (step2_ok (W := W) (wpr := tab A.rows fun i => some (workOf A B M i % W)) h.ma hR hsM (h.ma ▸ hnz) (by rw [h.ma]; exact hf))
    sch.first ({ rowNvals := List.replicate M.rows none, threadsNvals := List.replicate (m + 1) none } : Sh V)
    (fun t => (l0 :: ls1).getD t l0)
    (by
      intro t ht
      rw [hget t ht]
      exact { rnLen := by simp, tnLen := by simp, stop := rfl,
              lo := Nat.le_refl _, hi := hs.mono t ht, out := by simp,
              has := fun i h1 h2 => by simp only at h2; omega, fin := fun h => by simp at h })
    with ⟨h1, t, ht, h2⟩ | ⟨g1, ls', h1, h2⟩
  · left
    rw [h1]
    refine ⟨rfl, t, ht, ?_⟩
    rw [hget t ht] at h2
    have := hs.le (t + 1)
    right; right; left
    unfold stepBound
    simp only at h2
    omega
  rw [h1]
  simp only [ok_bind]
  obtain ⟨g2, e1, e2⟩ := initC_ok (W := W) (exp := exp) (g := g1) hs hnz
    (by
      intro i hi
      obtain ⟨t, ht, h3, h4⟩ := hs.row_cover hi
      obtain ⟨hf1, hI⟩ := h2 t ht
      exact hI.has i h3 (by rw [(hI.fin hf1).1]; exact h4))
    (by
      intro t ht
      obtain ⟨hf1, hI⟩ := h2 t ht
      exact (hI.fin hf1).2)
  have hrn2 : g2.rowNvals.length = A.rows := by
    have h5 := (h2 0 (by omega)).2.rnLen
    have : g2.rowNvals = g1.rowNvals := by
      unfold initC at e1
      cases hacc : accumulate W g1.threadsNvals (m + 1) with
      | error e => rw [hacc] at e1; simp at e1
      | ok k => rw [hacc] at e1; simp only [ok_bind] at e1; injection e1 with e1; rw [← e1]
    rw [this, h5, h.ma]
  rw [e1]
  simp only [ok_bind]
  rcases phase_inv (Model.Inner.I4 exp b A.rows (m + 1)) (Model.Inner.ticks4 exp b)
    (step4_ok (W := W) (wpr := tab A.rows fun i => some (workOf A B M i % W)) hR hs hnz hf
      (rng := fun t => ((List.range (m + 1)).map fun t => (b t, b (t + 1))).getD t (0, 0))
      (by intro t ht; exact list_getD_map_range _ _ ht))
    sch.second g2 (fun _ => .start)
    (fun t ht => ⟨e2, hrn2, trivial⟩) with ⟨h3, t, ht, h4⟩ | ⟨g3, ls3, h3, h4⟩
  · left
    rw [h3]
    refine ⟨rfl, t, ht, ?_⟩
    right; right; right
    have k1 := hs.le (t + 1)
    have k2 := psum_mono (f := lens exp) k1
    unfold stepBound
    simp only [Model.Inner.ticks4, work4] at h4
    omega
  right
  rw [h3]
  simp only [ok_bind]
  have hdone : ∀ t < m + 1, Model.Inner.J4 exp b A.rows (m + 1) t g3 .done := by
    intro t ht
    obtain ⟨hf1, hI⟩ := h4 t ht
    have : ls3 t = .done := by
      unfold Ctl4.fin at hf1
      split at hf1
      · assumption
      · simp at hf1
    rw [← this]; exact hI.2.2
  rw [freeze_ok hs hn B.cols zb (h4 0 (by omega)).2.1 (fun t ht => (hdone t ht).1)
    (fun t ht => (hdone t ht).2.1) (fun t ht => (hdone t ht).2.2)]
  rfl

theorem computes1p (mul add : V → V → V) (h : ValidC A B M) (zb : Bool) {nt dflt : Nat}
    (hn : 0 < setNumThreads nt dflt) {W : Nat} (hW : M.nnz < W) :
    Spec.Computes (spgemm1p W mul add A B M zb nt dflt) A.rows (setNumThreads nt dflt)
      (ofRows A.rows B.cols zb (innerRow mul add A B M)) where
  safe := fun sch ho => (spgemm1p_spec mul add h zb hn sch ho hW).imp (·.1) id
  live := ⟨stepBound (innerRow mul add A B M) A.rows, fun sch ho hf =>
    (spgemm1p_spec mul add h zb hn sch ho hW).resolve_left (fun h => not_starved hf h.2)⟩

theorem computes2p (mul add : V → V → V) (h : ValidC A B M) (zb : Bool) {nt dflt : Nat}
    (hn : 0 < setNumThreads nt dflt) {W : Nat} (hW : M.nnz < W) :
    Spec.Computes (spgemm2p W mul add A B M zb nt dflt) A.rows (setNumThreads nt dflt)
      (ofRows A.rows B.cols zb (wrapRow W mul add A B M)) where
  safe := fun sch ho => (spgemm2p_spec mul add h zb hn sch ho hW).imp (·.1) id
  live := ⟨stepBound (wrapRow W mul add A B M) A.rows, fun sch ho hf =>
    (spgemm2p_spec mul add h zb hn sch ho hW).resolve_left (fun h => not_starved hf h.2)⟩

end Main

end Verif.Model.Wid.Inner
