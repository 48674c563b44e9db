import Verif.Model.Width
import Verif.Lemmas.Driver
import Verif.Lemmas.InnerDriver

/-! # Index types of limited width: prefix sums and the split of the rows -/

namespace Verif.Model.Wid

open Scan (rdu)

variable {V : Type}

/-! ## Loops and regions that compute the same modulo `W` -/

theorem map_bind {α β γ : Type} (φ : α → β) (x : Res α) (f : β → Res γ) :
    (x.map φ >>= f) = (x >>= fun a => f (φ a)) := by
  cases x <;> rfl

theorem bind_map {α β γ : Type} (φ : β → γ) (x : Res α) (f : α → Res β) :
    (x >>= f).map φ = (x >>= fun a => (f a).map φ) := by
  cases x <;> rfl

theorem forRange_sim {σ τ : Type} {φ : σ → τ} {f : Nat → σ → Res σ} {g : Nat → τ → Res τ}
    (h : ∀ i s, g i (φ s) = (f i s).map φ) (lo hi : Nat) (s : σ) :
    forRange lo hi (φ s) g = (forRange lo hi s f).map φ := by
  unfold forRange
  induction (List.range' lo (hi - lo)) generalizing s with
  | nil => rfl
  | cons i l ih =>
    rw [List.foldlM_cons, List.foldlM_cons, h i s, map_bind, bind_map]
    congr 1
    funext a
    exact ih a

theorem foldlM_sim {α σ τ : Type} {φ : σ → τ} {f : σ → α → Res σ} {g : τ → α → Res τ}
    (h : ∀ s a, g (φ s) a = (f s a).map φ) (l : List α) (s : σ) : l.foldlM g (φ s) = (l.foldlM f s).map φ := by
  induction l generalizing s with
  | nil => rfl
  | cons i l ih =>
    rw [List.foldlM_cons, List.foldlM_cons, h s i, map_bind, bind_map]
    congr 1
    funext a
    exact ih a

theorem runs_sim {σ τ l : Type} {φ : σ → τ} {n : Nat} {step : Nat → σ → l → Res (σ × l)}
    {step' : Nat → τ → l → Res (τ × l)} {fin : l → Bool}
    (h : ∀ t g x, step' t (φ g) x = (step t g x).map fun r => (φ r.1, r.2)) :
    ∀ (sched : List Nat) (g : σ) (ls : Nat → l),
      runs n step' fin sched (φ g) ls = (runs n step fin sched g ls).map fun r => (φ r.1, r.2) := by
  intro sched
  induction sched with
  | nil => intro g ls; rfl
  | cons t ts ih =>
    intro g ls
    unfold runs
    by_cases hc : t < n ∧ fin (ls t) = false
    · rw [if_pos hc, if_pos hc, h t g (ls t)]
      cases step t g (ls t) with
      | error e => rfl
      | ok r => exact ih r.1 _
    · rw [if_neg hc, if_neg hc]; exact ih g ls

theorem phase_sim {σ τ l : Type} {φ : σ → τ} {n : Nat} {step : Nat → σ → l → Res (σ × l)}
    {step' : Nat → τ → l → Res (τ × l)} {fin : l → Bool}
    (h : ∀ t g x, step' t (φ g) x = (step t g x).map fun r => (φ r.1, r.2)) (sched : List Nat) (g : σ) (ls : Nat → l) :
    phase n step' fin sched (φ g) ls = (phase n step fin sched g ls).map (Option.map fun r => (φ r.1, r.2)) := by
  unfold phase
  rw [runs_sim h sched g ls]
  cases runs n step fin sched g ls with
  | error e => rfl
  | ok r =>
    show Except.ok _ = Except.ok _
    congr 1
    split <;> simp

/-! ## Arrays modulo `W` -/

/-- All cells reduced. -/
def red (W : Nat) (l : List (Option Nat)) : List (Option Nat) := l.map (Option.map (· % W))

theorem rdu_red (W : Nat) (l : List (Option Nat)) (i : Nat) : rdu (red W l) i = (rdu l i).map (· % W) := by
  unfold rdu rd red
  rw [List.getElem?_map]
  cases h : l[i]? with
  | none => rfl
  | some x => cases x <;> rfl

theorem wr_red (W : Nat) (l : List (Option Nat)) (i x : Nat) :
    wr (red W l) i (some (x % W)) = (wr l i (some x)).map (red W) := by
  unfold wr red
  by_cases h : i < l.length
  · rw [if_pos h, if_pos (by simpa using h)]
    show _ = Except.ok (List.map _ (l.set i (some x)))
    rw [List.map_set]; rfl
  · rw [if_neg h, if_neg (by simpa using h)]; rfl

theorem red_replicate (W n : Nat) : red W (List.replicate n none) = List.replicate n none := by
  simp [red]

theorem red_tab (W n : Nat) (f : Nat → Nat) :
    red W (tab n fun i => some (f i)) = tab n fun i => some (f i % W) := by
  simp [red, tab]

theorem sum_sim (W : Nat) (l : List (Option Nat)) (lo hi s : Nat) :
    (forRange lo hi (s % W) fun i s => do
      let x ← rdu (red W l) i
      .ok ((s + x) % W)) = (forRange lo hi s fun i s => do
      let x ← rdu l i
      .ok (s + x) : Res Nat).map (· % W) := by
  refine forRange_sim (φ := (· % W)) ?_ lo hi s
  intro i s
  rw [rdu_red, map_bind, bind_map]
  congr 1
  funext x
  show Except.ok _ = Except.ok _
  rw [← Nat.add_mod]

/-! ## Prefix sums -/

theorem exclSeq_sim (W : Nat) (src dst : List (Option Nat)) (size : Nat) :
    exclSeq W (red W src) size (red W dst) = (Scan.exclSeq src size dst).map (red W) := by
  unfold exclSeq Scan.exclSeq
  have h0 : wr (red W dst) 0 (some 0) = (wr dst 0 (some 0)).map (red W) := by
    have := wr_red W dst 0 0
    rwa [Nat.zero_mod] at this
  rw [h0, map_bind, bind_map]
  congr 1
  funext d
  refine forRange_sim ?_ 1 size d
  intro i d
  rw [rdu_red, rdu_red, map_bind, bind_map]
  congr 1
  funext p
  rw [map_bind, bind_map]
  congr 1
  funext x
  rw [← Nat.add_mod, wr_red]

theorem stepSum_sim (W : Nat) (src : List (Option Nat)) (size n t : Nat) (ps : List (Option Nat)) (x : Bool) :
    stepSum W (red W src) size n t (red W ps) x =
      (Scan.stepSum src size n t ps x).map fun r => (red W r.1, r.2) := by
  unfold stepSum Scan.stepSum
  have h := sum_sim W src (Scan.start size n t) (Scan.stop size n t) 0
  rw [Nat.zero_mod] at h
  rw [h, map_bind, bind_map]
  congr 1
  funext s
  rw [wr_red, map_bind, bind_map]
  rfl

theorem stepWrite_sim (W : Nat) (src ps : List (Option Nat)) (size n t : Nat) (dst : List (Option Nat))
    (c : Scan.Ctl) :
    stepWrite W (red W src) (red W ps) size n t (red W dst) c =
      (Scan.stepWrite false src ps size n t dst c).map fun r => (red W r.1, r.2) := by
  cases c with
  | first =>
    simp only [stepWrite, Scan.stepWrite]
    have h := sum_sim W ps 0 t 0
    rw [Nat.zero_mod] at h
    rw [h, map_bind, bind_map]
    congr 1
    funext s
    simp only [Bool.false_eq_true, if_false, ok_bind, Nat.add_zero]
    rw [wr_red, map_bind, bind_map]
    rfl
  | «at» i =>
    simp only [stepWrite, Scan.stepWrite]
    by_cases hi : i < Scan.stop size n t
    · rw [if_pos hi, if_pos hi, rdu_red, map_bind, bind_map]
      congr 1
      funext p
      simp only [Bool.false_eq_true, if_false]
      rw [rdu_red, map_bind, bind_map]
      congr 1
      funext x
      rw [← Nat.add_mod, wr_red, map_bind, bind_map]
      rfl
    · rw [if_neg hi, if_neg hi]; rfl
  | done => rfl

theorem par_sim (W : Nat) (src dst : List (Option Nat)) (size n : Nat) (s1 s2 : List Nat) :
    par W (red W src) size (red W dst) n s1 s2 = (Scan.par false src size dst n s1 s2).map (Option.map (red W)) := by
  unfold par Scan.par
  have h1 := phase_sim (n := n) (fin := id) (stepSum_sim W src size n) s1 (List.replicate n none) (fun _ => false)
  rw [red_replicate] at h1
  rw [h1, map_bind, bind_map]
  congr 1
  funext r
  cases r with
  | none => rfl
  | some r =>
    obtain ⟨ps, ls⟩ := r
    simp only [Option.map]
    have h2 := phase_sim (n := n) (fin := (· == Scan.Ctl.done)) (stepWrite_sim W src ps size n) s2 dst
      (fun _ => .first)
    rw [h2, map_bind, bind_map]
    congr 1
    funext r
    cases r <;> rfl

theorem exclusiveScan_sim (W : Nat) (src dst : List (Option Nat)) (size n : Nat) (s1 s2 : List Nat) :
    exclusiveScan W (red W src) size (red W dst) n s1 s2 =
      (Scan.exclusiveScan src size dst n s1 s2).map (Option.map (red W)) := by
  unfold exclusiveScan Scan.exclusiveScan
  split
  · rw [exclSeq_sim, map_bind, bind_map]; rfl
  · exact par_sim W src dst size n s1 s2

/-! ## Counts of products -/

theorem flopsRow_sim (W : Nat) (A B : CSR V) (i : Nat) : flopsRow W A B i = (Model.flopsRow A B i).map (· % W) := by
  unfold flopsRow Model.flopsRow
  rw [bind_map]; congr 1; funext lo
  rw [bind_map]; congr 1; funext hi
  have h := forRange_sim (φ := (· % W)) (f := fun j s => (do
      let inner ← rd A.colids j
      let npins ← rowLen B inner
      .ok (s + npins) : Res Nat)) (g := fun j s => (do
      let inner ← rd A.colids j
      let npins ← rowLen B inner
      .ok ((s + npins) % W) : Res Nat)) (by
    intro j s
    rw [bind_map]; congr 1; funext inner
    rw [bind_map]; congr 1; funext npins
    show Except.ok _ = Except.ok _
    rw [Nat.mod_add_mod]) lo hi 0
  rw [Nat.zero_mod] at h
  exact h

theorem flopsRowMasked_sim (W : Nat) (A B M : CSR V) (i : Nat) :
    flopsRowMasked W A B M i = (Model.flopsRowMasked A B M i).map (· % W) := by
  unfold flopsRowMasked Model.flopsRowMasked
  rw [bind_map]; congr 1; funext hi
  rw [bind_map]; congr 1; funext lo
  split
  · exact flopsRow_sim W A B i
  · show Except.ok 0 = Except.ok (0 % W)
    rw [Nat.zero_mod]

theorem calculateFlops_sim (W : Nat) (compl : Bool) (A B M : CSR V) (order : List Nat) :
    calculateFlops W compl A B M order =
      (Model.calculateFlops compl A B M order).map fun r => (red W r.1, r.2 % W) := by
  unfold calculateFlops Model.calculateFlops
  have e0 : (List.replicate A.rows none, 0) =
      ((fun r : List (Option Nat) × Nat => (red W r.1, r.2 % W)) (List.replicate A.rows none, 0)) := by
    simp [red_replicate]
  conv => lhs; rw [e0]
  refine foldlM_sim (φ := fun r : List (Option Nat) × Nat => (red W r.1, r.2 % W)) ?_ order _
  rintro ⟨fpr, fl⟩ i
  have key : ∀ x : Res Nat, (x.map (· % W) >>= fun f => (do
      let d ← wr (red W fpr) i (some f)
      .ok (d, (fl % W + f) % W) : Res (List (Option Nat) × Nat))) =
      ((x >>= fun f => (do
        let d ← wr fpr i (some f)
        .ok (d, fl + f) : Res (List (Option Nat) × Nat))).map fun r => (red W r.1, r.2 % W)) := by
    intro x
    rw [map_bind, bind_map]; congr 1; funext f
    rw [wr_red, map_bind, bind_map]; congr 1; funext d
    show Except.ok _ = Except.ok _
    rw [← Nat.add_mod]
  cases compl
  · simp only [Bool.false_eq_true, if_false]
    rw [flopsRowMasked_sim]; exact key _
  · simp only [if_true]
    rw [flopsRow_sim]; exact key _

theorem prepare_sim (W : Nat) (compl : Bool) (A B M : CSR V) (n : Nat) (sch : Scheds) :
    prepare W compl A B M n sch = (Model.prepare compl A B M n sch).map
      (Option.map fun r => (red W r.1, r.2.1 % W, red W r.2.2)) := by
  unfold prepare Model.prepare
  rw [bind_map]; congr 1; funext _
  rw [calculateFlops_sim, map_bind, bind_map]; congr 1; funext r
  obtain ⟨fpr, fl⟩ := r
  simp only
  have h := exclusiveScan_sim W fpr (List.replicate A.rows none) A.rows n sch.scan1 sch.scan2
  rw [red_replicate] at h
  rw [h, map_bind, bind_map]; congr 1; funext r
  cases r <;> rfl

/-! ## The bisection on an array that need not be sorted -/

/-- Result of `lower_bound` on an array with the values `P`. -/
def bs (P : Nat → Nat) (x : Nat) : Nat → Nat → Nat → Nat
  | _, first, 0 => first
  | 0, first, _ + 1 => first
  | fuel + 1, first, len + 1 =>
    if P (first + (len + 1) / 2) < x then bs P x fuel (first + (len + 1) / 2 + 1) (len + 1 - (len + 1) / 2 - 1)
    else bs P x fuel first ((len + 1) / 2)

theorem lbGo_bs {P : Nat → Nat} {a : List (Option Nat)} {r : Nat} (ha : ∀ i < r, Has a P i) (x : Nat) :
    ∀ (fuel first len : Nat), len ≤ fuel → first + len ≤ r → lbGo a x fuel first len = .ok (bs P x fuel first len) := by
  intro fuel
  induction fuel with
  | zero =>
    intro first len h1 _
    have : len = 0 := by omega
    subst this; rfl
  | succ fuel ih =>
    intro first len h1 h2
    cases len with
    | zero => rfl
    | succ len =>
      unfold lbGo bs
      have hh : (len + 1) / 2 < len + 1 := by omega
      simp only [(ha (first + (len + 1) / 2) (by omega)).rd, ok_bind, use_some]
      split
      · exact ih _ _ (by omega) (by omega)
      · exact ih _ _ (by omega) (by omega)

theorem bs_bounds (P : Nat → Nat) (x : Nat) : ∀ (fuel first len : Nat),
    first ≤ bs P x fuel first len ∧ bs P x fuel first len ≤ first + len := by
  intro fuel
  induction fuel with
  | zero => intro first len; cases len <;> simp [bs]
  | succ fuel ih =>
    intro first len
    cases len with
    | zero => simp [bs]
    | succ len =>
      unfold bs
      have hh : (len + 1) / 2 < len + 1 := by omega
      split
      · have := ih (first + (len + 1) / 2 + 1) (len + 1 - (len + 1) / 2 - 1); omega
      · have := ih first ((len + 1) / 2); omega

/-- The bisection is monotone in the value searched for, whatever the array. -/
theorem bs_mono (P : Nat → Nat) {x y : Nat} (hxy : x ≤ y) : ∀ (fuel first len : Nat),
    bs P x fuel first len ≤ bs P y fuel first len := by
  intro fuel
  induction fuel with
  | zero => intro first len; cases len <;> simp [bs]
  | succ fuel ih =>
    intro first len
    cases len with
    | zero => simp [bs]
    | succ len =>
      unfold bs
      by_cases h1 : P (first + (len + 1) / 2) < x
      · rw [if_pos h1, if_pos (show _ < y by omega)]; exact ih _ _
      · rw [if_neg h1]
        by_cases h2 : P (first + (len + 1) / 2) < y
        · rw [if_pos h2]
          have a := (bs_bounds P x fuel first ((len + 1) / 2)).2
          have b := (bs_bounds P y fuel (first + (len + 1) / 2 + 1) (len + 1 - (len + 1) / 2 - 1)).1
          omega
        · rw [if_neg h2]; exact ih _ _

/-- First row of thread `t`. -/
def cut (P : Nat → Nat) (total rows n t : Nat) : Nat :=
  if t = 0 then 0 else if t = n then rows else bs P (total / n * t) rows 0 rows

theorem split_cut (P : Nat → Nat) (total rows : Nat) {n : Nat} (hn : 0 < n) : Split (cut P total rows n) rows n where
  zero := rfl
  last := by unfold cut; rw [if_neg (by omega), if_pos rfl]
  mono := by
    intro t ht
    have hb : ∀ x, bs P x rows 0 rows ≤ rows := fun x => by
      have := (bs_bounds P x rows 0 rows).2; omega
    unfold cut
    by_cases h0 : t = 0
    · rw [if_pos h0]; omega
    · rw [if_neg h0, if_neg (show t ≠ n by omega), if_neg (show t + 1 ≠ 0 by omega)]
      split
      · exact hb _
      · exact bs_mono P (Nat.mul_le_mul_left _ (Nat.le_succ t)) rows 0 rows
  le := by
    intro t
    unfold cut
    split
    · omega
    · split
      · omega
      · have := (bs_bounds P (total / n * t) rows 0 rows).2; omega

theorem distributeWork_cut {W : Nat} {P : Nat → Nat} {a : List (Option Nat)} {rows n t total : Nat} (ht : t < n)
    (hW : total < W) (ha : ∀ i < rows, Has a P i) :
    distributeWork W total a rows n t = .ok (cut P total rows n t, cut P total rows n (t + 1)) := by
  have hle : ∀ k ≤ n, total / n * k < W := fun k hk => by
    have h1 : total / n * k ≤ total / n * n := Nat.mul_le_mul_left _ hk
    have h2 := Nat.div_mul_le_self total n
    omega
  have hlb : ∀ x, lowerBound a rows x = .ok (bs P x rows 0 rows) := fun x =>
    lbGo_bs ha x rows 0 rows (Nat.le_refl _) (by omega)
  unfold distributeWork cut
  simp only [Nat.mod_eq_of_lt (hle t (by omega)), Nat.mod_eq_of_lt (hle (t + 1) (by omega)), hlb]
  by_cases h0 : t = 0
  · by_cases h1 : t = n - 1
    · simp only [ne_eq, h0, not_true_eq_false, if_false, ok_bind, if_true]
      have : n = 1 := by omega
      subst this
      simp
    · have h2 : ¬ (t + 1 = n) := by omega
      simp only [ne_eq, h0, not_true_eq_false, if_false, ok_bind, if_true] at h1 h2 ⊢
      simp only [h1, not_false_eq_true, if_true, if_neg h2]
      simp
  · by_cases h1 : t = n - 1
    · have h2 : t + 1 = n := by omega
      have h3 : t ≠ n := by omega
      have h4 : ¬ (n - 1 = 0) := by omega
      have h5 : ¬ (n - 1 = n) := by omega
      subst h1
      have h6 : n - 1 + 1 = n := h2
      have h7 : ¬ (n = 0) := by omega
      simp [h4, h5, h6, h7]
    · have h2 : ¬ (t + 1 = n) := by omega
      have h3 : t ≠ n := by omega
      simp [h0, h1, h2, h3]

/-! ## Sizes of the buffers -/

theorem scanInputs_sim (W : Nat) (compl calcC calcA calcM calcF : Bool) (b e : Nat) (fpr : List (Option Nat))
    (A M : CSR V) :
    scanInputs W compl calcC calcA calcM calcF b e fpr A M =
      (Model.scanInputs compl calcC calcA calcM calcF b e fpr A M).map fun s => { s with sizeC := s.sizeC % W } := by
  unfold scanInputs Model.scanInputs
  have e0 : ({} : Sizes) = (fun s : Sizes => { s with sizeC := s.sizeC % W }) {} := by simp
  conv => lhs; rw [e0]
  refine forRange_sim (φ := fun s : Sizes => { s with sizeC := s.sizeC % W }) ?_ b e ({} : Sizes)
  intro row s
  cases calcC <;> cases compl <;> cases calcA <;> cases calcM <;> cases calcF <;>
    simp only [Bool.not_false, Bool.not_true, if_true, if_false, Bool.false_eq_true, ok_bind] <;>
    (repeat (first
      | rfl
      | (rw [bind_map]; done)
      | (rw [bind_map]; congr 1 <;> funext _)
      | (rw [bind_assoc, bind_assoc]; congr 1; funext _)
      | simp only [Nat.mod_add_mod]))

end Verif.Model.Wid
