import Verif.Model.RaceDot
import Verif.Lemmas.RaceOldFree
import Verif.Lemmas.Dot

/-! # The older inner-product kernel has one racy region -/

namespace Verif.Model.RaceDot
open RaceOld (Arr Access Racy teamTrace binTraces)
open Dot (Shared)

variable {V α β : Type}

/-! ## Programs -/

theorem exec_bind (p : Prog V α) (q : α → Prog V β) (g : Shared V) :
    (p >>= q).exec g = (p.exec g >>= fun r => (q r.2).exec r.1) := by
  show (p.andThen q).exec g = _
  induction p generalizing g with
  | ret a => rfl
  | fail e => rfl
  | load a i k ih =>
    simp only [Prog.andThen, Prog.exec, bind_assoc]
    congr 1
    funext x
    exact ih x g
  | store a i x k ih =>
    simp only [Prog.andThen, Prog.exec, bind_assoc]
    congr 1
    funext xs
    exact ih _
  | storeV i v k ih =>
    simp only [Prog.andThen, Prog.exec, bind_assoc]
    congr 1
    funext xs
    exact ih _

theorem exec_priv (r : Res α) (g : Shared V) : (priv r : Prog V α).exec g = (r >>= fun a => .ok (g, a)) := by
  cases r <;> rfl

theorem exec_get (a : Arr) (i : Nat) (g : Shared V) : (get a i : Prog V Nat).exec g = (rd (arr g a) i >>= fun x => .ok (g, x)) := rfl
theorem exec_put (a : Arr) (i x : Nat) (g : Shared V) :
    (put a i x : Prog V Unit).exec g = (wr (arr g a) i x >>= fun xs => .ok (setArr g a xs, ())) := rfl
theorem exec_putV (i : Nat) (v : V) (g : Shared V) :
    (putV i v : Prog V Unit).exec g = (wr g.values i v >>= fun xs => .ok ({ g with values := xs }, ())) := rfl

theorem exec_forList {l : List β} {body : β → Prog V Unit} {step : Shared V → β → Res (Shared V)}
    (h : ∀ x g, (body x).exec g = (step g x >>= fun g => .ok (g, ()))) :
    ∀ g, (forList l body).exec g = (l.foldlM step g >>= fun g => .ok (g, ())) := by
  induction l with
  | nil => intro g; rfl
  | cons x l ih =>
    intro g
    rw [forList, exec_bind, h, List.foldlM_cons, bind_assoc, bind_assoc]
    congr 1
    funext g'
    exact ih g'

theorem exec_rowProg (mul add : V → V → V) (zero : V) (A : CSR V) (B : CSC V) (M : CSR V) (tid start i : Nat) (g : Shared V) :
    (rowProg mul add zero A B M tid start i).exec g =
      (Dot.rowBody mul add zero A B M tid start i g >>= fun g => .ok (g, ())) := by
  unfold rowProg Dot.rowBody forRange
  simp only [exec_bind, exec_priv, bind_assoc, ok_bind]
  congr 1
  funext lo
  congr 1
  funext hi
  apply exec_forList
  intro j g
  simp only [exec_bind, exec_priv, bind_assoc, ok_bind]
  congr 1
  funext c
  congr 1
  funext p
  congr 1
  funext q
  congr 1
  funext r
  obtain ⟨t, active⟩ := r
  cases active with
  | false => rfl
  | true =>
    simp only [if_true, exec_bind, exec_priv, exec_get, exec_put, exec_putV, bind_assoc, ok_bind, arr, setArr]

/-- The step of the model. -/
theorem exec_blockProg (mul add : V → V → V) (zero : V) (A : CSR V) (B : CSC V) (M : CSR V) (n t : Nat)
    (l : Option ((Nat × Nat) × Nat × Nat)) (g : Shared V) :
    (blockProg mul add zero A B M n t l).exec g =
      blockStep (Dot.starts M.rows n) (fun t lo _ => .ok (t, lo)) (fun i g (a : Nat × Nat) => do
        let g ← Dot.rowBody mul add zero A B M a.1 a.2 i g
        .ok (g, a)) t g l := by
  cases l with
  | none =>
    unfold blockProg blockStep
    simp only [exec_priv, bind_assoc, ok_bind]
  | some x =>
    obtain ⟨a, i, hi⟩ := x
    unfold blockProg blockStep
    simp only [exec_bind, exec_rowProg, bind_assoc, ok_bind]
    rfl

/-! ## Rules -/

/-- All accesses satisfy `P`, and `Q` holds after a run that succeeds. -/
def wp (P : Access → Prop) : Prog V α → (Shared V → α → Prop) → Shared V → Prop
  | .ret a, Q, g => Q g a
  | .fail _, _, _ => True
  | .load a i k, Q, g => P ⟨a, i, false⟩ ∧ ∀ x, rd (arr g a) i = .ok x → wp P (k x) Q g
  | .store a i x k, Q, g => P ⟨a, i, true⟩ ∧ ∀ xs, wr (arr g a) i x = .ok xs → wp P k Q (setArr g a xs)
  | .storeV i v k, Q, g => P ⟨.values, i, true⟩ ∧ ∀ xs, wr g.values i v = .ok xs → wp P k Q { g with values := xs }

variable {P : Access → Prop}

theorem wp_sound {p : Prog V α} {Q : Shared V → α → Prop} : ∀ {g}, wp P p Q g →
    (∀ a ∈ p.accesses g, P a) ∧ ∀ g' r, p.exec g = .ok (g', r) → Q g' r := by
  induction p with
  | ret a =>
    intro g h
    refine ⟨fun a ha => (by cases ha), ?_⟩
    intro g' r he
    cases he
    exact h
  | fail e =>
    intro g h
    refine ⟨fun a ha => (by cases ha), ?_⟩
    intro g' r he
    cases he
  | load a i k ih =>
    rintro g ⟨h1, h2⟩
    cases hr : rd (arr g a) i with
    | error e =>
      refine ⟨?_, ?_⟩
      · intro x hx
        rw [Prog.accesses, hr] at hx
        rw [List.mem_singleton.1 hx]
        exact h1
      · intro g' r he
        rw [Prog.exec, hr] at he
        cases he
    | ok x =>
      obtain ⟨k1, k2⟩ := ih x (h2 x hr)
      refine ⟨?_, ?_⟩
      · intro y hy
        rw [Prog.accesses, hr] at hy
        rcases List.mem_cons.1 hy with rfl | hy
        · exact h1
        · exact k1 y hy
      · intro g' r he
        rw [Prog.exec, hr] at he
        exact k2 g' r he
  | store a i x k ih =>
    rintro g ⟨h1, h2⟩
    cases hr : wr (arr g a) i x with
    | error e =>
      refine ⟨?_, ?_⟩
      · intro x hx
        rw [Prog.accesses, hr] at hx
        rw [List.mem_singleton.1 hx]
        exact h1
      · intro g' r he
        rw [Prog.exec, hr] at he
        cases he
    | ok xs =>
      obtain ⟨k1, k2⟩ := ih (h2 xs hr)
      refine ⟨?_, ?_⟩
      · intro y hy
        rw [Prog.accesses, hr] at hy
        rcases List.mem_cons.1 hy with rfl | hy
        · exact h1
        · exact k1 y hy
      · intro g' r he
        rw [Prog.exec, hr] at he
        exact k2 g' r he
  | storeV i v k ih =>
    rintro g ⟨h1, h2⟩
    cases hr : wr g.values i v with
    | error e =>
      refine ⟨?_, ?_⟩
      · intro x hx
        rw [Prog.accesses, hr] at hx
        rw [List.mem_singleton.1 hx]
        exact h1
      · intro g' r he
        rw [Prog.exec, hr] at he
        cases he
    | ok xs =>
      obtain ⟨k1, k2⟩ := ih (h2 xs hr)
      refine ⟨?_, ?_⟩
      · intro y hy
        rw [Prog.accesses, hr] at hy
        rcases List.mem_cons.1 hy with rfl | hy
        · exact h1
        · exact k1 y hy
      · intro g' r he
        rw [Prog.exec, hr] at he
        exact k2 g' r he

theorem wp_bind {p : Prog V α} {q : α → Prog V β} {Q : Shared V → β → Prop} : ∀ {g},
    wp P p (fun g a => wp P (q a) Q g) g → wp P (p >>= q) Q g := by
  show ∀ {g}, _ → wp P (p.andThen q) Q g
  induction p with
  | ret a => intro g h; exact h
  | fail e => intro g h; trivial
  | load a i k ih => rintro g ⟨h1, h2⟩; exact ⟨h1, fun x hx => ih x (h2 x hx)⟩
  | store a i x k ih => rintro g ⟨h1, h2⟩; exact ⟨h1, fun xs hx => ih (h2 xs hx)⟩
  | storeV i v k ih => rintro g ⟨h1, h2⟩; exact ⟨h1, fun xs hx => ih (h2 xs hx)⟩

theorem wp_priv {r : Res α} {Q : Shared V → α → Prop} {g : Shared V} (h : ∀ a, r = .ok a → Q g a) : wp P (priv r) Q g := by
  cases r with
  | error e => trivial
  | ok a => exact h a rfl

theorem wp_get {a : Arr} {i : Nat} {Q : Shared V → Nat → Prop} {g : Shared V} (h : P ⟨a, i, false⟩)
    (h' : ∀ x, rd (arr g a) i = .ok x → Q g x) : wp P (get a i) Q g := ⟨h, h'⟩

theorem wp_put {a : Arr} {i x : Nat} {Q : Shared V → Unit → Prop} {g : Shared V} (h : P ⟨a, i, true⟩)
    (h' : ∀ xs, wr (arr g a) i x = .ok xs → Q (setArr g a xs) ()) : wp P (put a i x) Q g := ⟨h, h'⟩

theorem wp_putV {i : Nat} {v : V} {Q : Shared V → Unit → Prop} {g : Shared V} (h : P ⟨.values, i, true⟩)
    (h' : ∀ xs, wr g.values i v = .ok xs → Q { g with values := xs } ()) : wp P (putV i v) Q g := ⟨h, h'⟩

/-- Loops with an invariant. -/
theorem wp_range {body : Nat → Prog V Unit} {I : Nat → Shared V → Prop} : ∀ (len lo : Nat) {g : Shared V}, I lo g →
    (∀ j g, lo ≤ j → j < lo + len → I j g → wp P (body j) (fun g _ => I (j + 1) g) g) →
    wp P (forList (List.range' lo len) body) (fun g _ => I (lo + len) g) g := by
  intro len
  induction len with
  | zero => intro lo g h _; exact h
  | succ len ih =>
    intro lo g h hb
    rw [List.range'_succ, forList]
    apply wp_bind
    have h1 := hb lo g (Nat.le_refl _) (by omega) h
    refine wp_mono h1 ?_
    intro g' _ hI
    have := ih (lo + 1) hI (fun j g h2 h3 => hb j g (by omega) (by omega))
    rw [show lo + (len + 1) = lo + 1 + len by omega]
    exact this
where
  wp_mono {α : Type} {p : Prog V α} {Q Q' : Shared V → α → Prop} : ∀ {g}, wp P p Q g → (∀ g a, Q g a → Q' g a) → wp P p Q' g := by
    induction p with
    | ret a => intro g h h'; exact h' _ _ h
    | fail e => intros; trivial
    | load a i k ih => rintro g ⟨h1, h2⟩ h'; exact ⟨h1, fun x hx => ih x (h2 x hx) h'⟩
    | store a i x k ih => rintro g ⟨h1, h2⟩ h'; exact ⟨h1, fun xs hx => ih (h2 xs hx) h'⟩
    | storeV i v k ih => rintro g ⟨h1, h2⟩ h'; exact ⟨h1, fun xs hx => ih (h2 xs hx) h'⟩

/-! ## The main region -/

/-- The cells of thread `t`. -/
def OwnOf (M : CSR V) (n t : Nat) (a : Access) : Prop :=
  match a.arr with
  | .thNnz => a.idx = t
  | .rowNnz => Dot.first M.rows n t ≤ a.idx ∧ a.idx < Dot.first M.rows n (t + 1)
  | _ => M.ptr (Dot.first M.rows n t) ≤ a.idx ∧ a.idx < M.ptr (Dot.first M.rows n (t + 1))

/-- The counters of the other threads are as in `h0`, and that of thread `t` has not passed the entries looked at. -/
structure Inv (M : CSR V) (h0 : List Nat) (t start j : Nat) (g : Shared V) : Prop where
  frame : ∀ u, u ≠ t → g.thNnz[u]? = h0[u]?
  mine : ∃ k, g.thNnz[t]? = some k ∧ M.ptr start + k ≤ j

theorem get_of_rd {xs : List α} {i : Nat} {x : α} (h : rd xs i = .ok x) : xs[i]? = some x := by
  unfold rd at h
  cases hx : xs[i]? with
  | none => rw [hx] at h; cases h
  | some y => rw [hx] at h; cases h; rfl

theorem set_of_wr {xs ys : List α} {i : Nat} {x : α} (h : wr xs i x = .ok ys) : i < xs.length ∧ ys = xs.set i x := by
  unfold wr at h
  by_cases hi : i < xs.length
  · rw [if_pos hi] at h
    cases h
    exact ⟨hi, rfl⟩
  · rw [if_neg hi] at h
    cases h

theorem row_wp (mul add : V → V → V) (zero : V) (A : CSR V) (B : CSC V) {M : CSR V} (hM : M.WF) {n t i : Nat} (hn : 0 < n)
    (ht : t < n) (hi1 : Dot.first M.rows n t ≤ i) (hi2 : i < Dot.first M.rows n (t + 1)) (h0 : List Nat) {g : Shared V}
    (hg : Inv M h0 t (Dot.first M.rows n t) (M.ptr i) g) :
    wp (OwnOf M n t) (rowProg mul add zero A B M t (Dot.first M.rows n t) i)
      (fun g _ => Inv M h0 t (Dot.first M.rows n t) (M.ptr (i + 1)) g) g := by
  have hb := Dot.first_bounds M.rows hn
  have hle := hb.le (t := t + 1) (by omega)
  unfold rowProg
  refine wp_bind (wp_priv fun lo hlo => wp_bind (wp_priv fun hi hhi => ?_))
  rw [CSR.rd_ptr hM (by omega)] at hlo hhi
  cases hlo
  cases hhi
  have hm := CSR.ptr_le_ptr hM (show i ≤ i + 1 by omega) (by omega)
  have hlast := CSR.ptr_le_ptr hM (show i + 1 ≤ Dot.first M.rows n (t + 1) by omega) hle
  have key := wp_range (P := OwnOf M n t) (I := fun j g => Inv M h0 t (Dot.first M.rows n t) j g)
    (body := fun j => (do
      let c ← priv (rd M.colids j)
      let p ← priv (rd A.rowptr i)
      let q ← priv (rd B.colptr c)
      let r ← priv (Dot.merge mul add A B i c (A.colids.length + B.rowids.length + 1) p q zero false)
      if r.2 then do
        let base ← priv (rd M.rowptr (Dot.first M.rows n t))
        let k ← get .thNnz t
        put .numbers (base + k) c
        putV (base + k) r.1
        put .thNnz t (k + 1)
        let x ← get .rowNnz i
        put .rowNnz i (x + 1)
      else return () : Prog V Unit)) (M.ptr (i + 1) - M.ptr i) (M.ptr i) hg (by
    intro j g h1 h2 hI
    obtain ⟨hf, k0, hk0, hk1⟩ := hI
    refine wp_bind (wp_priv fun c _ => wp_bind (wp_priv fun p _ => wp_bind (wp_priv fun q _ => wp_bind (wp_priv fun r _ => ?_))))
    split
    · refine wp_bind (wp_priv fun base hbase => ?_)
      rw [CSR.rd_ptr hM (by omega)] at hbase
      cases hbase
      refine wp_bind (wp_get rfl fun k hk => ?_)
      have hk' : g.thNnz[t]? = some k := get_of_rd hk
      rw [hk0] at hk'
      cases hk'
      have hown : ∀ a, a.arr = .numbers ∨ a.arr = .values → a.idx = M.ptr (Dot.first M.rows n t) + k0 → OwnOf M n t a := by
        intro a ha hx
        unfold OwnOf
        rcases ha with ha | ha <;> rw [ha] <;> simp only <;> omega
      refine wp_bind (wp_put (hown _ (Or.inl rfl) rfl) fun xs _ => ?_)
      refine wp_bind (wp_putV (hown _ (Or.inr rfl) rfl) fun vs _ => ?_)
      refine wp_bind (wp_put rfl fun ts hts => ?_)
      obtain ⟨hlt, rfl⟩ := set_of_wr hts
      refine wp_bind (wp_get (show OwnOf M n t ⟨.rowNnz, i, false⟩ from ⟨hi1, hi2⟩) fun x _ => ?_)
      refine wp_put (show OwnOf M n t ⟨.rowNnz, i, true⟩ from ⟨hi1, hi2⟩) fun rs _ => ?_
      refine ⟨?_, k0 + 1, ?_, by omega⟩
      · intro u hu
        show (g.thNnz.set t (k0 + 1))[u]? = _
        rw [List.getElem?_set_ne (fun h => hu h.symm)]
        exact hf u hu
      · show (g.thNnz.set t (k0 + 1))[t]? = _
        exact List.getElem?_set_self hlt
    · exact ⟨hf, k0, hk0, by omega⟩)
  rw [show M.ptr i + (M.ptr (i + 1) - M.ptr i) = M.ptr (i + 1) by omega] at key
  exact key

/-- What is known about the memory and the threads during the main region. -/
def Joint (M : CSR V) (n : Nat) (g : Shared V) (ls : Nat → Option ((Nat × Nat) × Nat × Nat)) : Prop :=
  ∀ t < n, match ls t with
    | none => g.thNnz[t]? = some 0
    | some (a, i, hi) => a = (t, Dot.first M.rows n t) ∧ hi = Dot.first M.rows n (t + 1) ∧ Dot.first M.rows n t ≤ i ∧
        ∃ k, g.thNnz[t]? = some k ∧ M.ptr (Dot.first M.rows n t) + k ≤ M.ptr i

theorem main_own (mul add : V → V → V) (zero : V) (A : CSR V) (B : CSC V) {M : CSR V} (hM : M.WF) {n : Nat} (hn : 0 < n) :
    ∀ sched g ls, Joint M n g ls → ∀ x ∈ trace n (blockProg mul add zero A B M n) blockFin sched g ls, x.1 < n ∧ OwnOf M n x.1 x.2 := by
  intro sched
  induction sched with
  | nil => intro g ls _ x hx; cases hx
  | cons t ts ih =>
    intro g ls hJ x hx
    rw [trace] at hx
    by_cases hc : t < n ∧ blockFin (ls t) = false
    · rw [if_pos hc] at hx
      obtain ⟨ht, hfin⟩ := hc
      have hJt := hJ t ht
      have hstep : wp (OwnOf M n t) (blockProg mul add zero A B M n t (ls t)) (fun g' l' => Joint M n g' (upd ls t l')) g := by
        cases hl : ls t with
        | none =>
          rw [hl] at hJt
          unfold blockProg
          refine wp_priv fun l' hl' => ?_
          unfold Dot.starts at hl'
          rw [rd_tab (by omega), ok_bind, rd_tab (by omega), ok_bind] at hl'
          cases hl'
          intro u hu
          by_cases hut : u = t
          · subst hut
            rw [upd_same]
            exact ⟨rfl, rfl, Nat.le_refl _, 0, hJt, Nat.le_refl _⟩
          · rw [upd_ne _ _ hut]
            exact hJ u hu
        | some y =>
          obtain ⟨a, i, hi⟩ := y
          rw [hl] at hJt hfin
          obtain ⟨rfl, rfl, h1, k, h2, h3⟩ := hJt
          have hlt : i < Dot.first M.rows n (t + 1) := by simpa [blockFin] using hfin
          unfold blockProg
          apply wp_bind
          have hrow := row_wp mul add zero A B hM hn ht h1 hlt g.thNnz (g := g) ⟨fun _ _ => rfl, k, h2, h3⟩
          refine wp_range.wp_mono hrow ?_
          rintro g' - ⟨hf, k', e1, e2⟩
          intro u hu
          by_cases hut : u = t
          · subst hut
            rw [upd_same]
            exact ⟨rfl, rfl, by omega, k', e1, e2⟩
          · rw [upd_ne _ _ hut]
            have := hJ u hu
            rw [hf u hut]
            exact this
      obtain ⟨s1, s2⟩ := wp_sound hstep
      rcases List.mem_append.1 hx with hx | hx
      · obtain ⟨a, ha, rfl⟩ := List.mem_map.1 hx
        exact ⟨ht, s1 a ha⟩
      · cases he : (blockProg mul add zero A B M n t (ls t)).exec g with
        | error e => rw [he] at hx; cases hx
        | ok r =>
          obtain ⟨g', l'⟩ := r
          rw [he] at hx
          exact ih g' (upd ls t l') (s2 g' l' he) x hx
    · rw [if_neg hc] at hx
      exact ih g ls hJ x hx

theorem own_disj {M : CSR V} (hM : M.WF) {n s t : Nat} (hn : 0 < n) (ht : t < n) (hst : s < t) {a b : Access}
    (ha : OwnOf M n s a) (hb : OwnOf M n t b) (hab : a.arr = b.arr) : a.idx ≠ b.idx := by
  have hB := Dot.first_bounds M.rows hn
  have hmono : ∀ d u, u + d ≤ n → Dot.first M.rows n u ≤ Dot.first M.rows n (u + d) := by
    intro d
    induction d with
    | zero => intro u _; exact Nat.le_refl _
    | succ d ih => intro u hu; exact Nat.le_trans (ih u (by omega)) (hB.mono (u + d) (by omega))
  have h1 : Dot.first M.rows n (s + 1) ≤ Dot.first M.rows n t := by
    have := hmono (t - (s + 1)) (s + 1) (by omega)
    rwa [show s + 1 + (t - (s + 1)) = t by omega] at this
  have h2 := hB.le (t := t) (by omega)
  have h3 := CSR.ptr_le_ptr hM h1 h2
  unfold OwnOf at ha hb
  rw [hab] at ha
  cases hc : b.arr <;> rw [hc] at ha hb <;> simp only at ha hb <;> omega

theorem main_free (mul add : V → V → V) (zero : V) (A : CSR V) (B : CSC V) {M : CSR V} (hM : M.WF) {n : Nat} (hn : 0 < n)
    (sched : List Nat) (colids : List Nat) (values : List V) (rowNnz : List Nat) :
    ¬ Racy (trace n (blockProg mul add zero A B M n) blockFin sched
      { colids := colids, values := values, thNnz := List.replicate n 0, rowNnz := rowNnz } (fun _ => none)) := by
  have hown := main_own mul add zero A B hM hn sched
    { colids := colids, values := values, thNnz := List.replicate n 0, rowNnz := rowNnz } (fun _ => none) (by
      intro t ht
      show (List.replicate n 0)[t]? = some 0
      rw [List.getElem?_replicate, if_pos ht])
  rintro ⟨x, hx, y, hy, h1, h2, h3, -⟩
  obtain ⟨x1, x2⟩ := hown x hx
  obtain ⟨y1, y2⟩ := hown y hy
  rcases Nat.lt_or_gt_of_ne h1 with h | h
  · exact own_disj hM hn y1 h x2 y2 h2 h3
  · exact own_disj hM hn x1 h y2 x2 h2.symm h3.symm

end Verif.Model.RaceDot
