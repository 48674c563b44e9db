import Verif.Lemmas.Kinds
import Verif.Model.Alias

/-! # Calls on objects of a store, related to calls on matrices -/

namespace Verif.Model.Alias

open Scan (rdu)

variable {V : Type}

theorem fetch_full {s : Store V} {r : Nat} {X : CSR V} (h : s r = .full X) : fetch s r = .ok X := by
  unfold fetch; rw [h]

theorem upd_upd {β : Type} (f : Nat → β) (i : Nat) (x y : β) : upd (upd f i x) i y = upd f i y := by
  funext j
  by_cases h : j = i
  · subst h; rw [upd_same, upd_same]
  · rw [upd_ne _ _ h, upd_ne _ _ h, upd_ne _ _ h]

/-- Store the result. -/
def put (s : Store V) (c : Nat) (r : Res (Option (CSR V))) : Res (Option (Store V)) := do
  let R ← r
  .ok (R.map fun R => upd s c (.full R))

section
variable {s : Store V} {a b m c : Nat} {A B M C : CSR V}
  (hA : s a = .full A) (hB : s b = .full B) (hM : s m = .full M) (hC : s c = .full C)
include hA hM hC

include hB in
theorem spgemm1p_eq (alg : RowAlg V) (mul add : V → V → V) (nt dflt : Nat) (sch : Scheds) :
    spgemm1p alg mul add s a b m c nt dflt sch =
      put s c (Model.spgemm1p alg mul add A B M C.zerobased nt dflt sch) := by
  unfold spgemm1p Model.spgemm1p put
  rw [fetch_full hA, fetch_full hB, fetch_full hM, fetch_full hC]
  simp only [ok_bind]
  generalize setNumThreads nt dflt = n
  cases prepare alg.compl A B M n sch with
  | error e => rfl
  | ok p =>
  cases p with
  | none => rfl
  | some p =>
  obtain ⟨fpr, flops, cum⟩ := p
  simp only [ok_bind]
  cases setup n (init1 alg A B M n fpr flops cum) with
  | error e => rfl
  | ok ls =>
  simp only [ok_bind]
  cases setup n (distributeWork flops cum A.rows n) with
  | error e => rfl
  | ok rngs =>
  simp only [ok_bind]
  cases ls with
  | nil => rfl
  | cons l0 ls =>
  simp only
  cases phase n (step1 alg mul add A B M fpr) (·.done) sch.first
      { rowNvals := List.replicate A.rows none, threadsNvals := List.replicate n none }
      (fun t => (l0 :: ls).getD t l0) with
  | error e => rfl
  | ok r =>
  cases r with
  | none => rfl
  | some r =>
  obtain ⟨g, ls'⟩ := r
  simp only [ok_bind, initRef, rowsOf, colsOf, fetch_full hA, fetch_full hB]
  cases initC A.rows n g with
  | error e => rfl
  | ok g =>
  simp only [ok_bind]
  cases phase n (step3 A.rows n (fun t => rngs.getD t (0, 0)) (fun t => (ls' t).out)) (· == .done)
          sch.second g (fun _ => .start) with
  | error e => rfl
  | ok r =>
  cases r with
  | none => rfl
  | some r =>
  simp only [ok_bind]
  cases freeze A.rows B.cols C.zerobased r.1 with
  | error e => rfl
  | ok R =>
    simp only [ok_bind, makeEmpty, upd_upd]
    rfl

include hB in
theorem spgemm2p_eq (alg : RowAlg V) (mul add : V → V → V) (nt dflt : Nat) (sch : Scheds) :
    spgemm2p alg mul add s a b m c nt dflt sch =
      put s c (Model.spgemm2p alg mul add A B M C.zerobased nt dflt sch) := by
  unfold spgemm2p put
  rw [fetch_full hA, fetch_full hB, fetch_full hM, fetch_full hC]
  simp only [ok_bind]
  cases Model.spgemm2p alg mul add A B M C.zerobased nt dflt sch with
  | error e => rfl
  | ok R =>
  cases R with
  | none => rfl
  | some R => simp only [ok_bind, makeEmpty, upd_upd]; rfl

theorem inner1p_eq (mul add : V → V → V) (Bc : CSC V) (nt dflt : Nat) (sch : Scheds) :
    inner1p mul add s Bc a m c nt dflt sch =
      put s c (Inner.spgemm1p mul add A Bc M C.zerobased nt dflt sch) := by
  unfold inner1p Inner.spgemm1p put
  rw [fetch_full hA, fetch_full hM, fetch_full hC]
  simp only [ok_bind]
  generalize setNumThreads nt dflt = n
  cases Inner.prepare A Bc M n sch with
  | error e => rfl
  | ok p =>
  cases p with
  | none => rfl
  | some p =>
  obtain ⟨wpr, work, cum⟩ := p
  simp only [ok_bind]
  cases setup n (Inner.init1 A M n work cum) with
  | error e => rfl
  | ok ls =>
  simp only [ok_bind]
  cases setup n (distributeWork work cum A.rows n) with
  | error e => rfl
  | ok rngs =>
  simp only [ok_bind]
  cases ls with
  | nil => rfl
  | cons l0 ls =>
  simp only
  cases phase n (Inner.step1 mul add A Bc M wpr) (·.fin) sch.first
      { rowNvals := List.replicate M.rows none, threadsNvals := List.replicate n none,
        tmpC := List.replicate M.nnz none, tmpV := List.replicate M.nnz none }
      (fun t => (l0 :: ls).getD t l0) with
  | error e => rfl
  | ok r =>
  cases r with
  | none => rfl
  | some r =>
  obtain ⟨g, ls'⟩ := r
  simp only [ok_bind]
  cases setup n (fun t => Inner.readTmp g (ls' t).base t) with
  | error e => rfl
  | ok outs =>
  simp only [ok_bind, initRef, rowsOf, fetch_full hA]
  cases initC A.rows n g.toSh with
  | error e => rfl
  | ok g =>
  simp only [ok_bind]
  cases phase n (step3 A.rows n (fun t => rngs.getD t (0, 0)) (fun t => outs.getD t [])) (· == .done)
          sch.second g (fun _ => .start) with
  | error e => rfl
  | ok r =>
  cases r with
  | none => rfl
  | some r =>
  simp only [ok_bind]
  cases freeze A.rows Bc.cols C.zerobased r.1 with
  | error e => rfl
  | ok R =>
    simp only [ok_bind, makeEmpty, upd_upd]
    rfl

end

/-! ## Two-phase inner product on distinct objects -/

theorem rdu_map {α : Type} (l : List α) (i : Nat) : rdu (l.map some) i = rd l i := by
  unfold rdu rd
  rw [List.getElem?_map]
  cases l[i]? <;> rfl

theorem mergeNum_ofCSR (mul add : V → V → V) (A : CSR V) (B : CSC V) (ae be : Nat) :
    ∀ fuel ia ib v, mergeNum mul add (.ofCSR A) B ae be fuel ia ib v = Inner.mergeNum mul add A B ae be fuel ia ib v := by
  intro fuel
  induction fuel with
  | zero => intros; rfl
  | succ fuel ih =>
    intro ia ib v
    unfold mergeNum Inner.mergeNum
    simp only [View.ofCSR, rdu_map]
    simp only [View.ofCSR] at ih
    simp only [ih]
    rfl

theorem numericRow_ofCSR (mul add : V → V → V) (A : CSR V) (B : CSC V) (M : CSR V) (row : Nat) :
    numericRow mul add (.ofCSR A) B (.ofCSR M) row = Inner.numericRow mul add A B M row := by
  unfold numericRow Inner.numericRow
  simp only [mergeNum_ofCSR]
  simp only [View.ofCSR, rdu_map]
  rfl

theorem step4_ofCSR (mul add : V → V → V) (A : CSR V) (B : CSC V) (M : CSR V) (wpr : List (Option Nat)) (n : Nat)
    (rng : Nat → Nat × Nat) :
    step4 mul add (fun _ => .ofCSR A) (fun _ => .ofCSR M) B wpr A.rows n rng = Inner.step4 mul add A B M wpr n rng := by
  funext t g l
  unfold step4 Inner.step4
  simp only [numericRow_ofCSR]
  cases l <;> first | rfl | (rename_i em _ _; cases em <;> rfl)

theorem inner2p_eq {s : Store V} {a m c : Nat} {A M C : CSR V} (hA : s a = .full A) (hM : s m = .full M)
    (hC : s c = .full C) (hac : a ≠ c) (hmc : m ≠ c)
    (mul add : V → V → V) (Bc : CSC V) (nt dflt : Nat) (sch : Scheds) :
    inner2p mul add s Bc a m c nt dflt sch =
      put s c (Inner.spgemm2p mul add A Bc M C.zerobased nt dflt sch) := by
  unfold inner2p Inner.spgemm2p put
  rw [fetch_full hA, fetch_full hM, fetch_full hC]
  simp only [ok_bind]
  have e1 : viewOf A a c = fun _ => View.ofCSR A := by funext g; unfold viewOf; rw [if_neg hac]
  have e2 : viewOf M m c = fun _ => View.ofCSR M := by funext g; unfold viewOf; rw [if_neg hmc]
  rw [e1, e2]
  generalize setNumThreads nt dflt = n
  cases Inner.prepare A Bc M n sch with
  | error e => rfl
  | ok p =>
  cases p with
  | none => rfl
  | some p =>
  obtain ⟨wpr, work, cum⟩ := p
  simp only [ok_bind]
  cases setup n (Inner.init2 A n work cum) with
  | error e => rfl
  | ok ls =>
  simp only [ok_bind]
  cases setup n (distributeWork work cum A.rows n) with
  | error e => rfl
  | ok rngs =>
  simp only [ok_bind]
  cases ls with
  | nil => rfl
  | cons l0 ls =>
  simp only
  cases phase n (Inner.step2 A Bc M wpr) (·.done) sch.first
      { rowNvals := List.replicate M.rows none, threadsNvals := List.replicate n none }
      (fun t => (l0 :: ls).getD t l0) with
  | error e => rfl
  | ok r =>
  cases r with
  | none => rfl
  | some r =>
  obtain ⟨g, ls'⟩ := r
  simp only [ok_bind, initRef, rowsOf, fetch_full hA]
  cases initC A.rows n g with
  | error e => rfl
  | ok g =>
  simp only [ok_bind, step4_ofCSR]
  cases phase n (Inner.step4 mul add A Bc M wpr n (fun t => rngs.getD t (0, 0))) (·.fin)
          sch.second g (fun _ => .start) with
  | error e => rfl
  | ok r =>
  cases r with
  | none => rfl
  | some r =>
  simp only [ok_bind]
  cases freeze A.rows Bc.cols C.zerobased r.1 with
  | error e => rfl
  | ok R =>
    simp only [ok_bind, makeEmpty, upd_upd]
    rfl

/-! ## Two-phase inner product on an object that is input and output -/

theorem runs_pres {σ l : Type} {n : Nat} {step : Nat → σ → l → Res (σ × l)} {fin : l → Bool} (G : σ → Prop)
    (L : l → Prop) (hstep : ∀ t g x g' x', G g → L x → step t g x = .ok (g', x') → G g' ∧ L x') :
    ∀ (sched : List Nat) (g : σ) (ls : Nat → l) (g' : σ) (ls' : Nat → l), G g → (∀ t, L (ls t)) →
      runs n step fin sched g ls = .ok (g', ls') → G g' := by
  intro sched
  induction sched with
  | nil => intro g ls g' ls' hG _ h; cases h; exact hG
  | cons t ts ih =>
    intro g ls g' ls' hG hL h
    unfold runs at h
    split at h
    · cases hs : step t g (ls t) with
      | error e => rw [hs] at h; cases h
      | ok r =>
        rw [hs] at h
        obtain ⟨g1, x1⟩ := r
        obtain ⟨h1, h2⟩ := hstep t g (ls t) g1 x1 hG (hL t) hs
        refine ih g1 (upd ls t x1) g' ls' h1 ?_ h
        intro u
        by_cases hu : u = t
        · subst hu; rw [upd_same]; exact h2
        · rw [upd_ne _ _ hu]; exact hL u
    · exact ih g ls g' ls' hG hL h

/-- no cell is set -/
def Unset {α : Type} (l : List (Option α)) : Prop := ∀ (i : Nat) (x : α), l[i]? ≠ some (some x)

theorem Unset.rdu {α : Type} {l : List (Option α)} (h : Unset l) (i : Nat) (x : α) : rdu l i ≠ .ok x := by
  intro hx
  unfold Scan.rdu rd at hx
  cases hl : l[i]? with
  | none => rw [hl] at hx; cases hx
  | some o =>
    rw [hl] at hx
    cases o with
    | none => cases hx
    | some y => exact h i y hl

theorem bind_ok' {α β : Type _} {r : Res α} {f : α → Res β} {b : β} (h : (r >>= f) = .ok b) :
    ∃ a, r = .ok a ∧ f a = .ok b := by
  cases r with
  | error e => cases h
  | ok a => exact ⟨a, rfl, h⟩

theorem foldlM_pres {α σ : Type} {f : σ → α → Res σ} (P : σ → Prop) (h : ∀ s a s', P s → f s a = .ok s' → P s') :
    ∀ (l : List α) (s s' : σ), P s → l.foldlM f s = .ok s' → P s' := by
  intro l
  induction l with
  | nil => intro s s' hs e; cases e; exact hs
  | cons a l ih =>
    intro s s' hs e
    rw [List.foldlM_cons] at e
    obtain ⟨s1, e1, e2⟩ := bind_ok' e
    exact ih s1 s' (h s a s1 hs e1) e2

theorem mergeNum_unset {mul add : V → V → V} {A : View V} (hA : Unset A.colids) (B : CSC V) (ae be fuel ia ib : Nat)
    (v r : Option V) : mergeNum mul add A B ae be fuel ia ib v ≠ .ok r := by
  intro h
  cases fuel with
  | zero => cases h
  | succ fuel =>
    unfold mergeNum at h
    obtain ⟨a, h1, _⟩ := bind_ok' h
    exact hA.rdu _ _ h1

/-- A row that needs cells of an object under construction is empty, if it returns at all. -/
theorem numericRow_unset {mul add : V → V → V} {A M : View V} (h : Unset A.colids ∨ Unset M.colids) (B : CSC V)
    (row : Nat) (em : List (Nat × V)) (he : numericRow mul add A B M row = .ok em) : em = [] := by
  unfold numericRow at he
  obtain ⟨lo, _, he⟩ := bind_ok' he
  obtain ⟨hi, _, he⟩ := bind_ok' he
  unfold forRange at he
  refine foldlM_pres (fun out => out = []) ?_ _ _ _ rfl he
  intro out j out' ho h1
  obtain ⟨ia, _, h1⟩ := bind_ok' h1
  obtain ⟨ae, _, h1⟩ := bind_ok' h1
  split at h1
  · cases h1; exact ho
  obtain ⟨c, hc, h1⟩ := bind_ok' h1
  obtain ⟨ib, _, h1⟩ := bind_ok' h1
  obtain ⟨be, _, h1⟩ := bind_ok' h1
  split at h1
  · cases h1; exact ho
  obtain ⟨v, hv, h1⟩ := bind_ok' h1
  rcases h with h | h
  · exact absurd hv (mergeNum_unset h _ _ _ _ _ _ _ _)
  · exact absurd hc (h.rdu _ _)

/-- nothing to be stored -/
def Quiet : Inner.Ctl4 V → Prop
  | .flushC _ em _ _ => em = []
  | .flushV _ _ _ _ _ => False
  | _ => True

theorem step4_unset {mul add : V → V → V} {inA inM : Sh V → View V}
    (hin : ∀ g, Unset g.colids → Unset (inA g).colids ∨ Unset (inM g).colids) {B : CSC V}
    {wpr : List (Option Nat)} {rows n : Nat} {rng : Nat → Nat × Nat} (t : Nat) (g : Sh V) (x : Inner.Ctl4 V)
    (g' : Sh V) (x' : Inner.Ctl4 V) (hg : Unset g.colids) (hx : Quiet x)
    (h : step4 mul add inA inM B wpr rows n rng t g x = .ok (g', x')) : Unset g'.colids ∧ Quiet x' := by
  cases x with
  | start =>
    obtain ⟨_, _, h⟩ := bind_ok' h
    cases h; exact ⟨hg, trivial⟩
  | offs i off =>
    unfold step4 at h
    simp only at h
    split at h
    · obtain ⟨_, _, h⟩ := bind_ok' h
      obtain ⟨_, _, h⟩ := bind_ok' h
      cases h; exact ⟨hg, trivial⟩
    · cases h; exact ⟨hg, trivial⟩
  | last off =>
    unfold step4 at h
    simp only at h
    split at h
    · obtain ⟨_, _, h⟩ := bind_ok' h
      cases h; exact ⟨hg, trivial⟩
    · cases h; exact ⟨hg, trivial⟩
  | base =>
    obtain ⟨_, _, h⟩ := bind_ok' h
    cases h; exact ⟨hg, trivial⟩
  | row r cur =>
    unfold step4 at h
    simp only at h
    split at h
    · obtain ⟨w, _, h⟩ := bind_ok' h
      split at h
      · obtain ⟨_, _, h⟩ := bind_ok' h
        cases h; exact ⟨hg, trivial⟩
      · obtain ⟨em, he, h⟩ := bind_ok' h
        cases h; exact ⟨hg, numericRow_unset (hin g hg) _ _ _ he⟩
    · cases h; exact ⟨hg, trivial⟩
  | flushC r em beg cur =>
    have : em = [] := hx
    subst this
    obtain ⟨_, _, h⟩ := bind_ok' h
    obtain ⟨_, _, h⟩ := bind_ok' h
    obtain ⟨_, _, h⟩ := bind_ok' h
    cases h; exact ⟨hg, trivial⟩
  | flushV r v em beg cur => exact absurd hx id
  | done => cases h; exact ⟨hg, trivial⟩

theorem mapM_use_unset {α : Type} {l : List (Option α)} (h : Unset l) {r : List α} (e : l.mapM use = .ok r) :
    l = [] := by
  cases l with
  | nil => rfl
  | cons o l =>
    rw [List.mapM_cons] at e
    obtain ⟨x, hx, _⟩ := bind_ok' e
    cases o with
    | none => cases hx
    | some y => exact absurd rfl (h 0 y)

/-- Whatever the inputs and the schedule: a call that returns, returns an empty matrix. -/
theorem inner2p_alias {s s' : Store V} {a m c : Nat} (hal : a = c ∨ m = c) (mul add : V → V → V) (Bc : CSC V)
    (nt dflt : Nat) (sch : Scheds) (h : inner2p mul add s Bc a m c nt dflt sch = .ok (some s')) :
    ∃ R, s' c = .full R ∧ R.nnz = 0 := by
  unfold inner2p at h
  obtain ⟨A, hA, h⟩ := bind_ok' h
  obtain ⟨M, hM, h⟩ := bind_ok' h
  obtain ⟨C, hC, h⟩ := bind_ok' h
  simp only at h
  generalize setNumThreads nt dflt = n at h
  obtain ⟨p, _, h⟩ := bind_ok' h
  cases p with
  | none => cases h
  | some p =>
  obtain ⟨wpr, work, cum⟩ := p
  simp only at h
  obtain ⟨ls, _, h⟩ := bind_ok' h
  obtain ⟨rngs, _, h⟩ := bind_ok' h
  cases ls with
  | nil => cases h
  | cons l0 ls =>
  simp only at h
  obtain ⟨r, _, h⟩ := bind_ok' h
  cases r with
  | none => cases h
  | some r =>
  obtain ⟨g, ls'⟩ := r
  simp only at h
  obtain ⟨q, hq, h⟩ := bind_ok' h
  unfold initRef at hq
  obtain ⟨nrows, _, hq⟩ := bind_ok' hq
  obtain ⟨ncols, _, hq⟩ := bind_ok' hq
  simp only at hq
  obtain ⟨g1, hg1, hq⟩ := bind_ok' hq
  cases hq
  simp only at h
  obtain ⟨r, hr, h⟩ := bind_ok' h
  cases r with
  | none => cases h
  | some r =>
  obtain ⟨g2, ls2⟩ := r
  simp only at h
  obtain ⟨R, hR, h⟩ := bind_ok' h
  cases h
  refine ⟨R, by rw [upd_same], ?_⟩
  have hu1 : Unset g1.colids := by
    unfold initC at hg1
    obtain ⟨nnz, _, hg1⟩ := bind_ok' hg1
    cases hg1
    intro i x hx
    simp only at hx
    rw [List.getElem?_replicate] at hx
    split at hx <;> cases hx
  have hu2 : Unset g2.colids := by
    unfold phase at hr
    obtain ⟨⟨g3, ls3⟩, h3, hr⟩ := bind_ok' hr
    have h4 := runs_pres (fun g => Unset g.colids) Quiet
      (step4_unset (mul := mul) (add := add) (inA := viewOf A a c) (inM := viewOf M m c) (B := Bc) (wpr := wpr) (rows := nrows) (n := n)
        (rng := fun t => rngs.getD t (0, 0)) (by
          intro g hg
          rcases hal with e | e
          · left; unfold viewOf; rw [if_pos e]; exact hg
          · right; unfold viewOf; rw [if_pos e]; exact hg))
      sch.second g1 (fun _ => .start) g3 ls3 hu1 (fun _ => trivial) h3
    simp only [Except.ok.injEq] at hr
    split at hr
    · cases hr; exact h4
    · cases hr
  unfold freeze at hR
  obtain ⟨_, _, hR⟩ := bind_ok' hR
  obtain ⟨cs, hcs, hR⟩ := bind_ok' hR
  obtain ⟨_, _, hR⟩ := bind_ok' hR
  cases hR
  simp [mapM_use_unset hu2 hcs]

end Verif.Model.Alias
