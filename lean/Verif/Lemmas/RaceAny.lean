import Verif.Lemmas.RaceGen
import Verif.Lemmas.Poly

/-! # Conflicts in calls of the generic heap driver with an arbitrary row algorithm -/

namespace Verif.Model.Gen

open Race
open Bin (nprod)

variable {V σ l : Type}

/-- Rule for traces with an assertion that steps keep if they succeed. -/
theorem trace_part {m : Mem V σ} {n : Nat} {prog : Nat → l → Prog V l} {step : Nat → σ → l → Res (σ × l)} {fin : l → Bool}
    (he : ∀ t x g, (prog t x).exec m g = step t g x) (I : Nat → σ → l → Prop)
    (hstep : ∀ t g x g' x', t < n → I t g x → step t g x = .ok (g', x') → I t g' x' ∧ ∀ u y, u < n → u ≠ t → I u g y → I u g' y)
    (Own : Nat → Access → Prop) (hown : ∀ t g x, t < n → I t g x → ∀ a ∈ (prog t x).accesses m g, Own t a) :
    ∀ (sched : List Nat) (g : σ) (ls : Nat → l), (∀ t, t < n → I t g (ls t)) →
    ∀ e ∈ trace m n prog fin sched g ls, e.1 < n ∧ Own e.1 e.2 := by
  intro sched
  induction sched with
  | nil => intro g ls _ e he; cases he
  | cons t ts ih =>
    intro g ls h e hmem
    unfold trace at hmem
    by_cases hc : t < n ∧ fin (ls t) = false
    · rw [if_pos hc] at hmem
      rcases List.mem_append.1 hmem with hm | hm
      · obtain ⟨a, ha, rfl⟩ := List.mem_map.1 hm
        exact ⟨hc.1, hown t g (ls t) hc.1 (h t hc.1) a ha⟩
      · rw [he] at hm
        cases hx : step t g (ls t) with
        | error e => rw [hx] at hm; cases hm
        | ok r =>
          rw [hx] at hm
          obtain ⟨h1, h2⟩ := hstep t g (ls t) r.1 r.2 hc.1 (h t hc.1) hx
          refine ih r.1 (upd ls t r.2) ?_ e hm
          intro u hu
          by_cases hut : u = t
          · subst hut; rw [upd_same]; exact h1
          · rw [upd_ne _ _ hut]; exact h2 u _ hu hut (h u hu)
    · rw [if_neg hc] at hmem
      exact ih g ls h e hmem

/-! ## Behind the barrier -/

/-- Footprint of a thread; `nv` are the numbers of entries of the threads. -/
def OwnC (nv b : Nat → Nat) (rows n t : Nat) (a : Access) : Prop :=
  ((a.arr = .rowNvals ∨ a.arr = .threadsNvals) ∧ a.write = false) ∨
  (a.arr = .rowptr ∧ ((b t ≤ a.idx ∧ a.idx < b (t + 1)) ∨ (a.idx = rows ∧ t = n - 1))) ∨
  ((a.arr = .colids ∨ a.arr = .values) ∧ psum nv t ≤ a.idx ∧ a.idx < psum nv (t + 1))

theorem no_conflict_C {nv b : Nat → Nat} {rows n : Nat} (hs : Split b rows n) {x y : Nat × Access} (hx1 : x.1 < n) (hy1 : y.1 < n)
    (hx : OwnC nv b rows n x.1 x.2) (hy : OwnC nv b rows n y.1 y.2) : ¬ Conflict x y := by
  rintro ⟨h1, h2, h3, h4⟩
  have hle1 := hs.le (x.1 + 1)
  have hle2 := hs.le (y.1 + 1)
  rcases hx with ⟨e1, a1⟩ | ⟨e1, a1⟩ | ⟨e1, a1, a2⟩ <;> rcases hy with ⟨e2, c1⟩ | ⟨e2, c1⟩ | ⟨e2, c1, c2⟩
  · rw [a1, c1] at h4; simp at h4
  · rw [h2, e2] at e1; simp at e1
  · rw [h2] at e1; rcases e1 with e1 | e1 <;> rw [e1] at e2 <;> simp at e2
  · rw [← h2, e1] at e2; simp at e2
  · rcases a1 with ⟨a1, a2⟩ | ⟨a1, a2⟩ <;> rcases c1 with ⟨c1, c2⟩ | ⟨c1, c2⟩
    · exact h1 (split_disj hs hx1 hy1 a1 a2 (by omega) (by omega))
    · omega
    · omega
    · omega
  · rw [← h2, e1] at e2; simp at e2
  · rw [← h2] at e2; rcases e2 with e2 | e2 <;> rw [e2] at e1 <;> simp at e1
  · rw [h2, e2] at e1; simp at e1
  · rcases Nat.lt_trichotomy x.1 y.1 with h | h | h
    · have := psum_mono (f := nv) (show x.1 + 1 ≤ y.1 by omega); omega
    · exact h1 h
    · have := psum_mono (f := nv) (show y.1 + 1 ≤ x.1 by omega); omega

/-- The first row pointer of thread `t` is set. -/
def Set0 (nv b : Nat → Nat) (t : Nat) (g : Sh V) : Prop := g.rowptr[b t]? = some (some (psum nv t))

/-- Assertion of thread `t` behind the barrier. -/
def IC (nv b : Nat → Nat) (n t : Nat) (g : Sh V) (c : Ctl3) : Prop :=
  (∀ u < n, Has g.threadsNvals nv u) ∧
  match c with
  | .start => True
  | .offs i off => b t ≤ i ∧ i ≤ b (t + 1) ∧ (i = b t → off = psum nv t) ∧ (b t < i → Set0 nv b t g)
  | .last off => (b t = b (t + 1) → off = psum nv t) ∧ (b t < b (t + 1) → Set0 nv b t g)
  | .baseC => Set0 nv b t g
  | .copyC base _ => base = some (psum nv t) ∧ Set0 nv b t g
  | .baseV => Set0 nv b t g
  | .copyV base _ => base = some (psum nv t)
  | .done => True

/-- What thread `t` asserts is kept if its first row pointer is. -/
theorem IC.mono {nv b : Nat → Nat} {n t : Nat} {g g' : Sh V} {c : Ctl3} (h : IC nv b n t g c) (htn : g'.threadsNvals = g.threadsNvals)
    (h0 : Set0 nv b t g → Set0 nv b t g') : IC nv b n t g' c := by
  obtain ⟨h1, h2⟩ := h
  refine ⟨by rw [htn]; exact h1, ?_⟩
  cases c with
  | start => trivial
  | offs i off => exact ⟨h2.1, h2.2.1, h2.2.2.1, fun h => h0 (h2.2.2.2 h)⟩
  | last off => exact ⟨h2.1, fun h => h0 (h2.2 h)⟩
  | baseC => exact h0 h2
  | copyC base k => exact ⟨h2.1, h0 h2.2⟩
  | baseV => exact h0 h2
  | copyV base k => exact h2
  | done => trivial

theorem wr_set {α : Type} {l l' : List α} {i : Nat} {x : α} (h : wr l i x = .ok l') : i < l.length ∧ l' = l.set i x := by
  unfold wr at h
  split at h
  · next hi => cases h; exact ⟨hi, rfl⟩
  · cases h

theorem rd_get {α : Type} {l : List α} {i : Nat} {x : α} (h : rd l i = .ok x) : l[i]? = some x := by
  unfold rd at h
  split at h
  · next y hy => cases h; exact hy
  · cases h

theorem mapM_get {α β : Type} {f : α → Res β} : ∀ {xs : List α} {ys : List β}, xs.mapM f = .ok ys → ∀ {i : Nat} {x : α},
    xs[i]? = some x → ∃ y, ys[i]? = some y ∧ f x = .ok y := by
  intro xs
  induction xs with
  | nil => intro ys _ i x h; simp at h
  | cons a xs ih =>
    intro ys h i x hx
    rw [List.mapM_cons] at h
    obtain ⟨y, hy, h⟩ := Race.bind_ok h
    obtain ⟨zs, hzs, h⟩ := Race.bind_ok h
    cases h
    cases i with
    | zero => simp at hx; subst hx; exact ⟨y, rfl, hy⟩
    | succ i => exact ih hzs (by simpa using hx)

section
variable {nv b : Nat → Nat} {rows n : Nat} {rng : Nat → Nat × Nat} {outs : Nat → List (Nat × V)}

theorem step3_part (hs : Split b rows n) (hne : ∀ t, t + 1 < n → b t < b (t + 1)) (hr : ∀ t < n, rng t = (b t, b (t + 1))) :
    ∀ (t : Nat) (g : Sh V) (x : Ctl3) (g' : Sh V) (x' : Ctl3), t < n → IC nv b n t g x → step3 rows n rng outs t g x = .ok (g', x') →
      IC nv b n t g' x' ∧ ∀ u y, u < n → u ≠ t → IC nv b n u g y → IC nv b n u g' y := by
  intro t g x g' x' ht hI h
  have htn := hI.1
  have hbt := hs.mono t ht
  have hle := hs.le (t + 1)
  cases x with
  | start =>
    simp only [step3] at h
    obtain ⟨o, ho, h⟩ := Race.bind_ok h
    cases h
    rw [accumulate_eq (fun u hu => htn u (by omega))] at ho
    cases ho
    refine ⟨⟨htn, ?_⟩, fun u y _ _ hy => hy⟩
    rw [hr t ht]
    exact ⟨Nat.le_refl _, hbt, fun _ => rfl, fun h => absurd h (Nat.lt_irrefl _)⟩
  | offs i off =>
    obtain ⟨-, h1, h2, h3, h4⟩ := hI
    simp only [step3, hr t ht] at h
    split at h
    · next hi =>
      obtain ⟨rp, hrp, h⟩ := Race.bind_ok h
      obtain ⟨k, -, h⟩ := Race.bind_ok h
      cases h
      obtain ⟨hl, rfl⟩ := wr_set hrp
      refine ⟨⟨htn, by omega, by omega, fun h => by omega, fun _ => ?_⟩, fun u y hu hut hy => hy.mono rfl fun h0 => ?_⟩
      · unfold Set0
        by_cases hib : i = b t
        · subst hib
          rw [h3 rfl]
          simp [hl]
        · rw [List.getElem?_set_ne hib]
          exact h4 (by omega)
      · unfold Set0 at *
        rw [List.getElem?_set_ne]
        · exact h0
        · rintro rfl
          rcases Nat.lt_or_ge (u + 1) n with h | h
          · have := hne u h
            exact hut (split_disj hs hu ht (Nat.le_refl _) this h1 hi)
          · have hun : u + 1 = n := by omega
            rcases Nat.lt_or_ge (b u) (b (u + 1)) with h' | h'
            · exact hut (split_disj hs hu ht (Nat.le_refl _) h' h1 hi)
            · rw [hun, hs.last] at h'
              omega
    · next hi =>
      cases h
      refine ⟨⟨htn, fun h => h3 (by omega), fun h => h4 (by omega)⟩, fun u y _ _ hy => hy⟩
  | last off =>
    obtain ⟨-, h1, h2⟩ := hI
    simp only [step3] at h
    split at h
    · next hl =>
      obtain ⟨rp, hrp, h⟩ := Race.bind_ok h
      cases h
      obtain ⟨hlen, rfl⟩ := wr_set hrp
      have hlast : b (t + 1) = rows := by rw [show t + 1 = n by omega, hs.last]
      refine ⟨⟨htn, ?_⟩, fun u y hu hut hy => hy.mono rfl fun h0 => ?_⟩
      · show Set0 nv b t _
        unfold Set0
        by_cases hib : b t = b (t + 1)
        · rw [h1 hib, hib, hlast]
          simp [hlen]
        · rw [List.getElem?_set_ne (by omega)]
          exact h2 (by omega)
      · unfold Set0 at *
        rw [List.getElem?_set_ne]
        · exact h0
        · rintro rfl
          have := hne u (by omega)
          have := hs.le (u + 1)
          omega
    · next hl =>
      cases h
      exact ⟨⟨htn, h2 (hne t (by omega))⟩, fun u y _ _ hy => hy⟩
  | baseC =>
    simp only [step3, hr t ht] at h
    obtain ⟨o, ho, h⟩ := Race.bind_ok h
    cases h
    have h0 : Set0 nv b t g := hI.2
    have := rd_get ho
    unfold Set0 at h0
    rw [h0] at this
    exact ⟨⟨htn, (Option.some.inj this).symm, h0⟩, fun u y _ _ hy => hy⟩
  | copyC base k =>
    obtain ⟨-, h1, h2⟩ := hI
    simp only [step3] at h
    obtain ⟨c, -, h⟩ := Race.bind_ok h
    split at h
    · obtain ⟨d, -, h⟩ := Race.bind_ok h
      obtain ⟨z, -, h⟩ := Race.bind_ok h
      obtain ⟨cs, -, h⟩ := Race.bind_ok h
      cases h
      exact ⟨⟨htn, h1, h2⟩, fun u y _ _ hy => hy.mono rfl fun h0 => h0⟩
    · cases h
      exact ⟨⟨htn, h2⟩, fun u y _ _ hy => hy⟩
  | baseV =>
    simp only [step3, hr t ht] at h
    obtain ⟨o, ho, h⟩ := Race.bind_ok h
    cases h
    have h0 : Set0 nv b t g := hI.2
    have := rd_get ho
    unfold Set0 at h0
    rw [h0] at this
    exact ⟨⟨htn, (Option.some.inj this).symm⟩, fun u y _ _ hy => hy⟩
  | copyV base k =>
    obtain ⟨-, h1⟩ := hI
    simp only [step3] at h
    obtain ⟨c, -, h⟩ := Race.bind_ok h
    split at h
    · obtain ⟨d, -, h⟩ := Race.bind_ok h
      obtain ⟨z, -, h⟩ := Race.bind_ok h
      obtain ⟨cs, -, h⟩ := Race.bind_ok h
      cases h
      exact ⟨⟨htn, h1⟩, fun u y _ _ hy => hy.mono rfl fun h0 => h0⟩
    · cases h
      exact ⟨⟨htn, trivial⟩, fun u y _ _ hy => hy⟩
  | done =>
    simp only [step3] at h
    cases h
    exact ⟨⟨htn, trivial⟩, fun u y _ _ hy => hy⟩

theorem own_prog3_part (hs : Split b rows n) (hne : ∀ t, t + 1 < n → b t < b (t + 1)) (hr : ∀ t < n, rng t = (b t, b (t + 1))) :
    ∀ (t : Nat) (g : Sh V) (x : Ctl3), t < n → IC nv b n t g x →
      ∀ a ∈ (prog3 rows n rng outs t x).accesses shMem g, OwnC nv b rows n t a := by
  intro t g x ht hI a ha
  have hbt := hs.mono t ht
  have hread : ∀ v, rd g.threadsNvals t = .ok v → v = some (nv t) := by
    intro v hv
    have := rd_get hv
    rw [hI.1 t ht] at this
    exact (Option.some.inj this).symm
  have hptr : OwnC nv b rows n t ⟨.rowptr, b t, false⟩ := by
    refine Or.inr (Or.inl ⟨rfl, ?_⟩)
    rcases Nat.lt_or_ge (t + 1) n with h | h
    · exact Or.inl ⟨Nat.le_refl _, hne t h⟩
    · have : b (t + 1) = rows := by rw [show t + 1 = n by omega, hs.last]
      rcases Nat.lt_or_ge (b t) (b (t + 1)) with h' | h'
      · exact Or.inl ⟨Nat.le_refl _, h'⟩
      · exact Or.inr ⟨by show b t = rows; omega, by omega⟩
  have hsum : psum nv (t + 1) = psum nv t + nv t := rfl
  unfold prog3 at ha
  cases x with
  | start =>
    rcases mem_accesses_sumLoads ha with ⟨i, -, -, rfl⟩ | ⟨s, ha⟩
    · exact Or.inl ⟨Or.inr rfl, rfl⟩
    · cases ha
  | offs i off =>
    obtain ⟨-, h1, h2, h3, h4⟩ := hI
    simp only [hr t ht] at ha
    split at ha
    · next hi =>
      rcases mem_accesses_store ha with rfl | ⟨g', ha⟩
      · exact Or.inr (Or.inl ⟨rfl, Or.inl ⟨h1, hi⟩⟩)
      · rcases mem_accesses_load ha with rfl | ⟨v, -, ha⟩
        · exact Or.inl ⟨Or.inl rfl, rfl⟩
        · obtain ⟨y, -, ha⟩ := mem_accesses_lift ha
          cases ha
    · cases ha
  | last off =>
    simp only at ha
    split at ha
    · next hl =>
      rcases mem_accesses_store ha with rfl | ⟨g', ha⟩
      · exact Or.inr (Or.inl ⟨rfl, Or.inr ⟨rfl, hl⟩⟩)
      · cases ha
    · cases ha
  | baseC =>
    simp only [hr t ht] at ha
    rcases mem_accesses_load ha with rfl | ⟨v, -, ha⟩
    · exact hptr
    · cases ha
  | copyC base k =>
    obtain ⟨-, h1, -⟩ := hI
    subst h1
    rcases mem_accesses_load ha with rfl | ⟨v, hv, ha⟩
    · exact Or.inl ⟨Or.inr rfl, rfl⟩
    · rw [hread v hv] at ha
      obtain ⟨y, hy, ha⟩ := mem_accesses_lift ha
      have hy' : y = nv t := by simpa using hy.symm
      subst hy'
      split at ha
      · next hk =>
        obtain ⟨d, hd, ha⟩ := mem_accesses_lift ha
        have hd' : d = psum nv t := by simpa using hd.symm
        subst hd'
        obtain ⟨z, -, ha⟩ := mem_accesses_lift ha
        rcases mem_accesses_store ha with rfl | ⟨g', ha⟩
        · exact Or.inr (Or.inr ⟨Or.inl rfl, by simp only; omega, by simp only; omega⟩)
        · cases ha
      · cases ha
  | baseV =>
    simp only [hr t ht] at ha
    rcases mem_accesses_load ha with rfl | ⟨v, -, ha⟩
    · exact hptr
    · cases ha
  | copyV base k =>
    obtain ⟨-, h1⟩ := hI
    subst h1
    rcases mem_accesses_load ha with rfl | ⟨v, hv, ha⟩
    · exact Or.inl ⟨Or.inr rfl, rfl⟩
    · rw [hread v hv] at ha
      obtain ⟨y, hy, ha⟩ := mem_accesses_lift ha
      have hy' : y = nv t := by simpa using hy.symm
      subst hy'
      split at ha
      · next hk =>
        obtain ⟨d, hd, ha⟩ := mem_accesses_lift ha
        have hd' : d = psum nv t := by simpa using hd.symm
        subst hd'
        obtain ⟨z, -, ha⟩ := mem_accesses_lift ha
        rcases mem_accesses_storeV ha with rfl | ⟨g', ha⟩
        · exact Or.inr (Or.inr ⟨Or.inr rfl, by simp only; omega, by simp only; omega⟩)
        · cases ha
      · cases ha
  | done => cases ha

end

/-! ## Before the barrier -/

section
variable {alg : Alg V} {mul add : V → V → V} {A B M : CSR V}

/-- Rows of thread `t`. -/
def LC {X : Type} (b : Nat → Nat) (t : Nat) (x : Loc X V) : Prop := b t ≤ x.row ∧ x.stop = b (t + 1)

theorem step_local {b : Nat → Nat} {t : Nat} {g g' : Sh V} {x x' : Loc alg.Aux V} (hL : LC b t x)
    (h : step alg mul add A B M t g x = .ok (g', x')) : LC b t x' := by
  unfold step at h
  split at h
  · obtain ⟨⟨y, bf, k⟩, -, h⟩ := Race.bind_ok h
    cases k with
    | none => cases h; exact ⟨Nat.le_succ_of_le hL.1, hL.2⟩
    | some k =>
      obtain ⟨rn, -, h⟩ := Race.bind_ok h
      cases h; exact ⟨Nat.le_succ_of_le hL.1, hL.2⟩
  · obtain ⟨tn, -, h⟩ := Race.bind_ok h
    cases h; exact hL

theorem own_local {b : Nat → Nat} {t : Nat} {g : Sh V} {x : Loc alg.Aux V} (hL : LC b t x) :
    ∀ a ∈ (prog alg mul add A B M t x).accesses shMem g, OwnA b t a := by
  intro a ha
  unfold prog at ha
  split at ha
  · next hrow =>
    obtain ⟨⟨y, bf, k⟩, -, ha⟩ := mem_accesses_lift ha
    cases k with
    | none => cases ha
    | some k =>
      rcases mem_accesses_store ha with rfl | ⟨g', ha⟩
      · exact Or.inl ⟨rfl, hL.1, hL.2 ▸ hrow⟩
      · cases ha
  · rcases mem_accesses_store ha with rfl | ⟨g', ha⟩
    · exact Or.inr ⟨rfl, rfl⟩
    · cases ha

/-- All counters have a value. -/
def AllSet (n : Nat) (g : Sh V) : Prop := ∀ t < n, ∃ v, g.threadsNvals[t]? = some (some v)

theorem step_set {n t : Nat} {g g' : Sh V} {x x' : Loc alg.Aux V} (hG : AllSet n g) (h : step alg mul add A B M t g x = .ok (g', x')) :
    AllSet n g' := by
  unfold step at h
  split at h
  · obtain ⟨⟨y, bf, k⟩, -, h⟩ := Race.bind_ok h
    cases k with
    | none => cases h; exact hG
    | some k =>
      obtain ⟨rn, -, h⟩ := Race.bind_ok h
      cases h; exact hG
  · obtain ⟨tn, htn, h⟩ := Race.bind_ok h
    cases h
    obtain ⟨hl, rfl⟩ := wr_set htn
    intro u hu
    by_cases hut : t = u
    · subst hut
      exact ⟨x.nvals, by simp [hl]⟩
    · obtain ⟨v, hv⟩ := hG u hu
      exact ⟨v, by rw [← hv]; exact List.getElem?_set_ne hut⟩

theorem conflicts_any (hA : A.WF) (hB : B.WF) (hAB : A.cols = B.rows)
    (hrows : 0 < A.rows) (zero : V) {nt dflt : Nat} (hd : 0 < dflt) (hbig : A.rows < 2 ^ 17 ∨ dflt ≤ A.rows) (sch : Scheds)
    (ho : sch.flops.Perm (List.range A.rows)) (hne : ¬ Idle true A B M (setNumThreads nt dflt)) :
    ∀ tr ∈ traces alg mul add zero A B M nt dflt sch, ¬ Racy tr := by
  have hn : 0 < setNumThreads nt dflt := by unfold setNumThreads; split <;> omega
  rintro tr htr ⟨x, hx, y, hy, hcf⟩
  unfold Idle at hne
  simp only [rowOf_true] at hne
  unfold traces at htr
  generalize setNumThreads nt dflt = n at *
  simp only at htr
  rcases List.mem_cons.1 htr with rfl | htr
  · obtain ⟨i, -, rfl⟩ := List.mem_map.1 hx
    obtain ⟨j, -, rfl⟩ := List.mem_map.1 hy
    exact hcf.1 hcf.2.2.1
  rcases plan_ok hA hB hAB hrows hd hbig sch ho with ⟨h, -⟩ | h
  · rw [h] at htr; cases htr
  rw [h] at htr
  simp only [ranges_ok] at htr
  have hs : Split (cut A B n) A.rows n := split_bnd _ _ A.rows hn
  have hlt : ∀ t, t + 1 < n → cut A B n t < cut A B n (t + 1) := by
    intro t ht
    have := hs.mono t (by omega)
    rcases Nat.lt_or_ge (cut A B n t) (cut A B n (t + 1)) with h' | h'
    · exact h'
    · exact absurd ⟨t, ht, Nat.le_antisymm this h'⟩ hne
  cases hls : ((List.range n).map fun t => (cut A B n t, cut A B n (t + 1))).mapM (start alg zero A M (tab A.rows (nprod A B))) with
  | error e => rw [hls] at htr; cases htr
  | ok ls =>
  rw [hls] at htr
  cases ls with
  | nil => cases htr
  | cons l0 ls =>
  simp only at htr
  have hL : ∀ t < n, LC (cut A B n) t ((l0 :: ls).getD t l0) := by
    intro t ht
    obtain ⟨l, h1, h2⟩ := mapM_get hls (i := t) (x := (cut A B n t, cut A B n (t + 1))) (by simp [ht])
    rw [List.getD_eq_getElem?_getD, h1]
    unfold start at h2
    obtain ⟨sz, -, h2⟩ := Race.bind_ok h2
    obtain ⟨aux, -, h2⟩ := Race.bind_ok h2
    cases h2
    exact ⟨Nat.le_refl _, rfl⟩
  rcases List.mem_cons.1 htr with rfl | htr
  · have key := trace_local (m := shMem) (prog := prog alg mul add A B M) (fin := (·.done)) (n := n) (LC (cut A B n))
      (fun t x g g' x' _ hL h => step_local hL (by rw [← exec_prog]; exact h)) (OwnA (cut A B n)) (fun t x g _ hL => own_local hL)
      sch.first { rowNvals := List.replicate A.rows (some 0), threadsNvals := List.replicate n (some 0) } _ hL
    exact no_conflict_A hs (key x hx).1 (key y hy).1 (key x hx).2 (key y hy).2 hcf
  split at htr
  · next g1 ls1 hph =>
    obtain ⟨hG, -⟩ := Poly.phase_pres (AllSet n) (fun _ _ => True) (fun t g x g' x' hG _ h => ⟨step_set hG h, trivial⟩)
      (by intro t ht; exact ⟨0, by simp [ht]⟩) (fun _ => trivial) hph
    split at htr
    · next g2 hg2 =>
      rcases List.mem_cons.1 htr with rfl | htr
      · have hnv : ∀ t, ∃ v, t < n → g1.threadsNvals[t]? = some (some v) := by
          intro t
          by_cases ht : t < n
          · obtain ⟨v, hv⟩ := hG t ht
            exact ⟨v, fun _ => hv⟩
          · exact ⟨0, fun h => absurd h ht⟩
        obtain ⟨nv, hnv⟩ := Classical.axiomOfChoice hnv
        have htn : g2.threadsNvals = g1.threadsNvals := by
          unfold alloc at hg2
          obtain ⟨k, -, hg2⟩ := Race.bind_ok hg2
          obtain ⟨rp, -, hg2⟩ := Race.bind_ok hg2
          cases hg2; rfl
        have hr : ∀ t < n, (fun t => ((List.range n).map fun t => (cut A B n t, cut A B n (t + 1))).getD t (0, 0)) t =
            (cut A B n t, cut A B n (t + 1)) := by
          intro t ht; exact list_getD_map_range _ _ ht
        have key := trace_part (fin := (· == .done)) (exec_prog3 A.rows n _ (fun t => (ls1 t).out)) (IC nv (cut A B n) n) (step3_part hs hlt hr)
          (OwnC nv (cut A B n) A.rows n) (own_prog3_part hs hlt hr) sch.second g2 (fun _ => .start)
          (fun t ht => ⟨fun u hu => by unfold Has; rw [htn]; exact hnv u hu, trivial⟩)
        exact no_conflict_C hs (key x hx).1 (key y hy).1 (key x hx).2 (key y hy).2 hcf
      · cases htr
    · cases htr
  · cases htr

end

end Verif.Model.Gen
