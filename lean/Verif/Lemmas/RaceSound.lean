import Verif.Lemmas.RaceInner
import Verif.Lemmas.RaceConvAcc

/-!
# Programs of loads and stores do nothing but what they list

Whatever a piece of a thread changes is listed as written (`writes`), and what it does depends on no cell but those that it lists as
read (`reads`).
-/

namespace Verif.Model.Race
open RaceConv (get_wr)

variable {V σ α K : Type}

/-- The arrays are found where they were put; `key` tells which names stand for the same array. -/
structure Lawful (m : Mem V σ) (key : Arr → K) : Prop where
  same : ∀ g a b, key a = key b → m.get g a = m.get g b
  other : ∀ g a b xs, key a ≠ key b → m.get (m.set g a xs) b = m.get g b
  self : ∀ g a xs, m.get g a ≠ [] → m.get (m.set g a xs) a = xs
  valSet : ∀ g a xs, m.getV (m.set g a xs) = m.getV g
  getVal : ∀ g b ys, m.get (m.setV g ys) b = m.get g b
  val : ∀ g ys, m.getV g ≠ [] → m.getV (m.setV g ys) = ys

theorem lawful_arr : Lawful arrMem (fun _ => ()) where
  same := fun _ _ _ _ => rfl
  other := fun _ _ _ _ h => absurd rfl h
  self := fun _ _ _ _ => rfl
  valSet := fun _ _ _ => rfl
  getVal := fun _ _ _ => rfl
  val := fun _ _ h => absurd rfl h

theorem lawful_sh : Lawful (shMem : Mem V (Sh V)) id where
  same := fun g a b h => congrArg _ h
  other := fun g a b xs h => by cases a <;> cases b <;> first | rfl | exact absurd rfl h
  self := fun g a xs h => by cases a <;> first | rfl | exact absurd rfl h
  valSet := fun g a xs => by cases a <;> rfl
  getVal := fun g b ys => by cases b <;> rfl
  val := fun _ _ _ => rfl

theorem lawful_buf : Lawful (bufMem : Mem V (Inner.Sh1 V)) id where
  same := fun g a b h => congrArg _ h
  other := fun g a b xs h => by cases a <;> cases b <;> first | rfl | exact absurd rfl h
  self := fun g a xs h => by cases a <;> first | rfl | exact absurd rfl h
  valSet := fun g a xs => by cases a <;> rfl
  getVal := fun g b ys => by cases b <;> rfl
  val := fun _ _ _ => rfl

theorem ne_nil_of_wr {β : Type} {xs ys : List β} {i : Nat} {x : β} (h : wr xs i x = .ok ys) : xs ≠ [] := by
  have := (RaceDot.set_of_wr h).1
  rintro rfl
  exact absurd this (Nat.not_lt_zero _)

theorem writes {m : Mem V σ} {key : Arr → K} (L : Lawful m key) (p : Prog V α) : ∀ {g : σ} {r : σ × α}, p.exec m g = .ok r →
    (∀ a k, (m.get r.1 a)[k]? ≠ (m.get g a)[k]? → ∃ a', key a' = key a ∧ ⟨a', k, true⟩ ∈ p.accesses m g) ∧
    (∀ k, (m.getV r.1)[k]? ≠ (m.getV g)[k]? → ⟨.values, k, true⟩ ∈ p.accesses m g) := by
  induction p with
  | ret a => intro g r h; cases h; exact ⟨fun _ _ h => absurd rfl h, fun _ h => absurd rfl h⟩
  | fail e => intro g r h; cases h
  | load a i k ih =>
    intro g r h
    obtain ⟨x, h1, h2⟩ := Alias.bind_ok' h
    obtain ⟨w1, w2⟩ := ih x h2
    simp only [Prog.accesses, h1]
    exact ⟨fun b j hne => (w1 b j hne).imp fun _ h => ⟨h.1, List.mem_cons_of_mem _ h.2⟩, fun j hne => List.mem_cons_of_mem _ (w2 j hne)⟩
  | store a i x k ih =>
    intro g r h
    obtain ⟨xs, h1, h2⟩ := Alias.bind_ok' h
    obtain ⟨w1, w2⟩ := ih h2
    simp only [Prog.accesses, h1]
    have hs : m.get (m.set g a xs) a = xs := L.self g a xs (ne_nil_of_wr h1)
    refine ⟨fun b j hne => ?_, fun j hne => List.mem_cons_of_mem _ (w2 j (by rwa [L.valSet]))⟩
    by_cases hb : (m.get (m.set g a xs) b)[j]? = (m.get g b)[j]?
    · exact (w1 b j (by rwa [hb])).imp fun _ h => ⟨h.1, List.mem_cons_of_mem _ h.2⟩
    · by_cases hk : key a = key b
      · by_cases hj : i = j
        · subst hj; exact ⟨a, hk, List.mem_cons_self⟩
        · refine absurd ?_ hb
          rw [← L.same _ a b hk, ← L.same _ a b hk, hs, get_wr h1 hj]
      · exact absurd (by rw [L.other _ _ _ _ hk]) hb
  | storeV i v k ih =>
    intro g r h
    obtain ⟨ys, h1, h2⟩ := Alias.bind_ok' h
    obtain ⟨w1, w2⟩ := ih h2
    simp only [Prog.accesses, h1]
    refine ⟨fun b j hne => (w1 b j (by rwa [L.getVal])).imp fun _ h => ⟨h.1, List.mem_cons_of_mem _ h.2⟩, fun j hne => ?_⟩
    by_cases hj : i = j
    · subst hj; exact List.mem_cons_self
    · exact List.mem_cons_of_mem _ (w2 j (by rwa [L.val _ _ (ne_nil_of_wr h1), get_wr h1 hj]))

/-- The arrays have the same sizes. -/
def Sizes (m : Mem V σ) (g g2 : σ) : Prop :=
  (∀ a, (m.get g2 a).length = (m.get g a).length) ∧ (m.getV g2).length = (m.getV g).length

theorem wr_ok {β : Type} {xs ys zs : List β} {i : Nat} {x : β} (h : wr xs i x = .ok ys) (hl : zs.length = xs.length) :
    wr zs i x = .ok (zs.set i x) := by
  unfold wr
  rw [if_pos (by rw [hl]; exact (RaceDot.set_of_wr h).1)]

theorem rd_ok {β : Type} {xs zs : List β} {i : Nat} {x : β} (h : rd xs i = .ok x) (he : zs[i]? = xs[i]?) : rd zs i = .ok x := by
  unfold rd at h ⊢
  rw [he]
  exact h

theorem reads {m : Mem V σ} {key : Arr → K} (L : Lawful m key) (p : Prog V α) : ∀ {g g2 : σ} {r : σ × α}, p.exec m g = .ok r → Sizes m g g2 →
    (∀ a i, ⟨a, i, false⟩ ∈ p.accesses m g → (m.get g2 a)[i]? = (m.get g a)[i]?) →
    ∃ r2, p.exec m g2 = .ok r2 ∧ r2.2 = r.2 ∧ p.accesses m g2 = p.accesses m g := by
  induction p with
  | ret a => intro g g2 r h _ _; cases h; exact ⟨_, rfl, rfl, rfl⟩
  | fail e => intro g g2 r h; cases h
  | load a i k ih =>
    intro g g2 r h hz hr
    obtain ⟨x, h1, h2⟩ := Alias.bind_ok' h
    simp only [Prog.accesses, h1] at hr
    have h3 := rd_ok h1 (hr a i List.mem_cons_self)
    obtain ⟨r2, e1, e2, e3⟩ := ih x h2 hz (fun b j hb => hr b j (List.mem_cons_of_mem _ hb))
    refine ⟨r2, ?_, e2, ?_⟩
    · simp only [Prog.exec, h3, ok_bind, e1]
    · simp only [Prog.accesses, h1, h3, e3]
  | store a i x k ih =>
    intro g g2 r h hz hr
    obtain ⟨xs, h1, h2⟩ := Alias.bind_ok' h
    simp only [Prog.accesses, h1] at hr
    have h3 := wr_ok h1 (hz.1 a)
    have n1 := ne_nil_of_wr h1
    have n2 := ne_nil_of_wr h3
    have hx := (RaceDot.set_of_wr h1).2
    have hs : ∀ b, key a = key b → m.get (m.set g a xs) b = xs := fun b hk => by rw [← L.same _ a b hk, L.self _ _ _ n1]
    have hs2 : ∀ b, key a = key b → m.get (m.set g2 a ((m.get g2 a).set i (some x))) b = (m.get g2 a).set i (some x) :=
      fun b hk => by rw [← L.same _ a b hk, L.self _ _ _ n2]
    refine (ih (g2 := m.set g2 a ((m.get g2 a).set i (some x))) h2 ⟨fun b => ?_, ?_⟩ (fun b j hb => ?_)).elim fun r2 e => ⟨r2, ?_, e.2.1, ?_⟩
    · by_cases hk : key a = key b
      · rw [hs b hk, hs2 b hk, hx, List.length_set, List.length_set, hz.1]
      · rw [L.other _ _ _ _ hk, L.other _ _ _ _ hk, hz.1]
    · rw [L.valSet, L.valSet, hz.2]
    · have hj := hr b j (List.mem_cons_of_mem _ hb)
      by_cases hk : key a = key b
      · rw [hs b hk, hs2 b hk, hx]
        by_cases hij : i = j
        · subst hij
          have hi := (RaceDot.set_of_wr h1).1
          rw [List.getElem?_set_self hi, List.getElem?_set_self (by rw [hz.1]; exact hi)]
        · rw [List.getElem?_set_ne hij, List.getElem?_set_ne hij, L.same _ a b hk, L.same _ a b hk, hj]
      · rw [L.other _ _ _ _ hk, L.other _ _ _ _ hk, hj]
    · simp only [Prog.exec, h3, ok_bind, e.1]
    · simp only [Prog.accesses, h1, h3, e.2.2]
  | storeV i v k ih =>
    intro g g2 r h hz hr
    obtain ⟨ys, h1, h2⟩ := Alias.bind_ok' h
    simp only [Prog.accesses, h1] at hr
    have h3 := wr_ok h1 hz.2
    refine (ih (g2 := m.setV g2 ((m.getV g2).set i (some v))) h2 ⟨fun b => ?_, ?_⟩ (fun b j hb => ?_)).elim fun r2 e => ⟨r2, ?_, e.2.1, ?_⟩
    · rw [L.getVal, L.getVal, hz.1]
    · rw [L.val _ _ (ne_nil_of_wr h1), L.val _ _ (ne_nil_of_wr h3), (RaceDot.set_of_wr h1).2, List.length_set, List.length_set, hz.2]
    · rw [L.getVal, L.getVal]
      exact hr b j (List.mem_cons_of_mem _ hb)
    · simp only [Prog.exec, h3, ok_bind, e.1]
    · simp only [Prog.accesses, h1, h3, e.2.2]

end Verif.Model.Race

namespace Verif.Model.RaceOld
open RaceConv (get_wr)
open Race (wr_ok rd_ok)

variable {V α : Type}

theorem writes (p : Prog V α) : ∀ {g : Mem V} {r : Mem V × α}, p.exec g = .ok r →
    (∀ k, r.1.1[k]? ≠ g.1[k]? → ⟨.numbers, k, true⟩ ∈ p.accesses g) ∧ (∀ k, r.1.2[k]? ≠ g.2[k]? → ⟨.values, k, true⟩ ∈ p.accesses g) := by
  induction p with
  | ret a => intro g r h; cases h; exact ⟨fun _ h => absurd rfl h, fun _ h => absurd rfl h⟩
  | fail e => intro g r h; cases h
  | load i k ih =>
    intro g r h
    obtain ⟨x, h1, h2⟩ := Alias.bind_ok' h
    obtain ⟨w1, w2⟩ := ih x h2
    simp only [Prog.accesses, h1]
    exact ⟨fun j hne => List.mem_cons_of_mem _ (w1 j hne), fun j hne => List.mem_cons_of_mem _ (w2 j hne)⟩
  | store i x k ih =>
    intro g r h
    obtain ⟨xs, h1, h2⟩ := Alias.bind_ok' h
    obtain ⟨w1, w2⟩ := ih h2
    simp only [Prog.accesses, h1]
    refine ⟨fun j hne => ?_, fun j hne => List.mem_cons_of_mem _ (w2 j hne)⟩
    by_cases hj : i = j
    · subst hj; exact List.mem_cons_self
    · exact List.mem_cons_of_mem _ (w1 j (by rwa [get_wr h1 hj]))
  | storeV i v k ih =>
    intro g r h
    obtain ⟨ys, h1, h2⟩ := Alias.bind_ok' h
    obtain ⟨w1, w2⟩ := ih h2
    simp only [Prog.accesses, h1]
    refine ⟨fun j hne => List.mem_cons_of_mem _ (w1 j hne), fun j hne => ?_⟩
    by_cases hj : i = j
    · subst hj; exact List.mem_cons_self
    · exact List.mem_cons_of_mem _ (w2 j (by rwa [get_wr h1 hj]))

theorem reads (p : Prog V α) : ∀ {g g2 : Mem V} {r : Mem V × α}, p.exec g = .ok r → g2.1.length = g.1.length → g2.2.length = g.2.length →
    (∀ i, ⟨.numbers, i, false⟩ ∈ p.accesses g → g2.1[i]? = g.1[i]?) →
    ∃ r2, p.exec g2 = .ok r2 ∧ r2.2 = r.2 ∧ p.accesses g2 = p.accesses g := by
  induction p with
  | ret a => intro g g2 r h _ _ _; cases h; exact ⟨_, rfl, rfl, rfl⟩
  | fail e => intro g g2 r h; cases h
  | load i k ih =>
    intro g g2 r h hn hv hr
    obtain ⟨x, h1, h2⟩ := Alias.bind_ok' h
    simp only [Prog.accesses, h1] at hr
    have h3 := rd_ok h1 (hr i List.mem_cons_self)
    obtain ⟨r2, e1, e2, e3⟩ := ih x h2 hn hv (fun j hb => hr j (List.mem_cons_of_mem _ hb))
    refine ⟨r2, ?_, e2, ?_⟩
    · simp only [Prog.exec, h3, ok_bind, e1]
    · simp only [Prog.accesses, h1, h3, e3]
  | store i x k ih =>
    intro g g2 r h hn hv hr
    obtain ⟨xs, h1, h2⟩ := Alias.bind_ok' h
    simp only [Prog.accesses, h1] at hr
    have h3 := wr_ok h1 hn
    have hx := RaceDot.set_of_wr h1
    refine (ih (g2 := (g2.1.set i x, g2.2)) h2 ?_ hv (fun j hb => ?_)).elim fun r2 e => ⟨r2, ?_, e.2.1, ?_⟩
    · rw [hx.2, List.length_set, List.length_set, hn]
    · have hj := hr j (List.mem_cons_of_mem _ hb)
      dsimp only
      rw [hx.2]
      by_cases hij : i = j
      · subst hij
        rw [List.getElem?_set_self hx.1, List.getElem?_set_self (by rw [hn]; exact hx.1)]
      · rw [List.getElem?_set_ne hij, List.getElem?_set_ne hij, hj]
    · simp only [Prog.exec, h3, ok_bind, e.1]
    · simp only [Prog.accesses, h1, h3, e.2.2]
  | storeV i v k ih =>
    intro g g2 r h hn hv hr
    obtain ⟨ys, h1, h2⟩ := Alias.bind_ok' h
    simp only [Prog.accesses, h1] at hr
    have h3 := wr_ok h1 hv
    refine (ih (g2 := (g2.1, g2.2.set i v)) h2 hn ?_ (fun j hb => ?_)).elim fun r2 e => ⟨r2, ?_, e.2.1, ?_⟩
    · rw [(RaceDot.set_of_wr h1).2, List.length_set, List.length_set, hv]
    · exact hr j (List.mem_cons_of_mem _ hb)
    · simp only [Prog.exec, h3, ok_bind, e.1]
    · simp only [Prog.accesses, h1, h3, e.2.2]

end Verif.Model.RaceOld

namespace Verif.Model.RaceDot
open RaceOld (Arr Access)
open Dot (Shared)
open RaceConv (get_wr)
open Race (wr_ok rd_ok ne_nil_of_wr)

variable {V α : Type}

theorem arr_other (g : Shared V) (a b : Arr) (xs : List Nat) (h : a ≠ b) : arr (setArr g a xs) b = arr g b := by
  cases a <;> cases b <;> first | rfl | exact absurd rfl h

theorem arr_self (g : Shared V) (a : Arr) (xs : List Nat) (h : arr g a ≠ []) : arr (setArr g a xs) a = xs := by
  cases a <;> first | rfl | exact absurd rfl h

theorem setArr_values (g : Shared V) (a : Arr) (xs : List Nat) : (setArr g a xs).values = g.values := by
  cases a <;> rfl

theorem arr_values (g : Shared V) (b : Arr) (ys : List V) : arr { g with values := ys } b = arr g b := by
  cases b <;> rfl

theorem writes (p : Prog V α) : ∀ {g : Shared V} {r : Shared V × α}, p.exec g = .ok r →
    (∀ a k, (arr r.1 a)[k]? ≠ (arr g a)[k]? → ⟨a, k, true⟩ ∈ p.accesses g) ∧
    (∀ k, r.1.values[k]? ≠ g.values[k]? → ⟨.values, k, true⟩ ∈ p.accesses g) := by
  induction p with
  | ret a => intro g r h; cases h; exact ⟨fun _ _ h => absurd rfl h, fun _ h => absurd rfl h⟩
  | fail e => intro g r h; cases h
  | load a i k ih =>
    intro g r h
    obtain ⟨x, h1, h2⟩ := Alias.bind_ok' h
    obtain ⟨w1, w2⟩ := ih x h2
    simp only [Prog.accesses, h1]
    exact ⟨fun b j hne => List.mem_cons_of_mem _ (w1 b j hne), fun j hne => List.mem_cons_of_mem _ (w2 j hne)⟩
  | store a i x k ih =>
    intro g r h
    obtain ⟨xs, h1, h2⟩ := Alias.bind_ok' h
    obtain ⟨w1, w2⟩ := ih h2
    simp only [Prog.accesses, h1]
    have hs := arr_self g a xs (ne_nil_of_wr h1)
    refine ⟨fun b j hne => ?_, fun j hne => List.mem_cons_of_mem _ (w2 j (by rwa [setArr_values]))⟩
    by_cases hb : a = b
    · subst hb
      by_cases hj : i = j
      · subst hj; exact List.mem_cons_self
      · exact List.mem_cons_of_mem _ (w1 a j (by rwa [hs, get_wr h1 hj]))
    · exact List.mem_cons_of_mem _ (w1 b j (by rwa [arr_other _ _ _ _ hb]))
  | storeV i v k ih =>
    intro g r h
    obtain ⟨ys, h1, h2⟩ := Alias.bind_ok' h
    obtain ⟨w1, w2⟩ := ih h2
    simp only [Prog.accesses, h1]
    refine ⟨fun b j hne => List.mem_cons_of_mem _ (w1 b j (by rwa [arr_values])), fun j hne => ?_⟩
    by_cases hj : i = j
    · subst hj; exact List.mem_cons_self
    · exact List.mem_cons_of_mem _ (w2 j (by rwa [get_wr h1 hj]))

theorem reads (p : Prog V α) : ∀ {g g2 : Shared V} {r : Shared V × α}, p.exec g = .ok r → (∀ a, (arr g2 a).length = (arr g a).length) →
    g2.values.length = g.values.length → (∀ a i, ⟨a, i, false⟩ ∈ p.accesses g → (arr g2 a)[i]? = (arr g a)[i]?) →
    ∃ r2, p.exec g2 = .ok r2 ∧ r2.2 = r.2 ∧ p.accesses g2 = p.accesses g := by
  induction p with
  | ret a => intro g g2 r h _ _ _; cases h; exact ⟨_, rfl, rfl, rfl⟩
  | fail e => intro g g2 r h; cases h
  | load a i k ih =>
    intro g g2 r h hn hv hr
    obtain ⟨x, h1, h2⟩ := Alias.bind_ok' h
    simp only [Prog.accesses, h1] at hr
    have h3 := rd_ok h1 (hr a i List.mem_cons_self)
    obtain ⟨r2, e1, e2, e3⟩ := ih x h2 hn hv (fun b j hb => hr b j (List.mem_cons_of_mem _ hb))
    refine ⟨r2, ?_, e2, ?_⟩
    · simp only [Prog.exec, h3, ok_bind, e1]
    · simp only [Prog.accesses, h1, h3, e3]
  | store a i x k ih =>
    intro g g2 r h hn hv hr
    obtain ⟨xs, h1, h2⟩ := Alias.bind_ok' h
    simp only [Prog.accesses, h1] at hr
    have h3 := wr_ok h1 (hn a)
    have hx := set_of_wr h1
    have hs := arr_self g a xs (ne_nil_of_wr h1)
    have hs2 := arr_self g2 a ((arr g2 a).set i x) (ne_nil_of_wr h3)
    refine (ih (g2 := setArr g2 a ((arr g2 a).set i x)) h2 (fun b => ?_) ?_ (fun b j hb => ?_)).elim fun r2 e => ⟨r2, ?_, e.2.1, ?_⟩
    · by_cases hb : a = b
      · subst hb; rw [hs, hs2, hx.2, List.length_set, List.length_set, hn]
      · rw [arr_other _ _ _ _ hb, arr_other _ _ _ _ hb, hn]
    · rw [setArr_values, setArr_values, hv]
    · have hj := hr b j (List.mem_cons_of_mem _ hb)
      by_cases hab : a = b
      · subst hab
        rw [hs, hs2, hx.2]
        by_cases hij : i = j
        · subst hij
          rw [List.getElem?_set_self hx.1, List.getElem?_set_self (by rw [hn]; exact hx.1)]
        · rw [List.getElem?_set_ne hij, List.getElem?_set_ne hij, hj]
      · rw [arr_other _ _ _ _ hab, arr_other _ _ _ _ hab, hj]
    · simp only [Prog.exec, h3, ok_bind, e.1]
    · simp only [Prog.accesses, h1, h3, e.2.2]
  | storeV i v k ih =>
    intro g g2 r h hn hv hr
    obtain ⟨ys, h1, h2⟩ := Alias.bind_ok' h
    simp only [Prog.accesses, h1] at hr
    have h3 := wr_ok h1 hv
    refine (ih (g2 := { g2 with values := g2.values.set i v }) h2 (fun b => ?_) ?_ (fun b j hb => ?_)).elim fun r2 e => ⟨r2, ?_, e.2.1, ?_⟩
    · exact (congrArg _ (arr_values g2 b _)).trans ((hn b).trans (congrArg _ (arr_values g b ys).symm))
    · dsimp only
      rw [(set_of_wr h1).2, List.length_set, List.length_set, hv]
    · rw [arr_values g2 b, arr_values g b]
      exact hr b j (List.mem_cons_of_mem _ hb)
    · simp only [Prog.exec, h3, ok_bind, e.1]
    · simp only [Prog.accesses, h1, h3, e.2.2]

end Verif.Model.RaceDot
