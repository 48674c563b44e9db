import Verif.Lemmas.RaceOuter
import Verif.Lemmas.OuterRange
import Verif.Lemmas.OuterProfile
import Verif.Lemmas.Poly

/-! # Races of the outer-product kernels: the regions of the kernels -/

namespace Verif.Model.RaceOuter
open RaceOld (Arr Access Racy done)
open Outer (Glob Loc Out foldlM_reach forRange_reach wr_len)
open RaceDot (get_of_rd set_of_wr)
open Alias (bind_ok')

variable {V : Type}

/-! ## The programs are the steps of the model -/

theorem exec_putCell (b i : Nat) (x : Option (Nat × Nat × V)) (g : Glob V) : (putCell b i x).exec g =
    (rd g.blk b >>= fun dst => wr dst i x >>= fun dst => wr g.blk b dst >>= fun blk => .ok ({ g with blk := blk }, ())) := by
  simp only [putCell, Prog.exec, bind_assoc, ok_bind]

theorem put_loop (width b p : Nat) (buf : List (Option (Nat × Nat × V))) : ∀ len lo (g : Glob V) dst, g.blk[b]? = some dst →
    (loop lo len fun k => do
      let x ← priv (rd buf (b * width + k))
      putCell b (p + k) x).exec g =
    (forRange lo (lo + len) dst (fun k dst => do
      let x ← rd buf (b * width + k)
      wr dst (p + k) x) >>= fun dst => wr g.blk b dst >>= fun blk => .ok ({ g with blk := blk }, ())) := by
  intro len
  induction len with
  | zero =>
    intro lo g dst h
    obtain ⟨hb, e⟩ := List.getElem?_eq_some_iff.1 h
    unfold forRange
    rw [show lo + 0 - lo = 0 by omega]
    show Except.ok (g, ()) = _
    simp only [List.range'_zero, List.foldlM_nil]
    show _ = (wr g.blk b dst >>= _)
    rw [wr_of_lt hb, ok_bind, ← e, List.set_getElem_self]
  | succ len ih =>
    intro lo g dst h
    obtain ⟨hb, e⟩ := List.getElem?_eq_some_iff.1 h
    unfold forRange at ih ⊢
    rw [show lo + (len + 1) - lo = len + 1 by omega, List.range'_succ, List.foldlM_cons, loop, exec_bind, exec_bind, exec_priv]
    simp only [exec_putCell, rd_of_getElem? h, bind_assoc, ok_bind]
    refine congrArg _ (funext fun x => ?_)
    refine congrArg _ (funext fun d => ?_)
    rw [wr_of_lt hb]
    simp only [ok_bind]
    rw [ih (lo + 1) { g with blk := g.blk.set b d } d (by simp [hb]), show lo + 1 + len - (lo + 1) = len by omega]
    refine congrArg _ (funext fun d' => ?_)
    rw [wr_of_lt hb, wr_of_lt (by simpa using hb)]
    simp

theorem exec_flushProg (width b len : Nat) (buf : List (Option (Nat × Nat × V))) (g : Glob V) :
    (flushProg width b len buf).exec g = (Outer.flush width b len buf g >>= fun g => .ok (g, ())) := by
  unfold flushProg Outer.flush
  simp only [exec_bind, fetchAdd, pointer, Prog.exec, bind_assoc, ok_bind]
  refine congrArg _ (funext fun p => ?_)
  refine congrArg _ (funext fun cnt => ?_)
  cases hd : rd g.blk b with
  | error e => rfl
  | ok dst =>
    rw [ok_bind, ok_bind, put_loop width b p buf len 0 { g with cnt := cnt } dst (get_of_rd hd), Nat.zero_add]
    rfl

theorem exec_afterProg (width b c : Nat) (l : Loc V) (g : Glob V) : (afterProg width b c l).exec g = Outer.after width b c l g := by
  unfold afterProg Outer.after
  split <;> simp only [exec_bind, exec_priv, exec_flushProg, bind_assoc, ok_bind] <;> rfl

theorem exec_stepProg (mul : V → V → V) (A : CSC V) (B : CSR V) (blk : Nat → Res Nat) (nb width : Nat) (asg : Nat → List Nat) (t : Nat)
    (l : Option (Loc V)) (g : Glob V) :
    (stepProg mul A B blk nb width asg t l).exec g = Outer.step mul A B blk nb width asg t g l := by
  unfold stepProg Outer.step
  cases l with
  | none =>
    simp only [exec_bind, exec_priv, bind_assoc, ok_bind]
    rfl
  | some l =>
    obtain ⟨work, next, buf, cnt⟩ := l
    rcases work with _ | ⟨⟨j, k⟩, w⟩
    rotate_left
    · unfold Outer.product place
      simp only [exec_bind, exec_priv, exec_afterProg, bind_assoc, ok_bind]
      rfl
    · simp only [exec_bind, exec_priv, exec_flushProg, bind_assoc, ok_bind]
      rfl

theorem exec_copyProg (cum nnz : List Nat) (vecs : List (List (Nat × Nat × V))) (b : Nat) (o : Out V) :
    (copyProg cum nnz vecs b).exec o = (Outer.copyBlock cum nnz vecs o b >>= fun o => .ok (o, ())) := by
  unfold copyProg Outer.copyBlock
  simp only [exec_bind, exec_priv, bind_assoc, ok_bind]
  refine congrArg _ (funext fun base => ?_)
  refine congrArg _ (funext fun vec => ?_)
  refine congrArg _ (funext fun n => ?_)
  rw [exec_loop (step := Outer.copyEntry base vec), Nat.zero_add]
  intro x o
  unfold Outer.copyEntry
  simp only [exec_bind, exec_priv, incRow, putCol, putVal, Prog.exec, bind_assoc, ok_bind]

/-! ## The region that forms the products -/

/-- All accesses are to cells of blocks at or behind the counter before, and before the counter after. -/
def Grows {α : Type} (g : Glob V) (p : Prog (Glob V) α) : Prop :=
  ∃ P : Access → Prop, (∀ a, P a → ∃ b q, a.arr = .block b ∧ g.cnt[b]? = some q ∧ q ≤ a.idx) ∧
    wp P p (fun (g' : Glob V) _ => (∀ (b q' : Nat), g'.cnt[b]? = some q' → ∃ q, g.cnt[b]? = some q ∧ q ≤ q') ∧
      ∀ a, P a → ∀ (b q' : Nat), a.arr = .block b → g'.cnt[b]? = some q' → a.idx < q') g

theorem grows_pure {α : Type} (g : Glob V) (x : α) : Grows g (pure x) :=
  ⟨fun _ => False, fun _ h => h.elim, fun _ q h => ⟨q, h, Nat.le_refl _⟩, fun _ h => h.elim⟩

theorem grows_priv {α β : Type} {g : Glob V} {r : Res α} {q : α → Prog (Glob V) β} (h : ∀ a, r = .ok a → Grows g (q a)) :
    Grows g (priv r >>= q) := by
  cases r with
  | error e => exact ⟨fun _ => False, fun _ h => h.elim, trivial⟩
  | ok a => exact h a rfl

theorem grows_then {α β : Type} {g : Glob V} {p : Prog (Glob V) α} {q : α → Prog (Glob V) β} (h : Grows g p)
    (hq : ∀ (P : Access → Prop) (Q : Glob V → Prop) a g, Q g → wp P (q a) (fun g _ => Q g) g) : Grows g (p >>= q) := by
  obtain ⟨P, h1, h2⟩ := h
  exact ⟨P, h1, wp_bind (wp_mono h2 fun g' a hQ => hq P (fun g' => (∀ (b q' : Nat), g'.cnt[b]? = some q' → ∃ q, g.cnt[b]? = some q ∧ q ≤ q') ∧
      ∀ a, P a → ∀ (b q' : Nat), a.arr = .block b → g'.cnt[b]? = some q' → a.idx < q') a g' hQ)⟩

theorem grows_flush (width b len : Nat) (buf : List (Option (Nat × Nat × V))) (g : Glob V) : Grows g (flushProg width b len buf) := by
  cases hp : g.cnt[b]? with
  | none =>
    refine ⟨fun _ => False, fun _ h => h.elim, ?_⟩
    refine wp_bind ⟨fun x hx => absurd hx List.not_mem_nil, fun r hr => ?_⟩
    obtain ⟨p, h1, -⟩ := bind_ok' hr
    rw [get_of_rd h1] at hp
    cases hp
  | some p =>
    have hbl : b < g.cnt.length := (List.getElem?_eq_some_iff.1 hp).1
    refine ⟨fun a => a.arr = .block b ∧ p ≤ a.idx ∧ a.idx < p + len, fun a h => ⟨b, p, h.1, hp, h.2.1⟩, ?_⟩
    refine wp_bind ⟨fun x hx => absurd hx List.not_mem_nil, fun r hr => ?_⟩
    obtain ⟨p', h1, hr⟩ := bind_ok' hr
    obtain ⟨cnt, h2, hr⟩ := bind_ok' hr
    cases hr
    have : p' = p := by
      have := get_of_rd h1
      rw [hp] at this
      cases this
      rfl
    subst this
    have hcnt := (set_of_wr h2).2
    refine wp_bind ⟨fun x hx => absurd hx List.not_mem_nil, fun r hr => ?_⟩
    obtain ⟨_, _, hr⟩ := bind_ok' hr
    cases hr
    show wp _ (loop 0 len _) _ _
    refine wp_mono (wp_loop (I := fun _ (g' : Glob V) => g'.cnt = cnt) len 0 rfl ?_) ?_
    · intro j g' _ hj hI
      refine wp_bind (wp_priv fun x _ => ⟨?_, fun r hr => ?_⟩)
      · intro a ha
        rw [List.mem_singleton.1 ha]
        exact ⟨rfl, by show p' ≤ p' + j; omega, by show p' + j < p' + len; omega⟩
      · obtain ⟨_, _, hr⟩ := bind_ok' hr
        obtain ⟨_, _, hr⟩ := bind_ok' hr
        obtain ⟨_, _, hr⟩ := bind_ok' hr
        cases hr
        exact hI
    · intro g' _ hI
      rw [hI, hcnt]
      refine ⟨?_, ?_⟩
      · intro c q' hq
        by_cases hc : b = c
        · subst hc
          rw [List.getElem?_set_self hbl] at hq
          cases hq
          exact ⟨p', hp, by omega⟩
        · rw [List.getElem?_set_ne hc] at hq
          exact ⟨q', hq, Nat.le_refl _⟩
      · rintro a ⟨h1, _, h3⟩ c q' hc hq
        rw [h1] at hc
        cases hc
        rw [List.getElem?_set_self hbl] at hq
        cases hq
        exact h3

theorem grows_step (mul : V → V → V) (A : CSC V) (B : CSR V) (blk : Nat → Res Nat) (nb width : Nat) (asg : Nat → List Nat) (t : Nat)
    (l : Option (Loc V)) (g : Glob V) : Grows g (stepProg mul A B blk nb width asg t l) := by
  unfold stepProg
  cases l with
  | none => exact grows_priv fun _ _ => grows_pure ..
  | some l =>
    simp only
    split
    · refine grows_priv fun r _ => grows_then ?_ fun P Q a g h => h
      unfold afterProg
      split
      · exact grows_then (grows_flush ..) fun P Q a g h => wp_bind (wp_priv fun _ _ => h)
      · exact grows_priv fun _ _ => grows_pure ..
    · exact grows_priv fun _ _ => grows_then (grows_flush ..) fun P Q a g h => h

theorem grows_free {α : Type} {n : Nat} {prog : Nat → α → Prog (Glob V) α} {fin : α → Bool} (h : ∀ t l g, Grows g (prog t l)) :
    ∀ sched g ls, (∀ x ∈ trace n prog fin sched g ls, ∃ b q, x.2.arr = .block b ∧ g.cnt[b]? = some q ∧ q ≤ x.2.idx) ∧
      ¬ Racy (trace n prog fin sched g ls) := by
  intro sched
  induction sched with
  | nil => exact fun g ls => ⟨fun x hx => absurd hx List.not_mem_nil, fun ⟨x, hx, _⟩ => absurd hx List.not_mem_nil⟩
  | cons t ts ih =>
    intro g ls
    rw [trace]
    by_cases hc : t < n ∧ fin (ls t) = false
    · rw [if_pos hc]
      obtain ⟨P, hP, hw⟩ := h t (ls t) g
      obtain ⟨s1, s2⟩ := wp_sound hw
      cases he : (prog t (ls t)).exec g with
      | error e =>
        simp only [List.append_nil]
        refine ⟨?_, ?_⟩
        · intro x hx
          obtain ⟨a, ha, rfl⟩ := List.mem_map.1 hx
          exact hP a (s1 a ha)
        · rintro ⟨x, hx, y, hy, hne, -⟩
          obtain ⟨a, ha, rfl⟩ := List.mem_map.1 hx
          obtain ⟨c, hc, rfl⟩ := List.mem_map.1 hy
          exact hne rfl
      | ok r =>
        obtain ⟨g', l'⟩ := r
        obtain ⟨m1, m2⟩ := s2 g' l' he
        obtain ⟨i1, i2⟩ := ih g' (upd ls t l')
        simp only
        have cross : ∀ x ∈ (prog t (ls t)).accesses g, ∀ y ∈ trace n prog fin ts g' (upd ls t l'), x.arr = y.2.arr → x.idx ≠ y.2.idx := by
          intro x hx y hy h1 h2
          obtain ⟨b, q', e1, e2, e3⟩ := i1 y hy
          have := m2 x (s1 x hx) b q' (h1.trans e1) e2
          omega
        refine ⟨?_, ?_⟩
        · intro x hx
          rcases List.mem_append.1 hx with hx | hx
          · obtain ⟨a, ha, rfl⟩ := List.mem_map.1 hx
            exact hP a (s1 a ha)
          · obtain ⟨b, q', e1, e2, e3⟩ := i1 x hx
            obtain ⟨q, e4, e5⟩ := m1 b q' e2
            exact ⟨b, q, e1, e4, by omega⟩
        · rintro ⟨x, hx, y, hy, h1, h2, h3, h4⟩
          rcases List.mem_append.1 hx with hx | hx <;> rcases List.mem_append.1 hy with hy | hy
          · obtain ⟨a, ha, rfl⟩ := List.mem_map.1 hx
            obtain ⟨c, hc, rfl⟩ := List.mem_map.1 hy
            exact h1 rfl
          · obtain ⟨a, ha, rfl⟩ := List.mem_map.1 hx
            exact cross a ha y hy h2 h3
          · obtain ⟨c, hc, rfl⟩ := List.mem_map.1 hy
            exact cross c hc x hx h2.symm h3.symm
          · exact i2 ⟨x, hx, y, hy, h1, h2, h3, h4⟩
    · rw [if_neg hc]
      exact ih g ls

/-! ## Sorting and merging -/

theorem mem_sortTrace {who : Nat → Nat} {g : Glob V} : ∀ {order : List Nat}, ∀ x ∈ sortTrace who g order,
    ∃ b, x.1 = who b ∧ (x.2.arr = .block b ∨ (x.2.arr = .thNnz ∧ x.2.idx = b)) := by
  intro order
  induction order with
  | nil => intro x hx; cases hx
  | cons b bs ih =>
    intro x hx
    rw [sortTrace] at hx
    rcases List.mem_append.1 hx with hx | hx
    · rcases List.mem_cons.1 hx with rfl | hx
      · exact ⟨b, rfl, Or.inr ⟨rfl, rfl⟩⟩
      · obtain ⟨i, _, rfl⟩ := List.mem_map.1 hx
        exact ⟨b, rfl, Or.inl rfl⟩
    · exact ih x hx

theorem sort_free (who : Nat → Nat) (g : Glob V) (order : List Nat) : ¬ Racy (sortTrace who g order) := by
  rintro ⟨x, hx, y, hy, h1, h2, h3, -⟩
  obtain ⟨b, e1, o1⟩ := mem_sortTrace x hx
  obtain ⟨c, e2, o2⟩ := mem_sortTrace y hy
  apply h1
  rw [e1, e2]
  rcases o1 with o1 | ⟨o1, p1⟩ <;> rcases o2 with o2 | ⟨o2, p2⟩
  · rw [o1, o2] at h2; cases h2; rfl
  · rw [o1, o2] at h2; cases h2
  · rw [o1, o2] at h2; cases h2
  · rw [← p1, ← p2, h3]

/-! ## The rows of a block -/

/-- A cell of block `b` that is set holds a product of a row of this block. -/
def RowIn (blk : Nat → Res Nat) (b : Nat) (x : Option (Nat × Nat × V)) : Prop := ∀ t, x = some t → blk t.1 = .ok b

def GInv (blk : Nat → Res Nat) (g : Glob V) : Prop := ∀ b dst, g.blk[b]? = some dst → ∀ x ∈ dst, RowIn blk b x

def LInv (blk : Nat → Res Nat) (width : Nat) : Option (Loc V) → Prop
  | none => True
  | some l => (∀ b c x, c < width → l.buf[b * width + c]? = some x → RowIn blk b x) ∧ ∀ b c : Nat, l.cnt[b]? = some c → c < width

theorem flush_rows {blk : Nat → Res Nat} {width b len : Nat} {buf : List (Option (Nat × Nat × V))} {g g' : Glob V} (hlen : len ≤ width)
    (hbuf : ∀ b c x, c < width → buf[b * width + c]? = some x → RowIn blk b x) (hg : GInv blk g)
    (h : Outer.flush width b len buf g = .ok g') : GInv blk g' := by
  unfold Outer.flush at h
  obtain ⟨p, h1, h⟩ := bind_ok' h
  obtain ⟨cnt, h2, h⟩ := bind_ok' h
  obtain ⟨dst, h3, h⟩ := bind_ok' h
  obtain ⟨dst', h4, h⟩ := bind_ok' h
  obtain ⟨blk', h5, h⟩ := bind_ok' h
  cases h
  have hd : ∀ x ∈ dst', RowIn blk b x := by
    have hall : ∀ (l : List Nat) (d d' : List (Option (Nat × Nat × V))), (∀ k ∈ l, k < len) → (∀ x ∈ d, RowIn blk b x) →
        l.foldlM (fun dst k => do
          let x ← rd buf (b * width + k)
          wr dst (p + k) x) d = .ok d' → ∀ x ∈ d', RowIn blk b x := by
      intro l
      induction l with
      | nil => intro d d' _ hd e; cases e; exact hd
      | cons k ks ih =>
        intro d d' hk hd e
        rw [List.foldlM_cons] at e
        obtain ⟨d1, e1, e2⟩ := bind_ok' e
        obtain ⟨x, e3, e4⟩ := bind_ok' e1
        refine ih d1 d' (fun j hj => hk j (List.mem_cons_of_mem _ hj)) ?_ e2
        rw [(set_of_wr e4).2]
        intro y hy
        rcases List.mem_or_eq_of_mem_set hy with hy | rfl
        · exact hd y hy
        · exact hbuf b k _ (Nat.lt_of_lt_of_le (hk k (List.mem_cons_self ..)) hlen) (get_of_rd e3)
    refine hall _ dst dst' ?_ (hg b dst (get_of_rd h3)) h4
    intro k hk
    rw [List.mem_range'_1] at hk
    omega
  obtain ⟨hb, e5⟩ := set_of_wr h5
  intro c d hc
  change blk'[c]? = some d at hc
  rw [e5] at hc
  by_cases hbc : b = c
  · subst hbc
    rw [List.getElem?_set_self hb] at hc
    cases hc
    exact hd
  · rw [List.getElem?_set_ne hbc] at hc
    exact hg c d hc

theorem cnt_set {width b c : Nat} {cnt cnt' : List Nat} (h : ∀ b c : Nat, cnt[b]? = some c → c < width) (hc : c < width)
    (hw : wr cnt b c = .ok cnt') : ∀ b c : Nat, cnt'[b]? = some c → c < width := by
  obtain ⟨hb, e⟩ := set_of_wr hw
  intro d x hx
  rw [e] at hx
  by_cases hbd : b = d
  · subst hbd
    rw [List.getElem?_set_self hb] at hx
    cases hx
    exact hc
  · rw [List.getElem?_set_ne hbd] at hx
    exact h d x hx

theorem step_rows {mul : V → V → V} {A : CSC V} {B : CSR V} {blk : Nat → Res Nat} {nb width : Nat} (hw : 0 < width) {asg : Nat → List Nat} {t : Nat}
    {g g' : Glob V} {l l' : Option (Loc V)} (hg : GInv blk g) (hl : LInv blk width l)
    (h : Outer.step mul A B blk nb width asg t g l = .ok (g', l')) : GInv blk g' ∧ LInv blk width l' := by
  unfold Outer.step at h
  cases l with
  | none =>
    obtain ⟨w, h1, h⟩ := bind_ok' h
    cases h
    refine ⟨hg, ?_, ?_⟩
    · intro b c x _ hx
      rw [List.eq_of_mem_replicate (List.mem_of_getElem? hx)]
      intro t ht
      cases ht
    · intro b c hc
      rw [List.eq_of_mem_replicate (List.mem_of_getElem? hc)]
      exact hw
  | some l =>
    obtain ⟨hb, hc⟩ := hl
    simp only at h
    split at h
    · obtain ⟨⟨g1, l1⟩, h1, h⟩ := bind_ok' h
      cases h
      unfold Outer.product at h1
      obtain ⟨r, e1, h1⟩ := bind_ok' h1
      obtain ⟨b, e2, h1⟩ := bind_ok' h1
      obtain ⟨c, e3, h1⟩ := bind_ok' h1
      obtain ⟨col, e4, h1⟩ := bind_ok' h1
      obtain ⟨x, e5, h1⟩ := bind_ok' h1
      obtain ⟨y, e6, h1⟩ := bind_ok' h1
      obtain ⟨buf, e7, h1⟩ := bind_ok' h1
      have hcw : c < width := hc b c (get_of_rd e3)
      obtain ⟨hlt, e8⟩ := set_of_wr e7
      have hbuf : ∀ b c x, c < width → buf[b * width + c]? = some x → RowIn blk b x := by
        intro b2 c2 z hc2 hz
        rw [e8] at hz
        by_cases hs : b * width + c = b2 * width + c2
        · rw [← hs] at hz
          have hlt : b * width + c < l.buf.length := hlt
          rw [List.getElem?_set_self hlt] at hz
          cases hz
          intro t ht
          cases ht
          rw [← Outer.slot_inj hcw hc2 hs]
          exact e2
        · rw [List.getElem?_set_ne hs] at hz
          exact hb b2 c2 z hc2 hz
      unfold Outer.after at h1
      split at h1
      · obtain ⟨g2, f1, h1⟩ := bind_ok' h1
        obtain ⟨cnt, f2, h1⟩ := bind_ok' h1
        cases h1
        exact ⟨flush_rows (Nat.le_refl _) hbuf hg f1, hbuf, cnt_set hc hw f2⟩
      · obtain ⟨cnt, f2, h1⟩ := bind_ok' h1
        cases h1
        exact ⟨hg, hbuf, cnt_set hc (by omega) f2⟩
    · obtain ⟨c, e1, h⟩ := bind_ok' h
      obtain ⟨g1, e2, h⟩ := bind_ok' h
      cases h
      exact ⟨flush_rows (Nat.le_of_lt (hc _ _ (get_of_rd e1))) hb hg e2, hb, hc⟩

/-- The sorted blocks -/
def SInv (blk : Nat → Res Nat) (vecs : List (List (Nat × Nat × V))) : Prop := ∀ b v, vecs[b]? = some v → ∀ t ∈ v, blk t.1 = .ok b

theorem sinv_set {blk : Nat → Res Nat} {vecs vecs' : List (List (Nat × Nat × V))} {b : Nat} {v : List (Nat × Nat × V)} (h : SInv blk vecs)
    (hv : ∀ t ∈ v, blk t.1 = .ok b) (hw : wr vecs b v = .ok vecs') : SInv blk vecs' := by
  obtain ⟨hb, e⟩ := set_of_wr hw
  intro d x hx
  rw [e] at hx
  by_cases hbd : b = d
  · subst hbd
    rw [List.getElem?_set_self hb] at hx
    cases hx
    exact hv
  · rw [List.getElem?_set_ne hbd] at hx
    exact h d x hx

theorem mapM_use_mem {α : Type} : ∀ {l : List (Option α)} {ys : List α}, l.mapM use = .ok ys → ∀ y ∈ ys, some y ∈ l := by
  intro l
  induction l with
  | nil => intro ys h y hy; cases h; cases hy
  | cons x l ih =>
    intro ys h y hy
    rw [List.mapM_cons] at h
    obtain ⟨z, h1, h⟩ := bind_ok' h
    obtain ⟨zs, h2, h⟩ := bind_ok' h
    cases h
    rcases List.mem_cons.1 hy with rfl | hy
    · cases x with
      | none => cases h1
      | some x => cases h1; exact List.mem_cons_self ..
    · exact List.mem_cons_of_mem _ (ih h2 y hy)

theorem prefix_rows {blk : Nat → Res Nat} {b len : Nat} {a : List (Option (Nat × Nat × V))} {vec : List (Nat × Nat × V)} (ha : ∀ x ∈ a, RowIn blk b x)
    (h : Outer.prefixOf a len = .ok vec) : ∀ t ∈ vec, blk t.1 = .ok b := by
  unfold Outer.prefixOf at h
  split at h
  · cases h
  · intro t ht
    exact ha _ (List.mem_of_mem_take (mapM_use_mem h t ht)) t rfl

theorem mem_wr {α : Type} {p : α → Prop} {a a' : List α} {i : Nat} {x : α} (ha : ∀ t ∈ a, p t) (hx : p x) (h : wr a i x = .ok a') : ∀ t ∈ a', p t := by
  rw [(set_of_wr h).2]
  intro y hy
  rcases List.mem_or_eq_of_mem_set hy with hy | rfl
  · exact ha y hy
  · exact hx

theorem merge_rows {p : Nat → Prop} {add : V → V → V} {vec : List (Nat × Nat × V)} {len : Nat} {m : List (Nat × Nat × V) × Nat}
    (ha : ∀ t ∈ vec, p t.1) (h : Outer.doMerge add vec len = .ok m) : ∀ t ∈ m.1, p t.1 := by
  unfold Outer.doMerge at h
  split at h
  · cases h; exact ha
  · obtain ⟨s, h1, h⟩ := bind_ok' h
    cases h
    refine (forRange_reach (fun s : List (Nat × Nat × V) × Nat => ∀ t ∈ s.1, p t.1) ?_ ha h1).1
    intro i s s' hs e
    unfold Outer.mergeStep at e
    obtain ⟨x, e1, e⟩ := bind_ok' e
    obtain ⟨y, e2, e⟩ := bind_ok' e
    split at e
    · obtain ⟨a, e3, e⟩ := bind_ok' e
      cases e
      exact mem_wr (p := fun t => p t.1) hs (hs x (List.mem_of_getElem? (get_of_rd e1))) e3
    · obtain ⟨a, e3, e⟩ := bind_ok' e
      cases e
      exact mem_wr (p := fun t => p t.1) hs (hs y (List.mem_of_getElem? (get_of_rd e2))) e3

theorem merge_rows2 {p : Nat → Prop} {add : V → V → V} {vec : List (Nat × Nat × V)} {len : Nat} {m : List (Nat × Nat × V) × Nat}
    (ha : ∀ t ∈ vec, p t.1) (h : Profile.doMerge add vec len = .ok m) : ∀ t ∈ m.1, p t.1 := by
  unfold Profile.doMerge at h
  split at h
  · cases h; exact ha
  · obtain ⟨s, h1, h⟩ := bind_ok' h
    cases h
    refine (forRange_reach (fun s : List (Nat × Nat × V) × Nat => ∀ t ∈ s.1, p t.1) ?_ ha h1).1
    intro i s s' hs e
    unfold Profile.mergeStep at e
    obtain ⟨x, e1, e⟩ := bind_ok' e
    obtain ⟨y, e2, e⟩ := bind_ok' e
    split at e
    · obtain ⟨a, e3, e⟩ := bind_ok' e
      cases e
      exact mem_wr (p := fun t => p t.1) hs (hs x (List.mem_of_getElem? (get_of_rd e1))) e3
    · obtain ⟨a, e3, e⟩ := bind_ok' e
      cases e
      exact mem_wr (p := fun t => p t.1) hs (hs y (List.mem_of_getElem? (get_of_rd e2))) e3

section
variable {add : V → V → V} {sortf : (Nat × Nat × V → Nat) → List (Nat × Nat × V) → List (Nat × Nat × V)} {key : Nat × Nat × V → Nat}
  {blk : Nat → Res Nat} {nb : Nat} {g : Glob V}

theorem sinv_nil : SInv blk (List.replicate nb ([] : List (Nat × Nat × V))) := by
  intro b v hv
  rw [List.eq_of_mem_replicate (List.mem_of_getElem? hv)]
  intro t ht
  cases ht

theorem sortBlocks_rows (hs : ∀ l x, x ∈ sortf key l → x ∈ l) (hg : GInv blk g) {order : List Nat} {s : List (List (Nat × Nat × V)) × List Nat}
    (h : order.foldlM (Outer.sortBlock add sortf key g) (List.replicate nb [], List.replicate nb 0) = .ok s) :
    SInv blk s.1 ∧ s.2.length = nb := by
  refine (foldlM_reach (fun s : List (List (Nat × Nat × V)) × List Nat => SInv blk s.1 ∧ s.2.length = nb) ?_ ⟨sinv_nil, by simp⟩ h).1
  rintro s b s' ⟨h1, h2⟩ e
  unfold Outer.sortBlock at e
  obtain ⟨len, e1, e⟩ := bind_ok' e
  obtain ⟨a, e2, e⟩ := bind_ok' e
  obtain ⟨vec, e3, e⟩ := bind_ok' e
  obtain ⟨m, e4, e⟩ := bind_ok' e
  obtain ⟨vecs, e5, e⟩ := bind_ok' e
  obtain ⟨x, e6, e⟩ := bind_ok' e
  obtain ⟨nnz, e7, e⟩ := bind_ok' e
  cases e
  have hv := prefix_rows (hg b a (get_of_rd e2)) e3
  exact ⟨sinv_set h1 (merge_rows (p := fun r => blk r = .ok b) (fun t ht => hv t (hs _ _ ht)) e4) e5, by rw [← h2]; exact wr_len e7⟩

theorem sortMerge_rows (hs : ∀ l x, x ∈ sortf key l → x ∈ l) (hg : GInv blk g) {o1 o2 : List Nat} {s : List (List (Nat × Nat × V)) × List Nat}
    (h : Profile.sortMerge add sortf key nb o1 o2 g = .ok s) : SInv blk s.1 ∧ s.2.length = nb := by
  unfold Profile.sortMerge at h
  obtain ⟨vecs, h1, h⟩ := bind_ok' h
  have hv : SInv blk vecs := by
    refine (foldlM_reach (fun s => SInv blk s) ?_ sinv_nil h1).1
    intro s b s' h1 e
    unfold Profile.sortOne at e
    obtain ⟨len, e1, e⟩ := bind_ok' e
    obtain ⟨a, e2, e⟩ := bind_ok' e
    obtain ⟨vec, e3, e⟩ := bind_ok' e
    have hv := prefix_rows (hg b a (get_of_rd e2)) e3
    exact sinv_set h1 (fun t ht => hv t (hs _ _ ht)) e
  refine (foldlM_reach (fun s : List (List (Nat × Nat × V)) × List Nat => SInv blk s.1 ∧ s.2.length = nb) ?_ ⟨hv, by simp⟩ h).1
  rintro s b s' ⟨h1, h2⟩ e
  unfold Profile.mergeOne at e
  obtain ⟨vec, e3, e⟩ := bind_ok' e
  obtain ⟨len, e1, e⟩ := bind_ok' e
  obtain ⟨m, e4, e⟩ := bind_ok' e
  obtain ⟨vecs, e5, e⟩ := bind_ok' e
  obtain ⟨x, e6, e⟩ := bind_ok' e
  obtain ⟨nnz, e7, e⟩ := bind_ok' e
  cases e
  exact ⟨sinv_set h1 (merge_rows2 (p := fun r => blk r = .ok b) (h1 b vec (get_of_rd e3)) e4) e5, by rw [← h2]; exact wr_len e7⟩

end

/-! ## Copying -/

/-- The cells of block `b` -/
def CopyOwn (blk : Nat → Res Nat) (cum nnz : List Nat) (b : Nat) (a : Access) : Prop :=
  (a.arr = .rowNnz ∧ blk a.idx = .ok b) ∨
  ((a.arr = .numbers ∨ a.arr = .values) ∧ ∃ base n i, cum[b]? = some base ∧ nnz[b]? = some n ∧ i < n ∧ a.idx = base + i)

theorem copy_own {blk : Nat → Res Nat} {cum nnz : List Nat} {vecs : List (List (Nat × Nat × V))} (hv : SInv blk vecs) (b : Nat) (o : Out V) :
    wp (CopyOwn blk cum nnz b) (copyProg cum nnz vecs b) (fun _ _ => True) o := by
  unfold copyProg
  refine wp_bind (wp_priv fun base h1 => wp_bind (wp_priv fun vec h2 => wp_bind (wp_priv fun n h3 => ?_)))
  refine wp_mono (wp_loop (I := fun _ _ => True) n 0 trivial ?_) fun _ _ _ => trivial
  intro j o _ hj _
  have hn : ∀ {p : Arr}, (p = .numbers ∨ p = .values) → CopyOwn blk cum nnz b ⟨p, base + j, true⟩ :=
    fun h => Or.inr ⟨h, base, n, j, get_of_rd h1, get_of_rd h3, by omega, rfl⟩
  refine wp_bind (wp_priv fun t h4 => ?_)
  have hrow := hv b vec (get_of_rd h2) t (List.mem_of_getElem? (get_of_rd h4))
  refine wp_bind ⟨?_, fun r _ => ?_⟩
  · intro a ha
    rcases List.mem_cons.1 ha with rfl | ha
    · exact Or.inl ⟨rfl, hrow⟩
    · rw [List.mem_singleton.1 ha]
      exact Or.inl ⟨rfl, hrow⟩
  refine wp_bind ⟨?_, fun r _ => ⟨?_, fun r _ => trivial⟩⟩
  · intro a ha
    rw [List.mem_singleton.1 ha]
    exact hn (Or.inl rfl)
  · intro a ha
    rw [List.mem_singleton.1 ha]
    exact hn (Or.inr rfl)

theorem copy_free {blk : Nat → Res Nat} {rows n nb : Nat} (hnb : nb + 1 < 2 ^ 17) (who : Nat → Nat) {s : List (List (Nat × Nat × V)) × List Nat}
    (hv : SInv blk s.1) (hlen : s.2.length = nb) (s1 s2 copy : List Nat) : ∀ tr ∈ copyTraces rows n nb who s s1 s2 copy, ¬ Racy tr := by
  have hnz : s.2 = tab nb (fun i => s.2.getD i 0) := by
    have := eq_tab s.2 0
    rwa [hlen] at this
  intro tr htr
  unfold copyTraces at htr
  have hsc : UtilScan.scan s.2 (nb + 1) (List.replicate (nb + 1) 0) n s1 s2 = .ok (some (tab (nb + 1) (psum fun i => s.2.getD i 0))) := by
    conv_lhs => rw [hnz]
    exact scan_small hnb n s1 s2
  rw [hsc] at htr
  simp only [done] at htr
  split at htr
  · cases htr
  · rw [List.mem_singleton.1 htr]
    refine loop_free (fun b _ o => copy_own hv b o) ?_ _
    intro a _ b _ hab x y hx hy h1 h2
    have hcell : ∀ {b base n i : Nat}, (tab (nb + 1) (psum fun i => s.2.getD i 0))[b]? = some base → s.2[b]? = some n → i < n →
        base = psum (fun i => s.2.getD i 0) b ∧ i < (fun i => s.2.getD i 0) b := by
      intro b base n i e1 e2 hi
      have hb : b < nb := by
        rw [← hlen]
        exact (List.getElem?_eq_some_iff.1 e2).1
      rw [tab_getElem? (by omega)] at e1
      cases e1
      refine ⟨rfl, ?_⟩
      beta_reduce
      rw [List.getD_eq_getElem?_getD, e2]
      exact hi
    rcases hx with ⟨x1, x2⟩ | ⟨x1, base, m, i, e1, e2, e3, e4⟩ <;> rcases hy with ⟨y1, y2⟩ | ⟨y1, base', m', i', f1, f2, f3, f4⟩
    · rw [h2, y2] at x2
      cases x2
      exact hab rfl
    · rw [← h1, x1] at y1
      rcases y1 with y1 | y1 <;> cases y1
    · rw [h1, y1] at x1
      rcases x1 with x1 | x1 <;> cases x1
    · obtain ⟨k1, k2⟩ := hcell e1 e2 e3
      obtain ⟨k3, k4⟩ := hcell f1 f2 f3
      exact hab (Outer.psum_sep k2 k4 (by rw [← k1, ← k3, ← e4, ← f4, h2]))

/-! ## The kernels -/

theorem main_free {mul : V → V → V} {A : CSC V} {B : CSR V} {blk : Nat → Res Nat} {n nb width : Nat} (hw : 0 < width) {asg : Nat → List Nat}
    {flops sched : List Nat} {rest : Glob V → List (List (Nat × Access))} (h : ∀ g, GInv blk g → ∀ tr ∈ rest g, ¬ Racy tr) :
    ∀ tr ∈ mainTraces mul A B blk n nb width asg flops sched rest, ¬ Racy tr := by
  intro tr htr
  rcases List.mem_cons.1 htr with rfl | htr
  · exact (grows_free (fun t l g => grows_step mul A B blk nb width asg t l g) _ _ _).2
  · split at htr
    · cases htr
    · rename_i r g ls hr
      refine h g ?_ tr htr
      have hph : phase n (Outer.step mul A B blk nb width asg) (Outer.fin nb) sched
          { blk := flops.map fun f => List.replicate f none, cnt := List.replicate nb 0 } (fun _ => none) = .ok (some (g, ls)) := by
        unfold done at hr
        split at hr
        · rename_i e; rw [e, hr]
        · cases hr
      refine (Poly.phase_pres (ls := fun _ => none) (GInv blk) (fun _ => LInv blk width) (fun t g x g' x' h1 h2 e => step_rows hw h1 h2 e) ?_ (fun _ => trivial) hph).1
      intro b dst hb x hx
      obtain ⟨f, -, rfl⟩ := List.mem_map.1 (List.mem_of_getElem? hb)
      rw [List.eq_of_mem_replicate hx]
      intro t ht
      cases ht

theorem tail1_free {add : V → V → V} {sortf : (Nat × Nat × V → Nat) → List (Nat × Nat × V) → List (Nat × Nat × V)} {key : Nat × Nat × V → Nat}
    (hs : ∀ l x, x ∈ sortf key l → x ∈ l) {blk : Nat → Res Nat} {rows n nb : Nat} (hnb : nb + 1 < 2 ^ 17) (w1 w2 : Nat → Nat) (sort s1 s2 copy : List Nat)
    (g : Glob V) (hg : GInv blk g) : ∀ tr ∈ tail1 add sortf key rows n nb w1 w2 sort s1 s2 copy g, ¬ Racy tr := by
  intro tr htr
  rcases List.mem_cons.1 htr with rfl | htr
  · exact sort_free _ _ _
  · split at htr
    · cases htr
    · rename_i s e
      obtain ⟨h1, h2⟩ := sortBlocks_rows hs hg e
      exact copy_free hnb w2 h1 h2 s1 s2 copy tr htr

theorem tail2_free {add : V → V → V} {sortf : (Nat × Nat × V → Nat) → List (Nat × Nat × V) → List (Nat × Nat × V)} {key : Nat × Nat × V → Nat}
    (hs : ∀ l x, x ∈ sortf key l → x ∈ l) {blk : Nat → Res Nat} {rows n nb : Nat} (hnb : nb + 1 < 2 ^ 17) (w1 w2 w3 : Nat → Nat)
    (sort merge s1 s2 copy : List Nat) (g : Glob V) (hg : GInv blk g) :
    ∀ tr ∈ tail2 add sortf key rows n nb w1 w2 w3 sort merge s1 s2 copy g, ¬ Racy tr := by
  intro tr htr
  rcases List.mem_cons.1 htr with rfl | htr
  · exact sort_free _ _ _
  rcases List.mem_cons.1 htr with rfl | htr
  · exact sort_free _ _ _
  · split at htr
    · cases htr
    · rename_i s e
      obtain ⟨h1, h2⟩ := sortMerge_rows hs hg e
      exact copy_free hnb w3 h1 h2 s1 s2 copy tr htr

end Verif.Model.RaceOuter
