import Verif.Model.RaceOld
import Verif.Lemmas.HashMult
import Verif.Lemmas.Spa
import Verif.Lemmas.LpMult

/-! # Memory accesses of the older kernels -/

namespace Verif.Model.RaceOld
open Hash (Tbl Entry)

variable {V α β : Type}

/-! ## Programs -/

@[simp] theorem ret_bind (a : α) (q : α → Prog V β) : ((Prog.ret a : Prog V α) >>= q) = q a := rfl
@[simp] theorem pure_ret (a : α) : (pure a : Prog V α) = .ret a := rfl
@[simp] theorem fail_bind (e : Err) (q : α → Prog V β) : ((Prog.fail e : Prog V α) >>= q) = .fail e := rfl
@[simp] theorem exec_ret (a : α) (g : Mem V) : (Prog.ret a).exec g = .ok (g, a) := rfl
@[simp] theorem exec_fail (e : Err) (g : Mem V) : (Prog.fail e : Prog V α).exec g = .error e := rfl

theorem exec_bind (p : Prog V α) (q : α → Prog V β) (g : Mem V) :
    (p >>= q).exec g = (p.exec g >>= fun r => (q r.2).exec r.1) := by
  show (p.andThen q).exec g = _
  induction p generalizing g with
  | ret a => rfl
  | fail e => rfl
  | load i k ih =>
    simp only [Prog.andThen, Prog.exec, bind_assoc]
    cases rd g.1 i with
    | error e => rfl
    | ok x => exact ih x g
  | store i x k ih =>
    simp only [Prog.andThen, Prog.exec, bind_assoc]
    cases wr g.1 i x with
    | error e => rfl
    | ok xs => exact ih _
  | storeV i v k ih =>
    simp only [Prog.andThen, Prog.exec, bind_assoc]
    cases wr g.2 i v with
    | error e => rfl
    | ok xs => exact ih _

theorem exec_priv (r : Res α) (g : Mem V) : (priv r : Prog V α).exec g = (r >>= fun a => .ok (g, a)) := by
  cases r <;> rfl

theorem exec_priv_bind (r : Res α) (q : α → Prog V β) (g : Mem V) : (priv r >>= q).exec g = (r >>= fun a => (q a).exec g) := by
  cases r <;> rfl

theorem exec_put (i x : Nat) (g : Mem V) : (put i x).exec g = (wr g.1 i x >>= fun xs => .ok ((xs, g.2), ())) := rfl

theorem exec_put_bind (i x : Nat) (q : Unit → Prog V β) (g : Mem V) :
    (put i x >>= q).exec g = (wr g.1 i x >>= fun xs => (q ()).exec (xs, g.2)) := by
  rw [exec_bind, exec_put]
  cases wr g.1 i x <;> rfl

theorem exec_putV_bind (i : Nat) (v : V) (q : Unit → Prog V β) (g : Mem V) :
    (putV i v >>= q).exec g = (wr g.2 i v >>= fun xs => (q ()).exec (g.1, xs)) := by
  rw [exec_bind]
  show (wr g.2 i v >>= fun xs => (Except.ok ((g.1, xs), ()) : Res (Mem V × Unit))) >>= _ = _
  cases wr g.2 i v <;> rfl

theorem exec_get_bind (i : Nat) (q : Nat → Prog V β) (g : Mem V) :
    (get i >>= q).exec g = (rd g.1 i >>= fun x => (q x).exec g) := by
  rw [exec_bind]
  show (rd g.1 i >>= fun x => (Except.ok (g, x) : Res (Mem V × Nat))) >>= _ = _
  cases rd g.1 i <;> rfl

/-- Loops run like the loops of the model. -/
theorem exec_forList (l : List β) (body : β → α → Prog V α) (step : Mem V × α → β → Res (Mem V × α))
    (h : ∀ x g s, (body x s).exec g = step (g, s) x) : ∀ g s, (forList l s body).exec g = l.foldlM step (g, s) := by
  induction l with
  | nil => intro g s; rfl
  | cons x l ih =>
    intro g s
    rw [forList, exec_bind, h, List.foldlM_cons]
    congr 1
    funext r
    exact ih r.1 r.2

/-- All accesses, whatever is found in the memory. -/
def Prog.All (P : Access → Prop) : Prog V α → Prop
  | .ret _ => True
  | .fail _ => True
  | .load i k => P ⟨.numbers, i, false⟩ ∧ ∀ x, (k x).All P
  | .store i _ k => P ⟨.numbers, i, true⟩ ∧ k.All P
  | .storeV i _ k => P ⟨.values, i, true⟩ ∧ k.All P

variable {P Q : Access → Prop}

theorem all_accesses {p : Prog V α} (h : p.All P) : ∀ g, ∀ a ∈ p.accesses g, P a := by
  induction p with
  | ret a => intro g a ha; cases ha
  | fail e => intro g a ha; cases ha
  | load i k ih =>
    intro g a ha
    rw [Prog.accesses] at ha
    rcases List.mem_cons.1 ha with rfl | ha
    · exact h.1
    · cases hr : rd g.1 i with
      | error e => rw [hr] at ha; cases ha
      | ok x => rw [hr] at ha; exact ih x (h.2 x) g a ha
  | store i x k ih =>
    intro g a ha
    rw [Prog.accesses] at ha
    rcases List.mem_cons.1 ha with rfl | ha
    · exact h.1
    · cases hr : wr g.1 i x with
      | error e => rw [hr] at ha; cases ha
      | ok xs => rw [hr] at ha; exact ih h.2 _ a ha
  | storeV i v k ih =>
    intro g a ha
    rw [Prog.accesses] at ha
    rcases List.mem_cons.1 ha with rfl | ha
    · exact h.1
    · cases hr : wr g.2 i v with
      | error e => rw [hr] at ha; cases ha
      | ok xs => rw [hr] at ha; exact ih h.2 _ a ha

theorem all_bind {p : Prog V α} {q : α → Prog V β} (h : p.All P) (hq : ∀ a, (q a).All P) : (p >>= q).All P := by
  show (p.andThen q).All P
  induction p with
  | ret a => exact hq a
  | fail e => trivial
  | load i k ih => exact ⟨h.1, fun x => ih x (h.2 x)⟩
  | store i x k ih => exact ⟨h.1, ih h.2⟩
  | storeV i v k ih => exact ⟨h.1, ih h.2⟩

theorem all_priv (r : Res α) : (priv r : Prog V α).All P := by cases r <;> trivial

theorem all_priv_bind {r : Res α} {q : α → Prog V β} (hq : ∀ a, r = .ok a → (q a).All P) : (priv r >>= q).All P := by
  cases r with
  | error e => trivial
  | ok a => exact hq a rfl

theorem all_put {i x : Nat} (h : P ⟨.numbers, i, true⟩) : (put i x : Prog V Unit).All P := ⟨h, trivial⟩
theorem all_putV {i : Nat} {v : V} (h : P ⟨.values, i, true⟩) : (putV i v : Prog V Unit).All P := ⟨h, trivial⟩
theorem all_get {i : Nat} (h : P ⟨.numbers, i, false⟩) : (get i : Prog V Nat).All P := ⟨h, fun _ => trivial⟩

theorem all_forList {l : List β} {body : β → α → Prog V α} (h : ∀ x s, (body x s).All P) : ∀ s, (forList l s body).All P := by
  induction l with
  | nil => intro s; trivial
  | cons x l ih => intro s; exact all_bind (h x s) ih

theorem all_mono {p : Prog V α} (h : p.All P) (hPQ : ∀ a, P a → Q a) : p.All Q := by
  induction p with
  | ret a => trivial
  | fail e => trivial
  | load i k ih => exact ⟨hPQ _ h.1, fun x => ih x (h.2 x)⟩
  | store i x k ih => exact ⟨hPQ _ h.1, ih h.2⟩
  | storeV i v k ih => exact ⟨hPQ _ h.1, ih h.2⟩

theorem all_and {p : Prog V α} (h : p.All P) (h' : p.All Q) : p.All fun a => P a ∧ Q a := by
  induction p with
  | ret a => trivial
  | fail e => trivial
  | load i k ih => exact ⟨⟨h.1, h'.1⟩, fun x => ih x (h.2 x) (h'.2 x)⟩
  | store i x k ih => exact ⟨⟨h.1, h'.1⟩, ih h.2 h'.2⟩
  | storeV i v k ih => exact ⟨⟨h.1, h'.1⟩, ih h.2 h'.2⟩

theorem wr_ok_iff {γ : Type} {xs ys : List γ} {i : Nat} {x : γ} (h : wr xs i x = .ok ys) : i < xs.length ∧ ys.length = xs.length := by
  unfold wr at h
  by_cases hi : i < xs.length
  · rw [if_pos hi] at h
    cases h
    exact ⟨hi, by simp⟩
  · rw [if_neg hi] at h
    cases h

/-- A piece that loads nothing writes the same cells in every memory. If it succeeds in a memory with arrays of length `L`, these are
below `L`. -/
theorem all_lt_of_exec {L : Nat} {p : Prog V α} (h : p.All fun a => a.write = true) :
    ∀ {g r}, p.exec g = .ok r → g.1.length = L → g.2.length = L → p.All fun a => a.idx < L := by
  induction p with
  | ret a => intros; trivial
  | fail e => intros; trivial
  | load i k ih => exact absurd h.1 (by simp)
  | store i x k ih =>
    intro g r hr h1 h2
    rw [Prog.exec] at hr
    cases hw : wr g.1 i x with
    | error e => rw [hw] at hr; cases hr
    | ok xs =>
      rw [hw] at hr
      obtain ⟨k1, k2⟩ := wr_ok_iff hw
      exact ⟨by simp only; omega, ih h.2 hr (by simp only; omega) h2⟩
  | storeV i v k ih =>
    intro g r hr h1 h2
    rw [Prog.exec] at hr
    cases hw : wr g.2 i v with
    | error e => rw [hw] at hr; cases hr
    | ok xs =>
      rw [hw] at hr
      obtain ⟨k1, k2⟩ := wr_ok_iff hw
      exact ⟨by simp only; omega, ih h.2 hr h1 (by simp only; omega)⟩

/-! ## Regions -/

/-- Every access of a loop is an access of one of its iterations. -/
theorem mem_loopTrace {who : Nat → Nat} {prog : Nat → Prog V Unit} {own : Nat → Access → Prop} {order : List Nat}
    (h : ∀ i ∈ order, (prog i).All (own i)) : ∀ g, ∀ x ∈ loopTrace who prog order g, ∃ i ∈ order, x.1 = who i ∧ own i x.2 := by
  induction order with
  | nil => intro g x hx; cases hx
  | cons i is ih =>
    intro g x hx
    rw [loopTrace] at hx
    rcases List.mem_append.1 hx with hx | hx
    · obtain ⟨a, ha, rfl⟩ := List.mem_map.1 hx
      exact ⟨i, List.mem_cons_self .., rfl, all_accesses (h i (List.mem_cons_self ..)) g a ha⟩
    · cases he : (prog i).exec g with
      | error e => rw [he] at hx; cases hx
      | ok r =>
        rw [he] at hx
        obtain ⟨j, hj, h1, h2⟩ := ih (fun j hj => h j (List.mem_cons_of_mem _ hj)) _ x hx
        exact ⟨j, List.mem_cons_of_mem _ hj, h1, h2⟩

/-- A loop whose iterations stay within cells of their own has no race, whatever thread executes them. -/
theorem loop_free {who : Nat → Nat} {prog : Nat → Prog V Unit} {own : Nat → Access → Prop} {order : List Nat}
    (h : ∀ i ∈ order, (prog i).All (own i))
    (hd : ∀ i ∈ order, ∀ j ∈ order, i ≠ j → ∀ a b, own i a → own j b → a.arr = b.arr → a.idx ≠ b.idx) (g : Mem V) :
    ¬ Racy (loopTrace who prog order g) := by
  rintro ⟨x, hx, y, hy, h1, h2, h3, -⟩
  obtain ⟨i, hi, e1, o1⟩ := mem_loopTrace h g x hx
  obtain ⟨j, hj, e2, o2⟩ := mem_loopTrace h g y hy
  by_cases hij : i = j
  · subst hij; exact h1 (by rw [e1, e2])
  · exact hd i hi j hj hij _ _ o1 o2 h2 h3

/-- The accesses of a region with an invariant `W` of the memory and an invariant `I` of the threads. -/
theorem mem_trace {n : Nat} {prog : Nat → α → Prog V α} {fin : α → Bool} {own : Nat → Access → Prop} {W : Mem V → Prop}
    {I : Nat → α → Prop}
    (h : ∀ t < n, ∀ l g, I t l → fin l = false → W g → (prog t l).All (own t) ∧
      ∀ g' l', (prog t l).exec g = .ok (g', l') → W g' ∧ I t l') :
    ∀ sched g ls, W g → (∀ t < n, I t (ls t)) → ∀ x ∈ trace n prog fin sched g ls, x.1 < n ∧ own x.1 x.2 := by
  intro sched
  induction sched with
  | nil => intro g ls _ _ x hx; cases hx
  | cons t ts ih =>
    intro g ls hg hl x hx
    rw [trace] at hx
    by_cases hc : t < n ∧ fin (ls t) = false
    · rw [if_pos hc] at hx
      obtain ⟨h1, h2⟩ := h t hc.1 (ls t) g (hl t hc.1) hc.2 hg
      rcases List.mem_append.1 hx with hx | hx
      · obtain ⟨a, ha, rfl⟩ := List.mem_map.1 hx
        exact ⟨hc.1, all_accesses h1 g a ha⟩
      · cases he : (prog t (ls t)).exec g with
        | error e => rw [he] at hx; cases hx
        | ok r =>
          obtain ⟨g', l'⟩ := r
          rw [he] at hx
          obtain ⟨k1, k2⟩ := h2 g' l' he
          refine ih g' (upd ls t l') k1 ?_ x hx
          intro u hu
          by_cases hut : u = t
          · subst hut; rw [upd_same]; exact k2
          · rw [upd_ne _ _ hut]; exact hl u hu
    · rw [if_neg hc] at hx
      exact ih g ls hg hl x hx

/-- A region in which every thread works on its own block of rows has no race if the cells of the rows are disjoint. -/
theorem block_free {n rows : Nat} {o : Nat → Nat} {off : List Nat} (ho : Bounds n rows o)
    (hoff : ∀ t ≤ n, off[t]? = some (o t)) {init : Nat → Nat → Nat → Res α} {row : Nat → α → Prog V α} (W : Mem V → Prop)
    (I : Nat → α → Prop) (own : Nat → Access → Prop)
    (hinit : ∀ t < n, ∀ a, init t (o t) (o (t + 1)) = .ok a → I t a)
    (hrow : ∀ t < n, ∀ i a g, o t ≤ i → i < o (t + 1) → I t a → W g → (row i a).All (own i) ∧
      ∀ g' a', (row i a).exec g = .ok (g', a') → W g' ∧ I t a')
    (hd : ∀ i < rows, ∀ j < rows, i ≠ j → ∀ a b, own i a → own j b → a.arr = b.arr → a.idx ≠ b.idx)
    (sched : List Nat) (g : Mem V) (hg : W g) : ¬ Racy (blockTrace n off init row sched g) := by
  have hm := mem_trace (n := n) (prog := blockProg off init row) (fin := blockFin)
    (own := fun t a => ∃ i, o t ≤ i ∧ i < o (t + 1) ∧ own i a) (W := W)
    (I := fun t l => ∀ a i hi, l = some (a, i, hi) → hi = o (t + 1) ∧ o t ≤ i ∧ I t a) (by
      intro t ht l g hI hfin hW
      cases l with
      | none =>
        refine ⟨all_priv _, ?_⟩
        intro g' l' he
        rw [blockProg, exec_priv] at he
        obtain ⟨l1, h1, h2⟩ := Alias.bind_ok' he
        cases h2
        refine ⟨hW, ?_⟩
        rw [rd_of_getElem? (hoff t (by omega)), ok_bind, rd_of_getElem? (hoff (t + 1) (by omega)), ok_bind] at h1
        obtain ⟨a, h3, h4⟩ := Alias.bind_ok' h1
        cases h4
        intro a' i hi e
        cases e
        exact ⟨rfl, Nat.le_refl _, hinit t ht a h3⟩
      | some x =>
        obtain ⟨a, i, hi⟩ := x
        obtain ⟨h1, h2, h3⟩ := hI a i hi rfl
        have hlt : i < hi := by simpa [blockFin] using hfin
        obtain ⟨k1, k2⟩ := hrow t ht i a g h2 (by omega) h3 hW
        refine ⟨all_bind (all_mono k1 fun b hb => ⟨i, h2, by omega, hb⟩) (fun _ => trivial), ?_⟩
        intro g' l' he
        rw [blockProg, exec_bind] at he
        obtain ⟨r, h4, h5⟩ := Alias.bind_ok' he
        cases h5
        obtain ⟨k3, k4⟩ := k2 r.1 r.2 h4
        refine ⟨k3, ?_⟩
        intro a' i' hi' e
        cases e
        exact ⟨h1, by omega, k4⟩) sched g (fun _ => none) hg (by intro t _ a i hi e; cases e)
  rintro ⟨x, hx, y, hy, h1, h2, h3, -⟩
  obtain ⟨ht, i, hi1, hi2, oi⟩ := hm x hx
  obtain ⟨hu, j, hj1, hj2, oj⟩ := hm y hy
  have hi : i < rows := by have := ho.le (t := x.1 + 1) (by omega); omega
  have hj : j < rows := by have := ho.le (t := y.1 + 1) (by omega); omega
  by_cases hij : i = j
  · subst hij; exact h1 (ho.disj ht hu hi1 hi2 hj1 hj2)
  · exact hd i hi j hj hij _ _ oi oj h2 h3

/-! ## The programs are the steps of the model -/

theorem exec_symRow (A B : CSR V) (binId : List Nat) (i : Nat) (t : Tbl V) (x : List Nat) (ys : List V) :
    (symRow A B binId i t).exec (x, ys) = (HashMult.symRow A B binId i x t >>= fun r => .ok ((r.1, ys), r.2)) := by
  unfold symRow HashMult.symRow
  rw [exec_priv_bind, bind_assoc]
  congr 1
  funext bid
  by_cases h : bid > 0
  · simp only [if_pos h, exec_priv_bind, exec_put_bind, bind_assoc, pure_ret, exec_ret, ok_bind]
  · simp only [if_neg h, exec_put_bind, bind_assoc, pure_ret, exec_ret, ok_bind]

theorem foldlM_pair {l : List β} {f : Mem V × Unit → β → Res (Mem V × Unit)} {h : Mem V → β → Res (Mem V)}
    (hf : ∀ g x, f (g, ()) x = (h g x >>= fun g => .ok (g, ()))) : ∀ g, l.foldlM f (g, ()) = (l.foldlM h g >>= fun g => .ok (g, ())) := by
  induction l with
  | nil => intro g; rfl
  | cons x l ih =>
    intro g
    rw [List.foldlM_cons, List.foldlM_cons, hf, bind_assoc, bind_assoc]
    congr 1
    funext g'
    exact ih g'

theorem exec_writeOut (off index : Nat) (pv : List (Nat × V)) (g : Mem V) :
    (writeOut off index pv).exec g = (HashMult.writeOut off index pv g >>= fun g => .ok (g, ())) := by
  unfold writeOut HashMult.writeOut loop forRange
  rw [exec_forList _ _ (fun s j => (do
      let x ← rd pv j
      let c ← wr s.1.1 (off + j) x.1
      let v ← wr s.1.2 (off + j) x.2
      .ok ((c, v), ()) : Res (Mem V × Unit))) (by
    intro j g s
    rw [exec_priv_bind]
    congr 1)]
  exact foldlM_pair (by intro g j; simp only [bind_assoc, ok_bind]) g

theorem exec_gather (t : Tbl V) (shRow off : Nat) (g : Mem V) :
    (gather t shRow off).exec g = HashMult.gather t shRow off g := by
  unfold gather HashMult.gather loop forRange
  refine exec_forList _ _ _ ?_ g 0
  intro j g index
  simp only [exec_priv_bind]
  congr 1
  funext e
  cases e.key with
  | none => rfl
  | some key =>
    simp only [exec_put_bind, exec_putV_bind]
    rfl

theorem exec_numRow (sorted : Bool) (sortf : List (Nat × V) → List (Nat × V)) (mul add : V → V → V) (dflt : V) (A B : CSR V)
    (rowptr binId : List Nat) (i : Nat) (t : Tbl V) (g : Mem V) :
    (numRow sorted sortf mul add dflt A B rowptr binId i t).exec g =
      HashMult.numRow sorted sortf mul add dflt A B rowptr binId i g t := by
  unfold numRow HashMult.numRow
  rw [exec_priv_bind]
  congr 1
  funext bid
  by_cases h : bid > 0
  · simp only [if_pos h, exec_priv_bind]
    congr 1
    funext off
    congr 1
    funext t1
    congr 1
    funext t2
    cases sorted with
    | true =>
      simp only [if_true, exec_priv_bind]
      congr 1
      funext hi
      congr 1
      funext r
      rw [exec_bind, exec_writeOut, bind_assoc]
      rfl
    | false =>
      simp only [Bool.false_eq_true, if_false]
      rw [exec_bind, exec_gather]
      rfl
  · simp only [if_neg h]
    rfl

theorem exec_spaCountRow (A B M : CSR V) (i : Nat) (s : Spa.Str) (x : List Nat) (ys : List V) :
    (spaCountRow A B M i s).exec (x, ys) = (Spa.countRow A B M i x s >>= fun r => .ok ((r.1, ys), r.2)) := by
  unfold spaCountRow Spa.countRow
  simp only [exec_priv_bind, exec_put_bind, exec_priv, bind_assoc, ok_bind]

theorem exec_outputReset (s : Spa.Acc V) (off : Nat) (g : Mem V) :
    (outputReset s off).exec g = s.outputReset off g := by
  unfold outputReset Spa.Acc.outputReset
  rw [exec_bind, exec_forList _ _ (fun (x : Mem V × Nat) index => (do
    let c ← wr x.1.1 (off + x.2) index
    let y ← rd s.values index
    let v ← wr x.1.2 (off + x.2) y
    .ok ((c, v), x.2 + 1) : Res (Mem V × Nat)))]
  · congr 1
    funext r
    rw [exec_priv_bind]
    rfl
  · intro index g k
    simp only [exec_put_bind, exec_priv_bind, exec_putV_bind]
    rfl

theorem exec_spaFillRow (mul add : V → V → V) (A B M : CSR V) (rowptr : List Nat) (i : Nat) (s : Spa.Acc V) (g : Mem V) :
    (spaFillRow mul add A B M rowptr i s).exec g = Spa.fillRow mul add A B M rowptr i g s := by
  unfold spaFillRow Spa.fillRow
  simp only [exec_priv_bind, exec_outputReset]

theorem exec_nestP (A B : CSR V) (i : Nat) (s : α) (body : Nat → Nat → α → Prog V α) (step : Nat → Nat → Mem V × α → Res (Mem V × α))
    (h : ∀ j k g s, (body j k s).exec g = step j k (g, s)) (g : Mem V) :
    (nestP A B i s body).exec g = nest A B i (g, s) step := by
  unfold nestP nest
  simp only [exec_priv_bind]
  congr 1
  funext lo
  congr 1
  funext hi
  refine exec_forList _ _ _ ?_ g s
  intro j g s
  simp only [exec_priv_bind]
  congr 1
  funext inner
  congr 1
  funext klo
  congr 1
  funext khi
  exact exec_forList _ _ _ (fun k g s => h j k g s) g s

theorem foldlM_image {γ δ ε : Type} {l : List ε} {f : γ → ε → Res γ} {f' : δ → ε → Res δ} (φ : δ → γ)
    (h : ∀ s x, f (φ s) x = (f' s x >>= fun s => .ok (φ s))) : ∀ s, l.foldlM f (φ s) = (l.foldlM f' s >>= fun s => .ok (φ s)) := by
  induction l with
  | nil => intro s; rfl
  | cons x l ih =>
    intro s
    rw [List.foldlM_cons, List.foldlM_cons, h, bind_assoc, bind_assoc]
    congr 1
    funext s'
    exact ih s'

theorem nest_image {γ δ : Type} {A B : CSR V} {i : Nat} {f : Nat → Nat → γ → Res γ} {f' : Nat → Nat → δ → Res δ} (φ : δ → γ)
    (h : ∀ j k s, f j k (φ s) = (f' j k s >>= fun s => .ok (φ s))) (s : δ) :
    nest A B i (φ s) f = (nest A B i s f' >>= fun s => .ok (φ s)) := by
  unfold nest
  simp only [bind_assoc]
  congr 1
  funext lo
  congr 1
  funext hi
  refine foldlM_image φ ?_ s
  intro s j
  simp only [bind_assoc]
  congr 1
  funext inner
  congr 1
  funext klo
  congr 1
  funext khi
  exact foldlM_image φ (fun s k => h j k s) s

theorem exec_countProducts (A B : CSR V) (i : Nat) (t : Tbl Bool) (x : List Nat) (ys : List V) :
    (countProducts A B i t).exec (x, ys) = (LpMult.countProducts A B i x t >>= fun r => .ok ((r.1, ys), r.2)) := by
  unfold countProducts LpMult.countProducts
  rw [exec_put_bind, bind_assoc]
  congr 1
  funext x
  rw [exec_nestP _ _ _ _ _ (fun _ k (s : Mem V × Tbl Bool) => (do
    let c ← rd B.colids k
    let hv ← LpMult.find s.2 c
    match hv with
    | none => .ok s
    | some hv => do
      let e ← rd s.2.table hv
      if e.val = false then do
        let y ← rd s.1.1 i
        let xs ← wr s.1.1 i (y + 1)
        let t ← s.2.put hv { e with val := true }
        .ok ((xs, s.1.2), t)
      else .ok s : Res (Mem V × Tbl Bool)))]
  · refine nest_image (fun (s : List Nat × Tbl Bool) => (((s.1, ys), s.2) : Mem V × Tbl Bool)) ?_ (x, t)
    intro j k s
    simp only [bind_assoc]
    congr 1
    funext c
    congr 1
    funext hv
    cases hv with
    | none => rfl
    | some hv =>
      simp only [bind_assoc]
      congr 1
      funext e
      by_cases h : e.val = false
      · simp only [if_pos h, bind_assoc, ok_bind]
      · simp only [if_neg h, ok_bind]
  · intro j k g t
    simp only [exec_priv_bind]
    congr 1
    funext c
    congr 1
    funext hv
    cases hv with
    | none => rfl
    | some hv =>
      simp only [exec_priv_bind]
      congr 1
      funext e
      by_cases h : e.val = false
      · simp only [if_pos h, exec_get_bind, exec_put_bind, exec_priv]
      · simp only [if_neg h]
        rfl

theorem exec_lpGather (t : Tbl (V × Bool)) (off : Nat) (g : Mem V) : (lpGather t off).exec g = LpMult.gather t off g := by
  unfold lpGather LpMult.gather loop forRange
  rw [exec_bind, exec_forList _ _ (fun (s : Mem V × Tbl (V × Bool) × Nat) j => (do
    let e ← rd s.2.1.table j
    let (out, k) ← (match e.key with
      | some c =>
        if e.val.2 then do
          let cs ← wr s.1.1 (off + s.2.2) c
          let vs ← wr s.1.2 (off + s.2.2) e.val.1
          .ok ((cs, vs), s.2.2 + 1)
        else .ok (s.1, s.2.2)
      | none => .ok (s.1, s.2.2) : Res ((List Nat × List V) × Nat))
    let t ← s.2.1.putEmpty j
    .ok (out, t, k) : Res (Mem V × Tbl (V × Bool) × Nat)))]
  · rfl
  · rintro j g ⟨t, k⟩
    simp only [exec_priv_bind]
    congr 1
    funext e
    cases e.key with
    | none =>
      simp only [pure_ret, ret_bind, exec_priv_bind, exec_ret, ok_bind]
    | some c =>
      cases e.val.2 with
      | false => simp only [Bool.false_eq_true, if_false, pure_ret, ret_bind, exec_priv_bind, exec_ret, ok_bind]
      | true =>
        simp only [if_true]
        rw [exec_bind, exec_put_bind, bind_assoc, bind_assoc]
        congr 1
        funext cs
        rw [exec_putV_bind, bind_assoc, bind_assoc]
        congr 1
        funext vs
        simp only [pure_ret, exec_ret, ok_bind, exec_priv_bind]

theorem exec_lpCountRow (A B M : CSR V) (i : Nat) (t : Tbl Bool) (x : List Nat) (ys : List V) :
    (lpCountRow A B M i t).exec (x, ys) = (LpMult.countRow A B M i x t >>= fun r => .ok ((r.1, ys), r.2)) := by
  unfold lpCountRow LpMult.countRow
  simp only [exec_bind, exec_countProducts, exec_priv, bind_assoc, ok_bind]

theorem exec_lpFillRow (mul add : V → V → V) (dflt : V) (A B M : CSR V) (rowptr : List Nat) (i : Nat) (t : Tbl (V × Bool))
    (g : Mem V) : (lpFillRow mul add dflt A B M rowptr i t).exec g = LpMult.fillRow mul add dflt A B M rowptr i g t := by
  unfold lpFillRow LpMult.fillRow
  simp only [exec_priv_bind, exec_lpGather]

/-! ## The two kinds of regions of the kernels -/

/-- Cells of row `i` in the arrays of row lengths. -/
def CellOf (i : Nat) (a : Access) : Prop := a.arr = .numbers ∧ a.idx = i

/-- First pass: no race. -/
theorem count_free {n rows : Nat} {o : Nat → Nat} {off : List Nat} (ho : Bounds n rows o)
    (hoff : ∀ t ≤ n, off[t]? = some (o t)) {init : Nat → Nat → Nat → Res α} {row : Nat → List Nat → α → Res (List Nat × α)}
    {prog : Nat → α → Prog V α} {cnt : Nat → Nat} (I : Nat → α → Prop)
    (hinit : ∀ t < n, ∃ a, init t (o t) (o (t + 1)) = .ok a ∧ I t a)
    (hrow : ∀ t < n, ∀ i a, o t ≤ i → i < o (t + 1) → I t a → ∀ g, ∃ a', row i (tab rows g) a = .ok (tab rows (upd g i (cnt i)), a') ∧ I t a')
    (hx : ∀ i a x ys, (prog i a).exec (x, ys) = (row i x a >>= fun r => .ok ((r.1, ys), r.2)))
    (hc : ∀ i a, (prog i a).All (CellOf i)) (g0 : Nat → Nat) (sched : List Nat) :
    ¬ Racy (blockTrace n off init prog sched (tab rows g0, [])) := by
  refine block_free ho hoff (fun g => ∃ f, g = (tab rows f, [])) I CellOf ?_ ?_ ?_ sched _ ⟨g0, rfl⟩
  · intro t ht a ha
    obtain ⟨a', h1, h2⟩ := hinit t ht
    rw [h1] at ha
    cases ha
    exact h2
  · rintro t ht i a g hi1 hi2 hI ⟨f, rfl⟩
    refine ⟨hc i a, ?_⟩
    intro g' a' he
    obtain ⟨a1, e1, e2⟩ := hrow t ht i a hi1 hi2 hI f
    rw [hx, e1] at he
    cases he
    exact ⟨⟨_, rfl⟩, e2⟩
  · intro i _ j _ hij a b ha hb _ h
    exact hij (by rw [← ha.2, ← hb.2, h])

/-- Cells of row `i` in the arrays of the result. -/
def SegOf (exp : Nat → List (Nat × V)) (i : Nat) (a : Access) : Prop := psum (lens exp) i ≤ a.idx ∧ a.idx < psum (lens exp) (i + 1)

theorem seg_disj {exp : Nat → List (Nat × V)} {i j : Nat} (hij : i ≠ j) {a b : Access} (ha : SegOf exp i a) (hb : SegOf exp j b) :
    a.idx ≠ b.idx := by
  intro h
  obtain ⟨a1, a2⟩ := ha
  obtain ⟨b1, b2⟩ := hb
  rcases Nat.lt_or_gt_of_ne hij with hlt | hgt
  · have := psum_mono (f := lens exp) (show i + 1 ≤ j from hlt)
    omega
  · have := psum_mono (f := lens exp) (show j + 1 ≤ i from hgt)
    omega

/-- Stores from the start of row `i` on that fit into the row are stores to its cells. -/
theorem seg_all {exp : Nat → List (Nat × V)} {i : Nat} {p : Prog V α} {dflt : V}
    (hp : p.All fun a => a.write = true ∧ psum (lens exp) i ≤ a.idx)
    (hrun : ∃ r, p.exec ((List.replicate (psum (lens exp) (i + 1)) ((0, dflt) : Nat × V)).map (·.1),
      (List.replicate (psum (lens exp) (i + 1)) ((0, dflt) : Nat × V)).map (·.2)) = .ok r) : p.All (SegOf exp i) := by
  obtain ⟨r, hr⟩ := hrun
  have h1 := all_lt_of_exec (L := psum (lens exp) (i + 1)) (all_mono hp fun _ h => h.1) hr (by simp) (by simp)
  exact all_mono (all_and hp h1) fun a h => ⟨h.1.2, h.2⟩

theorem putRow_length {exp : Nat → List (Nat × V)} {i : Nat} {X : List (Nat × V)} (h : psum (lens exp) (i + 1) ≤ X.length) :
    (putRow exp i X).length = X.length := by
  have h1 : psum (lens exp) (i + 1) = psum (lens exp) i + (exp i).length := rfl
  unfold putRow
  simp only [List.length_append, List.length_take, List.length_drop]
  omega

/-- Second pass: no race. -/
theorem fill_free {n rows : Nat} {o : Nat → Nat} {off : List Nat} (ho : Bounds n rows o)
    (hoff : ∀ t ≤ n, off[t]? = some (o t)) {init : Nat → Nat → Nat → Res α}
    {row : Nat → List Nat × List V → α → Res ((List Nat × List V) × α)} {prog : Nat → α → Prog V α}
    {exp : Nat → List (Nat × V)} (I : Nat → α → Prop) (hinit : ∀ t < n, ∃ a, init t (o t) (o (t + 1)) = .ok a ∧ I t a)
    (hrow : ∀ t < n, ∀ i a, o t ≤ i → i < o (t + 1) → I t a → ∀ X : List (Nat × V), psum (lens exp) (i + 1) ≤ X.length →
      ∃ a', row i (X.map (·.1), X.map (·.2)) a = .ok (((putRow exp i X).map (·.1), (putRow exp i X).map (·.2)), a') ∧ I t a')
    (hx : ∀ i a g, (prog i a).exec g = row i g a)
    (hf : ∀ i < rows, ∀ a, (prog i a).All fun b => b.write = true ∧ psum (lens exp) i ≤ b.idx) (dflt : V) (sched : List Nat) :
    ¬ Racy (blockTrace n off init prog sched
      (List.replicate (psum (lens exp) rows) 0, List.replicate (psum (lens exp) rows) dflt)) := by
  refine block_free ho hoff
    (fun g => ∃ X : List (Nat × V), X.length = psum (lens exp) rows ∧ g = (X.map (·.1), X.map (·.2))) I (SegOf exp) ?_ ?_ ?_ sched _
    ⟨List.replicate (psum (lens exp) rows) (0, dflt), by simp, by simp⟩
  · intro t ht a ha
    obtain ⟨a', h1, h2⟩ := hinit t ht
    rw [h1] at ha
    cases ha
    exact h2
  · rintro t ht i a g hi1 hi2 hI ⟨X, hX, rfl⟩
    have hi : i < rows := by have := ho.le (t := t + 1) (by omega); omega
    have hle : psum (lens exp) (i + 1) ≤ X.length := by rw [hX]; exact psum_mono hi
    refine ⟨?_, ?_⟩
    · refine seg_all (dflt := dflt) (hf i hi a) ?_
      obtain ⟨a1, e1, -⟩ := hrow t ht i a hi1 hi2 hI (List.replicate (psum (lens exp) (i + 1)) (0, dflt)) (by simp)
      exact ⟨_, by rw [hx, e1]⟩
    · intro g' a' he
      obtain ⟨a1, e1, e2⟩ := hrow t ht i a hi1 hi2 hI X hle
      rw [hx, e1] at he
      cases he
      exact ⟨⟨putRow exp i X, by rw [putRow_length hle, hX], rfl⟩, e2⟩
  · intro i _ j _ hij a b ha hb _
    exact seg_disj hij ha hb

/-! ## The partition -/

theorem bin_free {A B : CSR V} {rows cols minHt n nd : Nat} {w1 w2 : Nat → Nat} {sch : Bin.Sched} :
    ∀ tr ∈ binTraces A B rows cols minHt n nd w1 w2 sch, ¬ Racy tr := by
  intro tr htr
  unfold binTraces at htr
  rcases List.mem_cons.1 htr with rfl | htr
  · exact loop_free (own := CellOf) (fun i _ => all_bind (all_priv _) fun _ => all_put ⟨rfl, rfl⟩)
      (fun i _ j _ hij a b ha hb _ h => hij (by rw [← ha.2, ← hb.2, h])) _
  · cases e1 : Bin.setIntprodNum A B sch.intprod (List.replicate rows 0) with
    | error e => rw [e1] at htr; cases htr
    | ok r =>
      rw [e1] at htr
      simp only at htr
      cases e2 : done (UtilScan.scan r.1 (rows + 1) (List.replicate (rows + 1) 0) nd sch.s1 sch.s2) with
      | none => rw [e2] at htr; cases htr
      | some ps =>
        rw [e2] at htr
        rcases List.mem_cons.1 htr with rfl | htr
        · exact loop_free (own := fun t => CellOf (t + 1)) (fun i _ => all_bind (all_priv _) fun _ => all_put ⟨rfl, rfl⟩)
            (fun i _ j _ hij a b ha hb _ h => hij (by have h1 := ha.2; have h2 := hb.2; omega)) _
        · cases e3 : done (Bin.setRowsOffset r.1 r.2 rows n nd sch.s1 sch.s2 sch.threads) with
          | none => rw [e3] at htr; cases htr
          | some x =>
            rw [e3] at htr
            rw [List.mem_singleton.1 htr]
            exact loop_free (own := CellOf)
              (fun i _ => all_bind (all_priv _) fun _ => all_bind (all_priv _) fun _ => all_put ⟨rfl, rfl⟩)
              (fun i _ j _ hij a b ha hb _ h => hij (by rw [← ha.2, ← hb.2, h])) _

theorem table_free {p : Bin.Part} {cols minHt : Nat} {tables : List Nat} {g : Mem V} :
    ¬ Racy (loopTrace id (tableProg (V := V) p cols minHt) tables g) :=
  loop_free (own := CellOf)
    (fun i _ => all_bind (all_priv _) fun _ => all_bind (all_priv _) fun _ => all_bind (all_priv _) fun _ => all_put ⟨rfl, rfl⟩)
    (fun i _ j _ hij a b ha hb _ h => hij (by rw [← ha.2, ← hb.2, h])) _

end Verif.Model.RaceOld
