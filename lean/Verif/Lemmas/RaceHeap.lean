import Verif.Model.RaceHeap
import Verif.Lemmas.RaceOldFree
import Verif.Lemmas.HeapMult

/-! # The older heap kernel has no data races after its first region -/

namespace Verif.Model.RaceHeap
open RaceOld
open HeapMult (Entry Loc Sched Out)
open Heap (popHeap pushHeap)

variable {V : Type}

/-! ## The programs are the steps of the model -/

theorem exec_storeProg (add : V → V → V) (colStart : List Nat) (first i key : Nat) (value : V) (l : List Nat × List V)
    (x : List Nat) (ys : List V) : (storeProg add colStart first i key value l).exec (x, ys) =
      (HeapMult.store add colStart first i key value ⟨x, l.1, l.2⟩ >>= fun o => .ok ((o.colEnd, ys), (o.rowids, o.values))) := by
  unfold storeProg HeapMult.store
  simp only [exec_get_bind, exec_priv_bind, bind_assoc]
  congr 1
  funext e
  congr 1
  funext s
  congr 1
  funext f
  have key : ∀ same : Bool, (if same then (do
        let v ← priv (rd l.2 (e - f - 1))
        let values ← priv (wr l.2 (e - f - 1) (add value v))
        return (l.1, values))
      else (do
        let values ← priv (wr l.2 (e - f) value)
        let rowids ← priv (wr l.1 (e - f) key)
        put i (e + 1)
        return (rowids, values)) : Prog V (List Nat × List V)).exec (x, ys) =
      ((if same then (do
        let v ← rd l.2 (e - f - 1)
        let values ← wr l.2 (e - f - 1) (add value v)
        .ok ⟨x, l.1, values⟩)
      else (do
        let values ← wr l.2 (e - f) value
        let rowids ← wr l.1 (e - f) key
        let colEnd ← wr x i (e + 1)
        .ok ⟨colEnd, rowids, values⟩) : Res (Out V)) >>= fun o => .ok ((o.colEnd, ys), (o.rowids, o.values))) := by
    intro same
    cases same with
    | true => simp only [if_true, exec_priv_bind, bind_assoc, pure_ret, exec_ret, ok_bind]
    | false => simp only [Bool.false_eq_true, if_false, exec_priv_bind, exec_put_bind, bind_assoc, pure_ret, exec_ret, ok_bind]
  by_cases hes : e > s
  · simp only [if_pos hes, bind_assoc, ok_bind]
    congr 1
    funext c
    exact key _
  · simp only [if_neg hes, ok_bind]
    exact key _

theorem exec_loopProg (mul add : V → V → V) (A B : CSC V) (colStart : List Nat) (first i : Nat) (ys : List V) :
    ∀ (fuel : Nat) (es : List (Entry V)) (l : List Nat × List V) (x : List Nat),
    (loopProg mul add A B colStart first i fuel es l).exec (x, ys) =
      (HeapMult.colLoop mul add A B colStart first i fuel es ⟨x, l.1, l.2⟩ >>= fun o => .ok ((o.colEnd, ys), (o.rowids, o.values))) := by
  intro fuel
  induction fuel with
  | zero => intro es l x; rfl
  | succ fuel ih =>
    intro es l x
    unfold loopProg HeapMult.colLoop
    by_cases h : es.isEmpty = true
    · rw [if_pos h, if_pos h]
      rfl
    · rw [if_neg h, if_neg h]
      simp only [exec_priv_bind, bind_assoc]
      congr 1
      funext es'
      congr 1
      funext e
      rw [exec_bind, exec_storeProg]
      simp only [bind_assoc, ok_bind, exec_priv_bind]
      congr 1
      funext o
      congr 1
      funext inner
      congr 1
      funext hi
      congr 1
      funext lo
      by_cases hc : hi - lo > e.loc.1
      · simp only [if_pos hc, exec_priv_bind, bind_assoc, ih]
      · simp only [if_neg hc, ih]

theorem exec_columnProg (mul add : V → V → V) (A B : CSC V) (colStart : List Nat) (i : Nat) (l : Loc V) (x : List Nat) (ys : List V) :
    (columnProg mul add A B colStart i l).exec (x, ys) =
      (HeapMult.column mul add A B colStart i x l >>= fun r => .ok ((r.1, ys), r.2)) := by
  unfold columnProg HeapMult.column
  simp only [exec_bind, exec_priv, exec_loopProg, bind_assoc, ok_bind, pure_ret, exec_ret]

theorem foldlM_fst {β γ : Type} {l : List β} {f : Mem V × Unit → β → Res (Mem V × Unit)} {h : List Nat → β → Res (List Nat)}
    (hf : ∀ x ys b, f ((x, ys), ()) b = (h x b >>= fun x => .ok ((x, ys), ()))) :
    ∀ x ys, l.foldlM f ((x, ys), ()) = (l.foldlM h x >>= fun x => .ok ((x, ys), ())) := by
  induction l with
  | nil => intro x ys; rfl
  | cons b l ih =>
    intro x ys
    rw [List.foldlM_cons, List.foldlM_cons, hf, bind_assoc, bind_assoc]
    congr 1
    funext x'
    exact ih x' ys

theorem foldlM_snd {β : Type} {l : List β} {f : Mem V × Unit → β → Res (Mem V × Unit)} {h : List V → β → Res (List V)}
    (hf : ∀ x ys b, f ((x, ys), ()) b = (h ys b >>= fun ys => .ok ((x, ys), ()))) :
    ∀ x ys, l.foldlM f ((x, ys), ()) = (l.foldlM h ys >>= fun ys => .ok ((x, ys), ())) := by
  induction l with
  | nil => intro x ys; rfl
  | cons b l ih =>
    intro x ys
    rw [List.foldlM_cons, List.foldlM_cons, hf, bind_assoc, bind_assoc]
    congr 1
    funext ys'
    exact ih x ys'

theorem exec_copyNums (src : List Nat) (p s len : Nat) (x : List Nat) (ys : List V) :
    (loop 0 len () fun k _ => do
      let x ← priv (rd src (s + k))
      put (p + k) x : Prog V Unit).exec (x, ys) = (Dot.memcpy x p src s len >>= fun x => .ok ((x, ys), ())) := by
  unfold loop Dot.memcpy forRange
  rw [exec_forList _ _ (fun g k => (do
      let x ← rd src (s + k)
      let c ← wr g.1.1 (p + k) x
      .ok ((c, g.1.2), ()) : Res (Mem V × Unit))) (by
    intro k g u
    rw [exec_priv_bind]
    congr 1)]
  exact foldlM_fst (γ := Unit) (by intro x ys b; simp only [bind_assoc]) x ys

theorem exec_copyVals (src : List V) (p s len : Nat) (x : List Nat) (ys : List V) :
    (loop 0 len () fun k _ => do
      let x ← priv (rd src (s + k))
      putV (p + k) x : Prog V Unit).exec (x, ys) = (Dot.memcpy ys p src s len >>= fun ys => .ok ((x, ys), ())) := by
  unfold loop Dot.memcpy forRange
  rw [exec_forList _ _ (fun g k => (do
      let x ← rd src (s + k)
      let c ← wr g.1.2 (p + k) x
      .ok ((g.1.1, c), ()) : Res (Mem V × Unit))) (by
    intro k g u
    rw [exec_priv_bind]
    congr 1)]
  exact foldlM_snd (by intro x ys b; simp only [bind_assoc]) x ys

theorem exec_copyProg (colStart colEnd colptr : List Nat) (i : Nat) (l : Loc V) (x : List Nat) (ys : List V) :
    (copyProg colStart colEnd colptr i l).exec (x, ys) = HeapMult.copyCol colStart colEnd colptr i (x, ys) l := by
  unfold copyProg HeapMult.copyCol
  simp only [exec_bind, exec_priv, exec_copyNums, exec_copyVals, bind_assoc, ok_bind, pure_ret, exec_ret]

/-! ## What the columns access -/

theorem all_storeProg (add : V → V → V) (colStart : List Nat) (first i key : Nat) (value : V) (l : List Nat × List V) :
    (storeProg add colStart first i key value l).All (CellOf i) := by
  unfold storeProg
  refine all_bind (all_get ⟨rfl, rfl⟩) fun e => all_bind (all_priv _) fun s => all_bind (all_priv _) fun f =>
    all_bind (all_priv _) fun same => ?_
  split
  · exact all_bind (all_priv _) fun _ => all_bind (all_priv _) fun _ => trivial
  · exact all_bind (all_priv _) fun _ => all_bind (all_priv _) fun _ => all_bind (all_put ⟨rfl, rfl⟩) fun _ => trivial

theorem all_loopProg (mul add : V → V → V) (A B : CSC V) (colStart : List Nat) (first i : Nat) :
    ∀ (fuel : Nat) (es : List (Entry V)) (l : List Nat × List V),
    (loopProg mul add A B colStart first i fuel es l).All (CellOf i) := by
  intro fuel
  induction fuel with
  | zero => intro es l; trivial
  | succ fuel ih =>
    intro es l
    unfold loopProg
    split
    · trivial
    · refine all_bind (all_priv _) fun _ => all_bind (all_priv _) fun _ => all_bind (all_storeProg ..) fun _ =>
        all_bind (all_priv _) fun _ => all_bind (all_priv _) fun _ => all_bind (all_priv _) fun _ => ?_
      split
      · exact all_bind (all_priv _) fun _ => all_bind (all_priv _) fun _ => all_bind (all_priv _) fun _ =>
          all_bind (all_priv _) fun _ => all_bind (all_priv _) fun _ => ih _ _
      · exact ih _ _

theorem all_columnProg (mul add : V → V → V) (A B : CSC V) (colStart : List Nat) (i : Nat) (l : Loc V) :
    (columnProg mul add A B colStart i l).All (CellOf i) := by
  unfold columnProg
  exact all_bind (all_priv _) fun _ => all_bind (all_loopProg ..) fun _ => trivial

theorem all_forList_mem {α β : Type} {P : Access → Prop} {l : List β} {body : β → α → Prog V α} (h : ∀ x ∈ l, ∀ s, (body x s).All P) :
    ∀ s, (forList l s body).All P := by
  induction l with
  | nil => intro s; trivial
  | cons x l ih =>
    intro s
    exact all_bind (h x (List.mem_cons_self ..) s) (ih fun y hy => h y (List.mem_cons_of_mem _ hy))

theorem all_copyProg {colStart colEnd colptr : List Nat} {i : Nat} {s e p : Nat} (hs : rd colStart i = .ok s)
    (he : rd colEnd i = .ok e) (hp : rd colptr i = .ok p) (l : Loc V) :
    (copyProg colStart colEnd colptr i l).All fun a => p ≤ a.idx ∧ a.idx < p + (e - s) := by
  unfold copyProg
  refine all_priv_bind fun s' h1 => all_priv_bind fun e' h2 => all_bind (all_priv _) fun f => all_priv_bind fun p' h3 => ?_
  rw [hs] at h1
  rw [he] at h2
  rw [hp] at h3
  cases h1
  cases h2
  cases h3
  refine all_bind ?_ fun _ => all_bind ?_ fun _ => trivial
  · refine all_forList_mem (fun k hk _ => all_bind (all_priv _) fun _ => all_put ?_) _
    have := List.mem_range'_1.1 hk
    exact ⟨Nat.le_add_right _ _, by simp only; omega⟩
  · refine all_forList_mem (fun k hk _ => all_bind (all_priv _) fun _ => all_putV ?_) _
    have := List.mem_range'_1.1 hk
    exact ⟨Nat.le_add_right _ _, by simp only; omega⟩

/-! ## The kernel -/

/-- The loop that computes the lengths of the columns. -/
theorem fold_get {colStart colEnd : List Nat} : ∀ (l : List Nat) (nz nz' : List Nat),
    l.foldlM (fun (nz : List Nat) i => (do
      let e ← rd colEnd i
      let s ← rd colStart i
      wr nz i (e - s) : Res (List Nat))) nz = .ok nz' →
    nz'.length = nz.length ∧
    ∀ i, (i ∈ l → (∃ e s, rd colEnd i = .ok e ∧ rd colStart i = .ok s ∧ nz'[i]? = some (e - s))) ∧ (i ∉ l → nz'[i]? = nz[i]?) := by
  intro l
  induction l with
  | nil => intro nz nz' h; cases h; exact ⟨rfl, fun i => ⟨fun h => absurd h List.not_mem_nil, fun _ => rfl⟩⟩
  | cons j l ih =>
    intro nz nz' h
    rw [List.foldlM_cons] at h
    obtain ⟨a, h1, h2⟩ := Heap.bind_ok h
    obtain ⟨e, he, h1⟩ := Heap.bind_ok h1
    obtain ⟨s, hs, h1⟩ := Heap.bind_ok h1
    obtain ⟨hlen, hih⟩ := ih a nz' h2
    obtain ⟨hj, hl⟩ := wr_ok_iff h1
    have ha : a = nz.set j (e - s) := by
      unfold wr at h1
      rw [if_pos hj] at h1
      cases h1
      rfl
    refine ⟨by rw [hlen, hl], fun i => ⟨fun hi => ?_, fun hi => ?_⟩⟩
    · by_cases hil : i ∈ l
      · exact (hih i).1 hil
      · have hij : i = j := by
          rcases List.mem_cons.1 hi with h | h
          · exact h
          · exact absurd h hil
        subst hij
        refine ⟨e, s, he, hs, ?_⟩
        rw [(hih i).2 hil, ha, List.getElem?_set_self hj]
    · rw [List.mem_cons, not_or] at hi
      rw [(hih i).2 hi.2, ha, List.getElem?_set_ne (fun h => hi.1 h.symm)]

/-- Regions with one block of columns for every thread and accesses that do not depend on the state. -/
theorem simple_free {α : Type} {n rows : Nat} {o : Nat → Nat} {off : List Nat} (ho : Bounds n rows o)
    (hoff : ∀ t ≤ n, off[t]? = some (o t)) {init : Nat → Nat → Nat → Res α} {row : Nat → α → Prog V α} {own : Nat → Access → Prop}
    (hrow : ∀ i < rows, ∀ a, (row i a).All (own i))
    (hd : ∀ i < rows, ∀ j < rows, i ≠ j → ∀ a b, own i a → own j b → a.arr = b.arr → a.idx ≠ b.idx)
    (sched : List Nat) (g : Mem V) : ¬ Racy (blockTrace n off init row sched g) := by
  refine block_free ho hoff (fun _ => True) (fun _ _ => True) own (fun _ _ _ _ => trivial) ?_ hd sched g trivial
  intro t ht i a g h1 h2 _ _
  refine ⟨hrow i ?_ a, fun _ _ _ => ⟨trivial, trivial⟩⟩
  have := ho.le (t := t + 1) (by omega)
  omega

theorem cell_disj {i j : Nat} (hij : i ≠ j) {a b : Access} (ha : CellOf i a) (hb : CellOf j b) : a.idx ≠ b.idx := by
  intro h
  exact hij (by rw [← ha.2, ← hb.2, h])

theorem heap_free (mul add : V → V → V) (zero : V) {A B : CSC V} (h : Spec.ValidCols A B) (hpos : 0 < B.cols)
    (hsmall : B.cols + 1 < 2 ^ 17) {n : Nat} (hn : 0 < n) {w1 w2 w3 : Nat → Nat} {alloc sizes : List Nat} {sch : Sched}
    (hadm : sch.Adm B.cols n) : ∀ tr ∈ heapTraces mul add zero A B n w1 w2 w3 alloc sizes sch, ¬ Racy tr := by
  intro tr htr
  unfold heapTraces at htr
  rcases List.mem_cons.1 htr with rfl | htr
  · exact loop_free (own := CellOf) (fun i _ => all_bind (all_priv _) fun _ => all_put ⟨rfl, rfl⟩)
      (fun i _ j _ hij a b ha hb _ => cell_disj hij ha hb) _
  cases e1 : HeapMult.getFlop A B sch.flop (List.replicate B.cols 0) with
  | error e => rw [e1] at htr; cases htr
  | ok r =>
  obtain ⟨maxnnzc, flops⟩ := r
  rw [e1] at htr
  simp only at htr
  cases e2 : done (UtilScan.scan maxnnzc B.cols (List.replicate B.cols 0) n sch.s1 sch.s2) with
  | none => rw [e2] at htr; cases htr
  | some colStart =>
  rw [e2] at htr
  simp only at htr
  rcases List.mem_cons.1 htr with rfl | htr
  · exact loop_free (own := fun k => CellOf (k + 1)) (fun i _ => all_bind (all_priv _) fun _ => all_put ⟨rfl, rfl⟩)
      (fun i _ j _ hij a b ha hb _ => cell_disj (by omega) ha hb) _
  rcases List.mem_cons.1 htr with rfl | htr
  · exact loop_free (own := fun k => CellOf (k + 1)) (fun i _ => all_bind (all_priv _) fun _ => all_put ⟨rfl, rfl⟩)
      (fun i _ j _ hij a b ha hb _ => cell_disj (by omega) ha hb) _
  rw [HeapMult.plan_eq h hpos (by omega) hn hadm] at htr
  simp only [done] at htr
  have ho := HeapMult.bounds_ok (HeapMult.flops A B) (psum (HeapMult.flops A B) B.cols) B.cols hn
  have hoff : ∀ t ≤ n, (tab (n + 1) (HeapMult.bounds (HeapMult.flops A B) (psum (HeapMult.flops A B) B.cols) B.cols n))[t]? =
    some (HeapMult.bounds (HeapMult.flops A B) (psum (HeapMult.flops A B) B.cols) B.cols n t) := fun t ht => tab_getElem? (by omega)
  rcases List.mem_cons.1 htr with rfl | htr
  · exact loop_free (own := CellOf)
      (fun i _ => all_bind (all_priv _) fun _ => all_bind (all_priv _) fun _ => all_bind (all_priv _) fun _ => all_put ⟨rfl, rfl⟩)
      (fun i _ j _ hij a b ha hb _ => cell_disj hij ha hb) _
  rcases List.mem_cons.1 htr with rfl | htr
  · exact loop_free (own := CellOf)
      (fun i _ => all_bind (all_priv _) fun _ => all_bind (all_priv _) fun _ => all_bind (all_priv _) fun _ => all_put ⟨rfl, rfl⟩)
      (fun i _ j _ hij a b ha hb _ => cell_disj hij ha hb) _
  rcases List.mem_cons.1 htr with rfl | htr
  · exact simple_free ho hoff (own := CellOf) (fun i _ a => all_columnProg mul add A B _ i a)
      (fun i _ j _ hij a b ha hb _ => cell_disj hij ha hb) _ _
  split at htr
  · cases htr
  · rename_i colEnd ls _
    rcases List.mem_cons.1 htr with rfl | htr
    · exact loop_free (own := CellOf) (fun i _ => all_bind (all_priv _) fun _ => all_bind (all_priv _) fun _ => all_put ⟨rfl, rfl⟩)
        (fun i _ j _ hij a b ha hb _ => cell_disj hij ha hb) _
    split at htr
    · cases htr
    · rename_i colNz hnz
      obtain ⟨hlen, hget⟩ := fold_get _ _ _ hnz
      have hex : ∀ i, ∃ es : Nat × Nat, i < B.cols → rd colEnd i = .ok es.1 ∧
          rd (tab B.cols (psum (HeapMult.flops A B))) i = .ok es.2 ∧ colNz[i]? = some (es.1 - es.2) := by
        intro i
        by_cases hi : i < B.cols
        · obtain ⟨e, s, k1, k2, k3⟩ := (hget i).1 (hadm.nz.mem_iff.2 (List.mem_range.2 hi))
          exact ⟨(e, s), fun _ => ⟨k1, k2, k3⟩⟩
        · exact ⟨(0, 0), fun h => absurd h hi⟩
      obtain ⟨es, hes⟩ := Classical.axiomOfChoice hex
      have hnz' : colNz = tab B.cols fun i => (es i).1 - (es i).2 := by
        apply List.ext_getElem?
        intro i
        by_cases hi : i < B.cols
        · rw [(hes i hi).2.2, tab_getElem? hi]
        · rw [List.getElem?_eq_none (by rw [hlen, List.length_replicate]; omega), List.getElem?_eq_none (by simp; omega)]
      rw [hnz', scan_small hsmall] at htr
      simp only at htr
      rw [rd_tab (by omega)] at htr
      rw [List.mem_singleton.1 htr]
      refine simple_free ho hoff (own := fun i a => psum (fun i => (es i).1 - (es i).2) i ≤ a.idx ∧
        a.idx < psum (fun i => (es i).1 - (es i).2) (i + 1)) ?_ ?_ _ _
      · intro i hi a
        exact all_copyProg (hes i hi).2.1 (hes i hi).1 (rd_tab (by omega)) a
      · intro i _ j _ hij a b ha hb _ hab
        obtain ⟨a1, a2⟩ := ha
        obtain ⟨b1, b2⟩ := hb
        rcases Nat.lt_or_gt_of_ne hij with hlt | hgt
        · have := psum_mono (f := fun i => (es i).1 - (es i).2) (show i + 1 ≤ j from hlt)
          omega
        · have := psum_mono (f := fun i => (es i).1 - (es i).2) (show j + 1 ≤ i from hgt)
          omega

end Verif.Model.RaceHeap
