import Verif.Lemmas.RaceConv

/-! # The access lists of the loops of `Verif.Model.RaceConv`, written out -/

namespace Verif.Model.RaceConv
open RaceOld (Arr Access)
open RaceOuter (Prog priv loop loopTrace exec_bind exec_priv)

variable {V W σ α β ι : Type}

theorem accesses_bind (p : Prog σ α) (q : α → Prog σ β) : ∀ {g : σ} {r : σ × α}, p.exec g = .ok r →
    (p >>= q).accesses g = p.accesses g ++ (q r.2).accesses r.1 := by
  show ∀ {g : σ} {r : σ × α}, p.exec g = .ok r → (p.andThen q).accesses g = p.accesses g ++ (q r.2).accesses r.1
  induction p with
  | ret a => intro g r h; cases h; rfl
  | fail e => intro g r h; cases h
  | op a f k ih =>
    intro g r h
    obtain ⟨x, h1, h2⟩ := Alias.bind_ok' h
    simp only [Prog.andThen, Prog.accesses, h1, List.append_assoc]
    rw [ih x.2 h2]

/-- If `p` comes to its end, it has made the accesses `L`. -/
def Lists (p : Prog σ α) (L : List Access) : Prop := ∀ g r, p.exec g = .ok r → p.accesses g = L

theorem lists_op {γ : Type} {a : List Access} {f : σ → Res (σ × γ)} : Lists (.op a f .ret) a := by
  intro g r h
  obtain ⟨x, h1, _⟩ := Alias.bind_ok' h
  simp only [Prog.accesses, h1, List.append_nil]

theorem lists_bind {p : Prog σ α} {q : α → Prog σ β} {L M : List Access} (h1 : Lists p L) (h2 : ∀ x, Lists (q x) M) :
    Lists (p >>= q) (L ++ M) := by
  intro g r h
  rw [exec_bind] at h
  obtain ⟨x, e1, e2⟩ := Alias.bind_ok' h
  rw [accesses_bind p q e1, h1 _ _ e1, h2 _ _ _ e2]

theorem lists_priv {x : Res α} {q : α → Prog σ β} {M : List Access} (h : ∀ a, x = .ok a → Lists (q a) M) : Lists (priv x >>= q) M := by
  cases x with
  | ok a => exact h a rfl
  | error e => intro g r h; cases h

theorem lists_loop {body : Nat → Prog σ Unit} {L : Nat → List Access} (h : ∀ i, Lists (body i) (L i)) :
    ∀ len lo, Lists (loop lo len body) ((List.range' lo len).flatMap L) := by
  intro len
  induction len with
  | zero => intro lo g r _; rfl
  | succ len ih =>
    intro lo
    rw [List.range'_succ, List.flatMap_cons]
    exact lists_bind (h lo) (fun _ => ih (lo + 1))

/-- The accesses of a whole loop, in the order of its iterations, each with the thread that runs the iteration. -/
theorem loopTrace_lists {prog : ι → Prog σ Unit} {L : ι → List Access} (h : ∀ i, Lists (prog i) (L i)) (who : ι → Nat) :
    ∀ (order : List ι) (g g' : σ), loopRun prog order g = .ok g' →
      loopTrace who prog order g = order.flatMap (fun i => (L i).map (fun a => (who i, a))) := by
  intro order
  induction order with
  | nil => intro _ _ _; rfl
  | cons i is ih =>
    intro g g' hg
    unfold loopRun at hg
    rw [List.foldlM_cons] at hg
    obtain ⟨x, h1, h2⟩ := Alias.bind_ok' hg
    obtain ⟨y, h3, h4⟩ := Alias.bind_ok' h1
    cases h4
    rw [loopTrace, h i _ _ h3, h3, List.flatMap_cons]
    dsimp only
    rw [ih _ _ h2]

/-- Every operation of `p` that changes a cell lists a write of it; `view` are the cells. -/
inductive Honest (view : σ → Arr → Nat → W) : {α : Type} → Prog σ α → Prop where
  | ret {α : Type} (a : α) : Honest view (.ret a)
  | fail {α : Type} (e : Err) : Honest view (α := α) (.fail e)
  | op {α γ : Type} {a : List Access} {f : σ → Res (σ × γ)} {k : γ → Prog σ α}
      (h : ∀ g r, f g = .ok r → ∀ x i, view r.1 x i ≠ view g x i → ⟨x, i, true⟩ ∈ a) (hk : ∀ x, Honest view (k x)) : Honest view (.op a f k)

theorem honest_bind {view : σ → Arr → Nat → W} {p : Prog σ α} {q : α → Prog σ β} (h1 : Honest view p) (h2 : ∀ x, Honest view (q x)) :
    Honest view (p >>= q) := by
  show Honest view (p.andThen q)
  induction h1 with
  | ret a => exact h2 a
  | fail e => exact .fail e
  | op h hk ih => exact .op h (fun x => ih x)

theorem honest_priv {view : σ → Arr → Nat → W} (x : Res α) : Honest view (priv x : Prog σ α) := by
  cases x with
  | ok a => exact .ret a
  | error e => exact .fail e

theorem honest_loop {view : σ → Arr → Nat → W} {body : Nat → Prog σ Unit} (h : ∀ i, Honest view (body i)) :
    ∀ len lo, Honest view (loop lo len body) := by
  intro len
  induction len with
  | zero => intro lo; exact .ret ()
  | succ len ih => intro lo; exact honest_bind (h lo) (fun _ => ih (lo + 1))

theorem honest_accesses {view : σ → Arr → Nat → W} {p : Prog σ α} (h : Honest view p) : ∀ {g : σ} {r : σ × α}, p.exec g = .ok r →
    ∀ x i, view r.1 x i ≠ view g x i → ⟨x, i, true⟩ ∈ p.accesses g := by
  induction h with
  | ret a => intro g r e x i hne; cases e; exact absurd rfl hne
  | fail => intro g r e; cases e
  | op h hk ih =>
    intro g r e x i hne
    obtain ⟨y, h1, h2⟩ := Alias.bind_ok' e
    simp only [Prog.accesses, h1, List.mem_append]
    by_cases hy : view y.1 x i = view g x i
    · exact Or.inr (ih y.2 h2 x i (by rwa [hy]))
    · exact Or.inl (h _ _ h1 x i hy)

/-- A cell that a loop changes is listed as written, by the thread that runs one of the iterations. -/
theorem loop_writes {view : σ → Arr → Nat → W} {prog : ι → Prog σ Unit} (h : ∀ i, Honest view (prog i)) (who : ι → Nat) :
    ∀ (order : List ι) (g g' : σ), loopRun prog order g = .ok g' → ∀ x k, view g' x k ≠ view g x k →
      ∃ i ∈ order, (who i, ⟨x, k, true⟩) ∈ loopTrace who prog order g := by
  intro order
  induction order with
  | nil => intro g g' e x k hne; cases e; exact absurd rfl hne
  | cons i is ih =>
    intro g g' hg x k hne
    unfold loopRun at hg
    rw [List.foldlM_cons] at hg
    obtain ⟨z, h1, h2⟩ := Alias.bind_ok' hg
    obtain ⟨y, h3, h4⟩ := Alias.bind_ok' h1
    cases h4
    rw [loopTrace, h3]
    dsimp only
    by_cases hy : view y.1 x k = view g x k
    · obtain ⟨j, hj, hm⟩ := ih _ _ h2 x k (by rwa [hy])
      exact ⟨j, List.mem_cons_of_mem _ hj, List.mem_append_right _ hm⟩
    · exact ⟨i, List.mem_cons_self, List.mem_append_left _ (List.mem_map.2 ⟨_, honest_accesses (h i) h3 x k hy, rfl⟩)⟩

/-! ## The cells -/

/-- Two arrays -/
def view2 (s : List Nat × List V) : Arr → Nat → Option (Nat ⊕ V)
  | .numbers, i => s.1[i]?.map .inl
  | .values, i => s.2[i]?.map .inr
  | _, _ => none

/-- The array of values alone; the other one is accessed atomically. -/
def viewV (s : List Nat × List V) : Arr → Nat → Option V
  | .values, i => s.2[i]?
  | _, _ => none

/-- The array to be sorted and the two arrays of the result -/
def view3 (s : List (Nat × V) × List Nat × List V) : Arr → Nat → Option ((Nat × V) ⊕ Nat ⊕ V)
  | .block 0, i => s.1[i]?.map .inl
  | .numbers, i => s.2.1[i]?.map (fun x => .inr (.inl x))
  | .values, i => s.2.2[i]?.map (fun x => .inr (.inr x))
  | _, _ => none

def viewN (s : List Nat) : Arr → Nat → Option Nat
  | .numbers, i => s[i]?
  | _, _ => none

def viewW (s : List V) : Arr → Nat → Option V
  | .values, i => s[i]?
  | _, _ => none

theorem get_wr {xs ys : List α} {i k : Nat} {x : α} (h : wr xs i x = .ok ys) (hk : i ≠ k) : ys[k]? = xs[k]? := by
  rw [(RaceDot.set_of_wr h).2, List.getElem?_set_ne hk]

theorem get_sort {sortf : List α → List α} (hs : ∀ l, (sortf l).length = l.length) {a t : List α} {b e k : Nat}
    (h : Conv.sortRange sortf a b e = .ok t) (hk : t[k]? ≠ a[k]?) : b ≤ k ∧ k < e := by
  unfold Conv.sortRange at h
  split at h
  case isFalse => cases h
  case isTrue hc =>
    cases h
    have hl : (sortf (slice a b e)).length = e - b := by
      rw [hs]; unfold slice; rw [List.length_take, List.length_drop]; omega
    by_contra hn
    refine hk ?_
    by_cases hb : k < b
    · rw [List.append_assoc, List.getElem?_append_left (by rw [List.length_take]; omega), List.getElem?_take_of_lt hb]
    · rw [List.getElem?_append_right (by rw [List.length_append, hl, List.length_take]; omega), List.getElem?_drop]
      congr 1
      rw [List.length_append, hl, List.length_take]
      omega

theorem honest_getN (i : Nat) : Honest view2 (getN i : Prog (List Nat × List V) Nat) := by
  refine .op (fun g r h x k hne => ?_) (fun x => .ret x)
  obtain ⟨y, _, h⟩ := Alias.bind_ok' h
  cases h
  exact absurd rfl hne

theorem honest_getV (i : Nat) : Honest view2 (getV i : Prog (List Nat × List V) V) := by
  refine .op (fun g r h x k hne => ?_) (fun x => .ret x)
  obtain ⟨y, _, h⟩ := Alias.bind_ok' h
  cases h
  exact absurd rfl hne

theorem honest_putN (i n : Nat) : Honest view2 (putN i n : Prog (List Nat × List V) Unit) := by
  refine .op (fun g r h x k hne => ?_) (fun x => .ret x)
  obtain ⟨y, hy, h⟩ := Alias.bind_ok' h
  cases h
  cases x <;> first | exact absurd rfl hne | skip
  by_cases hk : i = k
  · subst hk; exact List.mem_cons_self
  · exact (hne (by simp only [view2, view3, get_wr hy hk])).elim

theorem honest_putV (i : Nat) (v : V) : Honest view2 (putV i v : Prog (List Nat × List V) Unit) := by
  refine .op (fun g r h x k hne => ?_) (fun x => .ret x)
  obtain ⟨y, hy, h⟩ := Alias.bind_ok' h
  cases h
  cases x <;> first | exact absurd rfl hne | skip
  by_cases hk : i = k
  · subst hk; exact List.mem_cons_self
  · exact (hne (by simp only [view2, view3, get_wr hy hk])).elim

theorem honest_putV' (i : Nat) (v : V) : Honest viewV (putV i v : Prog (List Nat × List V) Unit) := by
  refine .op (fun g r h x k hne => ?_) (fun x => .ret x)
  obtain ⟨y, hy, h⟩ := Alias.bind_ok' h
  cases h
  cases x <;> first | exact absurd rfl hne | skip
  by_cases hk : i = k
  · subst hk; exact List.mem_cons_self
  · exact absurd (get_wr hy hk) hne

/-! ## The loops -/

theorem honest_collect : ∀ (len j : Nat) (acc : List (Nat × V)), Honest view2 (collectProg len j acc) := by
  intro len
  induction len with
  | zero => intro j acc; exact .ret acc
  | succ len ih => intro j acc; exact honest_bind (honest_getN j) fun c => honest_bind (honest_getV j) fun v => ih _ _

theorem honest_putBack (tosort : List (Nat × V)) : ∀ (len j it : Nat), Honest view2 (putBackProg tosort len j it) := by
  intro len
  induction len with
  | zero => intro j it; exact .ret ()
  | succ len ih =>
    intro j it
    exact honest_bind (honest_priv _) fun x => honest_bind (honest_putN j _) fun _ => honest_bind (honest_putV j _) fun _ => ih _ _

theorem honest_sort (sortf : List (Nat × V) → List (Nat × V)) (ptr : List Nat) (i : Nat) : Honest view2 (sortProg sortf ptr i) :=
  honest_bind (honest_priv _) fun _ => honest_bind (honest_priv _) fun _ => honest_bind (honest_collect _ _ _) fun _ =>
    honest_putBack _ _ _ _

theorem honest_merge (add : V → V → V) (A B : CSR V) (i : Nat) : Honest view2 (mergeProg add A B i) :=
  honest_bind (honest_priv _) fun _ => honest_bind (honest_putV _ _) fun _ => honest_putN _ _

theorem honest_copy (vecs : List (List (Nat × V))) (rowptr : List Nat) (i : Nat) : Honest view2 (copyProg vecs rowptr i) :=
  honest_bind (honest_priv _) fun _ => honest_bind (honest_priv _) fun _ => honest_loop (fun _ =>
    honest_bind (honest_priv _) fun _ => honest_bind (honest_putN _ _) fun _ => honest_putV _ _) _ _

theorem honest_col {sortf : List (Nat × V) → List (Nat × V)} (hs : ∀ l, (sortf l).length = l.length) (colptr : List Nat) (i : Nat) :
    Honest view3 (colProg sortf colptr i) := by
  refine honest_bind (honest_priv _) fun b => honest_bind (honest_priv _) fun e => honest_bind ?_ fun _ => honest_loop (fun j =>
    honest_bind ?_ fun p => honest_bind ?_ fun _ => ?_) _ _
  · refine .op (fun g r h x k hne => ?_) (fun x => .ret x)
    obtain ⟨y, hy, h⟩ := Alias.bind_ok' h
    cases h
    match x, hne with
    | .block 0, hne =>
      have hk := get_sort (k := k) hs hy (fun hc => hne (by simp only [view3, hc]))
      exact List.mem_map.2 ⟨k, List.mem_range'_1.2 ⟨hk.1, by omega⟩, rfl⟩
    | .block (_ + 1), hne => exact absurd rfl hne
    | .numbers, hne => exact absurd rfl hne
    | .values, hne => exact absurd rfl hne
    | .thNnz, hne => exact absurd rfl hne
    | .rowNnz, hne => exact absurd rfl hne
  · refine .op (fun g r h x k hne => ?_) (fun x => .ret x)
    obtain ⟨y, hy, h⟩ := Alias.bind_ok' h
    cases h
    exact absurd rfl hne
  · refine .op (fun g r h x k hne => ?_) (fun x => .ret x)
    obtain ⟨y, hy, h⟩ := Alias.bind_ok' h
    cases h
    by_cases hx : x = .numbers
    · subst hx
      by_cases hk : j = k
      · subst hk; exact List.mem_cons_self
      · exact (hne (by simp only [view2, view3, get_wr hy hk])).elim
    · exfalso
      apply hne
      unfold view3
      split <;> first | rfl | exact absurd rfl hx
  · refine .op (fun g r h x k hne => ?_) (fun x => .ret x)
    obtain ⟨y, hy, h⟩ := Alias.bind_ok' h
    cases h
    by_cases hx : x = .values
    · subst hx
      by_cases hk : j = k
      · subst hk; exact List.mem_cons_self
      · exact (hne (by simp only [view2, view3, get_wr hy hk])).elim
    · exfalso
      apply hne
      unfold view3
      split <;> first | rfl | exact absurd rfl hx

theorem honest_edge {sortf : List Nat → List Nat} (hs : ∀ l, (sortf l).length = l.length) (colptr : List Nat) (i : Nat) :
    Honest viewN (edgeProg sortf colptr i) := by
  refine honest_bind (honest_priv _) fun b => honest_bind (honest_priv _) fun e => ?_
  refine .op (fun g r h x k hne => ?_) (fun x => .ret x)
  obtain ⟨y, hy, h⟩ := Alias.bind_ok' h
  cases h
  cases x <;> first | exact absurd rfl hne | skip
  have hk := get_sort hs hy hne
  exact List.mem_map.2 ⟨k, List.mem_range'_1.2 ⟨hk.1, by omega⟩, rfl⟩

theorem honest_one (one : V) (j : Nat) : Honest viewW (oneProg one j) := by
  refine .op (fun g r h x k hne => ?_) (fun x => .ret x)
  obtain ⟨y, hy, h⟩ := Alias.bind_ok' h
  cases h
  cases x <;> first | exact absurd rfl hne | skip
  by_cases hk : j = k
  · subst hk; exact List.mem_cons_self
  · exact absurd (get_wr hy hk) hne

theorem honest_count (A : CSR V) (p : Nat × Nat) : Honest viewV (countProg A p) := by
  refine honest_bind (honest_priv _) fun c => honest_bind ?_ fun x => honest_putV' _ _
  refine .op (fun g r h x k hne => ?_) (fun x => .ret x)
  obtain ⟨y, hy, h⟩ := Alias.bind_ok' h
  obtain ⟨z, hz, h⟩ := Alias.bind_ok' h
  cases h
  cases x <;> exact absurd rfl hne

theorem honest_place (A : CSR V) (colptr dloc : List Nat) (p : Nat × Nat) : Honest view2 (placeProg A colptr dloc p) :=
  honest_bind (honest_priv _) fun _ => honest_bind (honest_priv _) fun _ => honest_bind (honest_priv _) fun _ =>
    honest_bind (honest_putN _ _) fun _ => honest_bind (honest_priv _) fun _ => honest_putV _ _

/-! ## Their accesses -/

theorem lists_collect : ∀ (len j : Nat) (acc : List (Nat × V)),
    Lists (collectProg len j acc) ((List.range' j len).flatMap fun k => [⟨.numbers, k, false⟩, ⟨.values, k, false⟩]) := by
  intro len
  induction len with
  | zero => intro j acc g r _; rfl
  | succ len ih =>
    intro j acc
    rw [List.range'_succ, List.flatMap_cons]
    exact lists_bind (L := [_]) lists_op fun c => lists_bind (L := [_]) lists_op fun v => ih _ _

theorem lists_putBack (tosort : List (Nat × V)) : ∀ (len j it : Nat),
    Lists (putBackProg tosort len j it) ((List.range' j len).flatMap fun k => [⟨.numbers, k, true⟩, ⟨.values, k, true⟩]) := by
  intro len
  induction len with
  | zero => intro j it g r _; rfl
  | succ len ih =>
    intro j it
    rw [List.range'_succ, List.flatMap_cons]
    exact lists_priv fun x _ => lists_bind (L := [_]) lists_op fun c => lists_bind (L := [_]) lists_op fun v => ih _ _

/-- Accesses of `both` arrays at `b`, `b + 1`, …, `b + len - 1` -/
def both (write : Bool) (b len : Nat) : List Access :=
  (List.range' b len).flatMap fun k => [⟨.numbers, k, write⟩, ⟨.values, k, write⟩]

theorem lists_sort (sortf : List (Nat × V) → List (Nat × V)) (ptr : List Nat) (i : Nat) :
    Lists (sortProg sortf ptr i) (both false (ptr.getD i 0) (ptr.getD (i + 1) 0 - ptr.getD i 0) ++
      both true (ptr.getD i 0) (ptr.getD (i + 1) 0 - ptr.getD i 0)) := by
  refine lists_priv fun b hb => lists_priv fun e he => ?_
  rw [List.getD_eq_getElem?_getD, List.getD_eq_getElem?_getD, RaceDot.get_of_rd hb, RaceDot.get_of_rd he]
  exact lists_bind (lists_collect _ _ _) fun _ => lists_putBack _ _ _ _

theorem lists_merge (add : V → V → V) (A B : CSR V) (i : Nat) :
    Lists (mergeProg add A B i) [⟨.values, i, true⟩, ⟨.numbers, i, true⟩] :=
  lists_priv fun _ _ => lists_bind (L := [_]) lists_op fun _ => lists_op

theorem lists_copy (vecs : List (List (Nat × V))) (rowptr : List Nat) (i : Nat) :
    Lists (copyProg vecs rowptr i) (both true (rowptr.getD i 0) (vecs.getD i []).length) := by
  refine lists_priv fun xs hx => lists_priv fun off ho => ?_
  rw [List.getD_eq_getElem?_getD, List.getD_eq_getElem?_getD, RaceDot.get_of_rd hx, RaceDot.get_of_rd ho]
  have h := lists_loop (σ := List Nat × List V) (body := fun k => do
    let x ← priv (rd xs k)
    putN (off + k) x.1
    putV (off + k) x.2) (L := fun k => [⟨.numbers, off + k, true⟩, ⟨.values, off + k, true⟩])
    (fun k => lists_priv fun x _ => lists_bind (L := [_]) lists_op fun _ => lists_op) xs.length 0
  have e : (List.range' 0 xs.length).flatMap (fun k => ([⟨.numbers, off + k, true⟩, ⟨.values, off + k, true⟩] : List Access)) =
      both true off xs.length := by
    unfold both
    rw [show List.range' off xs.length = (List.range' 0 xs.length).map (off + ·) by rw [List.map_add_range']; rfl, List.flatMap_map]
  exact e ▸ h

/-- What one column of the constructors of `CSC` accesses: the whole range in sorting, then every cell. -/
def column (b len : Nat) : List Access :=
  ((List.range' b len).map fun k => ⟨.block 0, k, true⟩) ++
    (List.range' b len).flatMap fun k => [⟨.block 0, k, false⟩, ⟨.numbers, k, true⟩, ⟨.values, k, true⟩]

theorem lists_col (sortf : List (Nat × V) → List (Nat × V)) (ptr : List Nat) (i : Nat) :
    Lists (colProg sortf ptr i) (column (ptr.getD i 0) (ptr.getD (i + 1) 0 - ptr.getD i 0)) := by
  refine lists_priv fun b hb => lists_priv fun e he => ?_
  rw [List.getD_eq_getElem?_getD, List.getD_eq_getElem?_getD, RaceDot.get_of_rd hb, RaceDot.get_of_rd he]
  exact lists_bind lists_op fun _ => lists_loop
    (L := fun k => [⟨.block 0, k, false⟩, ⟨.numbers, k, true⟩, ⟨.values, k, true⟩])
    (fun k => lists_bind (L := [⟨.block 0, k, false⟩]) lists_op fun p =>
      lists_bind (L := [⟨.numbers, k, true⟩]) lists_op fun _ => lists_op) _ _

theorem lists_edge (sortf : List Nat → List Nat) (ptr : List Nat) (i : Nat) :
    Lists (edgeProg sortf ptr i) ((List.range' (ptr.getD i 0) (ptr.getD (i + 1) 0 - ptr.getD i 0)).map fun k => ⟨.numbers, k, true⟩) := by
  refine lists_priv fun b hb => lists_priv fun e he => ?_
  rw [List.getD_eq_getElem?_getD, List.getD_eq_getElem?_getD, RaceDot.get_of_rd hb, RaceDot.get_of_rd he]
  exact lists_op

theorem lists_one (one : V) (k : Nat) : Lists (oneProg one k) [⟨.values, k, true⟩] := lists_op

theorem lists_count (A : CSR V) (p : Nat × Nat) : Lists (countProg A p) [⟨.values, p.2, true⟩] :=
  lists_priv fun _ _ => lists_bind (L := []) lists_op fun _ => lists_op

theorem lists_place (A : CSR V) (colptr dloc : List Nat) (p : Nat × Nat) :
    Lists (placeProg A colptr dloc p) (both true (colptr.getD (A.colids.getD p.2 0) 0 + dloc.getD p.2 0) 1) := by
  refine lists_priv fun c hc => lists_priv fun b hb => lists_priv fun d hd => ?_
  rw [List.getD_eq_getElem?_getD (l := A.colids), RaceDot.get_of_rd hc]
  simp only [List.getD_eq_getElem?_getD, Option.getD_some]
  rw [RaceDot.get_of_rd hb, RaceDot.get_of_rd hd]
  exact lists_bind (L := [_]) lists_op fun _ => lists_priv fun v _ => lists_op

end Verif.Model.RaceConv
