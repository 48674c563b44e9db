import Verif.Lemmas.RmatSort
import Verif.Lemmas.Dot
import Mathlib.Algebra.Order.Floor.Ring
import Mathlib.Data.Rat.Floor

/-! # Lemmas for the generator of R-MAT graphs -/

namespace Verif.Model.Rmat

open Scan (rdu)
open Verif.Spec (StableSort IsRandomGraph)

variable {F : Type} {ar : Arith F} {st : Streams F}

/-! ## Edges -/

theorem choose_bounds (q : Par F) (p : F) (u v step : Nat) :
    u ≤ (choosePartition ar q p u v step).1 ∧ (choosePartition ar q p u v step).1 ≤ u + step ∧
      v ≤ (choosePartition ar q p u v step).2 ∧ (choosePartition ar q p u v step).2 ≤ v + step := by
  unfold choosePartition
  simp only []
  split
  · exact ⟨by omega, by omega, by omega, by omega⟩
  · split
    · exact ⟨by omega, by omega, by omega, by omega⟩
    · split
      · exact ⟨by omega, by omega, by omega, by omega⟩
      · split <;> exact ⟨by omega, by omega, by omega, by omega⟩

/-- The number of iterations -/
def turns (step : Nat) : Nat := if step = 0 then 0 else Nat.log2 step + 1

theorem turns_half {step : Nat} (h : 1 ≤ step) : turns step = turns (step / 2) + 1 := by
  unfold turns
  rw [if_neg (by omega), Nat.log2_def]
  by_cases h2 : 2 ≤ step
  · rw [if_pos h2, if_neg (by omega)]
  · rw [if_neg h2, if_pos (by omega)]

theorem turns_log2 (n : Nat) : turns (n / 2) = Nat.log2 n := by
  unfold turns
  rw [Nat.log2_def n]
  by_cases h2 : 2 ≤ n
  · rw [if_pos h2, if_neg (by omega)]
  · rw [if_neg h2, if_pos (by omega)]

theorem walk_ok : ∀ (fuel step : Nat) (q : Par F) (u v t : Nat), step < fuel →
    ∃ u' v', walk ar st fuel step q u v t = .ok (u', v', t + turns step) ∧ u ≤ u' ∧ u' ≤ u + (2 * step - 1) ∧ v ≤ v' ∧ v' ≤ v + (2 * step - 1) := by
  intro fuel
  induction fuel with
  | zero => intro step q u v t h; omega
  | succ fuel ih =>
    intro step q u v t h
    unfold walk
    by_cases hs : step ≥ 1
    · rw [if_pos hs]
      simp only []
      obtain ⟨c1, c2, c3, c4⟩ := choose_bounds (ar := ar) q (st.s1 t) u v step
      obtain ⟨u', v', e, h1, h2, h3, h4⟩ := ih (step / 2) (varyParams ar q (fun k => st.s3 (4 * t + k)) fun k => st.s4 (4 * t + k))
        (choosePartition ar q (st.s1 t) u v step).1 (choosePartition ar q (st.s1 t) u v step).2 (t + 1) (by omega)
      refine ⟨u', v', ?_, by omega, by omega, by omega, by omega⟩
      rw [e, turns_half hs]
      congr 3
      omega
    · rw [if_neg hs]
      obtain rfl : step = 0 := by omega
      exact ⟨u, v, rfl, by omega, by omega, by omega, by omega⟩

theorem attempt_ok (q : Par F) (n t : Nat) : ∃ u v, walk ar st (n + 1) (n / 2) q 1 1 t = .ok (u, v, t + Nat.log2 n) ∧
    1 ≤ u ∧ 1 ≤ v ∧ (n ≠ 0 → u ≤ n ∧ v ≤ n) ∧ (n ≤ 1 → u = v) := by
  obtain ⟨u, v, e, h1, h2, h3, h4⟩ := walk_ok (ar := ar) (st := st) (n + 1) (n / 2) q 1 1 t (by omega)
  rw [turns_log2] at e
  exact ⟨u, v, e, h1, h3, fun _ => by omega, fun _ => by omega⟩

/-- If the loop ends, it has made the missing edges. -/
theorem edgeLoop_sound {q : Par F} {loops : Bool} {n m : Nat} (hn : n ≠ 0) : ∀ (fuel : Nat) (es : List (Nat × Nat)) (t : Nat) (r : List (Nat × Nat)),
    es.length ≤ m → edgeLoop ar st q loops n m fuel es t = .ok r →
    (∀ e ∈ es, e.1 < n ∧ e.2 < n ∧ (loops = false → e.1 ≠ e.2)) →
    r.length = m ∧ ∀ e ∈ r, e.1 < n ∧ e.2 < n ∧ (loops = false → e.1 ≠ e.2) := by
  intro fuel
  induction fuel with
  | zero => intro es t r _ h; simp [edgeLoop] at h
  | succ fuel ih =>
    intro es t r hl h hes
    unfold edgeLoop at h
    by_cases hm : es.length < m
    · rw [if_pos hm] at h
      obtain ⟨u, v, e, h1, h2, h3, _⟩ := attempt_ok (ar := ar) (st := st) q n t
      rw [e, ok_bind] at h
      simp only [] at h
      by_cases hc : (!loops && u == v) = true
      · rw [if_pos hc] at h
        exact ih es _ r hl h hes
      · rw [if_neg hc] at h
        refine ih _ _ r (by simp; omega) h ?_
        intro x hx
        rcases List.mem_append.1 hx with hx | hx
        · exact hes x hx
        · simp only [List.mem_singleton] at hx
          subst hx
          have := h3 hn
          refine ⟨by simp only []; omega, by simp only []; omega, fun hlp => ?_⟩
          subst hlp
          simp at hc
          simp only []
          omega
    · rw [if_neg hm] at h
      injection h with h
      subst h
      exact ⟨by omega, hes⟩

/-- With at most one vertex there are only edges from a vertex to itself. -/
theorem edgeLoop_never {q : Par F} {n m : Nat} (hn : n ≤ 1) : ∀ (fuel : Nat) (es : List (Nat × Nat)) (t : Nat), es.length < m →
    edgeLoop ar st q false n m fuel es t = .error .diverge := by
  intro fuel
  induction fuel with
  | zero => intro es t _; rfl
  | succ fuel ih =>
    intro es t hm
    unfold edgeLoop
    rw [if_pos hm]
    obtain ⟨u, v, e, h1, h2, h3, h4⟩ := attempt_ok (ar := ar) (st := st) q n t
    rw [e, ok_bind]
    simp only []
    rw [if_pos (by simp [h4 hn])]
    exact ih es _ hm

/-- Attempt `k` gives different vertices. -/
def Succeeds (ar : Arith F) (st : Streams F) (q : Par F) (n k : Nat) : Prop :=
  ∃ r, walk ar st (n + 1) (n / 2) q 1 1 (k * Nat.log2 n) = .ok r ∧ r.1 ≠ r.2.1

theorem edgeLoop_ends {q : Par F} {n m : Nat} (h : ∀ k, ∃ k' ≥ k, Succeeds ar st q n k') : ∀ (d : Nat) (es : List (Nat × Nat)) (k : Nat),
    es.length + d = m → ∃ fuel r, edgeLoop ar st q false n m fuel es (k * Nat.log2 n) = .ok r := by
  intro d
  induction d with
  | zero =>
    intro es k hd
    refine ⟨1, es, ?_⟩
    unfold edgeLoop
    rw [if_neg (by omega)]
  | succ d ih =>
    intro es k hd
    obtain ⟨k', hk', hs⟩ := h k
    obtain ⟨j, rfl⟩ : ∃ j, k' = k + j := ⟨k' - k, by omega⟩
    clear hk'
    induction j generalizing k with
    | zero =>
      obtain ⟨r, e, hne⟩ := hs
      obtain ⟨u, v, e', _⟩ := attempt_ok (ar := ar) (st := st) q n ((k + 0) * Nat.log2 n)
      rw [e] at e'
      injection e' with e'
      subst e'
      obtain ⟨fuel, r, he⟩ := ih (es ++ [(u - 1, v - 1)]) (k + 1) (by simp; omega)
      refine ⟨fuel + 1, r, ?_⟩
      unfold edgeLoop
      rw [if_pos (by omega)]
      simp only [Nat.add_zero] at e
      rw [e, ok_bind]
      simp only []
      rw [if_neg (by simpa using hne)]
      rw [Nat.succ_mul] at he
      exact he
    | succ j ihj =>
      obtain ⟨fuel, r, he⟩ := ihj (k + 1) (by rw [show k + 1 + j = k + (j + 1) by omega]; exact hs)
      obtain ⟨u, v, e, _⟩ := attempt_ok (ar := ar) (st := st) q n (k * Nat.log2 n)
      by_cases huv : u = v
      · refine ⟨fuel + 1, r, ?_⟩
        unfold edgeLoop
        rw [if_pos (by omega), e, ok_bind]
        simp only []
        rw [if_pos (by simp [huv])]
        rw [Nat.succ_mul] at he
        exact he
      · obtain ⟨fuel, r, he⟩ := ih (es ++ [(u - 1, v - 1)]) (k + 1) (by simp; omega)
        refine ⟨fuel + 1, r, ?_⟩
        unfold edgeLoop
        rw [if_pos (by omega), e, ok_bind]
        simp only []
        rw [if_neg (by simpa using huv)]
        rw [Nat.succ_mul] at he
        exact he

theorem weight_bounds {lo hi : Int} (h0 : 0 ≤ lo) (h1 : lo < hi) {r : ℚ} (hr : 0 ≤ r) (hr' : r < 1) : lo ≤ weight lo hi r ∧ weight lo hi r < hi := by
  unfold weight SumAll.trunc
  have a0 : (0 : ℚ) ≤ (lo : ℚ) := by exact_mod_cast h0
  have a1 : (0 : ℚ) < ((hi - lo : Int) : ℚ) := by exact_mod_cast (by omega : (0 : Int) < hi - lo)
  have a2 : ((hi - lo : Int) : ℚ) * r < ((hi - lo : Int) : ℚ) := by nlinarith
  have a3 : 0 ≤ ((hi - lo : Int) : ℚ) * r := mul_nonneg a1.le hr
  rw [if_pos (by linarith)]
  constructor
  · rw [Int.le_floor]; linarith
  · rw [Int.floor_lt]
    have : ((hi - lo : Int) : ℚ) = (hi : ℚ) - lo := by push_cast; ring
    linarith

/-! ## The graph -/

theorem graphGen_sound {o : Opts} (hl : o.loops = false) (hs : o.sort = true) (hh : o.heap = false) (hlo : 0 ≤ o.lo) (hhi : o.lo < o.hi) {q : Par F}
    (hr : ∀ i, 0 ≤ st.s2 i ∧ st.s2 i < 1) {n m fuel : Nat} (hn : n ≠ 0) (hn' : n ≤ 2 ^ 32) {es : List (Nat × Nat)}
    (h : edgeLoop ar st q false n m fuel [] 0 = .ok es) :
    ∃ G, graphGen ar o q st n m fuel = .ok G ∧ IsRandomGraph n m o.lo o.hi G := by
  obtain ⟨hlen, hes⟩ := edgeLoop_sound hn fuel [] 0 es (by simp) h (by simp)
  unfold graphGen sortEdges
  rw [hl, h, ok_bind, hs, hh]
  simp only [if_true, Bool.false_eq_true, if_false]
  obtain ⟨ks, a1, a2, e, l0, l1, l2, hsort⟩ := countingSort_eq (es.map (·.1)) (es.map (·.2))
    ((List.range m).map fun i => weight o.lo o.hi (st.s2 i)) m (by simp [hlen]) (by simp [hlen]) (by simp)
  rw [e, ok_bind]
  refine ⟨_, rfl, ?_⟩
  have hmem : ∀ x ∈ ks.zip (a1.zip a2), (x.1, x.2.1) ∈ es ∧ o.lo ≤ x.2.2 ∧ x.2.2 < o.hi := by
    intro x hx
    have hx := hsort.perm.mem_iff.1 hx
    obtain ⟨i, hi, e⟩ := List.getElem_of_mem hx
    have hi' : i < m := by simp at hi; omega
    subst e
    simp only [List.getElem_zip, List.getElem_map, List.getElem_range]
    exact ⟨List.getElem_mem _, weight_bounds hlo hhi (hr i).1 (hr i).2⟩
  refine ⟨by simp; omega, fun x hx => ?_, fun x hx => ?_, fun x hx => (hmem x hx).2, ?_⟩
  · have := hes _ (hmem x hx).1
    exact ⟨this.1, this.2.1⟩
  · exact (hes _ (hmem x hx).1).2.2 rfl
  · have := hsort.sorted
    rw [List.pairwise_iff_forall_sublist] at this ⊢
    intro x y hxy
    have h1 := (hes _ (hmem x (hxy.subset (by simp))).1).1
    have h2 := (hes _ (hmem y (hxy.subset (by simp))).1).1
    have h3 := this hxy
    simp only [] at h1 h2 h3
    rw [Nat.mod_eq_of_lt (by omega), Nat.mod_eq_of_lt (by omega)] at h3
    exact h3

/-! ## Graphs of different sizes -/

theorem edgeLoop_extends {q : Par F} {loops : Bool} {n m : Nat} : ∀ (fuel : Nat) (es : List (Nat × Nat)) (t : Nat) (r : List (Nat × Nat)),
    edgeLoop ar st q loops n m fuel es t = .ok r → es <+: r := by
  intro fuel
  induction fuel with
  | zero => intro es t r h; simp [edgeLoop] at h
  | succ fuel ih =>
    intro es t r h
    unfold edgeLoop at h
    split at h
    · obtain ⟨u, v, e, _⟩ := attempt_ok (ar := ar) (st := st) q n t
      rw [e, ok_bind] at h
      simp only [] at h
      split at h
      · exact ih _ _ _ h
      · exact (List.prefix_append _ _).trans (ih _ _ _ h)
    · injection h with h
      rw [h]
      exact List.prefix_refl _

/-- The edges of a smaller graph are the first edges of a larger one. -/
theorem edgeLoop_prefix {q : Par F} {loops : Bool} {n m m' : Nat} (hm : m ≤ m') : ∀ (fuel fuel' : Nat) (es : List (Nat × Nat)) (t : Nat)
    (r r' : List (Nat × Nat)), edgeLoop ar st q loops n m fuel es t = .ok r → edgeLoop ar st q loops n m' fuel' es t = .ok r' → r <+: r' := by
  intro fuel
  induction fuel with
  | zero => intro fuel' es t r r' h; simp [edgeLoop] at h
  | succ fuel ih =>
    intro fuel' es t r r' h h'
    by_cases hl : es.length < m
    · cases fuel' with
      | zero => simp [edgeLoop] at h'
      | succ fuel' =>
        unfold edgeLoop at h h'
        rw [if_pos hl] at h
        rw [if_pos (by omega)] at h'
        obtain ⟨u, v, e, _⟩ := attempt_ok (ar := ar) (st := st) q n t
        rw [e, ok_bind] at h h'
        simp only [] at h h'
        split at h
        · rename_i hc
          rw [if_pos hc] at h'
          exact ih _ _ _ _ _ h h'
        · rename_i hc
          rw [if_neg hc] at h'
          exact ih _ _ _ _ _ h h'
    · unfold edgeLoop at h
      rw [if_neg hl] at h
      injection h with h
      rw [← h]
      exact edgeLoop_extends _ _ _ _ h'

/-- The result is a rearrangement of the edges with their weights. -/
theorem graphGen_perm {o : Opts} (hl : o.loops = false) (hs : o.sort = true) (hh : o.heap = false) {q : Par F} {n m fuel : Nat} (hn : n ≠ 0)
    {G : List (Nat × Nat × Int)} (h : graphGen ar o q st n m fuel = .ok G) :
    ∃ es : List (Nat × Nat), edgeLoop ar st q false n m fuel [] 0 = .ok es ∧ es.length = m ∧
      G.Perm (es.zipIdx.map fun x => (x.1.1, x.1.2, weight o.lo o.hi (st.s2 x.2))) := by
  cases he : edgeLoop ar st q false n m fuel [] 0 with
  | error e =>
    unfold graphGen at h
    rw [hl, he] at h
    exact absurd h (by intro h; cases h)
  | ok es =>
    obtain ⟨hlen, _⟩ := edgeLoop_sound hn fuel [] 0 es (by simp) he (by simp)
    refine ⟨es, rfl, hlen, ?_⟩
    unfold graphGen sortEdges at h
    rw [hl, he, ok_bind, hs, hh] at h
    simp only [if_true, Bool.false_eq_true, if_false] at h
    obtain ⟨ks, a1, a2, e, l0, l1, l2, hsort⟩ := countingSort_eq (es.map (·.1)) (es.map (·.2))
      ((List.range m).map fun i => weight o.lo o.hi (st.s2 i)) m (by simp [hlen]) (by simp [hlen]) (by simp)
    rw [e, ok_bind] at h
    injection h with h
    rw [← h]
    refine hsort.perm.trans (List.Perm.of_eq ?_)
    apply List.ext_getElem
    · simp [hlen]
    · intro i h1 h2
      simp

/-! ## `heapSort` -/

/-- 1 at position `r`, 0 elsewhere -/
def peak (n r : Nat) : List Nat := tab n fun i => if i = r then 1 else 0

theorem heapSort_oob {W : Type} {n : Nat} (hn : 2 ≤ n) {a1 : List Nat} {a2 : List W} (h1 : a1.length = n) (h2 : a2.length = n) :
    heapSort (peak n (n / 2), a1, a2) n = .error .oob := by
  obtain ⟨r, hr⟩ : ∃ r, r = n / 2 := ⟨_, rfl⟩
  rw [← hr]
  have hrd : ∀ i < n, rd (peak n r) i = .ok (if i = r then 1 else 0) := fun i hi => rd_tab hi
  -- no effect before the parent of `r`
  have hskip : ∀ i, r / 2 < i → i < r → siftDown (n + 1) (peak n r, a1, a2) i n = .ok (peak n r, a1, a2) := by
    intro i hi hi'
    unfold siftDown maxChild
    rw [if_pos (by omega), if_neg (by omega)]
    simp only []
    rw [hrd _ (by omega), ok_bind, hrd _ (by omega), ok_bind, if_neg (show ¬ i * 2 = r by omega), if_neg (show ¬ i * 2 + 1 = r by omega)]
    simp only [ok_bind, gt_iff_lt, Nat.lt_irrefl, if_false]
    rw [hrd _ (by omega), ok_bind, hrd _ (by omega), ok_bind, if_neg (show ¬ i = r by omega), if_neg (show ¬ i * 2 + 1 = r by omega)]
    simp
  -- the parent of `r`
  have hfail : siftDown (n + 1) (peak n r, a1, a2) (r / 2) n = .error .oob := by
    unfold siftDown
    rw [if_pos (by omega)]
    have hc : maxChild (peak n r) (r / 2) n = .ok r := by
      unfold maxChild
      rw [if_neg (by omega)]
      rw [hrd _ (by omega), ok_bind, hrd _ (by omega), ok_bind]
      by_cases h : r / 2 * 2 = r
      · simp [h]
      · have h' : r / 2 * 2 + 1 = r := by omega
        simp [h, h']
    simp only []
    rw [hc, ok_bind, hrd _ (by omega), ok_bind, hrd _ (by omega), ok_bind, if_neg (show ¬ r / 2 = r by omega), if_pos rfl, if_pos (by omega)]
    have hsw : ∀ {α : Type} (l : List α), l.length = n → ∃ l', swap l (r / 2) r = .ok l' ∧ l'.length = n := by
      intro α l hl
      unfold swap
      rw [rd_of_lt (by omega), ok_bind, rd_of_lt (by omega), ok_bind, wr_of_lt (by omega), ok_bind, wr_of_lt (by simp; omega)]
      exact ⟨_, rfl, by simp [hl]⟩
    obtain ⟨k', e0, l0⟩ := hsw (peak n r) (tab_length _ _)
    obtain ⟨a1', e1, l1⟩ := hsw a1 h1
    obtain ⟨a2', e2, l2⟩ := hsw a2 h2
    unfold swapAll
    simp only []
    rw [e0, ok_bind, e1, ok_bind, e2, ok_bind, ok_bind]
    obtain ⟨f, rfl⟩ : ∃ f, n = f + 1 := ⟨n - 1, by omega⟩
    unfold siftDown maxChild
    rw [if_pos (by omega)]
    simp only []
    by_cases h : r * 2 = f + 1
    · rw [if_pos h, ok_bind, rd_of_lt (by omega), ok_bind, rd_oob (by omega)]
      rfl
    · rw [if_neg h, rd_of_lt (by omega), ok_bind, rd_oob (by omega)]
      rfl
  unfold heapSort
  rw [← hr]
  have hmem : r / 2 ∈ (List.range r).reverse := by simp; omega
  obtain ⟨pre, post, hl⟩ := List.append_of_mem hmem
  have hpw : (List.range r).reverse.Pairwise (· > ·) := by
    rw [List.pairwise_reverse]
    exact List.pairwise_lt_range
  rw [hl] at hpw
  have hpre : ∀ i ∈ pre, r / 2 < i ∧ i < r := by
    intro i hi
    have h1 := (List.pairwise_append.1 hpw).2.2 i hi (r / 2) (by simp)
    have h2 : i ∈ (List.range r).reverse := by rw [hl]; simp [hi]
    simp at h2
    exact ⟨h1, h2⟩
  rw [hl, List.foldlM_append]
  obtain ⟨s, e, hs⟩ := foldlM_inv (f := fun (s : Arrays W) i => siftDown (n + 1) s i n) (fun _ s => s = (peak n r, a1, a2)) pre
    (peak n r, a1, a2) rfl (by
      rintro p a q s hp rfl
      have := hpre a (by rw [hp]; simp)
      exact ⟨_, hskip a this.1 this.2, rfl⟩)
  rw [e, ok_bind, hs, List.foldlM_cons, hfail]
  rfl

theorem edgeLoop_mono {q : Par F} {loops : Bool} {n m : Nat} : ∀ (fuel fuel' : Nat) (es : List (Nat × Nat)) (t : Nat) (r : List (Nat × Nat)), fuel ≤ fuel' →
    edgeLoop ar st q loops n m fuel es t = .ok r → edgeLoop ar st q loops n m fuel' es t = .ok r := by
  intro fuel
  induction fuel with
  | zero => intro fuel' es t r _ h; simp [edgeLoop] at h
  | succ fuel ih =>
    intro fuel' es t r hle h
    obtain ⟨k, rfl⟩ : ∃ k, fuel' = k + 1 := ⟨fuel' - 1, by omega⟩
    unfold edgeLoop at h ⊢
    by_cases hlt : es.length < m
    · rw [if_pos hlt] at h ⊢
      cases hw : walk ar st (n + 1) (n / 2) q 1 1 t with
      | error e => rw [hw] at h; cases h
      | ok x =>
        rw [hw] at h
        rw [ok_bind] at h ⊢
        by_cases hc : (!loops && x.1 == x.2.1) = true
        · rw [if_pos hc] at h ⊢
          exact ih _ _ _ _ (by omega) h
        · rw [if_neg hc] at h ⊢
          exact ih _ _ _ _ (by omega) h
    · rw [if_neg hlt] at h ⊢
      exact h

theorem graphGen_mono {o : Opts} {q : Par F} {n m fuel fuel' : Nat} (hle : fuel ≤ fuel') {G : List (Nat × Nat × Int)}
    (h : graphGen ar o q st n m fuel = .ok G) : graphGen ar o q st n m fuel' = .ok G := by
  unfold graphGen at h ⊢
  cases he : edgeLoop ar st q o.loops n m fuel [] 0 with
  | error e => rw [he] at h; cases h
  | ok es =>
    rw [he] at h
    rw [edgeLoop_mono _ _ _ _ _ hle he]
    exact h

end Verif.Model.Rmat
