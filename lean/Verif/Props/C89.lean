import Verif.Lemmas.Rmat
import Verif.Props.C57

/-! # C89: the generator of R-MAT graphs -/

namespace Verif.Props
open Verif Verif.Model Verif.Model.Rmat
open _root_.Verif.Spec (IsRandomGraph StableSort)

variable {F : Type}

/-- C89, whatever the arithmetic on probabilities, the probabilities, and the random numbers are (those for weights lie between 0 and 1), for up to
`2 ^ 32` vertices, without edges from a vertex to itself and with counting sort (the defaults): if the generator makes the edges within some number of attempts,
the result is a graph as asked for. Otherwise it still tries: no other error is possible. What is missing is that it always ends, see `C89_violated_one_vertex`;
larger graphs, see `C89_violated_large`; the other way of sorting, see `C89_violated_heapsort`. -/
theorem C89_partial (ar : Arith F) (o : Opts) (hl : o.loops = false) (hs : o.sort = true) (hh : o.heap = false) (hlo : 0 ≤ o.lo) (hhi : o.lo < o.hi)
    (q : Par F) (st : Streams F) (hr : ∀ i, 0 ≤ st.s2 i ∧ st.s2 i < 1) {n : Nat} (hn : n ≠ 0) (hn' : n ≤ 2 ^ 32) (m fuel : Nat) :
    (∃ G, graphGen ar o q st n m fuel = .ok G ∧ IsRandomGraph n m o.lo o.hi G) ∨ graphGen ar o q st n m fuel = .error .diverge := by
  have hd : ∀ (fuel : Nat) (es : List (Nat × Nat)) (t : Nat) e, edgeLoop ar st q false n m fuel es t = .error e → e = .diverge := by
    intro fuel
    induction fuel with
    | zero => intro es t e h; simp [edgeLoop] at h; exact h.symm
    | succ fuel ih =>
      intro es t e h
      unfold edgeLoop at h
      split at h
      · obtain ⟨u, v, ew, _⟩ := attempt_ok (ar := ar) (st := st) q n t
        rw [ew, ok_bind] at h
        simp only [] at h
        split at h <;> exact ih _ _ _ h
      · simp at h
  cases h : edgeLoop ar st q false n m fuel [] 0 with
  | error e =>
    right
    unfold graphGen
    rw [hl, h, hd _ _ _ _ h]
    rfl
  | ok es => exact .inl (graphGen_sound hl hs hh hlo hhi hr hn hn' h)

/-- C89: the generator ends if no end of the sequence of attempts consists only of edges from a vertex to itself. -/
theorem C89_ends (ar : Arith F) (o : Opts) (hl : o.loops = false) (hs : o.sort = true) (hh : o.heap = false) (hlo : 0 ≤ o.lo) (hhi : o.lo < o.hi)
    (q : Par F) (st : Streams F) (hr : ∀ i, 0 ≤ st.s2 i ∧ st.s2 i < 1) {n : Nat} (hn : n ≠ 0) (hn' : n ≤ 2 ^ 32) (m : Nat)
    (h : ∀ k, ∃ k' ≥ k, Succeeds ar st q n k') : ∃ fuel G, graphGen ar o q st n m fuel = .ok G ∧ IsRandomGraph n m o.lo o.hi G := by
  obtain ⟨fuel, es, e⟩ := edgeLoop_ends (m := m) h m [] 0 (by simp)
  rw [Nat.zero_mul] at e
  obtain ⟨G, h1, h2⟩ := graphGen_sound hl hs hh hlo hhi hr hn hn' e
  exact ⟨fuel, G, h1, h2⟩

/-- C89 is violated for a graph with one vertex: the generator never ends, whatever the random numbers are. -/
theorem C89_violated_one_vertex (ar : Arith F) (q : Par F) (st : Streams F) {factor : Nat} (hf : factor ≠ 0) (fuel : Nat) :
    rmat ar q st 0 factor fuel = .error .diverge := by
  unfold rmat graphGen
  rw [show getParams.loops = false from rfl, edgeLoop_never (by simp) fuel [] 0 (by simp; omega)]
  rfl

/-- C89, the counting sort: the triples are sorted by key in a stable way, for keys less than `2 ^ 32`. What is missing are larger keys, see
`C89_violated_large`. -/
theorem C89_sort_partial {W : Type} (keys aux1 : List Nat) (aux2 : List W) (m : Nat) (hk : keys.length = m) (h1 : aux1.length = m)
    (h2 : aux2.length = m) (hlt : ∀ k ∈ keys, k < 2 ^ 32) :
    ∃ ks a1 a2, countingSort keys aux1 aux2 m = .ok (ks, a1, a2) ∧ ks.length = m ∧ a1.length = m ∧ a2.length = m ∧
      StableSort (fun e : Nat × Nat × W => e.1) (keys.zip (aux1.zip aux2)) (ks.zip (a1.zip a2)) := by
  obtain ⟨ks, a1, a2, e, l0, l1, l2, hs⟩ := countingSort_eq keys aux1 aux2 m hk h1 h2
  refine ⟨ks, a1, a2, e, l0, l1, l2, hs.perm, ?_, ?_⟩
  · have hk : ∀ x ∈ ks.zip (a1.zip a2), x.1 < 2 ^ 32 := fun x hx => hlt _ (List.of_mem_zip (hs.perm.mem_iff.1 hx)).1
    have := hs.sorted
    rw [List.pairwise_iff_forall_sublist] at this ⊢
    intro x y hxy
    have h3 := this hxy
    rwa [Nat.mod_eq_of_lt (hk x (hxy.subset (by simp))), Nat.mod_eq_of_lt (hk y (hxy.subset (by simp)))] at h3
  · intro k
    by_cases hk' : k < 2 ^ 32
    · have := hs.stable k
      have hc : ∀ l : List (Nat × Nat × W), (∀ x ∈ l, x.1 < 2 ^ 32) →
          l.filter (fun x => decide (x.1 % 2 ^ 32 = k)) = l.filter fun x => decide (x.1 = k) := by
        intro l hl
        apply List.filter_congr
        intro x hx
        rw [Nat.mod_eq_of_lt (hl x hx)]
      rwa [hc _ (fun x hx => hlt _ (List.of_mem_zip (hs.perm.mem_iff.1 hx)).1), hc _ (fun x hx => hlt _ (List.of_mem_zip hx).1)] at this
    · have hc : ∀ l : List (Nat × Nat × W), (∀ x ∈ l, x.1 < 2 ^ 32) → l.filter (fun x => decide (x.1 = k)) = [] := by
        intro l hl
        rw [List.filter_eq_nil_iff]
        intro x hx h
        have := hl x hx
        simp at h
        omega
      rw [hc _ (fun x hx => hlt _ (List.of_mem_zip (hs.perm.mem_iff.1 hx)).1), hc _ (fun x hx => hlt _ (List.of_mem_zip hx).1)]

/-- C89 is violated for vertices from `2 ^ 32`: only the lower 32 bits of the keys count, so that a larger key stays in front of a smaller one. -/
theorem C89_violated_large {W : Type} {a b : Nat} (hab : a < b) (hb : b < 2 ^ 32) (x y : Nat) (v w : W) :
    countingSort [2 ^ 32 + a, b] [x, y] [v, w] 2 = .ok ([2 ^ 32 + a, b], [x, y], [v, w]) ∧ b < 2 ^ 32 + a := by
  refine ⟨?_, by omega⟩
  obtain ⟨ks, a1, a2, e, l0, l1, l2, hs⟩ := countingSort_eq [2 ^ 32 + a, b] [x, y] [v, w] 2 rfl rfl rfl
  rw [e]
  have h0 := hs.stable a
  have h1 := hs.stable b
  have hsort := hs.sorted
  obtain ⟨k0, k1, rfl⟩ := List.length_eq_two.1 l0
  obtain ⟨x0, x1, rfl⟩ := List.length_eq_two.1 l1
  obtain ⟨w0, w1, rfl⟩ := List.length_eq_two.1 l2
  have ha : (2 ^ 32 + a) % 2 ^ 32 = a := by omega
  have hb' : b % 2 ^ 32 = b := by omega
  simp only [List.zip_cons_cons, List.zip_nil_right, List.filter_cons, List.filter_nil, ha, hb', decide_true, if_true, List.pairwise_cons, List.mem_singleton,
    forall_eq] at h0 h1 hsort
  have hba : ¬ b = a := by omega
  have hab' : ¬ a = b := by omega
  simp only [hba, hab', decide_false, Bool.false_eq_true, if_false] at h0 h1
  have hk := hsort.1
  by_cases c0 : k0 % 2 ^ 32 = a
  · have c0' : ¬ k0 % 2 ^ 32 = b := by omega
    by_cases c1 : k1 % 2 ^ 32 = b
    · have c1' : ¬ k1 % 2 ^ 32 = a := by omega
      simp only [c0, hab', c1, hba, decide_true, decide_false, Bool.false_eq_true, if_true, if_false, List.cons.injEq, and_true, Prod.mk.injEq] at h0 h1
      obtain ⟨e1, e2, e3⟩ := h0
      obtain ⟨e4, e5, e6⟩ := h1
      rw [e1, e2, e3, e4, e5, e6]
    · simp only [c0', c1, decide_false, Bool.false_eq_true, if_false, reduceCtorEq] at h1
  · by_cases c1 : k1 % 2 ^ 32 = a
    · have c1' : ¬ k1 % 2 ^ 32 = b := by omega
      by_cases c0' : k0 % 2 ^ 32 = b
      · omega
      · simp only [c0', c1', decide_false, Bool.false_eq_true, if_false, reduceCtorEq] at h1
    · simp only [c0, c1, decide_false, Bool.false_eq_true, if_false, reduceCtorEq] at h0

/-- C89 is violated for the heap sort: for every number of elements from 2 there are keys for which it accesses the element after the last. -/
theorem C89_violated_heapsort {W : Type} {n : Nat} (hn : 2 ≤ n) :
    ∃ keys : List Nat, keys.length = n ∧ ∀ (a1 : List Nat) (a2 : List W), a1.length = n → a2.length = n → heapSort (keys, a1, a2) n = .error .oob :=
  ⟨peak n (n / 2), tab_length _ _, fun _ _ h1 h2 => heapSort_oob hn h1 h2⟩

/-- C89, the seeds of the random numbers are fixed: of two graphs with equally many vertices that are generated with the same parameters, the one with
fewer (or equally many) edges consists of edges of the other, with the same weights. -/
theorem C89_nested (ar : Arith F) (o : Opts) (hl : o.loops = false) (hs : o.sort = true) (hh : o.heap = false) (q : Par F) (st : Streams F) {n : Nat}
    (hn : n ≠ 0) {m m' fuel fuel' : Nat} (hm : m ≤ m') {G G' : List (Nat × Nat × Int)} (h : graphGen ar o q st n m fuel = .ok G)
    (h' : graphGen ar o q st n m' fuel' = .ok G') : G.Subperm G' := by
  obtain ⟨es, e, _, hp⟩ := graphGen_perm hl hs hh hn h
  obtain ⟨es', e', _, hp'⟩ := graphGen_perm hl hs hh hn h'
  obtain ⟨l, rfl⟩ := edgeLoop_prefix hm _ _ _ _ _ _ e e'
  refine hp.subperm.trans (List.Subperm.trans ?_ hp'.symm.subperm)
  rw [List.zipIdx_append, List.map_append]
  exact (List.sublist_append_left _ _).subperm

/-- C89 with C57: the matrix that is made of a generated graph is its weight matrix, with sorted columns and without repeated entries. -/
theorem C89_matrix_partial {sortf : List ((Nat × Nat) × Int) → List ((Nat × Nat) × Int)} (hsf : Spec.SortsEdges sortf) (ar : Arith F) (q : Par F)
    (st : Streams F) (hr : ∀ i, 0 ≤ st.s2 i ∧ st.s2 i < 1) {scale factor fuel : Nat} (hsc : scale ≤ 32) (hf : factor ≠ 0)
    {G : List (Nat × Nat × Int)} (h : rmat ar q st scale factor fuel = .ok G) :
    IsRandomGraph (2 ^ scale) (2 ^ scale * factor) 0 100 G ∧
      ∃ C, Conv.cscOfGraph (· + ·) sortf 0 (2 ^ scale) G = .ok C ∧ Spec.IsGraphMatC (· + ·) (2 ^ scale) G C := by
  have hg : IsRandomGraph (2 ^ scale) (2 ^ scale * factor) 0 100 G := by
    rcases C89_partial ar getParams rfl rfl rfl (by decide) (by decide) q st hr (n := 2 ^ scale) (by simp)
      (Nat.pow_le_pow_right (by omega) hsc) (2 ^ scale * factor) fuel with ⟨G', e, hG⟩ | e
    · unfold rmat at h
      rw [e] at h
      injection h with h
      rw [← h]
      exact hG
    · unfold rmat at h
      rw [e] at h
      simp at h
  refine ⟨hg, C57_csc_partial ⟨Int.add_assoc, Int.add_comm⟩ hsf 0 _ _ ?_ hg.sorted hg.ends⟩
  intro h0
  have hc := hg.count
  rw [h0] at hc
  simp only [List.length_nil] at hc
  have : 0 < 2 ^ scale * factor := Nat.mul_pos (Nat.two_pow_pos _) (by omega)
  omega

/-- Arithmetic without rounding -/
def ratArith : Arith ℚ := ⟨(· + ·), (· - ·), (· * ·), (· / ·), fun x y => decide (x < y), 1 / 20, 1 / 2⟩

/-- C89, the variation of the probabilities (without rounding): they stay positive and have the sum 1. -/
theorem C89_vary (q : Par ℚ) (hq : 0 < q.a ∧ 0 < q.b ∧ 0 < q.c ∧ 0 < q.d) (r3 r4 : Nat → ℚ) (hr : ∀ i, 0 ≤ r3 i ∧ r3 i < 1) :
    let q' := varyParams ratArith q r3 r4
    (0 < q'.a ∧ 0 < q'.b ∧ 0 < q'.c ∧ 0 < q'.d) ∧ q'.a + q'.b + q'.c + q'.d = 1 := by
  have hv : ∀ x y i, 0 < x → 0 < vary ratArith x y (r3 i) := by
    intro x y i hx
    have h := hr i
    have h1 : 0 ≤ x * (1 / 20) * r3 i := mul_nonneg (by linarith) h.1
    have h2 : x * (1 / 20) * r3 i ≤ x * (1 / 20) * 1 := by gcongr; exact h.2.le
    unfold vary ratArith
    simp only []
    split <;> linarith
  have hb : 0 < varyB ratArith q.b (r3 1) := by
    have h := (hr 1).1
    have := hq.2.1
    have h1 : 0 ≤ q.b * (1 / 20) * r3 1 := by positivity
    unfold varyB ratArith
    simp only []
    linarith
  have ha := hv q.a (r4 0) 0 hq.1
  have hc := hv q.c (r4 2) 2 hq.2.2.1
  have hd := hv q.d (r4 3) 3 hq.2.2.2
  intro q'
  have e : q' = varyParams ratArith q r3 r4 := rfl
  unfold varyParams at e
  generalize vary ratArith q.a (r4 0) (r3 0) = a at *
  generalize varyB ratArith q.b (r3 1) = b at *
  generalize vary ratArith q.c (r4 2) (r3 2) = c at *
  generalize vary ratArith q.d (r4 3) (r3 3) = d at *
  rw [e]
  have hs : 0 < a + b + c + d := by linarith
  simp only [ratArith]
  refine ⟨⟨div_pos ha hs, div_pos hb hs, div_pos hc hs, div_pos hd hs⟩, ?_⟩
  rw [← add_div, ← add_div, ← add_div, div_self hs.ne']

/-- C89 is violated for the variation: all four probabilities are to shrink by the same factor, which would leave them as they are, but the second one
grows. -/
theorem C89_violated_vary (q : Par ℚ) (hq : 0 < q.a ∧ 0 < q.b ∧ 0 < q.c ∧ 0 < q.d) (hsum : q.a + q.b + q.c + q.d = 1) {r : ℚ} (hr : 0 < r ∧ r < 1)
    (r4 : Nat → ℚ) (h4 : ∀ i, r4 i ≤ 1 / 2) : q.b < (varyParams ratArith q (fun _ => r) r4).b := by
  have hv : ∀ x i, vary ratArith x (r4 i) r = x - x * (1 / 20) * r := by
    intro x i
    unfold vary ratArith
    simp only []
    rw [if_neg (by simpa using h4 i)]
  unfold varyParams
  simp only [hv]
  unfold varyB ratArith
  simp only []
  obtain ⟨ha, hb, hc, hd⟩ := hq
  have hs : 0 < q.a - q.a * (1 / 20) * r + (q.b + q.b * (1 / 20) * r) + (q.c - q.c * (1 / 20) * r) + (q.d - q.d * (1 / 20) * r) := by
    have h1 : ∀ x : ℚ, 0 < x → 0 < x - x * (1 / 20) * r := by
      intro x hx
      have h2 : x * (1 / 20) * r ≤ x * (1 / 20) * 1 := by gcongr; exact hr.2.le
      linarith
    have := h1 q.a ha
    have := h1 q.c hc
    have := h1 q.d hd
    have : 0 < q.b * (1 / 20) * r := mul_pos (by linarith) hr.1
    linarith
  rw [lt_div_iff₀ hs]
  have e : q.a = 1 - q.b - q.c - q.d := by linarith
  rw [e]
  have hb1 : q.b < 1 := by linarith
  nlinarith [mul_pos (mul_pos hb hr.1) (sub_pos.2 hb1)]

/-! ## Examples -/

/-- The probabilities of the benchmark -/
def ratPar : Par ℚ := ⟨57 / 100, 19 / 100, 19 / 100, 5 / 100⟩

/-- Constant random numbers -/
def ratStreams : Streams ℚ := ⟨fun _ => 6 / 10, fun _ => 1 / 2, fun _ => 0, fun _ => 0⟩

theorem ratPar_vary (r4 : Nat → ℚ) : varyParams ratArith ratPar (fun _ => 0) r4 = ratPar := by
  have h : ∀ x r, vary ratArith x r 0 = x := by
    intro x r
    unfold vary ratArith
    simp
  unfold varyParams
  simp only [h]
  unfold varyB ratArith ratPar
  norm_num

theorem ratStreams_choose (u v step : Nat) : choosePartition ratArith ratPar (6 / 10) u v step = (u, v + step) := by
  unfold choosePartition ratArith ratPar
  norm_num

/-- Every attempt for four vertices gives an edge from vertex 0 to vertex 3. -/
theorem ratStreams_succeeds (k : Nat) : Succeeds ratArith ratStreams ratPar 4 k := by
  refine ⟨(1, 4, k * Nat.log2 4 + 2), ?_, by simp⟩
  show walk ratArith ratStreams 5 2 ratPar 1 1 _ = _
  simp only [walk, ratStreams, ratStreams_choose, ratPar_vary]
  norm_num

/-- The hypotheses are met: a graph with 4 vertices and 8 edges. -/
example : ∃ fuel G, graphGen ratArith getParams ratPar ratStreams 4 8 fuel = .ok G ∧ IsRandomGraph 4 8 0 100 G :=
  C89_ends _ _ rfl rfl rfl (by decide) (by decide) _ _ (fun _ => by simp only [ratStreams]; norm_num) (by decide) (by decide) 8
    fun k => ⟨k, Nat.le_refl _, ratStreams_succeeds k⟩

example := C89_vary ratPar (by unfold ratPar; norm_num) (fun i => 1 / (i + 2)) (fun _ => 1) fun i => by
  have : (0 : ℚ) ≤ i := Nat.cast_nonneg i
  exact ⟨by positivity, by rw [div_lt_one (by linarith)]; linarith⟩

example := C89_violated_vary ratPar (by unfold ratPar; norm_num) (by unfold ratPar; norm_num) (r := 1 / 2) (by norm_num) (fun _ => 1 / 4) (by norm_num)

example := C89_sort_partial [7, 2, 7, 0] [1, 2, 3, 4] ["a", "b", "c", "d"] 4 rfl rfl rfl (by decide)

end Verif.Props
