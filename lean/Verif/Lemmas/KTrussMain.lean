import Verif.Model.KTrussMain
import Verif.Lemmas.GrbBase

/-! # The k-truss program: its loop -/

namespace Verif.Model.KTruss

open Verif.Spec Verif.Model.Bench Verif.Model.MaskedAll Verif.Model.Grb

variable {n : Nat}

/-! ## Peeling -/

theorem peel_eq (k : Nat) (G : SimpleGraph (Fin n)) : peel k G = Graph.trim k G := by
  ext u v
  show G.Adj u v ∧ k - 2 ≤ support G u v ∧ k - 2 ≤ support G v u ↔ G.Adj u v ∧ k - 2 ≤ support G u v
  rw [Graph.support_comm G v u, and_self]

theorem peel_le (k : Nat) (G : SimpleGraph (Fin n)) : peel k G ≤ G := fun _ _ h => h.1

theorem after_succ (k : Nat) (G : SimpleGraph (Fin n)) : ∀ r, after k G (r + 1) = after k (peel k G) r
  | 0 => rfl
  | r + 1 => by
    show peel k (after k G (r + 1)) = peel k (after k (peel k G) r)
    rw [after_succ k G r]

theorem edges_mono {G H : SimpleGraph (Fin n)} (h : H ≤ G) : edges H ≤ edges G :=
  Set.ncard_le_ncard (SimpleGraph.edgeSet_subset_edgeSet.2 h) (Set.toFinite _)

theorem eq_of_edges {G H : SimpleGraph (Fin n)} (h : H ≤ G) (he : edges H = edges G) : H = G := by
  apply SimpleGraph.edgeSet_injective
  exact Set.eq_of_subset_of_ncard_le (SimpleGraph.edgeSet_subset_edgeSet.2 h) (by unfold edges at he; omega) (Set.toFinite _)

theorem after_le (k : Nat) (G : SimpleGraph (Fin n)) : ∀ r, after k G r ≤ G
  | 0 => le_refl _
  | r + 1 => (peel_le k _).trans (after_le k G r)

theorem le_after {k : Nat} {G H : SimpleGraph (Fin n)} (h : H ≤ G) (ht : IsTruss k H) : ∀ r, H ≤ after k G r
  | 0 => h
  | r + 1 => by
    show H ≤ peel k _
    rw [peel_eq]
    exact Graph.le_trim (le_after h ht r) ht

/-- What is left when a round removes nothing is the truss. -/
theorem rounds_truss {k r : Nat} {G : SimpleGraph (Fin n)} (h : IsRounds k G r) : IsLargestTruss k G (after k G r) := by
  refine ⟨after_le k G r, ?_, fun H h1 h2 => le_after h1 h2 r⟩
  obtain ⟨r', rfl⟩ : ∃ r', r = r' + 1 := ⟨r - 1, by have := h.pos; omega⟩
  have hd : peel k (after k G r') = after k G r' := h.done
  show IsTruss k (peel k (after k G r'))
  intro u v huv
  have := huv.2.1
  rwa [hd]

theorem truss_unique {k : Nat} {G K K' : SimpleGraph (Fin n)} (h : IsLargestTruss k G K) (h' : IsLargestTruss k G K') : K = K' :=
  le_antisymm (h'.largest K h.sub h.truss) (h.largest K' h'.sub h'.truss)

/-! ## A round -/

/-- The test keeps the numbers from `k - 2` on; what it does with 0 does not matter. -/
def Keeps (k : Nat) (ge : Int → Bool) : Prop := 3 ≤ k ∧ ∀ v : Nat, v ≠ 0 → ge v = decide (k - 2 ≤ v)

theorem mid_eq {R : Type} [Semiring R] {H : SimpleGraph (Fin n)} {T : CSR R} (h : Rep H T) (u v : Fin n) : Graph.mid n T u v = support H u v := by
  unfold Graph.mid support
  congr 1
  ext w
  exact and_congr (h.adj u w) (h.adj w v)

theorem dot_one {R : Type} [Semiring R] {H : SimpleGraph (Fin n)} {T : CSR R} (h : Rep H T) (u v : Fin n) :
    dot (fun _ _ => 1) (fun x y => x + y) T T u v = if support H u v = 0 then none else some (support H u v : R) := by
  unfold dot
  rw [Graph.contribs_const h.wf h.wf h.cols (h.cols.trans h.rows.symm) h.nodup h.nodup 1 (h.rows ▸ u.2) v]
  change sum1 _ (List.replicate (Graph.mid n T u v) 1) = _
  rw [mid_eq h]
  cases support H u v with
  | zero => rfl
  | succ m =>
    rw [List.replicate_succ, sum1, Graph.foldl_ones, if_neg (by omega), Nat.cast_succ, add_comm]

section
variable {H : SimpleGraph (Fin n)} {T C : CSR Int} {k : Nat} {ge : Int → Bool}

/-- The matrix of a round represents the peeled graph. -/
theorem round_rep (h : Rep H T) (hC : IsMaskedSet (fun _ _ => 1) (fun x y => x + y) T T T C) (hk : Keeps k ge) :
    Rep (peel k H) (Graph.select (fun _ _ v => ge v) C) := by
  have hCr : C.rows = n := hC.rows.trans h.rows
  refine ⟨Graph.select_wf hC.wf, hCr, hC.cols.trans h.cols, ?_, ?_⟩
  · intro i hi
    exact (hC.nodup i hi).sublist (Graph.select_sub hC.wf hi)
  · intro i j
    rw [Graph.select_rowCols (hCr ▸ i.2), List.mem_map]
    have hent := fun v => hC.entries i (h.rows ▸ i.2) j.val v
    have hd := dot_one h i j
    constructor
    · rintro ⟨x, hx, hxj⟩
      obtain ⟨hx, hge⟩ := List.mem_filter.1 hx
      obtain ⟨x1, x2⟩ := x
      cases hxj
      obtain ⟨h1, h2⟩ := (hent x2).1 hx
      rw [hd] at h2
      split at h2
      · cases h2
      · rename_i h0
        cases h2
        have h3 : k - 2 ≤ support H i j := by
          have := hk.2 _ h0
          rw [show ge ((support H i j : Nat) : Int) = true from hge] at this
          exact of_decide_eq_true this.symm
        exact ⟨(h.adj i j).1 h1, h3, Graph.support_comm H i j ▸ h3⟩
    · rintro ⟨h1, h2, -⟩
      have h0 : support H i j ≠ 0 := by
        have := hk.1
        omega
      rw [if_neg h0] at hd
      refine ⟨(j.val, (support H i j : Int)), List.mem_filter.2 ⟨(hent _).2 ⟨(h.adj i j).2 h1, hd⟩, ?_⟩, rfl⟩
      rw [hk.2 _ h0]
      exact decide_eq_true h2

/-- The number of entries stays the same exactly when nothing is removed. -/
theorem nnz_iff (h : Rep H T) {C : CSR Int} (hC : Rep (peel k H) C) : T.nnz = C.nnz ↔ peel k H = H := by
  rw [h.nnz, hC.nnz]
  constructor
  · intro e
    exact eq_of_edges (peel_le k H) (by omega)
  · intro e
    rw [e]

theorem nnz_le (h : Rep H T) {C : CSR Int} (hC : Rep (peel k H) C) : C.nnz ≤ T.nnz := by
  rw [h.nnz, hC.nnz]
  have := edges_mono (peel_le k H)
  omega

end

/-! ## The loop -/

/-- The multiplication works on adjacency matrices with at most `N` entries (that satisfy `P`). -/
def Works (N : Nat) (P : CSR Int → Prop) (tnum : Nat) (mult : CSR Int → Sch → Res (Option (CSR Int))) : Prop :=
  ∀ (H : SimpleGraph (Fin n)) (T : CSR Int), Rep H T → P T → T.nnz ≤ N →
    ∃ C, IsMaskedSet (fun _ _ => 1) (fun x y => x + y) T T T C ∧ (∀ ge : Int → Bool, P (Graph.select (fun _ _ v => ge v) C)) ∧
      ∃ K, ∀ s, SchAdm n tnum s → Gives (SchFair tnum K s) C (mult T s)

/-- The sum of a number over the rounds -/
def total (g : SimpleGraph (Fin n) → Nat) (k : Nat) (G : SimpleGraph (Fin n)) (r : Nat) : Nat := ∑ s ∈ Finset.range r, g (after k G s)

theorem loop_gives {N : Nat} {P : CSR Int → Prop} {tnum : Nat} {mult : CSR Int → Sch → Res (Option (CSR Int))} (hm : Works (n := n) N P tnum mult)
    (g : SimpleGraph (Fin n) → Nat) {k : Nat} {ge : Int → Bool}
    (hk : Keeps k ge) : ∀ (m : Nat) (H : SimpleGraph (Fin n)) (T : CSR Int) (step acc : Nat), Rep H T → P T → T.nnz ≤ N → T.nnz < m →
      ∃ T' r K, IsRounds k H r ∧ Rep (after k H r) T' ∧ ∀ fuel, m ≤ fuel → ∀ ops : Nat → CSR Int → Res Nat,
        (∀ step H T, Rep H T → ops step T = .ok (g H)) → ∀ sch : Nat → Sch, (∀ s, SchAdm n tnum (sch s)) →
        Gives (∀ s, SchFair tnum K (sch s)) (T', step + (r - 1), acc + total g k H r) (loop mult ops ge sch fuel T T.nnz step acc) := by
  intro m
  induction m with
  | zero => intro H T step acc _ _ _ hf; omega
  | succ m ih =>
    intro H T step acc hT hP hN hlt
    obtain ⟨C, hC, hPC, K1, hK1⟩ := hm H T hT hP hN
    have hR := round_rep hT hC hk
    have hcheck : check (decide (C.rows = T.rows ∧ C.cols = T.rows)) = .ok () := by
      unfold check
      rw [if_pos (decide_eq_true ⟨hC.rows, hC.cols.trans (hT.cols.trans hT.rows.symm)⟩)]
    have step_none : ∀ (ops : Nat → CSR Int → Res Nat) (_ : ∀ step H T, Rep H T → ops step T = .ok (g H)) (sch : Nat → Sch) fuel, mult T (sch step) = .ok none → loop mult ops ge sch (fuel + 1) T T.nnz step acc = .ok none := by
      intro ops hops sch fuel e
      rw [loop, hops step H T hT, ok_bind, e, ok_bind]
    have step_some : ∀ (ops : Nat → CSR Int → Res Nat) (_ : ∀ step H T, Rep H T → ops step T = .ok (g H)) (sch : Nat → Sch) fuel, mult T (sch step) = .ok (some C) → loop mult ops ge sch (fuel + 1) T T.nnz step acc =
        if T.nnz = (Graph.select (fun _ _ v => ge v) C).nnz then .ok (some (Graph.select (fun _ _ v => ge v) C, step, acc + g H))
        else loop mult ops ge sch fuel (Graph.select (fun _ _ v => ge v) C) (Graph.select (fun _ _ v => ge v) C).nnz (step + 1) (acc + g H) := by
      intro ops hops sch fuel e
      rw [loop, hops step H T hT, ok_bind, e, ok_bind]
      simp only [hcheck, ok_bind]
    have hPC := hPC ge
    generalize Graph.select (fun _ _ v => ge v) C = C' at hR step_some hPC
    have pos : ∀ fuel, m + 1 ≤ fuel → ∃ f, fuel = f + 1 ∧ m ≤ f := fun fuel h => ⟨fuel - 1, by omega, by omega⟩
    by_cases hstop : T.nnz = C'.nnz
    · have hpe := (nnz_iff hT hR).1 hstop
      refine ⟨C', 1, K1, ⟨Nat.one_pos, hpe, fun s h1 h2 => by omega⟩, hR, fun fuel hf ops hops sch hadm => ?_⟩
      obtain ⟨f, rfl, -⟩ := pos fuel hf
      rcases hK1 (sch step) (hadm step) with e | ⟨hn, e⟩
      · refine .inl ?_
        rw [step_some ops hops sch f e, if_pos hstop]
        simp [total, after]
      · exact .inr ⟨fun hh => hn (hh step), step_none ops hops sch f e⟩
    · have hne : peel k H ≠ H := fun e => hstop ((nnz_iff hT hR).2 e)
      have hle := nnz_le hT hR
      obtain ⟨T', r, K2, hr, hrep, hrun⟩ := ih (peel k H) C' (step + 1) (acc + g H) hR hPC (by omega) (by omega)
      have hr0 := hr.pos
      refine ⟨T', r + 1, max K1 K2, ⟨Nat.succ_pos r, ?_, ?_⟩, by rw [after_succ]; exact hrep, fun fuel hf ops hops sch hadm => ?_⟩
      · have := hr.done
        rw [← after_succ, ← after_succ] at this
        rwa [Nat.sub_add_cancel hr0] at this
      · intro s h1 h2
        obtain ⟨s, rfl⟩ : ∃ s', s = s' + 1 := ⟨s - 1, by omega⟩
        rw [Nat.add_sub_cancel]
        cases s with
        | zero => exact hne
        | succ s =>
          have := hr.first (s + 1) (Nat.succ_pos s) (by omega)
          rwa [← after_succ, ← after_succ] at this
      · obtain ⟨f, rfl, hf'⟩ := pos fuel hf
        rcases hK1 (sch step) (hadm step) with e | ⟨hn, e⟩
        · rw [step_some ops hops sch f e, if_neg hstop]
          have e1 : step + 1 + (r - 1) = step + (r + 1 - 1) := by omega
          have e2 : acc + g H + total g k (peel k H) r = acc + total g k H (r + 1) := by
            unfold total
            rw [Finset.sum_range_succ']
            simp only [after_succ]
            show _ = acc + (_ + g H)
            omega
          rw [← e1, ← e2]
          exact MaskedAll.Gives.weaken (hrun f hf' ops hops sch hadm) fun hh s => (hh s).mono (Nat.le_max_right _ _)
        · exact .inr ⟨fun hh => hn ((hh step).mono (Nat.le_max_left _ _)), step_none ops hops sch f e⟩

/-! ## The methods -/

def Method.bins : Method → Bool
  | .grb => false
  | .msp k => k.bins

def Method.anyOrder : Method → Bool
  | .grb => false
  | .msp k => k.anyOrder

def Method.Fits (nnz : Nat) : Method → Prop
  | .grb => True
  | .msp k => k ≠ .poly ∧ k ≠ .nohash ∧ k.Fits nnz

theorem method_works (hpos : 0 < n) {N : Nat} {a : Method} (ha : a.Fits N) (hsmall : a.bins → n + 1 < 2 ^ 17) {tnum : Nat} (ht : 0 < tnum) (dflt : Nat) :
    Works (n := n) N (fun T => a.anyOrder = false → T.SortedRows) tnum (a.mult tnum dflt) := by
  intro H T hT hP hN
  cases a with
  | grb =>
    refine ⟨Graph.sq T, sq_masked hT.wf hT.nodup, fun ge _ => Graph.select_sorted (Graph.sq_wf hT.wf) (sq_sorted (hP rfl)), 0, fun s _ => .inl ?_⟩
    unfold Method.mult
    rw [mxm_eq hT.wf]
  | msp k =>
    obtain ⟨h1, h2, h3⟩ := ha
    obtain ⟨C, hC, hs, hK⟩ := kernel_gives hpos hT.wf hT.rows hT.cols hT.nodup (k := k) hP h1 (h3.mono hN) hsmall ht (dflt := dflt)
      (ofRows T.rows T.rows true fun _ => []) rfl (by
        rw [Graph.nnz_eq_psum (ofRows_wf _ _ _ _ rfl (by simp))]
        have : ∀ m, m ≤ T.rows → psum (fun i => ((ofRows T.rows T.rows true fun _ => ([] : List (Nat × Int))).rowCols i).length) m = 0 := by
          intro m
          induction m with
          | zero => intro _; rfl
          | succ m ih =>
            intro hm
            rw [psum, ih (by omega), ofRows_rowCols _ _ _ _ hm]
            rfl
        exact this _ (Nat.le_refl _))
    exact ⟨C, hC, fun ge hh => Graph.select_sorted hC.wf (hs hh h2), hK⟩

theorem lastOf_gives {α : Type} {f : Nat → Res (Option α)} {st : Prop} {x : α} : ∀ (is : List Nat) (y : Option α), (∀ i ∈ is, Gives st x (f i)) →
    Gives st (if is = [] then y else some x) (lastOf f is y)
  | [], y, _ => .inl rfl
  | i :: is, y, h => by
    unfold lastOf
    rcases h i (by simp) with e | ⟨hn, e⟩
    · rw [e, ok_bind]
      have := lastOf_gives is (some x) fun j hj => h j (by simp [hj])
      rw [ite_self] at this
      rw [if_neg (by simp)]
      exact this
    · rw [e, ok_bind]
      exact .inr ⟨hn, rfl⟩

theorem lastOf_never {α : Type} {f : Nat → Res (Option α)} {i : Nat} {is : List Nat} {y : Option α} (h : ∀ x, f i ≠ .ok (some x)) :
    ∀ z, lastOf f (i :: is) y ≠ .ok (some z) := by
  intro z
  unfold lastOf
  revert h
  rcases f i with x | _ | x
  · intro _ e; cases e
  · intro _ e; cases e
  · intro h; exact absurd rfl (h x)

/-- The line of an algorithm, for one number of threads -/
theorem runThreads_good (hpos : 0 < n) {y : Sys} {e : Env} (hit : 0 < e.warmupIters + e.innerIters) (file : List Char) {k : Nat} {kk : Int}
    (hk : Keeps k (ge kk)) {G : SimpleGraph (Fin n)} {A : CSR Int} (hA : Represents G A) (hfuel : 2 * edges G < y.fuel) {a : List Char × Method}
    {name : List Char} (hname : processName a.1 = .ok name) (ha : a.2.Fits (2 * edges G)) (hsmall : a.2.bins → n + 1 < 2 ^ 17) {tnum : Nat} (ht : 0 < tnum) :
    ∃ r K, IsRounds k G r ∧ ∀ sch : Nat → Nat → Sch, (∀ i s, SchAdm n tnum (sch i s)) → Good (∀ i s, SchFair tnum K (sch i s))
      [.log (getFileName file) name tnum (2 * edges (after k G r)) r] (runThreads y e file kk A a tnum sch) := by
  have hR := Rep.of hA
  obtain ⟨T', r, K, hr, hrep, hrun⟩ := loop_gives (method_works hpos ha hsmall ht y.dflt) (fun _ => 0) hk
    (2 * edges G + 1) G A 1 0 hR (fun _ => hA.sorted) (by rw [hR.nnz]) (by rw [hR.nnz]; omega)
  refine ⟨r, K, hr, fun sch hadm => ?_⟩
  have h := lastOf_gives (st := ∀ i s, SchFair tnum K (sch i s)) (List.range (e.warmupIters + e.innerIters)) none fun i _ =>
    MaskedAll.Gives.weaken (hrun y.fuel (by omega) (fun _ _ => .ok 0) (fun _ _ _ _ => rfl) (sch i) (hadm i)) fun hh s => hh i s
  rw [if_neg (by rw [List.range_eq_nil]; omega)] at h
  unfold runThreads
  rcases h with h | ⟨hn, h⟩
  · rw [h]
    dsimp only
    rw [hname]
    have hr0 := hr.pos
    rw [hrep.nnz, show 1 + (r - 1) = r by omega]
    exact .inl rfl
  · rw [h]
    exact .inr ⟨hn, rfl, List.nil_prefix⟩

end Verif.Model.KTruss
