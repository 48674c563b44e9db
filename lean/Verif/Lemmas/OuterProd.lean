import Verif.Lemmas.Outer
import Verif.Lemmas.MatObj

/-! # When the result of the outer-product kernel is the product -/

namespace Verif.Model.Outer
open Verif.Spec
open Verif.Model.Inner

variable {V : Type}

theorem key_eq {npb : Nat} (hn : npb ≤ 4096) (hp : 0 < npb) {t : Nat × Nat × V} (ht : t.2.1 < 2 ^ 20) :
    key npb t = (t.1 % npb) * 2 ^ 20 + t.2.1 := by
  unfold key
  have h1 : t.1 % npb < npb := Nat.mod_lt _ hp
  rw [Nat.shiftLeft_eq, Nat.mod_eq_of_lt (by omega), Nat.mod_eq_of_lt (b := 2 ^ 32) (by omega), ← Nat.shiftLeft_eq, ← Nat.shiftLeft_add_eq_or_of_lt ht, Nat.shiftLeft_eq]

theorem lexLe_of_key {npb : Nat} (hn : npb ≤ 4096) (hp : 0 < npb) {s t : Nat × Nat × V} (hs : s.2.1 < 2 ^ 20) (ht : t.2.1 < 2 ^ 20)
    (hst : s.1 / npb = t.1 / npb) (h : key npb s ≤ key npb t) : Conv.lexLe (s.1, s.2.1) (t.1, t.2.1) := by
  rw [key_eq hn hp hs, key_eq hn hp ht] at h
  have h1 := Nat.div_add_mod s.1 npb
  have h2 := Nat.div_add_mod t.1 npb
  rw [hst] at h1
  unfold Conv.lexLe
  simp only
  omega

theorem filter_split {α : Type} (m : Nat) : ∀ W : List (Nat × α), W.Pairwise (fun a b => a.1 ≤ b.1) →
    W.filter (fun x => decide (x.1 < m + 1)) = W.filter (fun x => decide (x.1 < m)) ++ W.filter (fun x => decide (x.1 = m)) := by
  intro W
  induction W with
  | nil => intro _; rfl
  | cons x W ih =>
    intro h
    rw [List.pairwise_cons] at h
    have ih := ih h.2
    rcases Nat.lt_trichotomy x.1 m with h1 | h1 | h1
    · rw [List.filter_cons_of_pos (by simp; omega), List.filter_cons_of_pos (by simp; omega),
        List.filter_cons_of_neg (by simp; omega), ih]
      rfl
    · have e : W.filter (fun x => decide (x.1 < m)) = [] := by
        rw [List.filter_eq_nil_iff]
        intro a ha
        have := h.1 a ha
        simp; omega
      rw [e] at ih
      rw [List.filter_cons_of_pos (by simp; omega), List.filter_cons_of_neg (by simp; omega),
        List.filter_cons_of_pos (by simp; omega), ih, e]
      rfl
    · rw [List.filter_cons_of_neg (by simp; omega), List.filter_cons_of_neg (by simp; omega),
        List.filter_cons_of_neg (by simp; omega), ih]

theorem seg_bucket {α : Type} {W : List (Nat × α)} (h : W.Pairwise (fun a b => a.1 ≤ b.1)) (m : Nat) :
    seg (Conv.bucket W) 0 m = (W.filter fun x => decide (x.1 < m)).map Prod.snd := by
  induction m with
  | zero =>
    rw [seg_self]
    simp
  | succ m ih =>
    rw [seg_snoc _ (Nat.zero_le _), ih, filter_split m W h, List.map_append, ← Conv.bucket_filter W m, List.map_map]
    congr 1
    exact (List.map_id _).symm

/-- Entries sorted by rows. -/
theorem assemble_eq {rows cols : Nat} {W : List (Nat × Nat × V)} (h : W.Pairwise (fun a b => a.1 ≤ b.1)) (hr : ∀ t ∈ W, t.1 < rows) :
    assemble rows cols W = ofRows rows cols true (Conv.bucket W) := by
  have e : seg (Conv.bucket W) 0 rows = W.map Prod.snd := by
    rw [seg_bucket h, List.filter_eq_self.2]
    intro t ht
    simpa using hr t ht
  unfold assemble ofRows
  rw [e, List.map_map, List.map_map]
  have e2 : psum (lens (Conv.bucket W)) rows = W.length := Conv.psum_cnt W hr
  rw [e2]
  rfl

section
variable {mul add : V → V → V} {A : CSC V} {B : CSR V}

theorem contribs_eq (i j : Nat) :
    contribsOuter mul A B i j = Conv.wts ((prods mul A B (List.range A.cols)).map Conv.pairOf) i j := by
  have e : ∀ L : List (Nat × Nat × V), Conv.wts (L.map Conv.pairOf) i j =
      L.filterMap fun t => if t.1 = i ∧ t.2.1 = j then some t.2.2 else none := by
    intro L
    induction L with
    | nil => rfl
    | cons t L ih =>
      unfold Conv.wts at ih ⊢
      rw [List.map_cons, List.filter_cons, List.filterMap_cons]
      by_cases h : t.1 = i ∧ t.2.1 = j
      · rw [if_pos h, if_pos (by simp [Conv.pairOf, h]), List.map_cons, ih]
        rfl
      · rw [if_neg h, if_neg (by simpa [Conv.pairOf] using h), ih]
  rw [e]
  unfold contribsOuter prods prodsOf
  rw [List.filterMap_flatMap]
  congr 1
  funext k
  rw [List.filterMap_flatMap]
  congr 1
  funext ra
  rw [List.filterMap_map]
  rfl

theorem wts_sel {bo : Nat → Nat} {i j : Nat} (L : List (Nat × Nat × V)) :
    Conv.wts ((sel bo (bo i) L).map Conv.pairOf) i j = Conv.wts (L.map Conv.pairOf) i j := by
  unfold Conv.wts sel
  rw [List.filter_map, List.filter_map, List.filter_filter]
  congr 2
  apply List.filter_congr
  intro t _
  simp only [Function.comp_apply, Conv.pairOf, Prod.mk.injEq]
  by_cases h : t.1 = i ∧ t.2.1 = j
  · simp [h]
  · simp [h]

theorem wts_perm {L M : List ((Nat × Nat) × V)} (h : L.Perm M) (i j : Nat) : (Conv.wts L i j).Perm (Conv.wts M i j) :=
  (h.filter _).map _

/-- Blocks of adjacent rows and a key that orders the products of a block: the result is the product. -/
theorem assemble_ok (ha : AssocComm add) (h : ValidOuter A B) {nb : Nat} {bo : Nat → Nat} (hmono : ∀ r s, r ≤ s → bo r ≤ bo s)
    (hpb : ∀ r < A.rows, bo r < nb) {key : Nat × Nat × V → Nat} (hkey : ∀ s t, s.1 < A.rows → t.1 < A.rows → s.2.1 < B.cols → t.2.1 < B.cols → bo s.1 = bo t.1 → key s ≤ key t →
      Conv.lexLe (s.1, s.2.1) (t.1, t.2.1)) {sortf : (Nat × Nat × V → Nat) → List (Nat × Nat × V) → List (Nat × Nat × V)}
    (hs : SortsBy key (sortf key)) {L : Nat → List (Nat × Nat × V)}
    (hL : ∀ b < nb, (L b).Perm (sel bo b (prods mul A B (List.range A.cols)))) :
    IsOuterProduct mul add A B (assemble A.rows B.cols (seg (fun b => merged add (sortf key (L b))) 0 nb)) := by
  have hmemS : ∀ b < nb, ∀ x ∈ sortf key (L b), bo x.1 = b ∧ x.1 < A.rows ∧ x.2.1 < B.cols := by
    intro b hb x hx
    rw [(hs.perm _).mem_iff, (hL b hb).mem_iff] at hx
    have hx' := List.mem_filter.1 hx
    exact ⟨by simpa using hx'.2, prods_row h hx'.1⟩
  have hmemM : ∀ b < nb, ∀ x ∈ merged add (sortf key (L b)), bo x.1 = b ∧ x.1 < A.rows ∧ x.2.1 < B.cols := by
    intro b hb x hx
    obtain ⟨y, hy, e1, e2⟩ := merged_mem add hx
    rw [← e1, ← e2]
    exact hmemS b hb y hy
  have hlex : ∀ b < nb, ((sortf key (L b)).map Conv.pairOf).Pairwise (fun a b => Conv.lexLe a.1 b.1) := by
    intro b hb
    rw [List.pairwise_map]
    refine (hs.sorted (L b)).imp_of_mem ?_
    intro x y hx hy hk
    obtain ⟨x1, x3, x2⟩ := hmemS b hb x hx
    obtain ⟨y1, y3, y2⟩ := hmemS b hb y hy
    exact hkey x y x3 y3 x2 y2 (by rw [x1, y1]) hk
  have hjoin := fun b hb => Conv.join_spec add _ (hlex b hb)
  have hmemW : ∀ t, t ∈ seg (fun b => merged add (sortf key (L b))) 0 nb ↔ t.1 < A.rows ∧ t ∈ merged add (sortf key (L (bo t.1))) := by
    intro t
    unfold seg
    rw [List.mem_flatMap]
    constructor
    · rintro ⟨b, hb, ht⟩
      have hb' : b < nb := by simpa using hb
      obtain ⟨e, hr, _⟩ := hmemM b hb' t ht
      rw [e]
      exact ⟨hr, ht⟩
    · rintro ⟨hr, ht⟩
      exact ⟨_, by simpa using hpb _ hr, ht⟩
  have hW : (seg (fun b => merged add (sortf key (L b))) 0 nb).Pairwise (fun a b => Conv.lexLt (a.1, a.2.1) (b.1, b.2.1)) := by
    unfold seg
    rw [List.pairwise_flatMap]
    refine ⟨?_, ?_⟩
    · intro b hb
      exact (hjoin b (by simpa using hb)).1
    · refine (List.pairwise_lt_range' (s := 0) (n := nb - 0)).imp_of_mem ?_
      intro b c hb hc hbc x hx y hy
      obtain ⟨e1, _⟩ := hmemM b (by simpa using hb) x hx
      obtain ⟨e2, _⟩ := hmemM c (by simpa using hc) y hy
      left
      simp only
      by_contra hge
      have := hmono y.1 x.1 (by omega)
      omega
  generalize hWd : seg (fun b => merged add (sortf key (L b))) 0 nb = W at hmemW hW
  have hle : W.Pairwise (fun a b => a.1 ≤ b.1) := by
    refine hW.imp ?_
    intro a b hab
    unfold Conv.lexLt at hab
    simp only at hab
    omega
  rw [assemble_eq hle (fun t ht => ((hmemW t).1 ht).1)]
  have hwf : (ofRows A.rows B.cols true (Conv.bucket W)).WF := by
    apply ofRows_wf _ _ _ _ rfl
    intro i hi x hx
    have h1 := (hmemW _).1 (Conv.mem_bucket.1 hx)
    exact (hmemM _ (hpb _ h1.1) _ h1.2).2.2
  refine ⟨hwf, rfl, rfl, ?_, ?_⟩
  · intro i hi j v
    rw [ofRows_row _ _ _ _ hi, Conv.mem_bucket, hmemW]
    have hb := hpb i hi
    simp only [hi, true_and]
    unfold merged
    rw [(hjoin _ hb).2 i j v, contribs_eq, ← wts_sel (bo := bo) (prods mul A B (List.range A.cols))]
    rw [Heap.sum1_perm ha (wts_perm (((hs.perm (L (bo i))).trans (hL _ hb)).map Conv.pairOf) i j)]
  · intro i hi
    have hi' : i < A.rows := hi
    rw [ofRows_rowCols _ _ _ _ hi']
    apply Conv.bucket_lt
    refine hW.imp ?_
    intro a b hab e
    unfold Conv.lexLt at hab
    simp only at hab
    omega

end

end Verif.Model.Outer

/-! ### Where the result is wrong -/

namespace Verif.Model.Outer
open Verif.Spec

variable {V : Type}

theorem perBlock_le {rows nb : Nat} (hnb : 0 < nb) (h : rows ≤ 4096 * nb) : ∃ npb, perBlock rows nb = .ok npb ∧ npb ≤ 4096 := by
  unfold perBlock
  split
  · exact ⟨64, rfl, by omega⟩
  · rw [div_ok hnb]
    refine ⟨_, rfl, ?_⟩
    rw [Nat.div_le_iff_le_mul_add_pred hnb]
    have : nb * 4096 = 4096 * nb := Nat.mul_comm ..
    omega

theorem prods_length (mul : V → V → V) (A : CSC V) (B : CSR V) (cs : List Nat) :
    (prods mul A B cs).length = (cs.map fun k => (A.col k).length * (B.row k).length).sum := by
  unfold prods
  rw [List.length_flatMap]
  congr 1
  apply List.map_congr_left
  intro k _
  unfold prodsOf
  rw [List.length_flatMap]
  simp

/-- Nothing is merged if no position occurs twice. -/
theorem merged_nodup (add : V → V → V) {vec : List (Nat × Nat × V)} (h : (vec.map fun t => (t.1, t.2.1)).Nodup) :
    merged add vec = vec := by
  induction vec using list_snoc_induction with
  | h0 => rfl
  | h1 vec y ih =>
    rw [List.map_append, List.nodup_append] at h
    have e : merged add (vec ++ [y]) = Conv.joinStep add (merged add vec) (Conv.pairOf y) := by
      unfold merged
      rw [List.map_append, List.foldl_append]
      rfl
    rw [e, ih h.1]
    rcases List.eq_nil_or_concat vec with h0 | ⟨P, s, h0⟩
    · subst h0
      rfl
    · rw [List.concat_eq_append] at h0
      subst h0
      rw [joinStep_snoc, if_neg]
      rintro ⟨h1, h2⟩
      exact h.2.2 (s.1, s.2.1) (by simp) (y.1, y.2.1) (by simp) (by rw [h1, h2])

/-- Row 0 has two entries and the first two entries of the array have the same column. -/
theorem first_row_bad {rows cols : Nat} (hr : 0 < rows) {W : List (Nat × Nat × V)} {s t : Nat × Nat × V} {rest : List (Nat × Nat × V)}
    (hW : W = s :: t :: rest) (hc : Conv.cnt W 0 = 2) (hst : s.2.1 = t.2.1) : ¬ (assemble rows cols W).SortedRows := by
  intro hs
  have := hs 0 hr
  unfold CSR.rowCols CSR.ptr at this
  simp only [assemble, List.getD_eq_getElem?_getD] at this
  rw [tab_getElem? (by omega), tab_getElem? (by omega)] at this
  simp only [psum, hc, Option.getD_some] at this
  subst hW
  simp [slice, hst] at this

theorem copyBlock_length {cum nnz : List Nat} {vecs : List (List (Nat × Nat × V))} {o o' : Out V} {b : Nat}
    (h : copyBlock cum nnz vecs o b = .ok o') : o'.byRow.length = o.byRow.length := by
  unfold copyBlock at h
  obtain ⟨base, _, h⟩ := Alias.bind_ok' h
  obtain ⟨vec, _, h⟩ := Alias.bind_ok' h
  obtain ⟨n, _, h⟩ := Alias.bind_ok' h
  unfold forRange at h
  refine Alias.foldlM_pres (fun s : Out V => s.byRow.length = o.byRow.length) ?_ _ _ _ rfl h
  intro s i s' hs he
  unfold copyEntry at he
  obtain ⟨t, _, he⟩ := Alias.bind_ok' he
  obtain ⟨x, _, he⟩ := Alias.bind_ok' he
  obtain ⟨r, hr, he⟩ := Alias.bind_ok' he
  obtain ⟨c, _, he⟩ := Alias.bind_ok' he
  obtain ⟨v, _, he⟩ := Alias.bind_ok' he
  obtain rfl := Except.ok.inj he
  simp only
  rw [(MatObj.wr_ok hr).2, List.length_set, hs]

theorem outer_large {mul add : V → V → V} {sortf : (Nat × Nat × V → Nat) → List (Nat × Nat × V) → List (Nat × Nat × V)}
    {A : CSC V} {B : CSR V} {n nb width : Nat} {mem : List Nat} {sch : Sched} {C : CSR V} (hn : 0 < n) (h : ¬ A.rows + 1 < 2 ^ 17) :
    outerSpGEMM mul add sortf A B n nb width mem sch ≠ .ok (some C) := by
  intro e
  unfold outerSpGEMM at e
  obtain ⟨_, _, e⟩ := Alias.bind_ok' e
  obtain ⟨_, _, e⟩ := Alias.bind_ok' e
  obtain ⟨_, _, e⟩ := Alias.bind_ok' e
  obtain ⟨r, _, e⟩ := Alias.bind_ok' e
  match r, e with
  | none, e => cases e
  | some (g, _), e =>
    simp only at e
    obtain ⟨s, _, e⟩ := Alias.bind_ok' e
    unfold finish at e
    obtain ⟨r, _, e⟩ := Alias.bind_ok' e
    match r, e with
    | none, e => cases e
    | some cum, e =>
      simp only at e
      obtain ⟨total, _, e⟩ := Alias.bind_ok' e
      obtain ⟨rp, _, e⟩ := Alias.bind_ok' e
      obtain ⟨o, ho, e⟩ := Alias.bind_ok' e
      obtain ⟨r, hr, e⟩ := Alias.bind_ok' e
      match r, e, hr with
      | none, e, _ => cases e
      | some x, e, hr =>
        refine UtilScan.scan_short hn h ?_ _ _ _ hr
        have := Alias.foldlM_pres (fun s : Out V => s.byRow.length = A.rows) (fun s a s' hs he => by rw [copyBlock_length he, hs])
          _ _ _ (by simp) ho
        rw [this]

/-- Of four elements, two come first in every sorted order. -/
theorem two_first {α : Type} {k : α → Nat} {a b c d : α} {S : List α} (hp : S.Perm [a, b, c, d]) (hs : S.Pairwise (fun x y => k x ≤ k y))
    (hne : a ≠ b) (hab : k a ≤ k b) (hbc : k b < k c) (hbd : k b < k d) :
    ∃ s t rest, S = s :: t :: rest ∧ (s = a ∨ s = b) ∧ (t = a ∨ t = b) := by
  match S, hp.length_eq with
  | [s, t, u, v], _ =>
    have ma : a ∈ [s, t, u, v] := hp.mem_iff.2 (by simp)
    have mb : b ∈ [s, t, u, v] := hp.mem_iff.2 (by simp)
    have ms : s ∈ [a, b, c, d] := hp.mem_iff.1 (by simp)
    have mt : t ∈ [a, b, c, d] := hp.mem_iff.1 (by simp)
    simp only [List.pairwise_cons, List.mem_cons, List.not_mem_nil, or_false, forall_eq_or_imp, forall_eq] at hs ma mb ms mt
    obtain ⟨⟨h1, h2, h3⟩, ⟨h4, h5⟩, _⟩ := hs
    have bnd : ∀ x, (x = s ∨ x = t ∨ x = u ∨ x = v) → k s ≤ k x ∧ (x = s ∨ k t ≤ k x) := by
      rintro x (rfl | rfl | rfl | rfl)
      · exact ⟨Nat.le_refl _, .inl rfl⟩
      · exact ⟨h1, .inr (Nat.le_refl _)⟩
      · exact ⟨h2, .inr h4⟩
      · exact ⟨h3, .inr h5⟩
    obtain ⟨_, a2⟩ := bnd a ma
    obtain ⟨b1, b2⟩ := bnd b mb
    refine ⟨s, t, [u, v], rfl, ?_, ?_⟩
    · rcases ms with rfl | rfl | rfl | rfl
      · exact .inl rfl
      · exact .inr rfl
      · omega
      · omega
    · have hk : k t ≤ k b := by
        rcases b2 with rfl | b2
        · rcases a2 with e | a2
          · exact absurd e hne
          · omega
        · exact b2
      rcases mt with rfl | rfl | rfl | rfl
      · exact .inl rfl
      · exact .inr rfl
      · omega
      · omega

/-- If all products are `[a, b, c, d]`, in one block, and if `a` and `b` have the same column and smaller keys than `c` and `d`, then
the rows of the result are not in order. -/
theorem outer_bad {mul add : V → V → V} {A : CSC V} {B : CSR V} (h : ValidOuter A B) {n width npb : Nat} (hw : 0 < width)
    (hsm : A.rows + 1 < 2 ^ 17) {sortf : (Nat × Nat × V → Nat) → List (Nat × Nat × V) → List (Nat × Nat × V)}
    (hs : SortsBy32 sortf) {mem : List Nat} (hm : mem.length = A.rows + 1) (hp : perBlock A.rows 1 = .ok npb) {sch : Sched}
    (ho1 : sch.flop.Perm (List.range A.cols)) (hasg : ((List.range n).flatMap sch.asg).Perm (List.range A.cols))
    (ho2 : sch.sort.Perm (List.range 1)) (ho3 : sch.copy.Perm (List.range 1)) {a b c d : Nat × Nat × V}
    (hI : (prods mul A B (List.range A.cols)).Perm [a, b, c, d]) (hnd : ([a, b, c, d].map fun t => (t.1, t.2.1)).Nodup)
    (hcol : a.2.1 = b.2.1) (hab : key npb a ≤ key npb b) (hbc : key npb b < key npb c) (hbd : key npb b < key npb d)
    (hcnt : Conv.cnt [a, b, c, d] 0 = 2) {C : CSR V} (e : outerSpGEMM mul add sortf A B n 1 width mem sch = .ok (some C)) :
    ¬ C.SortedRows := by
  obtain ⟨hpp, hpb⟩ := perBlock_pos Nat.one_pos hp
  have hsel : sel (fun r => r / npb) 0 [a, b, c, d] = [a, b, c, d] := by
    unfold sel
    rw [List.filter_eq_self]
    intro t ht
    rw [← hI.mem_iff] at ht
    have := hpb _ (prods_row h ht).1
    simpa using this
  rcases outer_run (mul := mul) (add := add) (n := n) h hw Nat.one_pos (by omega) hsm hs hm hp ho1 hasg ho2 ho3 with e' | ⟨L, hL, e'⟩
  · rw [e'.1] at e
    cases e
  · rw [e'] at e
    obtain rfl := Option.some.inj (Except.ok.inj e)
    have hperm : (sortf (key npb) (L 0)).Perm [a, b, c, d] := by
      have := (hL 0 Nat.one_pos).trans (hI.filter _)
      rw [← hsel]
      exact ((hs _ (key_lt npb)).perm _).trans this
    have hW : seg (fun b => merged add (sortf (key npb) (L b))) 0 1 = sortf (key npb) (L 0) := by
      rw [exp_eq_seg]
      exact merged_nodup add ((hperm.map _).nodup_iff.2 hnd)
    rw [hW]
    have hne : a ≠ b := by
      rintro rfl
      simp at hnd
    obtain ⟨s, t, rest, eS, h1, h2⟩ := two_first hperm ((hs _ (key_lt npb)).sorted _) hne hab hbc hbd
    have hrows : 0 < A.rows := by
      have := (prods_row (mul := mul) h (t := a) (by rw [hI.mem_iff]; simp)).1
      omega
    refine first_row_bad hrows eS (by rw [cnt_perm hperm, hcnt]) ?_
    rcases h1 with rfl | rfl <;> rcases h2 with rfl | rfl <;> simp [hcol]

end Verif.Model.Outer
