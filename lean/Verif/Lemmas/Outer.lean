import Verif.Model.Outer
import Verif.SpecOuter
import Verif.Lemmas.Dot
import Verif.Lemmas.GraphCtor
import Mathlib.Algebra.BigOperators.Group.Finset.Basic
import Mathlib.Algebra.Order.Group.Multiset

/-! # The outer-product kernel -/

namespace Verif.Model.Outer
open Verif.Spec
open Verif.Model.Inner
open Verif.Model.Dot (Holds put memcpy_eq put_end)

variable {V : Type}

/-- The products of column `k` of `A` and row `k` of `B`, in the order in which they are formed. -/
def prodsOf (mul : V → V → V) (A : CSC V) (B : CSR V) (k : Nat) : List (Nat × Nat × V) :=
  (A.col k).flatMap fun ra => (B.row k).map fun jb => (ra.1, jb.1, mul ra.2 jb.2)

def prods (mul : V → V → V) (A : CSC V) (B : CSR V) (cs : List Nat) : List (Nat × Nat × V) :=
  cs.flatMap (prodsOf mul A B)

/-- What the step for the pair `p` stores. -/
def Rel (mul : V → V → V) (A : CSC V) (B : CSR V) (p : Nat × Nat) (t : Nat × Nat × V) : Prop :=
  A.rowids[p.1]? = some t.1 ∧ B.colids[p.2]? = some t.2.1 ∧
    ∃ x y, A.values[p.1]? = some x ∧ B.values[p.2]? = some y ∧ t.2.2 = mul x y

theorem forall₂_flatMap {α β γ δ : Type} {R : α → β → Prop} {S : γ → δ → Prop} {f : α → List γ} {g : β → List δ}
    {l : List α} {m : List β} (h : List.Forall₂ R l m) (hfg : ∀ a b, R a b → List.Forall₂ S (f a) (g b)) :
    List.Forall₂ S (l.flatMap f) (m.flatMap g) := by
  induction h with
  | nil => exact .nil
  | cons h1 _ ih =>
    simp only [List.flatMap_cons]
    exact List.rel_append (hfg _ _ h1) ih

theorem forall₂_slice {α : Type} {L : List α} : ∀ (d b : Nat), b + d ≤ L.length →
    List.Forall₂ (fun j x => L[j]? = some x) (List.range' b d) (slice L b (b + d)) := by
  intro d
  induction d with
  | zero =>
    intro b _
    have : slice L b (b + 0) = [] := by simp [slice]
    rw [this]
    exact .nil
  | succ d ih =>
    intro b h
    have e : slice L b (b + (d + 1)) = L[b]'(by omega) :: slice L (b + 1) (b + 1 + d) := by
      unfold slice
      rw [List.drop_eq_getElem_cons (by omega)]
      have e1 : b + (d + 1) - b = d + 1 := by omega
      have e2 : b + 1 + d - (b + 1) = d := by omega
      rw [e1, e2, List.take_succ_cons]
    rw [e, List.range'_succ]
    exact .cons (List.getElem?_eq_getElem _) (ih (b + 1) (by omega))

theorem zip_some {α β : Type} {l : List α} {m : List β} {i : Nat} {x : α × β} (h : (l.zip m)[i]? = some x) :
    l[i]? = some x.1 ∧ m[i]? = some x.2 := by
  rw [List.getElem?_zip_eq_some] at h
  exact h

/-- The pairs of column `k`. -/
def pairsOf (A : CSC V) (B : CSR V) (k : Nat) : List (Nat × Nat) :=
  (List.range' (A.ptr k) (A.ptr (k + 1) - A.ptr k)).flatMap fun j =>
    (List.range' (B.ptr k) (B.ptr (k + 1) - B.ptr k)).map fun i => (j, i)

section
variable {mul add : V → V → V} {A : CSC V} {B : CSR V}

theorem pairsOf_rel (h : ValidOuter A B) {k : Nat} (hk : k < A.cols) :
    List.Forall₂ (Rel mul A B) (pairsOf A B k) (prodsOf mul A B k) := by
  have hA := cptr_le_nnz h.wfA (j := k + 1) hk
  have hA' := h.wfA.ptrMono k hk
  have hB := CSR.ptr_le_nnz h.wfB (i := k + 1) (by have := h.ab; omega)
  have hB' := h.wfB.ptrMono k (by have := h.ab; omega)
  unfold pairsOf prodsOf CSC.col CSR.row
  have fA := forall₂_slice (L := A.rowids.zip A.values) (A.ptr (k + 1) - A.ptr k) (A.ptr k)
    (by rw [czip_length h.wfA]; omega)
  have fB := forall₂_slice (L := B.colids.zip B.values) (B.ptr (k + 1) - B.ptr k) (B.ptr k)
    (by rw [CSR.zip_length h.wfB]; omega)
  rw [show A.ptr k + (A.ptr (k + 1) - A.ptr k) = A.ptr (k + 1) by omega] at fA
  rw [show B.ptr k + (B.ptr (k + 1) - B.ptr k) = B.ptr (k + 1) by omega] at fB
  refine forall₂_flatMap fA fun j ra hj => ?_
  rw [List.forall₂_map_left_iff, List.forall₂_map_right_iff]
  refine fB.imp fun i jb hi => ?_
  obtain ⟨a1, a2⟩ := zip_some hj
  obtain ⟨b1, b2⟩ := zip_some hi
  exact ⟨a1, b1, _, _, a2, b2, rfl⟩

theorem pairs_rel (h : ValidOuter A B) {cs : List Nat} (hcs : ∀ c ∈ cs, c < A.cols) :
    List.Forall₂ (Rel mul A B) (cs.flatMap (pairsOf A B)) (prods mul A B cs) := by
  unfold prods
  refine forall₂_flatMap (R := fun a b => a = b ∧ a < A.cols) ?_ ?_
  · induction cs with
    | nil => exact .nil
    | cons c cs ih =>
      exact .cons ⟨rfl, hcs c (by simp)⟩ (ih fun x hx => hcs x (by simp [hx]))
  · rintro a _ ⟨rfl, ha⟩
    exact pairsOf_rel h ha

theorem forRange_append {α : Type} (f : Nat → List α) (lo hi : Nat) (w : List α) :
    forRange lo hi w (fun k w => .ok (w ++ f k)) = .ok (w ++ (List.range' lo (hi - lo)).flatMap f) := by
  unfold forRange
  generalize hi - lo = d
  induction d generalizing lo w with
  | zero => simp
  | succ d ih =>
    rw [List.range'_succ]
    simp only [List.foldlM_cons, ok_bind, List.flatMap_cons]
    rw [ih, List.append_assoc]

theorem pairs_eq (h : ValidOuter A B) {cs : List Nat} (hcs : ∀ c ∈ cs, c < A.cols) :
    pairs A B cs = .ok (cs.flatMap (pairsOf A B)) := by
  unfold pairs
  apply foldlM_desc (fun pre => pre.flatMap (pairsOf A B))
  · intro pre c post e
    have hc : c < A.cols := hcs c (by rw [e]; simp)
    have hab := h.ab
    rw [rd_cptr h.wfA (by omega), ok_bind, rd_cptr h.wfA (by omega), ok_bind]
    simp only [CSR.rd_ptr h.wfB (show c ≤ B.rows by omega), CSR.rd_ptr h.wfB (show c + 1 ≤ B.rows by omega), ok_bind]
    have e1 : ∀ (j : Nat) (w : List (Nat × Nat)), forRange (B.ptr c) (B.ptr (c + 1)) w (fun k w => .ok (w ++ [(j, k)])) =
        .ok (w ++ (List.range' (B.ptr c) (B.ptr (c + 1) - B.ptr c)).map fun k => (j, k)) := by
      intro j w
      rw [forRange_append (fun k => [(j, k)])]
      congr 2
      exact (List.map_eq_flatMap ..).symm
    simp only [e1]
    rw [forRange_append]
    simp [pairsOf]

end

/-- The products that go to block `b`; `bo r` is the block of row `r`. -/
def sel (bo : Nat → Nat) (b : Nat) (ts : List (Nat × Nat × V)) : List (Nat × Nat × V) := ts.filter fun t => decide (bo t.1 = b)

theorem sel_append (bo : Nat → Nat) (b : Nat) (l m : List (Nat × Nat × V)) : sel bo b (l ++ m) = sel bo b l ++ sel bo b m :=
  List.filter_append ..

theorem slice_push {α : Type} {L : List α} {b k : Nat} (h1 : b ≤ k) (h2 : k < L.length) :
    slice L b (k + 1) = slice L b k ++ [L[k]] := by
  unfold slice
  rw [show k + 1 - b = (k - b) + 1 by omega, List.take_add_one, List.getElem?_drop, show b + (k - b) = k by omega,
    List.getElem?_eq_getElem h2]
  rfl

theorem div_ok {a b : Nat} (h : 0 < b) : Tuples.div a b = .ok (a / b) := by
  unfold Tuples.div
  rw [if_neg (by omega)]

section
variable {mul add : V → V → V} {A : CSC V} {B : CSR V}

theorem flopCol_eq (mul : V → V → V) (h : ValidOuter A B) {npb nb c : Nat} (hp : 0 < npb) (hnb : ∀ r < A.rows, r / npb < nb) (hc : c < A.cols)
    (f : Nat → Nat) :
    flopCol A B npb (tab nb f) c = .ok (tab nb fun b => f b + (sel (fun r => r / npb) b (prodsOf mul A B c)).length) := by
  have hab := h.ab
  unfold flopCol
  rw [CSR.rd_ptr h.wfB (by omega), ok_bind, CSR.rd_ptr h.wfB (by omega), ok_bind, rd_cptr h.wfA (by omega), ok_bind,
    rd_cptr h.wfA (by omega), ok_bind]
  have hle := h.wfA.ptrMono c hc
  have hn := cptr_le_nnz h.wfA (j := c + 1) hc
  obtain ⟨s, e1, e2⟩ := forRange_inv (body := flopEntry A npb (B.ptr (c + 1) - B.ptr c))
    (fun j s => s = tab nb fun b => f b + (sel (fun r => r / npb) b ((slice (A.rowids.zip A.values) (A.ptr c) j).flatMap fun ra =>
      (B.row c).map fun jb => (ra.1, jb.1, mul ra.2 jb.2))).length) (A.ptr c) (A.ptr (c + 1)) hle (tab nb f)
    (by simp [slice, sel]) (by
      rintro j s h1 h2 rfl
      have hj : j < (A.rowids.zip A.values).length := by rw [czip_length h.wfA]; omega
      have hj' : j < A.rowids.length := by rw [h.wfA.rowLen]; omega
      have hr : A.rowids[j] < A.rows := h.wfA.inBounds _ (List.getElem_mem _)
      have hj2 : j < A.values.length := by rw [h.wfA.valLen]; omega
      refine ⟨_, ?_, rfl⟩
      unfold flopEntry
      rw [rd_of_lt hj', ok_bind, div_ok hp, ok_bind, rd_tab (hnb _ hr), ok_bind, wr_tab (hnb _ hr)]
      congr 1
      apply tab_ext
      intro b _
      rw [slice_push h1 hj, List.flatMap_append, sel_append, List.length_append]
      simp only [List.flatMap_cons, List.flatMap_nil, List.append_nil, List.getElem_zip, upd]
      by_cases hb : b = A.rowids[j] / npb
      · subst hb
        rw [if_pos rfl]
        have : sel (fun r => r / npb) (A.rowids[j] / npb) ((B.row c).map fun jb => (A.rowids[j], jb.1, mul A.values[j] jb.2)) =
            (B.row c).map fun jb => (A.rowids[j], jb.1, mul A.values[j] jb.2) := by
          unfold sel
          rw [List.filter_eq_self]
          intro a ha
          rw [List.mem_map] at ha
          obtain ⟨x, _, rfl⟩ := ha
          simp
        rw [this, List.length_map, CSR.row_length h.wfB (by omega)]
        omega
      · rw [if_neg hb]
        have : sel (fun r => r / npb) b ((B.row c).map fun jb => (A.rowids[j], jb.1, mul A.values[j] jb.2)) = [] := by
          unfold sel
          rw [List.filter_eq_nil_iff]
          intro a ha
          rw [List.mem_map] at ha
          obtain ⟨x, _, rfl⟩ := ha
          simp only [decide_eq_true_eq]
          exact fun e => hb e.symm
        rw [this]
        rfl)
  rw [e1, e2]
  rfl

theorem flops_eq (mul : V → V → V) (h : ValidOuter A B) {npb nb : Nat} (hp : 0 < npb) (hnb : ∀ r < A.rows, r / npb < nb)
    {order : List Nat} (ho : order.Perm (List.range A.cols)) :
    order.foldlM (flopCol A B npb) (List.replicate nb 0) =
      .ok (tab nb fun b => (sel (fun r => r / npb) b (prods mul A B (List.range A.cols))).length) := by
  have e0 : List.replicate nb 0 = tab nb fun b => (sel (fun r => r / npb) b (prods mul A B [])).length := by
    rw [Conv.replicate_eq_tab]
    rfl
  rw [e0, foldlM_desc (fun pre => tab nb fun b => (sel (fun r => r / npb) b (prods mul A B pre)).length)]
  · congr 1
    apply tab_ext
    intro b _
    exact ((ho.flatMap_right _).filter _).length_eq
  · intro pre c post e
    have hc : c < A.cols := by
      rw [← List.mem_range, ← ho.mem_iff, e]
      simp
    rw [flopCol_eq mul h hp hnb hc]
    congr 1
    apply tab_ext
    intro b _
    unfold prods
    rw [List.flatMap_append, sel_append, List.length_append]
    simp

/-! ### The first region -/

/-- The shared data when block `b` has received the products `L b`, of `F b` in all. -/
def GlobOk (nb : Nat) (F : Nat → Nat) (g : Glob V) (L : Nat → List (Nat × Nat × V)) : Prop :=
  g.cnt = tab nb (fun b => (L b).length) ∧
    ∃ rest : Nat → List (Option (Nat × Nat × V)), g.blk = tab nb (fun b => (L b).map some ++ rest b) ∧
      ∀ b < nb, (L b).length + (rest b).length = F b

/-- The data of a thread that has the products `R` still to form and the products `D b` for block `b` in its buffer. -/
def LocOk (mul : V → V → V) (A : CSC V) (B : CSR V) (nb width : Nat) (cs : List Nat) (o : Option (Loc V))
    (R : List (Nat × Nat × V)) (D : Nat → List (Nat × Nat × V)) : Prop :=
  match o with
  | none => R = prods mul A B cs ∧ D = fun _ => []
  | some l => List.Forall₂ (Rel mul A B) l.work R ∧ l.buf.length = nb * width ∧ l.next ≤ nb ∧ (l.work ≠ [] → l.next = 0) ∧
      ∃ E : Nat → List (Nat × Nat × V), l.cnt = tab nb (fun b => (E b).length) ∧
        (∀ b < nb, (E b).length < width ∧ Holds l.buf (b * width) ((E b).map some)) ∧
        D = fun b => if b < l.next then [] else E b

theorem conserve {ι M : Type} [DecidableEq ι] [AddCommMonoid M] {s : Finset ι} {t : ι} (ht : t ∈ s) {f g : ι → M} {x y : M}
    (hfg : ∀ u ∈ s, u ≠ t → f u = g u) (h : x + f t = y + g t) : x + ∑ u ∈ s, f u = y + ∑ u ∈ s, g u := by
  rw [← Finset.add_sum_erase s f ht, ← Finset.add_sum_erase s g ht, ← add_assoc, ← add_assoc, h]
  congr 1
  apply Finset.sum_congr rfl
  intro u hu
  rw [Finset.mem_erase] at hu
  exact hfg u hu.2 hu.1

theorem flush_ok {nb width b : Nat} {F : Nat → Nat} {g : Glob V} {L : Nat → List (Nat × Nat × V)} (h : GlobOk nb F g L) (hb : b < nb)
    {buf : List (Option (Nat × Nat × V))} {xs : List (Nat × Nat × V)} (hx : Holds buf (b * width) (xs.map some))
    (hl : (L b).length + xs.length ≤ F b) :
    ∃ g', flush width b xs.length buf g = .ok g' ∧ GlobOk nb F g' (upd L b (L b ++ xs)) := by
  obtain ⟨h1, rest, h2, h3⟩ := h
  have h3b := h3 b hb
  unfold flush
  rw [h1, rd_tab hb, ok_bind, wr_tab hb, ok_bind, h2, rd_tab hb, ok_bind,
    memcpy_eq (xs := xs.map some) (by simp) hx (by simp; omega), ok_bind, wr_tab hb]
  refine ⟨_, rfl, ?_, upd rest b ((rest b).drop xs.length), ?_, ?_⟩
  · apply tab_ext
    intro c _
    by_cases hc : c = b
    · subst hc; simp [upd]
    · simp [upd, hc]
  · apply tab_ext
    intro c _
    by_cases hc : c = b
    · subst hc
      simp only [upd, if_true]
      rw [put_end (by simp)]
      simp
    · simp [upd, hc]
  · intro c hc
    by_cases e : c = b
    · subst e
      simp [upd]
      omega
    · simp only [upd, if_neg e]
      exact h3 c hc

theorem slot_inj {w a b i k : Nat} (hi : i < w) (hk : k < w) (h : a * w + i = b * w + k) : a = b := by
  have h1 : (a * w + i) / w = a := by
    rw [Nat.add_comm, Nat.add_mul_div_right _ _ (by omega), Nat.div_eq_of_lt hi]; omega
  have h2 : (b * w + k) / w = b := by
    rw [Nat.add_comm, Nat.add_mul_div_right _ _ (by omega), Nat.div_eq_of_lt hk]; omega
  rw [← h1, ← h2, h]

theorem slot_lt {w a n i : Nat} (hi : i < w) (h : a < n) : a * w + i < n * w := by
  have : (a + 1) * w ≤ n * w := Nat.mul_le_mul_right _ h
  rw [Nat.add_mul] at this
  omega

/-- The number of steps that a thread may still need. -/
def todo (mul : V → V → V) (A : CSC V) (B : CSR V) (nb : Nat) (cs : List Nat) : Option (Loc V) → Nat
  | none => 1 + (prods mul A B cs).length + nb
  | some l => l.work.length + (nb - l.next)

theorem start_ok (h : ValidOuter A B) {blk : Nat → Res Nat} {bo : Nat → Nat} {nb width : Nat} {F : Nat → Nat} {asg : Nat → List Nat} {t : Nat}
    (hw : 0 < width) (hcs : ∀ c ∈ asg t, c < A.cols) {g : Glob V} {L : Nat → List (Nat × Nat × V)} (hg : GlobOk nb F g L)
    {R : List (Nat × Nat × V)} {D : Nat → List (Nat × Nat × V)} (hl : LocOk mul A B nb width (asg t) none R D) :
    ∃ g' o' L' R' D', step mul A B blk nb width asg t g none = .ok (g', o') ∧ GlobOk nb F g' L' ∧
      LocOk mul A B nb width (asg t) o' R' D' ∧
      (∀ b < nb, (L b ++ (D b ++ sel bo b R)).Perm (L' b ++ (D' b ++ sel bo b R'))) ∧
      todo mul A B nb (asg t) o' < todo mul A B nb (asg t) none := by
  obtain ⟨rfl, rfl⟩ := hl
  have hr := pairs_rel (mul := mul) h hcs
  refine ⟨g, some { work := (asg t).flatMap (pairsOf A B), next := 0, buf := List.replicate (nb * width) none, cnt := List.replicate nb 0 },
    L, prods mul A B (asg t), fun _ => [], ?_, hg,
    ⟨hr, ?_, ?_, ?_, fun _ => [], ?_, ?_, ?_⟩, ?_, ?_⟩
  · simp only [step, pairs_eq h hcs, ok_bind]
  · simp
  · exact Nat.zero_le _
  · intro _; rfl
  · exact Conv.replicate_eq_tab ..
  · intro b _
    exact ⟨hw, fun k hk => by simp at hk⟩
  · simp
  · intro b _
    exact List.Perm.refl _
  · have := hr.length_eq
    simp only [todo]
    omega

theorem copy_ok {blk : Nat → Res Nat} {bo : Nat → Nat} {nb width : Nat} {F : Nat → Nat} {asg : Nat → List Nat} {t : Nat}
    {g : Glob V} {L : Nat → List (Nat × Nat × V)} (hg : GlobOk nb F g L) {l : Loc V}
    {R : List (Nat × Nat × V)} {D : Nat → List (Nat × Nat × V)} (hl : LocOk mul A B nb width (asg t) (some l) R D)
    (hcap : ∀ b < nb, (L b).length + (D b).length + (sel bo b R).length ≤ F b) (hwk : l.work = []) (hn : l.next < nb) :
    ∃ g' o' L' R' D', step mul A B blk nb width asg t g (some l) = .ok (g', o') ∧ GlobOk nb F g' L' ∧
      LocOk mul A B nb width (asg t) o' R' D' ∧
      (∀ b < nb, (L b ++ (D b ++ sel bo b R)).Perm (L' b ++ (D' b ++ sel bo b R'))) ∧
      todo mul A B nb (asg t) o' < todo mul A B nb (asg t) (some l) := by
  obtain ⟨h1, h2, h3, h4, E, h5, h6, rfl⟩ := hl
  have hc := hcap l.next hn
  simp only [Nat.lt_irrefl, if_false] at hc
  obtain ⟨g', e1, e2⟩ := flush_ok hg hn (h6 l.next hn).2 (by omega)
  refine ⟨g', some { l with next := l.next + 1 }, _, R, fun b => if b < l.next + 1 then [] else E b, ?_, e2,
    ⟨h1, h2, hn, ?_, E, h5, h6, rfl⟩, ?_, ?_⟩
  · simp only [step, hwk]
    rw [h5, rd_tab hn, ok_bind, e1]
    rfl
  · exact fun hne => absurd hwk hne
  · intro b _
    by_cases hb : b = l.next
    · subst hb
      simp [upd]
    · have : (b < l.next + 1) = (b < l.next) := by
        apply propext; omega
      simp only [upd, if_neg hb, this]
      exact List.Perm.refl _
  · simp only [todo]
    omega

theorem sel_cons (bo : Nat → Nat) (b : Nat) (p : Nat × Nat × V) (R : List (Nat × Nat × V)) :
    sel bo b (p :: R) = (if bo p.1 = b then [p] else []) ++ sel bo b R := by
  unfold sel
  rw [List.filter_cons]
  by_cases h : bo p.1 = b
  · simp [h]
  · simp [h]

theorem product_ok (h : ValidOuter A B) {blk : Nat → Res Nat} {bo : Nat → Nat} {nb width : Nat} {F : Nat → Nat} {asg : Nat → List Nat} {t : Nat}
    (hp : ∀ r < A.rows, blk r = .ok (bo r)) (hnb : ∀ r < A.rows, bo r < nb)
    {g : Glob V} {L : Nat → List (Nat × Nat × V)} (hg : GlobOk nb F g L) {l : Loc V}
    {R : List (Nat × Nat × V)} {D : Nat → List (Nat × Nat × V)} (hl : LocOk mul A B nb width (asg t) (some l) R D)
    (hcap : ∀ b < nb, (L b).length + (D b).length + (sel bo b R).length ≤ F b) {q : Nat × Nat} {w : List (Nat × Nat)}
    (hwk : l.work = q :: w) :
    ∃ g' o' L' R' D', step mul A B blk nb width asg t g (some l) = .ok (g', o') ∧ GlobOk nb F g' L' ∧
      LocOk mul A B nb width (asg t) o' R' D' ∧
      (∀ b < nb, (L b ++ (D b ++ sel bo b R)).Perm (L' b ++ (D' b ++ sel bo b R'))) ∧
      todo mul A B nb (asg t) o' < todo mul A B nb (asg t) (some l) := by
  obtain ⟨h1, h2, h3, h4, E, h5, h6, rfl⟩ := hl
  have hn0 : l.next = 0 := h4 (by rw [hwk]; simp)
  rw [hwk] at h1
  cases h1 with
  | @cons _ p _ R' hr hrest =>
  obtain ⟨a1, a2, x, y, a3, a4, a5⟩ := hr
  obtain ⟨j, k⟩ := q
  obtain ⟨r, col, v⟩ := p
  simp only at a1 a2 a3 a4 a5
  have hrow : r < A.rows := h.wfA.inBounds _ (List.mem_of_getElem? a1)
  have hb := hnb r hrow
  obtain ⟨h6a, h6b⟩ := h6 _ hb
  generalize eb : bo r = b at hb h6a h6b
  have hslot := slot_lt h6a hb
  have hbuf : ∀ (X : Option (Nat × Nat × V)), Holds (l.buf.set (b * width + (E b).length) (some (r, col, v))) (b * width)
      ((E b ++ [(r, col, v)]).map some) := by
    intro _ i hi
    simp only [List.length_map, List.length_append, List.length_singleton] at hi
    by_cases e : i = (E b).length
    · subst e
      rw [List.getElem?_set_self (by omega)]
      simp
    · rw [List.getElem?_set_ne (by omega)]
      have := h6b i (by simp; omega)
      rw [this, List.map_append, List.getElem?_append_left (by simp; omega)]
  have hoth : ∀ b' < nb, b' ≠ b → Holds (l.buf.set (b * width + (E b).length) (some (r, col, v))) (b' * width) ((E b').map some) := by
    intro b' hb' hne i hi
    obtain ⟨h7a, h7b⟩ := h6 b' hb'
    have hi' : i < (E b').length := by simpa using hi
    rw [List.getElem?_set_ne]
    · exact h7b i hi
    · intro e
      exact hne (slot_inj h6a (by omega) e).symm
  have hstep : step mul A B blk nb width asg t g (some l) = (do
      let (g, l) ← after width b ((E b).length + 1) { l with work := w, buf := l.buf.set (b * width + (E b).length) (some (r, col, v)) } g
      .ok (g, some l)) := by
    simp only [step, hwk, product]
    rw [rd_of_getElem? a1, ok_bind, hp r hrow, ok_bind, eb, h5, rd_tab hb, ok_bind, rd_of_getElem? a2, ok_bind,
      rd_of_getElem? a3, ok_bind, rd_of_getElem? a4, ok_bind, wr_of_lt (by omega), ok_bind, ← a5]
  rw [hstep]
  unfold after
  have hc := hcap b hb
  simp only [hn0, Nat.not_lt_zero, if_false] at hc
  rw [sel_cons] at hc
  simp only [eb, if_true, List.length_append, List.length_singleton] at hc
  by_cases hfull : (E b).length + 1 = width
  · rw [if_pos hfull]
    obtain ⟨g', e1, e2⟩ := flush_ok (xs := E b ++ [(r, col, v)]) hg hb (hbuf none) (by simp; omega)
    rw [List.length_append, List.length_singleton, hfull] at e1
    simp only
    rw [e1, ok_bind, h5, wr_tab hb, ok_bind, ok_bind]
    refine ⟨_, _, _, R', upd E b [], rfl, e2, ⟨hrest, by simp [h2], h3, fun _ => hn0, upd E b [], ?_, ?_, ?_⟩, ?_, ?_⟩
    · apply tab_ext
      intro c _
      by_cases e : c = b
      · subst e; simp [upd]
      · simp [upd, e]
    · intro c hc
      by_cases e : c = b
      · subst e
        rw [upd_same]
        exact ⟨by simp; omega, fun i hi => by simp at hi⟩
      · rw [upd_ne _ _ e]
        exact ⟨(h6 c hc).1, hoth c hc e⟩
    · simp [hn0]
    · intro c _
      rw [sel_cons]
      by_cases e : c = b
      · subst e
        simp [upd, hn0, eb]
      · simp [upd, hn0, e, eb, Ne.symm e]
    · simp [todo, hwk]
  · rw [if_neg hfull]
    simp only
    rw [h5, wr_tab hb, ok_bind, ok_bind]
    refine ⟨_, _, L, R', upd E b (E b ++ [(r, col, v)]), rfl, hg, ⟨hrest, by simp [h2], h3, fun _ => hn0,
      upd E b (E b ++ [(r, col, v)]), ?_, ?_, ?_⟩, ?_, ?_⟩
    · apply tab_ext
      intro c _
      by_cases e : c = b
      · subst e; simp [upd]
      · simp [upd, e]
    · intro c hc
      by_cases e : c = b
      · subst e
        rw [upd_same]
        exact ⟨by simp; omega, hbuf none⟩
      · rw [upd_ne _ _ e]
        exact ⟨(h6 c hc).1, hoth c hc e⟩
    · simp [hn0]
    · intro c _
      rw [sel_cons]
      by_cases e : c = b
      · subst e
        simp [upd, hn0, eb]
      · simp [upd, hn0, e, eb, Ne.symm e]
    · simp [todo, hwk]

theorem step_ok (h : ValidOuter A B) {blk : Nat → Res Nat} {bo : Nat → Nat} {nb width : Nat} {F : Nat → Nat} {asg : Nat → List Nat} {t : Nat}
    (hp : ∀ r < A.rows, blk r = .ok (bo r)) (hnb : ∀ r < A.rows, bo r < nb) (hw : 0 < width) (hcs : ∀ c ∈ asg t, c < A.cols)
    {g : Glob V} {L : Nat → List (Nat × Nat × V)} (hg : GlobOk nb F g L) {o : Option (Loc V)}
    {R : List (Nat × Nat × V)} {D : Nat → List (Nat × Nat × V)} (hl : LocOk mul A B nb width (asg t) o R D)
    (hcap : ∀ b < nb, (L b).length + (D b).length + (sel bo b R).length ≤ F b) (hf : fin nb o = false) :
    ∃ g' o' L' R' D', step mul A B blk nb width asg t g o = .ok (g', o') ∧ GlobOk nb F g' L' ∧
      LocOk mul A B nb width (asg t) o' R' D' ∧
      (∀ b < nb, (L b ++ (D b ++ sel bo b R)).Perm (L' b ++ (D' b ++ sel bo b R'))) ∧
      todo mul A B nb (asg t) o' < todo mul A B nb (asg t) o := by
  cases o with
  | none => exact start_ok h hw hcs hg hl
  | some l =>
    cases hwk : l.work with
    | nil =>
      refine copy_ok hg hl hcap hwk ?_
      simpa [fin, hwk] using hf
    | cons q w => exact product_ok h hp hnb hg hl hcap hwk

/-- The region: if every thread gets enough steps, every block ends up with its products. -/
theorem region_ok (h : ValidOuter A B) {blk : Nat → Res Nat} {bo : Nat → Nat} {nb width n : Nat} {asg : Nat → List Nat} (hp : ∀ r < A.rows, blk r = .ok (bo r))
    (hnb : ∀ r < A.rows, bo r < nb) (hw : 0 < width)
    (hasg : ((List.range n).flatMap asg).Perm (List.range A.cols)) (sched : List Nat) {flops : List Nat}
    (hfl : flops = tab nb fun b => (sel bo b (prods mul A B (List.range A.cols))).length) :
    (phase n (step mul A B blk nb width asg) (fin nb) sched
        { blk := flops.map fun f => List.replicate f none, cnt := List.replicate nb 0 } (fun _ => none) = .ok none ∧
      ∃ t, t < n ∧ sched.count t ≤ 1 + (prods mul A B (asg t)).length + nb) ∨
    ∃ g ls L, phase n (step mul A B blk nb width asg) (fin nb) sched
        { blk := flops.map fun f => List.replicate f none, cnt := List.replicate nb 0 } (fun _ => none) = .ok (some (g, ls)) ∧
      GlobOk nb (fun b => (sel bo b (prods mul A B (List.range A.cols))).length) g L ∧
      ∀ b < nb, (L b).Perm (sel bo b (prods mul A B (List.range A.cols))) := by
  have hcs : ∀ t < n, ∀ c ∈ asg t, c < A.cols := by
    intro t ht c hc
    rw [← List.mem_range, ← hasg.mem_iff, List.mem_flatMap]
    exact ⟨t, by simpa using ht, hc⟩
  have key := phase_glob (n := n) (step := step mul A B blk nb width asg) (fin := fin nb)
    (fun g ls => ∃ (L : Nat → List (Nat × Nat × V)) (R : Nat → List (Nat × Nat × V)) (D : Nat → Nat → List (Nat × Nat × V)),
      GlobOk nb (fun b => (sel bo b (prods mul A B (List.range A.cols))).length) g L ∧
      (∀ t < n, LocOk mul A B nb width (asg t) (ls t) (R t) (D t)) ∧
      ∀ b < nb, (L b : Multiset (Nat × Nat × V)) + ∑ t ∈ Finset.range n, ((D t b ++ sel bo b (R t) : List (Nat × Nat × V)) : Multiset _) =
        (sel bo b (prods mul A B (List.range A.cols)) : Multiset (Nat × Nat × V)))
    (fun t o => todo mul A B nb (asg t) o) ?_ sched
    { blk := flops.map fun f => List.replicate f none, cnt := List.replicate nb 0 } (fun _ => none) ?_
  · rcases key with h1 | ⟨g', ls', h1, ⟨L, R, D, h2, h3, h4⟩, h5⟩
    · exact .inl h1
    · refine .inr ⟨g', ls', L, h1, h2, ?_⟩
      intro b hb
      have e := h4 b hb
      rw [Finset.sum_eq_zero, add_zero, Multiset.coe_eq_coe] at e
      · exact e
      · intro t ht
        rw [Finset.mem_range] at ht
        have hl := h3 t ht
        have hf := h5 t ht
        cases ho : ls' t with
        | none => rw [ho] at hf; cases hf
        | some l =>
          rw [ho] at hl hf
          obtain ⟨a1, a2, a3, a4, E, a5, a6, a7⟩ := hl
          simp only [fin, Bool.and_eq_true, List.isEmpty_iff, decide_eq_true_eq] at hf
          rw [hf.1] at a1
          cases hR : R t with
          | cons _ _ => rw [hR] at a1; cases a1
          | nil =>
            rw [a7]
            simp only [if_pos (show b < l.next by omega), sel, List.filter_nil, List.append_nil]
            rfl
  · rintro t g ls ht ⟨L, R, D, h2, h3, h4⟩ hf
    have htm : t ∈ Finset.range n := by simpa using ht
    have hcap : ∀ b < nb, (L b).length + (D t b).length + (sel bo b (R t)).length ≤
        (sel bo b (prods mul A B (List.range A.cols))).length := by
      intro b hb
      have e := congrArg Multiset.card (h4 b hb)
      rw [← Finset.add_sum_erase _ _ htm] at e
      simp only [Multiset.card_add, Multiset.coe_card, List.length_append] at e
      omega
    obtain ⟨g', o', L', R', D', e1, e2, e3, e4, e5⟩ := step_ok h hp hnb hw (hcs t ht) h2 (h3 t ht) hcap hf
    refine ⟨g', o', e1, ⟨L', upd R t R', upd D t D', e2, ?_, ?_⟩, .inr e5⟩
    · intro u hu
      by_cases e : u = t
      · subst e
        simp only [upd_same]
        exact e3
      · simp only [upd_ne _ _ e]
        exact h3 u hu
    · intro b hb
      rw [← h4 b hb]
      refine (conserve htm ?_ ?_).symm
      · intro u _ e
        simp only [upd_ne _ _ e]
      · simp only [upd_same]
        rw [Multiset.coe_add, Multiset.coe_add, Multiset.coe_eq_coe]
        exact e4 b hb
  · refine ⟨fun _ => [], fun t => prods mul A B (asg t), fun _ _ => [], ⟨?_, ?_⟩, ?_, ?_⟩
    · exact Conv.replicate_eq_tab ..
    · refine ⟨fun b => List.replicate (sel bo b (prods mul A B (List.range A.cols))).length none, ?_, ?_⟩
      · subst hfl
        simp [tab]
      · intro b _
        simp
    · intro t _
      exact ⟨rfl, rfl⟩
    · intro b _
      have e1 : ∀ m, (∑ t ∈ Finset.range m, (([] ++ sel bo b (prods mul A B (asg t)) : List (Nat × Nat × V)) : Multiset _)) =
          (sel bo b (prods mul A B ((List.range m).flatMap asg)) : Multiset (Nat × Nat × V)) := by
        intro m
        induction m with
        | zero => rfl
        | succ m ih =>
          rw [Finset.sum_range_succ, ih, List.range_succ, List.flatMap_append]
          unfold prods
          rw [List.flatMap_append, sel_append, ← Multiset.coe_add]
          simp
      rw [e1]
      rw [show ((([] : List (Nat × Nat × V)) : Multiset (Nat × Nat × V))) = 0 from rfl, zero_add, Multiset.coe_eq_coe]
      exact (hasg.flatMap_right _).filter _

/-! ### Merging -/

/-- The merged list. -/
def merged (add : V → V → V) (vec : List (Nat × Nat × V)) : List (Nat × Nat × V) :=
  (vec.map Conv.pairOf).foldl (Conv.joinStep add) []

theorem joinStep_snoc (add : V → V → V) (P : List (Nat × Nat × V)) (t y : Nat × Nat × V) :
    Conv.joinStep add (P ++ [t]) (Conv.pairOf y) =
      if t.2.1 = y.2.1 ∧ t.1 = y.1 then P ++ [(t.1, t.2.1, add t.2.2 y.2.2)] else P ++ [t] ++ [y] := by
  unfold Conv.joinStep Conv.pairOf
  rw [List.getLast?_concat]
  simp only [List.dropLast_concat, Prod.mk.injEq]
  by_cases h : t.2.1 = y.2.1 ∧ t.1 = y.1
  · rw [if_pos h, if_pos ⟨h.2, h.1⟩]
  · rw [if_neg h, if_neg (fun e => h ⟨e.2, e.1⟩)]

theorem doMerge_ok (add : V → V → V) (vec : List (Nat × Nat × V)) :
    ∃ junk, doMerge add vec vec.length = .ok (merged add vec ++ junk, (merged add vec).length) := by
  unfold doMerge
  by_cases hn : vec.length = 0
  · rw [if_pos hn]
    have : vec = [] := List.eq_nil_of_length_eq_zero hn
    subst this
    exact ⟨[], rfl⟩
  · rw [if_neg hn]
    obtain ⟨s, e1, P, t, mid, e2, e3, e4⟩ := forRange_inv (body := mergeStep add)
      (fun j s => ∃ P t mid, s = (P ++ [t] ++ mid ++ vec.drop j, P.length) ∧ P.length + 1 + mid.length = j ∧
        P ++ [t] = merged add (vec.take j)) 1 vec.length (by omega) (vec, 0) (by
        refine ⟨[], vec[0], [], ?_, rfl, ?_⟩
        · have : vec = vec[0] :: vec.drop 1 := by
            conv => lhs; rw [← List.drop_zero (l := vec)]
            rw [List.drop_eq_getElem_cons (by omega)]
          simp only [List.nil_append, List.append_nil, List.length_nil, List.singleton_append]
          rw [← this]
        · rw [show (1 : Nat) = 0 + 1 from rfl, List.take_succ_eq_append_getElem (by omega)]
          rfl) (by
        rintro j s h1 h2 ⟨P, t, mid, rfl, hl, hm⟩
        have hd : vec.drop j = vec[j] :: vec.drop (j + 1) := List.drop_eq_getElem_cons h2
        have hm' : merged add (vec.take (j + 1)) = Conv.joinStep add (P ++ [t]) (Conv.pairOf vec[j]) := by
          rw [hm, List.take_succ_eq_append_getElem h2]
          unfold merged
          rw [List.map_append, List.foldl_append]
          rfl
        rw [joinStep_snoc] at hm'
        have r1 : rd (P ++ [t] ++ mid ++ vec.drop j) P.length = .ok t := by
          apply rd_of_getElem?
          simp
        have r2 : rd (P ++ [t] ++ mid ++ vec.drop j) j = .ok vec[j] := by
          apply rd_of_getElem?
          rw [List.getElem?_append_right (by simp; omega), hd]
          simp [show j - (P.length + (mid.length + 1)) = 0 by omega]
        unfold mergeStep
        simp only
        rw [r1, ok_bind, r2, ok_bind]
        by_cases hk : t.2.1 = vec[j].2.1 ∧ t.1 = vec[j].1
        · rw [if_pos hk] at hm' ⊢
          rw [wr_of_lt (by simp), ok_bind]
          refine ⟨_, rfl, P, _, mid ++ [vec[j]], ?_, by simp; omega, hm'.symm⟩
          rw [hd]
          simp
        · rw [if_neg hk] at hm' ⊢
          rw [wr_of_lt (by simp; omega), ok_bind]
          cases hmid : mid with
          | nil =>
            refine ⟨_, rfl, P ++ [t], vec[j], [], ?_, by rw [hmid] at hl; simp at hl ⊢; omega, hm'.symm⟩
            simp
            rw [hd, List.set_cons_zero]
          | cons m0 mid' =>
            refine ⟨_, rfl, P ++ [t], vec[j], mid' ++ [vec[j]], ?_, by rw [hmid] at hl; simp at hl ⊢; omega, hm'.symm⟩
            rw [hd]
            simp)
    rw [e1, ok_bind, e2]
    rw [List.take_length] at e4
    refine ⟨mid ++ vec.drop vec.length, ?_⟩
    rw [← e4]
    simp

theorem prefixOf_ok {α : Type} (l : List α) (rest : List (Option α)) : prefixOf (l.map some ++ rest) l.length = .ok l := by
  unfold prefixOf
  rw [if_neg (by simp), List.take_append_of_le_length (by simp), List.take_of_length_le (by simp)]
  exact mapM_use l

theorem sortBlocks_ok (add : V → V → V) {sortf : (Nat × Nat × V → Nat) → List (Nat × Nat × V) → List (Nat × Nat × V)}
    {key : Nat × Nat × V → Nat} (hs : SortsBy key (sortf key)) {nb : Nat} {F : Nat → Nat} {g : Glob V} {L : Nat → List (Nat × Nat × V)}
    (hg : GlobOk nb F g L) {order : List Nat} (ho : order.Perm (List.range nb)) :
    ∃ J : Nat → List (Nat × Nat × V), order.foldlM (sortBlock add sortf key g) (List.replicate nb [], List.replicate nb 0) =
      .ok (tab nb (fun b => merged add (sortf key (L b)) ++ J b), tab nb (lens fun b => merged add (sortf key (L b)))) := by
  obtain ⟨h1, rest, h2, _⟩ := hg
  choose J hJ using fun b => doMerge_ok add (sortf key (L b))
  refine ⟨J, ?_⟩
  have e0 : ((List.replicate nb [], List.replicate nb 0) : List (List (Nat × Nat × V)) × List Nat) =
      (tab nb (fun b => if b ∈ ([] : List Nat) then merged add (sortf key (L b)) ++ J b else []),
        tab nb (fun b => if b ∈ ([] : List Nat) then (merged add (sortf key (L b))).length else 0)) := by
    rw [Conv.replicate_eq_tab, Conv.replicate_eq_tab]
    simp
  have hnd : order.Nodup := ho.nodup_iff.2 List.nodup_range
  rw [e0, foldlM_desc (fun pre => (tab nb (fun b => if b ∈ pre then merged add (sortf key (L b)) ++ J b else []),
        tab nb (fun b => if b ∈ pre then (merged add (sortf key (L b))).length else 0)))]
  · congr 2
    · apply tab_ext
      intro b hb
      rw [if_pos (ho.mem_iff.2 (by simpa using hb))]
    · apply tab_ext
      intro b hb
      rw [if_pos (ho.mem_iff.2 (by simpa using hb))]
      rfl
  · intro pre b post e
    have hb : b < nb := by
      rw [← List.mem_range, ← ho.mem_iff, e]
      simp
    have hnot : b ∉ pre := by
      rw [e, List.nodup_append] at hnd
      intro hm
      exact hnd.2.2 b hm b (by simp) rfl
    have hlen : (L b).length = (sortf key (L b)).length := (hs.perm _).length_eq.symm
    unfold sortBlock
    simp only
    rw [h1, rd_tab hb, ok_bind, h2, rd_tab hb, ok_bind, prefixOf_ok, ok_bind, hlen, hJ, ok_bind]
    simp only
    rw [wr_tab hb, ok_bind, rd_tab hb, ok_bind, wr_tab hb, ok_bind]
    congr 2
    · apply tab_ext
      intro c _
      by_cases ec : c = b
      · subst ec; simp [upd]
      · simp [upd, ec]
    · apply tab_ext
      intro c _
      by_cases ec : c = b
      · subst ec; simp [upd, hnot]
      · simp [upd, ec]

/-! ### The result -/

theorem psum_sep {f : Nat → Nat} {a b i k : Nat} (hi : i < f a) (hk : k < f b) (h : psum f a + i = psum f b + k) : a = b := by
  rcases Nat.lt_trichotomy a b with h1 | h1 | h1
  · have := psum_mono (f := f) (show a + 1 ≤ b from h1)
    simp only [psum] at this
    omega
  · exact h1
  · have := psum_mono (f := f) (show b + 1 ≤ a from h1)
    simp only [psum] at this
    omega

theorem holds_seg {α β : Type} {X : List β} {M : Nat → List α} {f : α → β} {nb : Nat}
    (h : ∀ b < nb, Holds X (psum (lens M) b) ((M b).map f)) (hl : X.length = psum (lens M) nb) : X = (seg M 0 nb).map f := by
  have key : ∀ m ≤ nb, Holds X 0 ((seg M 0 m).map f) := by
    intro m
    induction m with
    | zero =>
      intro _ k hk
      rw [seg_self] at hk
      simp at hk
    | succ m ih =>
      intro hm
      rw [seg_snoc M (Nat.zero_le _), List.map_append]
      apply (ih (by omega)).append
      rw [List.length_map, seg_length M (Nat.zero_le _)]
      simpa [psum] using h m (by omega)
  have hlen : ((seg M 0 nb).map f).length = X.length := by
    rw [List.length_map, seg_length M (Nat.zero_le _), hl]
    simp [psum]
  apply List.ext_getElem?
  intro i
  by_cases hi : i < X.length
  · have := key nb (Nat.le_refl _) i (by omega)
    rwa [Nat.zero_add] at this
  · rw [List.getElem?_eq_none (by omega), List.getElem?_eq_none (by omega)]

theorem holds_set {α : Type} {X : List α} {p q : Nat} {xs : List α} {x : α} (h : Holds X p xs) (hq : ∀ k < xs.length, p + k ≠ q) :
    Holds (X.set q x) p xs := by
  intro k hk
  rw [List.getElem?_set_ne (Ne.symm (hq k hk))]
  exact h k hk

theorem holds_snoc {α : Type} {X : List α} {p : Nat} {xs : List α} {x : α} (h : Holds X p xs) (hq : p + xs.length < X.length) :
    Holds (X.set (p + xs.length) x) p (xs ++ [x]) := by
  apply (holds_set h (by intro k hk; omega)).append
  intro k hk
  have : k = 0 := by simp at hk; omega
  subst this
  simp [hq]

theorem copyBlock_ok {nb rows : Nat} {M J : Nat → List (Nat × Nat × V)} (hrow : ∀ b < nb, ∀ t ∈ M b, t.1 < rows)
    {pre : List Nat} {b : Nat} (hb : b < nb) (hnot : b ∉ pre) {o : Out V}
    (h1 : o.byRow = tab rows (Conv.cnt (pre.flatMap M))) (h2 : o.colids.length = psum (lens M) nb)
    (h3 : o.values.length = psum (lens M) nb)
    (h4 : ∀ c ∈ pre, Holds o.colids (psum (lens M) c) ((M c).map fun t => some t.2.1) ∧
      Holds o.values (psum (lens M) c) ((M c).map fun t => some t.2.2)) :
    ∃ o', copyBlock (tab (nb + 1) (psum (lens M))) (tab nb (lens M)) (tab nb fun b => M b ++ J b) o b = .ok o' ∧
      o'.byRow = tab rows (Conv.cnt ((pre ++ [b]).flatMap M)) ∧ o'.colids.length = psum (lens M) nb ∧
      o'.values.length = psum (lens M) nb ∧
      ∀ c ∈ pre ++ [b], Holds o'.colids (psum (lens M) c) ((M c).map fun t => some t.2.1) ∧
        Holds o'.values (psum (lens M) c) ((M c).map fun t => some t.2.2) := by
  unfold copyBlock
  rw [rd_tab (by omega), ok_bind, rd_tab hb, ok_bind, rd_tab hb, ok_bind]
  have htop := psum_mono (f := lens M) (show b + 1 ≤ nb from hb)
  simp only [psum] at htop
  obtain ⟨o', e1, e2, e3, e4, e5, e6, e7⟩ := forRange_inv (body := copyEntry (psum (lens M) b) (M b ++ J b))
    (fun i o => o.byRow = tab rows (Conv.cnt (pre.flatMap M ++ (M b).take i)) ∧ o.colids.length = psum (lens M) nb ∧
      o.values.length = psum (lens M) nb ∧
      (∀ c ∈ pre, Holds o.colids (psum (lens M) c) ((M c).map fun t => some t.2.1) ∧
        Holds o.values (psum (lens M) c) ((M c).map fun t => some t.2.2)) ∧
      Holds o.colids (psum (lens M) b) (((M b).take i).map fun t => some t.2.1) ∧
      Holds o.values (psum (lens M) b) (((M b).take i).map fun t => some t.2.2)) 0 (lens M b) (Nat.zero_le _) o (by
      refine ⟨by simp [h1], h2, h3, h4, ?_, ?_⟩ <;> · intro k hk; simp at hk) (by
      rintro i o _ hi ⟨p1, p2, p3, p4, p5, p6⟩
      have hi' : i < (M b).length := hi
      have hr := hrow b hb (M b)[i] (List.getElem_mem _)
      have htl : ((M b).take i).length = i := by rw [List.length_take]; omega
      unfold copyEntry
      rw [rd_of_getElem? (x := (M b)[i]) (by rw [List.getElem?_append_left hi', List.getElem?_eq_getElem hi']), ok_bind, p1,
        rd_tab hr, ok_bind, wr_tab hr, ok_bind, wr_of_lt (by omega), ok_bind, wr_of_lt (by omega), ok_bind]
      have htk : (M b).take (i + 1) = (M b).take i ++ [(M b)[i]] := List.take_succ_eq_append_getElem hi'
      have hsep : ∀ c ∈ pre, ∀ k < (M c).length, psum (lens M) c + k ≠ psum (lens M) b + i := by
        intro c hc k hk e
        have := psum_sep (f := lens M) hk hi e
        subst this
        exact hnot hc
      refine ⟨_, rfl, ?_, by simp [p2], by simp [p3], ?_, ?_, ?_⟩
      · apply tab_ext
        intro r _
        rw [htk, ← List.append_assoc, show (M b)[i] = ((M b)[i].1, (M b)[i].2) from rfl, Conv.cnt_snoc]
        by_cases e : r = (M b)[i].1
        · subst e; simp [upd]
        · simp [upd, e, Ne.symm e]
      · intro c hc
        exact ⟨holds_set (p4 c hc).1 (by rw [List.length_map]; exact hsep c hc),
          holds_set (p4 c hc).2 (by rw [List.length_map]; exact hsep c hc)⟩
      · have := holds_snoc (x := some (M b)[i].2.1) p5 (by rw [List.length_map, htl]; omega)
        rw [List.length_map, htl] at this
        rw [htk, List.map_append]
        exact this
      · have := holds_snoc (x := some (M b)[i].2.2) p6 (by rw [List.length_map, htl]; omega)
        rw [List.length_map, htl] at this
        rw [htk, List.map_append]
        exact this)
  rw [show (M b).take (lens M b) = M b from List.take_length] at e2 e6 e7
  refine ⟨o', e1, by simpa [List.flatMap_append] using e2, e3, e4, ?_⟩
  intro c hc
  rw [List.mem_append, List.mem_singleton] at hc
  rcases hc with hc | rfl
  · exact e5 c hc
  · exact ⟨e6, e7⟩

theorem cnt_perm {α : Type} {l m : List (Nat × α)} (h : l.Perm m) (r : Nat) : Conv.cnt l r = Conv.cnt m r :=
  (h.filterMap _).length_eq

theorem copyBlocks_ok {nb rows : Nat} {M J : Nat → List (Nat × Nat × V)} (hrow : ∀ b < nb, ∀ t ∈ M b, t.1 < rows)
    {order : List Nat} (ho : order.Perm (List.range nb)) :
    order.foldlM (copyBlock (tab (nb + 1) (psum (lens M))) (tab nb (lens M)) (tab nb fun b => M b ++ J b))
      { byRow := List.replicate rows 0, colids := List.replicate (psum (lens M) nb) none,
        values := List.replicate (psum (lens M) nb) none } =
      .ok { byRow := tab rows (Conv.cnt (seg M 0 nb)), colids := (seg M 0 nb).map fun t => some t.2.1,
            values := (seg M 0 nb).map fun t => some t.2.2 } := by
  have hnd : order.Nodup := ho.nodup_iff.2 List.nodup_range
  have hlt : ∀ b ∈ order, b < nb := fun b hb => by simpa using ho.mem_iff.1 hb
  obtain ⟨o, e1, e2, e3, e4, e5⟩ := foldlM_inv
    (f := copyBlock (tab (nb + 1) (psum (lens M))) (tab nb (lens M)) (tab nb fun b => M b ++ J b))
    (fun pre o => o.byRow = tab rows (Conv.cnt (pre.flatMap M)) ∧ o.colids.length = psum (lens M) nb ∧
      o.values.length = psum (lens M) nb ∧
      ∀ c ∈ pre, Holds o.colids (psum (lens M) c) ((M c).map fun t => some t.2.1) ∧
        Holds o.values (psum (lens M) c) ((M c).map fun t => some t.2.2)) order
    { byRow := List.replicate rows 0, colids := List.replicate (psum (lens M) nb) none,
        values := List.replicate (psum (lens M) nb) none }
    (by
      refine ⟨?_, by simp, by simp, by simp⟩
      exact Conv.replicate_eq_tab ..)
    (by
      rintro pre b post o e ⟨h1, h2, h3, h4⟩
      have hnot : b ∉ pre := by
        rw [e, List.nodup_append] at hnd
        intro hm
        exact hnd.2.2 b hm b (by simp) rfl
      exact copyBlock_ok hrow (hlt b (by rw [e]; simp)) hnot h1 h2 h3 h4)
  rw [e1]
  have hall : ∀ b < nb, b ∈ order := fun b hb => ho.mem_iff.2 (by simpa using hb)
  have c1 : o.colids = (seg M 0 nb).map fun t => some t.2.1 := holds_seg (fun b hb => (e5 b (hall b hb)).1) e3
  have c2 : o.values = (seg M 0 nb).map fun t => some t.2.2 := holds_seg (fun b hb => (e5 b (hall b hb)).2) e4
  have c3 : o.byRow = tab rows (Conv.cnt (seg M 0 nb)) := by
    rw [e2]
    apply tab_ext
    intro r _
    apply cnt_perm
    have := ho.flatMap_right M
    simpa [seg, List.range_eq_range'] using this
  cases o
  simp only at c1 c2 c3
  rw [c1, c2, c3]

/-- The matrix that the program builds from the merged blocks. -/
def assemble (rows cols : Nat) (W : List (Nat × Nat × V)) : CSR V where
  rows := rows
  cols := cols
  nnz := W.length
  rowptr := tab (rows + 1) (psum (Conv.cnt W))
  colids := W.map fun t => t.2.1
  values := W.map fun t => t.2.2
  zerobased := true

theorem finish_ok {n nb : Nat} (hnb : nb + 1 < 2 ^ 17) (hsm : A.rows + 1 < 2 ^ 17) {mem : List Nat} (hm : mem.length = A.rows + 1)
    {M J : Nat → List (Nat × Nat × V)} (hrow : ∀ b < nb, ∀ t ∈ M b, t.1 < A.rows) {sch : Sched}
    (ho : sch.copy.Perm (List.range nb)) :
    finish A B n nb mem (tab nb fun b => M b ++ J b, tab nb (lens M)) sch = .ok (some (assemble A.rows B.cols (seg M 0 nb))) := by
  unfold finish
  simp only
  rw [scan_small hnb, ok_bind]
  simp only
  rw [rd_tab (by omega), ok_bind, wr_of_lt (by omega), ok_bind, copyBlocks_ok hrow ho, ok_bind]
  simp only
  have hsc : UtilScan.scan (tab A.rows (Conv.cnt (seg M 0 nb))) (A.rows + 1) (mem.set 0 0) n sch.s3 sch.s4 =
      .ok (some (tab (A.rows + 1) (psum (Conv.cnt (seg M 0 nb))))) := by
    unfold UtilScan.scan
    rw [if_pos hsm, UtilScan.seqScan_eq (f := Conv.cnt (seg M 0 nb)) (by omega) (by intro i hi; rw [tab_getElem? (by omega)])
      (by simp [hm])]
    rfl
  rw [hsc, ok_bind]
  simp only
  have u1 : ((seg M 0 nb).map fun t => some t.2.1).mapM use = .ok ((seg M 0 nb).map fun t => t.2.1) := by
    have := mapM_use ((seg M 0 nb).map fun t => t.2.1)
    rwa [List.map_map] at this
  have u2 : ((seg M 0 nb).map fun t => some t.2.2).mapM use = .ok ((seg M 0 nb).map fun t => t.2.2) := by
    have := mapM_use ((seg M 0 nb).map fun t => t.2.2)
    rwa [List.map_map] at this
  rw [u1, ok_bind, u2, ok_bind]
  unfold assemble
  congr 3
  rw [seg_length M (Nat.zero_le _)]
  simp [psum]

theorem merged_mem (add : V → V → V) {vec : List (Nat × Nat × V)} {t : Nat × Nat × V} (h : t ∈ merged add vec) :
    ∃ x ∈ vec, x.1 = t.1 ∧ x.2.1 = t.2.1 := by
  induction vec using list_snoc_induction generalizing t with
  | h0 => simp [merged] at h
  | h1 vec y ih =>
    have e : merged add (vec ++ [y]) = Conv.joinStep add (merged add vec) (Conv.pairOf y) := by
      unfold merged
      rw [List.map_append, List.foldl_append]
      rfl
    rw [e] at h
    rcases List.eq_nil_or_concat (merged add vec) with h0 | ⟨P, s, h0⟩
    · rw [h0] at h
      simp only [Conv.joinStep, Conv.pairOf, List.getLast?_nil, List.nil_append, List.mem_singleton] at h
      subst h
      exact ⟨y, by simp, rfl, rfl⟩
    · rw [List.concat_eq_append] at h0
      rw [h0] at ih
      rw [h0, joinStep_snoc] at h
      by_cases hk : s.2.1 = y.2.1 ∧ s.1 = y.1
      · rw [if_pos hk, List.mem_append, List.mem_singleton] at h
        rcases h with h | rfl
        · obtain ⟨x, hx, h'⟩ := ih (t := t) (by simp [h])
          exact ⟨x, by simp [hx], h'⟩
        · exact ⟨y, by simp, hk.2.symm, hk.1.symm⟩
      · rw [if_neg hk, List.mem_append, List.mem_singleton] at h
        rcases h with h | rfl
        · obtain ⟨x, hx, h'⟩ := ih (t := t) h
          exact ⟨x, by simp [hx], h'⟩
        · exact ⟨t, by simp, rfl, rfl⟩

theorem prods_row (h : ValidOuter A B) {t : Nat × Nat × V} (ht : t ∈ prods mul A B (List.range A.cols)) :
    t.1 < A.rows ∧ t.2.1 < B.cols := by
  have hr := pairs_rel (mul := mul) h (cs := List.range A.cols) (by simp)
  generalize (List.range A.cols).flatMap (pairsOf A B) = ps at hr
  generalize prods mul A B (List.range A.cols) = ts at hr ht
  induction hr with
  | nil => cases ht
  | cons hd _ ih =>
    rw [List.mem_cons] at ht
    rcases ht with rfl | ht
    · exact ⟨h.wfA.inBounds _ (List.mem_of_getElem? hd.1), h.wfB.inBounds _ (List.mem_of_getElem? hd.2.1)⟩
    · exact ih ht

theorem perBlock_pos {rows nb npb : Nat} (hnb : 0 < nb) (h : perBlock rows nb = .ok npb) :
    0 < npb ∧ ∀ r < rows, r / npb < nb := by
  unfold perBlock at h
  split at h
  · obtain rfl := Except.ok.inj h
    refine ⟨by omega, fun r hr => ?_⟩
    omega
  · rw [div_ok hnb] at h
    obtain rfl := Except.ok.inj h
    have h1 : nb ≤ rows + nb - 1 := by omega
    have hpos : 0 < (rows + nb - 1) / nb := Nat.div_pos h1 hnb
    refine ⟨hpos, fun r hr => ?_⟩
    rw [Nat.div_lt_iff_lt_mul hpos]
    have h2 := Nat.div_add_mod (rows + nb - 1) nb
    have h3 := Nat.mod_lt (rows + nb - 1) hnb
    omega

theorem key_lt (npb : Nat) (t : Nat × Nat × V) : key npb t < 2 ^ 32 :=
  Nat.or_lt_two_pow (Nat.mod_lt _ (by omega)) (Nat.mod_lt _ (by omega))

/-- All that is known without conditions on the sizes of blocks and on the number of columns. -/
theorem outer_run (h : ValidOuter A B) {n nb width npb : Nat} (hw : 0 < width) (hnb : 0 < nb) (hnb2 : nb + 1 < 2 ^ 17)
    (hsm : A.rows + 1 < 2 ^ 17) {sortf : (Nat × Nat × V → Nat) → List (Nat × Nat × V) → List (Nat × Nat × V)}
    (hs : SortsBy32 sortf) {mem : List Nat} (hm : mem.length = A.rows + 1) (hp : perBlock A.rows nb = .ok npb) {sch : Sched}
    (ho1 : sch.flop.Perm (List.range A.cols)) (hasg : ((List.range n).flatMap sch.asg).Perm (List.range A.cols))
    (ho2 : sch.sort.Perm (List.range nb)) (ho3 : sch.copy.Perm (List.range nb)) :
    (outerSpGEMM mul add sortf A B n nb width mem sch = .ok none ∧
      ∃ t, t < n ∧ sch.main.count t ≤ 1 + (prods mul A B (sch.asg t)).length + nb) ∨
    ∃ L : Nat → List (Nat × Nat × V), (∀ b < nb, (L b).Perm (sel (fun r => r / npb) b (prods mul A B (List.range A.cols)))) ∧
      outerSpGEMM mul add sortf A B n nb width mem sch =
        .ok (some (assemble A.rows B.cols (seg (fun b => merged add (sortf (key npb) (L b))) 0 nb))) := by
  obtain ⟨hpp, hpb⟩ := perBlock_pos hnb hp
  unfold outerSpGEMM
  rw [hp, ok_bind, flops_eq mul h hpp hpb ho1, ok_bind, rd_tab hnb, ok_bind]
  rcases region_ok (mul := mul) h (fun r _ => div_ok hpp) hpb hw hasg sch.main rfl with ⟨e, t, ht, hc⟩ | ⟨g, ls, L, e, hg, hL⟩
  · rw [e, ok_bind]
    exact .inl ⟨rfl, t, ht, hc⟩
  · rw [e, ok_bind]
    obtain ⟨J, eJ⟩ := sortBlocks_ok add (hs _ (key_lt npb)) hg ho2
    simp only
    rw [eJ, ok_bind]
    refine .inr ⟨L, hL, finish_ok hnb2 hsm hm ?_ ho3⟩
    intro b hb t ht
    obtain ⟨x, hx, e1, _⟩ := merged_mem add ht
    rw [((hs _ (key_lt npb)).perm _).mem_iff, (hL b hb).mem_iff] at hx
    rw [← e1]
    exact (prods_row h (List.mem_filter.1 hx).1).1

end

end Verif.Model.Outer
