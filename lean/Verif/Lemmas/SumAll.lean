import Verif.Model.SumAll
import Verif.Lemmas.OfRows
import Mathlib.Algebra.BigOperators.Group.List.Basic

/-! # Lemmas for the sum of the stored values -/

namespace Verif.Model.SumAll

variable {I V : Type}

theorem chunk_ok (acc : I → V → I) {values : List V} {is : List Nat} (h : ∀ i ∈ is, i < values.length) (zero : I) :
    chunk acc zero values is = .ok ((is.filterMap fun i => values[i]?).foldl acc zero) := by
  unfold chunk
  induction is generalizing zero with
  | nil => rfl
  | cons i is ih =>
    have hi := h i (by simp)
    rw [List.foldlM_cons, rd_of_lt hi, ok_bind, ok_bind, ih (fun j hj => h j (by simp [hj])), List.filterMap_cons,
      List.getElem?_eq_getElem hi]
    rfl

theorem foldl_acc [AddCommMonoid I] {acc : I → V → I} {f : V → I} (hacc : ∀ s v, acc s v = s + f v) (l : List V) (z : I) :
    l.foldl acc z = z + (l.map f).sum := by
  induction l generalizing z with
  | nil => simp
  | cons v l ih => rw [List.foldl_cons, ih, hacc, List.map_cons, List.sum_cons, add_assoc]

theorem range_filterMap (l : List V) : (List.range l.length).filterMap (fun i => l[i]?) = l := by
  induction l with
  | nil => rfl
  | cons x l ih =>
    rw [List.length_cons, List.range_succ_eq_map, List.filterMap_cons, List.filterMap_map]
    have : (fun i => (x :: l)[i]?) ∘ Nat.succ = fun i => l[i]? := by funext i; simp
    rw [this, ih]
    rfl

theorem foldl_acc_on [AddCommMonoid I] {acc : I → V → I} {f : V → I} {P : I → Prop} {l : List V}
    (hacc : ∀ v ∈ l, ∀ s, P s → acc s v = s + f v ∧ P (s + f v)) {z : I} (hz : P z) : l.foldl acc z = z + (l.map f).sum := by
  induction l generalizing z with
  | nil => simp
  | cons v l ih =>
    have h := hacc v (by simp) z hz
    rw [List.foldl_cons, h.1, ih (fun w hw => hacc w (by simp [hw])) h.2, List.map_cons, List.sum_cons, add_assoc]

/-- The sum if `acc` is right on the values at hand, as long as `P` holds of the variable -/
theorem sumall_on [AddCommMonoid I] {acc : I → V → I} {f : V → I} (P : I → Prop) (h0 : P 0) (toV : I → V) {values : List V}
    (hacc : ∀ v ∈ values, ∀ s, P s → acc s v = s + f v ∧ P (s + f v))
    {parts : List (List Nat)} (h : parts.flatten.Perm (List.range values.length)) :
    sumall acc (fun s t => s + t) 0 toV values parts = .ok (toV (values.map f).sum) := by
  have hlt : ∀ is ∈ parts, ∀ i ∈ is, i < values.length := fun is his i hi =>
    List.mem_range.1 (h.mem_iff.1 (List.mem_flatten.2 ⟨is, his, hi⟩))
  unfold sumall
  rw [mapM_ok (g := fun is : List Nat => ((is.filterMap fun i => values[i]?).map f).sum) (fun is his => by
    rw [chunk_ok acc (hlt is his), foldl_acc_on (P := P) (f := f) (fun v hv s hs => by
      obtain ⟨i, -, hi⟩ := List.mem_filterMap.1 hv
      exact hacc v (List.mem_of_getElem? hi) s hs) h0, zero_add]), ok_bind]
  congr 2
  rw [foldl_acc (f := fun s => s) (fun _ _ => rfl), zero_add, List.map_id']
  have e : (values.map f).sum = ((parts.flatten.filterMap fun i => values[i]?).map f).sum := by
    have := ((h.filterMap fun i => values[i]?).map f).sum_eq
    rw [this, range_filterMap]
  rw [e]
  clear e h hlt
  induction parts with
  | nil => rfl
  | cons is parts ih => rw [List.map_cons, List.sum_cons, ih, List.flatten_cons, List.filterMap_append, List.map_append, List.sum_append]

theorem sumall_acc [AddCommMonoid I] {acc : I → V → I} {f : V → I} (hacc : ∀ s v, acc s v = s + f v) (toV : I → V) {values : List V}
    {parts : List (List Nat)} (h : parts.flatten.Perm (List.range values.length)) :
    sumall acc (fun s t => s + t) 0 toV values parts = .ok (toV (values.map f).sum) :=
  sumall_on (fun _ => True) trivial toV (fun v _ s _ => ⟨hacc s v, trivial⟩) h

end Verif.Model.SumAll
