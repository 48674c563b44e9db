import Verif.Lemmas.Triples

/-! # Index base conversion -/

namespace Verif.Conv
open Model
open Spec (logical)

variable {V : Type}

/-- `A` with all indices one larger. -/
def oneBased (A : CSR V) : CSR V :=
  { A with rowptr := A.rowptr.map (· + 1), colids := A.colids.map (· + 1), zerobased := false }

theorem modify_eq (f : Nat → Res Nat) (g : Nat → Nat) (l : List Nat) (h : ∀ x ∈ l, f x = .ok (g x)) :
    forRange 0 l.length l (fun i a => do
      let x ← rd a i
      let y ← f x
      wr a i y) = .ok (l.map g) := by
  obtain ⟨s, e1, e2⟩ := forRange_inv (body := fun i (a : List Nat) => do
      let x ← rd a i
      let y ← f x
      wr a i y)
    (fun k a => a = (l.take k).map g ++ l.drop k) 0 l.length (by omega) l (by simp)
    (by
      rintro k s _ hk rfl
      have hlen : ((l.take k).map g).length = k := by simp; omega
      have hd : l.drop k = l[k] :: l.drop (k + 1) := List.drop_eq_getElem_cons hk
      refine ⟨_, by
        rw [rd_of_lt (by simp; omega), ok_bind]
        rw [show ((l.take k).map g ++ l.drop k)[k]'(by simp; omega) = l[k] by
          rw [List.getElem_append_right (by omega)]; simp only [hlen, Nat.sub_self, List.getElem_drop, Nat.add_zero]]
        rw [h _ (List.getElem_mem hk), ok_bind, wr_of_lt (by simp; omega)], ?_⟩
      rw [List.set_append_right _ _ (by omega), hlen, Nat.sub_self, hd, List.set_cons_zero,
        List.take_add_one, List.getElem?_eq_getElem hk, List.map_append, List.append_assoc]
      rfl)
  rw [e1, e2]
  simp

theorem incr_eq (l : List Nat) : incr l l.length = .ok (l.map (· + 1)) :=
  modify_eq (fun x => .ok (x + 1)) (· + 1) l (fun _ _ => rfl)

theorem decr_eq (l : List Nat) : decr (l.map (· + 1)) l.length = .ok l := by
  have h := modify_eq (fun x => if x = 0 then .error .oob else .ok (x - 1)) (· - 1)
    (l.map (· + 1)) (by
      intro x hx
      rw [List.mem_map] at hx
      obtain ⟨y, _, rfl⟩ := hx
      simp)
  rw [List.length_map] at h
  have e : decr (l.map (· + 1)) l.length = forRange 0 l.length (l.map (· + 1)) (fun i a => do
      let x ← rd a i
      let y ← (if x = 0 then .error .oob else .ok (x - 1) : Res Nat)
      wr a i y) := by
    unfold decr
    apply forRange_congr
    intro i _ _ a
    cases rd a i with
    | error e => rfl
    | ok x =>
      simp only [ok_bind]
      by_cases hx : x = 0
      · simp [hx]
      · simp [hx]
  rw [e, h, List.map_map]
  congr 1
  exact (List.map_congr_left (fun x _ => by simp)).trans (List.map_id _)

theorem toOne_eq {A : CSR V} (h : A.WF) : convertOneBased A = .ok (oneBased A, true) := by
  unfold convertOneBased
  rw [h.zero]
  simp only [Bool.not_true, Bool.false_eq_true, if_false]
  rw [← h.ptrLen, incr_eq, ok_bind, show A.nnz = A.colids.length from h.colLen.symm, incr_eq, ok_bind,
    h.colLen]
  rfl

theorem toOne_one (A : CSR V) : convertOneBased (oneBased A) = .ok (oneBased A, false) := rfl

theorem toZero_eq {A : CSR V} (h : A.WF) : convertZeroBased (oneBased A) = .ok (A, false) := by
  unfold convertZeroBased
  simp only [oneBased, Bool.false_eq_true, if_false]
  rw [← h.ptrLen, decr_eq, ok_bind, show A.nnz = A.colids.length from h.colLen.symm, decr_eq, ok_bind,
    h.colLen]
  congr 2
  have := h.zero
  obtain ⟨_, _, _, _, _, _, z⟩ := A
  simp only at this
  subst this
  rfl

theorem toZero_zero {A : CSR V} (h : A.WF) : convertZeroBased A = .ok (A, true) := by
  unfold convertZeroBased
  rw [h.zero]
  rfl

theorem logical_one {A : CSR V} (h : A.WF) : logical (oneBased A) = logical A := by
  unfold logical
  simp only [h.zero, if_true]
  apply flatMap_congr_mem
  intro i hi
  have hi : i < A.rows := List.mem_range.1 hi
  have hp : ∀ j, j ≤ A.rows → (oneBased A).ptr j - 1 = A.ptr j := by
    intro j hj
    unfold CSR.ptr oneBased
    have hj : j < A.rowptr.length := by rw [h.ptrLen]; omega
    simp [hj]
  have hz : (oneBased A).zerobased = false := rfl
  rw [hz]
  simp only [Bool.false_eq_true, if_false]
  rw [hp i (by omega), hp (i + 1) hi]
  have : (oneBased A).colids.zip (oneBased A).values =
      (A.colids.zip A.values).map (fun x => (x.1 + 1, x.2)) := by
    show (A.colids.map (· + 1)).zip A.values = _
    rw [List.zip_map_left]
    rfl
  rw [this, ← slice_map, List.map_map]
  apply List.map_congr_left
  rintro ⟨c, v⟩ _
  simp [Function.comp]

theorem logical_wf {A : CSR V} (h : A.WF) : logical A = Spec.triples A := by
  unfold logical Spec.triples
  rw [h.zero]
  rfl

end Verif.Conv
