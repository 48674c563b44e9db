import Verif.Lemmas.Triples
import Verif.Lemmas.UtilScan

/-! # Filling arrays in parallel, in an arbitrary order of the parts -/

namespace Verif.Model

variable {α V : Type}

/-- A loop that fills cell `i` in iteration `i`, iterations in any order. -/
theorem fillOrder {σ : Type} {n : Nat} (put : σ → Nat → Res σ) (S : (Nat → Bool) → σ)
    (order : List Nat) (ho : order.Perm (List.range n))
    (h : ∀ (D : Nat → Bool) i, i < n → D i = false → put (S D) i = .ok (S (fun j => D j || j == i))) :
    order.foldlM put (S fun _ => false) = .ok (S fun j => decide (j < n)) := by
  have hnd : order.Nodup := ho.nodup_iff.2 List.nodup_range
  have hmem : ∀ c ∈ order, c < n := fun c hc => by simpa using ho.mem_iff.1 hc
  have e0 : (fun _ => false : Nat → Bool) = fun j => decide (j ∈ ([] : List Nat)) := by
    funext j; simp
  have e1 : (fun j => decide (j < n)) = fun j => decide (j ∈ order) := by
    funext j
    have := ho.mem_iff (a := j)
    simp only [List.mem_range] at this
    simp [this]
  rw [e0, e1]
  refine foldlM_desc (fun pre => S fun j => decide (j ∈ pre)) order ?_
  intro pre a post hl
  have ha : a ∉ pre := by
    rw [hl] at hnd
    intro hin
    exact (List.nodup_append.1 hnd).2.2 a hin a (by simp) rfl
  rw [h _ a (hmem a (by rw [hl]; simp)) (by simpa using ha)]
  congr 2
  funext j
  simp only [List.mem_append, List.mem_singleton]
  by_cases hj : j = a <;> simp [hj]

/-- The arrays with the rows in `D` written and `d` elsewhere. -/
def partly (exp : Nat → List α) (d : α) (D : Nat → Bool) (n : Nat) : List α :=
  seg (fun i => if D i then exp i else List.replicate (exp i).length d) 0 n

theorem partly_lens (exp : Nat → List α) (d : α) (D : Nat → Bool) :
    lens (fun i => if D i then exp i else List.replicate (exp i).length d) = lens exp := by
  funext i
  unfold lens
  simp only []
  split
  · rfl
  · simp

theorem partly_none (exp : Nat → List α) (d : α) (n : Nat) :
    partly exp d (fun _ => false) n = List.replicate (psum (lens exp) n) d := by
  have hl : (partly exp d (fun _ => false) n).length = psum (lens exp) n := by
    unfold partly
    rw [seg_length _ (Nat.zero_le _), partly_lens]; simp [psum]
  rw [List.eq_replicate_iff]
  refine ⟨hl, ?_⟩
  intro x hx
  unfold partly seg at hx
  rw [List.mem_flatMap] at hx
  obtain ⟨c, _, hc⟩ := hx
  simp at hc
  exact hc.2

theorem partly_all (exp : Nat → List α) (d : α) (n : Nat) :
    partly exp d (fun j => decide (j < n)) n = seg exp 0 n := by
  unfold partly
  exact Conv.seg_congr (fun i _ hi => by simp [hi])

theorem partly_length (exp : Nat → List α) (d : α) (D : Nat → Bool) (n : Nat) :
    (partly exp d D n).length = psum (lens exp) n := by
  unfold partly
  rw [seg_length _ (Nat.zero_le _), partly_lens]; simp [psum]

theorem partly_add (exp : Nat → List α) (d : α) (D : Nat → Bool) {n i : Nat} (hi : i < n) :
    (partly exp d D n).take (psum (lens exp) i) ++ exp i ++ (partly exp d D n).drop (psum (lens exp) (i + 1)) =
      partly exp d (fun j => D j || j == i) n := by
  have := Conv.seg_replace (F := fun i => if D i then exp i else List.replicate (exp i).length d) hi (exp i)
  rw [partly_lens] at this
  unfold partly
  rw [this]
  congr 1
  funext j
  by_cases hj : j = i
  · subst hj; simp [upd_same]
  · rw [upd_ne _ _ hj]; simp [hj]

/-- Writing a list into two parallel arrays at an offset. -/
theorem copyAt_eq (xs A : List (Nat × V)) (off : Nat) (h : off + xs.length ≤ A.length) :
    forRange 0 xs.length (A.map (·.1), A.map (·.2)) (fun k s => do
      let x ← rd xs k
      let c ← wr s.1 (off + k) x.1
      let v ← wr s.2 (off + k) x.2
      .ok (c, v)) =
      .ok ((A.take off ++ xs ++ A.drop (off + xs.length)).map (·.1),
        (A.take off ++ xs ++ A.drop (off + xs.length)).map (·.2)) := by
  obtain ⟨s, e1, e2⟩ := forRange_inv (body := fun k (s : List Nat × List V) => do
      let x ← rd xs k
      let c ← wr s.1 (off + k) x.1
      let v ← wr s.2 (off + k) x.2
      .ok (c, v))
    (fun k s => s = ((A.take off ++ xs.take k ++ A.drop (off + k)).map (·.1),
        (A.take off ++ xs.take k ++ A.drop (off + k)).map (·.2))) 0 xs.length (by omega)
    (A.map (·.1), A.map (·.2)) (by simp)
    (by
      rintro k s _ hk rfl
      have hlen : (A.take off ++ xs.take k ++ A.drop (off + k)).length = A.length := by
        simp; omega
      have hl2 : (A.take off ++ xs.take k).length = off + k := by simp; omega
      have ht : xs.take (k + 1) = xs.take k ++ [xs[k]] := by
        rw [List.take_add_one, List.getElem?_eq_getElem hk]; rfl
      have hset : (A.take off ++ xs.take k ++ A.drop (off + k)).set (off + k) xs[k] =
          A.take off ++ xs.take (k + 1) ++ A.drop (off + (k + 1)) := by
        rw [List.set_append_right _ _ (by omega), hl2, Nat.sub_self, List.drop_eq_getElem_cons (by omega),
          List.set_cons_zero, ht]
        simp only [List.append_assoc, List.singleton_append, Nat.add_assoc]
      refine ⟨_, by
        simp only []
        rw [rd_of_lt hk, ok_bind, wr_of_lt (by rw [List.length_map]; omega), ok_bind,
          wr_of_lt (by rw [List.length_map]; omega), ok_bind], ?_⟩
      rw [← List.map_set, ← List.map_set, hset])
  rw [e1, e2, List.take_length]

end Verif.Model
