import Verif.Lemmas.Sort

/-! # C22: the key/value merge sort -/

namespace Verif.Props
open Verif KeySort

variable {ν : Type _}

/-- C22. For all key and value arrays of the same length `≥ 1`, and whatever the
temporary arrays contain, the sort returns arrays of the same length whose pairs are
a permutation of the input pairs, with non-decreasing keys, and for every key the
pairs with that key appear in their original order. -/
theorem C22_sort (key : List Nat) (value : List ν) (tk : List Nat) (tv : List ν)
    (h1 : 1 ≤ key.length) (hv : value.length = key.length)
    (htk : tk.length = key.length) (htv : tv.length = key.length) :
    ∃ ks vs, cpuSort key value tk tv = .ok (ks, vs) ∧
      ks.length = key.length ∧ vs.length = key.length ∧
      ks.Pairwise (· ≤ ·) ∧
      (ks.zip vs).Perm (key.zip value) ∧
      ∀ k, (ks.zip vs).filter (fun a => a.1 = k) = (key.zip value).filter (fun a => a.1 = k) := by
  have hne : value ≠ [] := by intro h; simp [h] at hv; omega
  obtain ⟨d, hd⟩ : ∃ d, d ∈ value := List.exists_mem_of_ne_nil _ hne
  obtain ⟨n, hn⟩ : ∃ n, key.length = n := ⟨_, rfl⟩
  have e1 := eq_tab key 0
  have e2 := eq_tab value d
  have e3 := eq_tab tk 0
  have e4 := eq_tab tv d
  rw [hv, hn] at e2
  rw [htk, hn] at e3
  rw [htv, hn] at e4
  rw [hn] at e1 h1 ⊢
  have hzip : ∀ (f : Nat → Nat) (g : Nat → ν), (tab n f).zip (tab n g) = sg f g 0 n := by
    intro f g
    unfold tab sg
    rw [List.zip_map', List.range_eq_range']
  obtain ⟨f', g', tf', tg', r1, r2⟩ := mergesort_eq (N := n) (n - 1) 0 (n - 1) rfl (by omega)
    (fun i => key.getD i 0) (fun i => value.getD i d) (fun i => tk.getD i 0) (fun i => tv.getD i d)
  have hn1 : n - 1 + 1 - 0 = n := by omega
  have hs := r2.sorted
  have hst := r2.stable
  have hpm := r2.perm
  rw [hn1] at hs hst hpm
  refine ⟨tab n f', tab n g', ?_, by simp, by simp, ?_, ?_, ?_⟩
  · unfold cpuSort
    have : (⟨key, value, tk, tv⟩ : Arrs ν) = mkA n (fun i => key.getD i 0)
        (fun i => value.getD i d) (fun i => tk.getD i 0) (fun i => tv.getD i d) := by
      unfold mkA
      congr 1
    rw [hn, this, r1]
    rfl
  · have h2 : tab n f' = (sg f' g' 0 n).map (·.1) := by
      unfold tab sg
      rw [List.map_map, List.range_eq_range']
      rfl
    rw [h2, List.pairwise_map]
    exact hs
  · rw [hzip, e1, e2, hzip]
    exact hpm
  · intro k
    rw [hzip, e1, e2, hzip]
    exact hst k

example := C22_sort [3, 1, 3, 1, 2] ["a", "b", "c", "d", "e"] [0, 0, 0, 0, 0]
  ["", "", "", "", ""] (by decide) rfl rfl rfl
example : cpuSort [3, 1, 3, 1, 2] [10, 11, 12, 13, 14] [0, 0, 0, 0, 0] [0, 0, 0, 0, 0] =
    .ok ([1, 1, 2, 3, 3], [11, 13, 14, 10, 12]) := by decide +kernel

end Verif.Props
