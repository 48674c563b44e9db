import Verif.Lemmas.ReadBin
import Verif.Props.C21

/-! # C68: reading matrices from binary files -/

namespace Verif.Props
open Verif Model Model.ReadBin
open _root_.Verif.Spec (bytesLE binaryFile SortsBy triplesC)

variable {V : Type}

theorem natIndex_bytes {si : Nat} (l : List Nat) (h : ∀ x ∈ l, 2 * x < 256 ^ si) :
    ((l.map (bytesLE si)).map intLE).mapM natIndex = .ok l := by
  rw [List.map_map, List.map_congr_left (f := intLE ∘ bytesLE si) (g := fun x : Nat => (x : Int)) (fun x hx => intLE_bytes (h x hx)),
    mapM_ok (g := Int.toNat)]
  · simp [Function.comp_def]
  · intro a ha
    obtain ⟨x, _, rfl⟩ := List.mem_map.mp ha
    unfold natIndex
    rw [if_pos (by omega)]

/-- C68: from a file in the binary format, perhaps with something after it, that describes a matrix with at least one entry whose
numbers fit into the integer type, `ReadBinary` builds this matrix. What is missing is shown by `C68_violated_empty` and
`C68_violated_header`. -/
theorem C68_partial {sortf : List (Nat × V) → List (Nat × V)} (hsort : SortsBy Prod.fst sortf) (dflt : V) (decV : List UInt8 → V)
    {si sv m n : Nat} (hsi : 0 < si) (hsv : 0 < sv) {es : List (Nat × Nat × List UInt8)} (hne : es ≠ [])
    (hv : ∀ e ∈ es, e.2.2.length = sv) (hb : ∀ e ∈ es, e.1 < m ∧ e.2.1 < n) (hm : 2 * m < 256 ^ si) (hn : 2 * n < 256 ^ si)
    (hk : 2 * es.length < 256 ^ si) (tail : List UInt8) {order : List Nat} (ho : order.Perm (List.range n)) :
    ∃ C, readBinary sortf order dflt decV si sv (some (binaryFile si m n es ++ tail)) = .ok (some C) ∧ C.WF ∧ C.rows = m ∧ C.cols = n ∧
      (triplesC C).Perm (es.map fun e => (e.1, e.2.1, decV e.2.2)) ∧ ∀ j < n, (C.colRows j).Pairwise (· ≤ ·) := by
  obtain ⟨C, e1, hw, hr, hc, _, hp, hso, _⟩ := C47_triples hsort dflt (es.map fun e => (e.1, e.2.1, decV e.2.2)) m n order ho (by
    intro t ht
    obtain ⟨e, he, rfl⟩ := List.mem_map.mp ht
    exact hb e he)
  refine ⟨C, ?_, hw, hr, hc, hp, hso⟩
  have hlen : 0 < es.length := List.length_pos_iff.mpr hne
  obtain ⟨e0, he0⟩ := List.exists_mem_of_ne_nil _ hne
  have hpos := hb e0 he0
  have f1 := fread_blocks hsi (es.map fun e => bytesLE si e.1) (fun b hbm => by
    obtain ⟨e, _, rfl⟩ := List.mem_map.mp hbm
    exact bytesLE_length _ _)
    ((es.flatMap fun e => bytesLE si e.2.1) ++ ((es.flatMap fun e => e.2.2) ++ tail))
  have f2 := fread_blocks hsi (es.map fun e => bytesLE si e.2.1) (fun b hbm => by
    obtain ⟨e, _, rfl⟩ := List.mem_map.mp hbm
    exact bytesLE_length _ _) ((es.flatMap fun e => e.2.2) ++ tail)
  have f3 := fread_blocks hsv (es.map fun e => e.2.2) (by simpa using fun a b c h => hv _ h) tail
  rw [← List.flatMap_def, List.length_map] at f1 f2 f3
  unfold readBinary binaryFile
  simp only [List.append_assoc]
  rw [freadInt_bytes hsi hm]
  simp only
  rw [freadInt_bytes hsi hn]
  simp only
  rw [freadInt_bytes hsi hk]
  simp only [readBody, use, ok_bind]
  rw [if_neg (by omega), if_neg (by omega), if_neg (by omega)]
  unfold readArrays
  simp only [Int.toNat_natCast]
  rw [f1]
  simp only
  rw [f2]
  simp only
  rw [f3]
  simp only [List.length_map, ne_eq, not_true_eq_false, or_self, if_false]
  have i1 : (es.map fun e => bytesLE si e.1) = (es.map fun e => e.1).map (bytesLE si) := by simp
  have i2 : (es.map fun e => bytesLE si e.2.1) = (es.map fun e => e.2.1).map (bytesLE si) := by simp
  rw [i1, natIndex_bytes (es.map fun e => e.1) (by
    intro x hx
    obtain ⟨e, he, rfl⟩ := List.mem_map.mp hx
    have := hb e he
    omega), ok_bind, i2, natIndex_bytes (es.map fun e => e.2.1) (by
    intro x hx
    obtain ⟨e, he, rfl⟩ := List.mem_map.mp hx
    have := hb e he
    omega), ok_bind]
  have hz : (es.map fun e => e.1).zip ((es.map fun e => e.2.1).zip ((es.map fun e => e.2.2).map decV)) =
      es.map fun e => (e.1, e.2.1, decV e.2.2) := by
    rw [List.map_map, List.zip_map', List.zip_map']
    rfl
  rw [hz]
  unfold Conv.cscOfArrays
  rw [show check (decide ((es.map fun e => (e.1, e.2.1, decV e.2.2)).length ≠ 0 ∧ m ≠ 0)) = .ok () by
    rw [decide_eq_true (by rw [List.length_map]; omega)]
    rfl, ok_bind, e1, ok_bind]

/-- C68: a file that ends before its last value is rejected, and the matrix is left as it was. -/
theorem C68_truncated (sortf : List (Nat × V) → List (Nat × V)) (order : List Nat) (dflt : V) (decV : List UInt8 → V) {si sv m n k : Nat}
    (hsi : 0 < si) (hsv : 0 < sv) (hm : 2 * m < 256 ^ si) (hn : 2 * n < 256 ^ si) (hk : 2 * k < 256 ^ si) (rest : List UInt8)
    (hr : rest.length < 2 * (si * k) + sv * k) :
    readBinary sortf order dflt decV si sv (some (bytesLE si m ++ bytesLE si n ++ bytesLE si k ++ rest)) = .ok none := by
  unfold readBinary
  simp only [List.append_assoc]
  rw [freadInt_bytes hsi hm]
  simp only
  rw [freadInt_bytes hsi hn]
  simp only
  rw [freadInt_bytes hsi hk]
  simp only [readBody, use, ok_bind]
  split
  · rfl
  split
  · rfl
  split
  · rfl
  · unfold readArrays
    simp only [Int.toNat_natCast]
    rw [if_pos]
    by_contra hc
    simp only [not_or, not_not] at hc
    obtain ⟨h1, h2, h3⟩ := hc
    have g1 := (fread_count hsi _).mp h1
    have g2 := (fread_count hsi _).mp h2
    have g3 := (fread_count hsv _).mp h3
    rw [fread_rest] at g2
    rw [fread_rest, fread_rest] at g3
    omega

/-- C68: if the file does not exist, this is reported and the matrix is left as it was. -/
theorem C68_missing (sortf : List (Nat × V) → List (Nat × V)) (order : List Nat) (dflt : V) (decV : List UInt8 → V) (si sv : Nat) :
    readBinary sortf order dflt decV si sv none = .ok none := rfl

/-- C68 is violated by every matrix without entries: its file is rejected. -/
theorem C68_violated_empty (sortf : List (Nat × V) → List (Nat × V)) (order : List Nat) (dflt : V) (decV : List UInt8 → V) {si sv m n : Nat}
    (hsi : 0 < si) (hm : 2 * m < 256 ^ si) (hn : 2 * n < 256 ^ si) (tail : List UInt8) :
    readBinary sortf order dflt decV si sv (some (binaryFile si m n [] ++ tail)) = .ok none := by
  unfold readBinary binaryFile
  simp only [List.append_assoc]
  rw [freadInt_bytes hsi hm]
  simp only
  rw [freadInt_bytes hsi hn]
  simp only
  rw [freadInt_bytes hsi (by simp; exact Nat.pow_pos (by omega))]
  simp only [readBody, use, ok_bind]
  split
  · rfl
  split
  · rfl
  rfl

/-- C68 is violated by every file that ends within the three sizes, if those that are there are positive: a size that has not been read
is used. -/
theorem C68_violated_header (sortf : List (Nat × V) → List (Nat × V)) (order : List Nat) (dflt : V) (decV : List UInt8 → V) {si sv : Nat}
    (hsi : 0 < si) (sizes : List Nat) (hs : sizes.length < 3) (hb : ∀ x ∈ sizes, 0 < x ∧ 2 * x < 256 ^ si) (rest : List UInt8)
    (h : rest.length < si) :
    readBinary sortf order dflt decV si sv (some (sizes.flatMap (bytesLE si) ++ rest)) = .error .uninit := by
  unfold readBinary
  match sizes, hs, hb with
  | [], _, _ =>
    simp only [List.flatMap_nil, List.nil_append]
    rw [freadInt_short h]
    rfl
  | [m], _, hb =>
    have hm := hb m (by simp)
    simp only [List.flatMap_cons, List.flatMap_nil, List.append_nil]
    rw [freadInt_bytes hsi hm.2]
    simp only
    rw [freadInt_short h]
    simp only [readBody, use, ok_bind]
    rw [if_neg (by omega)]
    rfl
  | [m, n], _, hb =>
    have hm := hb m (by simp)
    have hn := hb n (by simp)
    simp only [List.flatMap_cons, List.flatMap_nil, List.append_nil, List.append_assoc]
    rw [freadInt_bytes hsi hm.2]
    simp only
    rw [freadInt_bytes hsi hn.2]
    simp only
    rw [freadInt_short h]
    simp only [readBody, use, ok_bind]
    rw [if_neg (by omega), if_neg (by omega)]
    rfl

/-- C68 is violated by files whose indices are not in the matrix: too large rows lead to an invalid matrix, too large columns to accesses
out of bounds. -/
theorem C68_violated_index :
    (∃ C, readBinary (isort Prod.fst) [0, 1] 0 (fun b => intLE b) 4 4 (some (binaryFile 4 2 2 [(5, 1, bytesLE 4 7)])) = .ok (some C) ∧ ¬C.WF) ∧
      readBinary (isort Prod.fst) [0, 1] 0 (fun b => intLE b) 4 4 (some (binaryFile 4 2 2 [(1, 5, bytesLE 4 7)])) = .error .oob := by
  refine ⟨⟨{ rows := 2, cols := 2, nnz := 1, colptr := [0, 0, 1], rowids := [5], values := [7] }, by decide +kernel, fun h => ?_⟩, by decide +kernel⟩
  have := h.inBounds 5 (by decide)
  revert this
  decide

/-! ### Examples -/

example := C68_partial (isort_sorts Prod.fst) 0 (fun b => intLE b) (si := 4) (sv := 4) (m := 3) (n := 2) (by decide) (by decide)
  (es := [(2, 1, bytesLE 4 300), (0, 0, bytesLE 4 7)]) (by decide) (by decide) (by decide) (by decide) (by decide) (by decide) [1, 2]
  (order := [1, 0]) (by decide)
example : readBinary (isort Prod.fst) [1, 0] 0 (fun b => intLE b) 4 4
      (some (binaryFile 4 3 2 [(2, 1, bytesLE 4 300), (0, 0, bytesLE 4 7)] ++ [1, 2])) =
    .ok (some { rows := 3, cols := 2, nnz := 2, colptr := [0, 1, 2], rowids := [0, 2], values := [7, 300] }) := by decide +kernel
example := C68_truncated (isort Prod.fst) [0] (0 : Int) (fun b => intLE b) (si := 4) (sv := 4) (m := 1) (n := 1) (k := 2) (by decide)
  (by decide) (by decide) (by decide) (by decide) (bytesLE 4 0 ++ bytesLE 4 0 ++ bytesLE 4 0) (by decide)
example := C68_violated_empty (isort Prod.fst) [0] (0 : Int) (fun b => intLE b) (si := 4) (sv := 4) (m := 1) (n := 1) (by decide)
  (by decide) (by decide) []
example := C68_violated_header (isort Prod.fst) [0] (0 : Int) (fun b => intLE b) (si := 4) (sv := 4) (by decide) [1] (by decide)
  (by decide) [2, 0] (by decide)

end Verif.Props
