import Verif.Model.ReadBin
import Verif.SpecIO
import Verif.Lemmas.OfRows

/-! # Reading binary files -/

namespace Verif.Model.ReadBin
open Verif.Spec

variable {V : Type}

theorem bytesLE_length (si n : Nat) : (bytesLE si n).length = si := by
  induction si generalizing n with
  | zero => rfl
  | succ si ih => simp [bytesLE, ih]

theorem unsigned_bytes (si n : Nat) : unsignedLE (bytesLE si n) = n % 256 ^ si := by
  induction si generalizing n with
  | zero => simp [bytesLE, unsignedLE, Nat.mod_one]
  | succ si ih =>
    simp only [bytesLE, unsignedLE, ih]
    have : (UInt8.ofNat (n % 256)).toNat = n % 256 := by
      rw [UInt8.toNat_ofNat']
      omega
    rw [this, Nat.pow_succ, Nat.mul_comm (256 ^ si) 256, Nat.mod_mul]

theorem intLE_bytes {si n : Nat} (h : 2 * n < 256 ^ si) : intLE (bytesLE si n) = n := by
  unfold intLE
  rw [unsigned_bytes, bytesLE_length, Nat.mod_eq_of_lt (by omega), if_pos h]

/-- Enough items: the blocks are read one by one. -/
theorem fread_blocks {size : Nat} (hs : 0 < size) (bs : List (List UInt8)) (hb : ∀ b ∈ bs, b.length = size) (tail : List UInt8) :
    fread size bs.length (bs.flatten ++ tail) = (bs, tail) := by
  have hlen : bs.flatten.length = size * bs.length := by
    rw [List.length_flatten]
    have : bs.map List.length = List.replicate bs.length size := by
      rw [List.eq_replicate_iff]
      simpa using hb
    rw [this, List.sum_replicate_nat, Nat.mul_comm]
  unfold fread
  have h1 : min bs.length ((bs.flatten ++ tail).length / size) = bs.length := by
    rw [List.length_append, hlen, Nat.mul_add_div hs]
    exact Nat.min_eq_left (Nat.le_add_right _ _)
  rw [h1]
  refine Prod.ext ?_ ?_
  · simp only
    clear h1 hlen
    induction bs with
    | nil => rfl
    | cons b bs ih =>
      have e := hb b (by simp)
      rw [List.length_cons, List.range_succ_eq_map, List.map_cons, List.map_map]
      congr 1
      · simp [← e]
      · refine Eq.trans ?_ (ih fun b hbb => hb b (by simp [hbb]))
        apply List.map_congr_left
        intro i hi
        have : ((b :: bs).flatten ++ tail).drop ((i + 1) * size) = (bs.flatten ++ tail).drop (i * size) := by
          rw [List.flatten_cons, List.append_assoc, Nat.add_mul, Nat.one_mul, Nat.add_comm, ← e, List.drop_append]
          simp
        rw [← this]
        rfl
  · simp only
    rw [← hlen, List.drop_left]

theorem freadInt_bytes {si n : Nat} (hs : 0 < si) (h : 2 * n < 256 ^ si) (tail : List UInt8) :
    freadInt si (bytesLE si n ++ tail) = (some (n : Int), tail) := by
  have := fread_blocks hs [bytesLE si n] (by simp [bytesLE_length]) tail
  simp only [List.flatten_cons, List.flatten_nil, List.append_nil, List.length_singleton] at this
  unfold freadInt
  rw [this]
  simp only
  rw [intLE_bytes h]

theorem fread_count {size count : Nat} (hs : 0 < size) (rest : List UInt8) :
    (fread size count rest).1.length = count ↔ size * count ≤ rest.length := by
  unfold fread
  simp only [List.length_map, List.length_range]
  have := Nat.le_div_iff_mul_le hs (x := count) (y := rest.length)
  rw [Nat.mul_comm] at this
  omega

theorem fread_rest (size count : Nat) (rest : List UInt8) : (fread size count rest).2.length = rest.length - size * count := by
  simp [fread]

theorem freadInt_short {si : Nat} {rest : List UInt8} (h : rest.length < si) : freadInt si rest = (none, []) := by
  unfold freadInt fread
  rw [Nat.div_eq_of_lt h]
  simp
  omega

end Verif.Model.ReadBin
