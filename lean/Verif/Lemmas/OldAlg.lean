import Verif.Model.OldAlg

/-! # The older heap classes do what the newer ones do -/

namespace Verif.Model.Old

open Heap (HP skipInit search advMask SIZE_MAX stopOf)

variable {V : Type}

theorem skipFirst_eq (B M : CSR V) (maskIdx bend fuel key loc : Nat) :
    Old.skipFirst B M maskIdx bend fuel key loc = skipInit B M maskIdx bend fuel key loc := by
  induction fuel generalizing key loc with
  | zero => rfl
  | succ fuel ih => unfold Old.skipFirst skipInit; simp only [ih]

theorem skipNext_eq (B M : CSR V) (maskIdx bend fuel key loc : Nat) :
    Old.skipNext B M maskIdx bend fuel key loc = Heap.skipNext B M maskIdx bend fuel key loc := by
  induction fuel generalizing key loc with
  | zero => rfl
  | succ fuel ih => unfold Old.skipNext Heap.skipNext; simp only [ih, ge_iff_le]

theorem common_eq (B M : CSR V) (bend maskEnd fuel key loc m : Nat) :
    Old.common B M bend maskEnd fuel key loc m = search B M bend maskEnd maskEnd fuel key loc m := by
  induction fuel generalizing key loc m with
  | zero => rfl
  | succ fuel ih =>
    unfold Old.common search
    simp only [ih, gt_iff_lt]
    congr 1
    funext mc
    split
    · rfl
    · split
      · split
        · rename_i h
          simp [h]
        · rfl
      · rfl

def depth : Ver → Nat
  | .v0 => 0
  | .v1 => 1
  | .v2 => SIZE_MAX

theorem initHeap_eq (v : Ver) (A B M : CSR V) (row maskIdx maskEnd : Nat) (h : HP) :
    Old.initHeap v A B M row maskIdx maskEnd h = Heap.initHeap (depth v) A B M row maskIdx maskEnd h := by
  unfold Old.initHeap Heap.initHeap Old.firstEntry
  cases v
  · simp only [depth, if_true]
  · simp only [depth, if_true, skipFirst_eq, if_neg (by decide : ¬ (1 : Nat) = 0)]
  · simp only [depth, if_neg (by decide : ¬ SIZE_MAX = 0), if_neg (by decide : ¬ SIZE_MAX = 1), common_eq, stopOf, if_true]

theorem insertNext_eq (v : Ver) (A B M : CSR V) (maskIdx maskEnd : Nat) (h : HP) :
    Old.insertNext v A B M maskIdx maskEnd h = Heap.insertNext (depth v) A B M maskIdx maskEnd h := by
  unfold Old.insertNext Heap.insertNext
  cases v
  · simp only [depth, if_true]
  · simp only [depth, if_true, skipNext_eq, if_neg (by decide : ¬ (1 : Nat) = 0)]
  · simp only [depth, if_neg (by decide : ¬ SIZE_MAX = 0), if_neg (by decide : ¬ SIZE_MAX = 1), common_eq, stopOf, if_true, ge_iff_le]
    congr 1; funext e
    congr 1; funext inner
    congr 1; funext bend
    by_cases hb : e.loc + 1 < bend
    · rw [if_neg (by omega), if_pos hb]
    · rw [if_pos (by omega), if_neg hb]

theorem advance_eq (M : CSR V) (key maskEnd fuel m : Nat) : Old.advance M key maskEnd fuel m = advMask M key maskEnd fuel m := by
  induction fuel generalizing m with
  | zero => rfl
  | succ fuel ih => unfold Old.advance advMask; simp only [ih, gt_iff_lt]

theorem numLoop_eq (v : Ver) (mul add : V → V → V) (A B M : CSR V) (maskEnd fuel : Nat) (h : HP) (m : Nat) (p : Option Nat)
    (out : List (Nat × V)) :
    Old.numLoop v mul add A B M maskEnd fuel h m p out = Heap.numLoop (depth v) mul add A B M maskEnd fuel h m p out := by
  induction fuel generalizing h m p out with
  | zero => rfl
  | succ fuel ih => unfold Old.numLoop Heap.numLoop; simp only [ih, advance_eq, insertNext_eq, ge_iff_le]

theorem symLoop_eq (v : Ver) (A B M : CSR V) (maskEnd fuel : Nat) (h : HP) (m : Nat) (p : Option Nat) (n : Nat) :
    Old.symLoop v A B M maskEnd fuel h m p n = Heap.symLoop (depth v) A B M maskEnd fuel h m p n := by
  induction fuel generalizing h m p n with
  | zero => rfl
  | succ fuel ih => unfold Old.symLoop Heap.symLoop; simp only [ih, advance_eq, insertNext_eq, ge_iff_le]

theorem old_heap_eq (v : Ver) : (Old.heap v : RowAlg V) = Heap.heap (depth v) := by
  unfold Old.heap Heap.heap Old.heapNum Old.heapSym Heap.numericRow Heap.symbolicRow
  simp only [initHeap_eq, numLoop_eq, symLoop_eq]

end Verif.Model.Old
