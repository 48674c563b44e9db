import Verif.Model.RaceConv
import Verif.Lemmas.RaceOuterMain
import Verif.Lemmas.OuterRange
import Verif.Lemmas.Transpose

/-! # Races of the sorting, conversion, intersection and transposition loops -/

namespace Verif.Model.RaceConv
open RaceOld (Arr Access Racy done)
open RaceOuter (Prog priv loop loopTrace wp exec_bind exec_priv exec_pure exec_loop wp_bind wp_mono wp_priv wp_loop loop_free)
open RaceDot (get_of_rd set_of_wr)

variable {V σ α ι : Type}

/-! ## The programs are the models -/

theorem forRange_succ (len lo : Nat) (g : σ) (step : Nat → σ → Res σ) :
    forRange lo (lo + (len + 1)) g step = (step lo g >>= fun g => forRange (lo + 1) (lo + 1 + len) g step) := by
  unfold forRange
  rw [show lo + (len + 1) - lo = len + 1 by omega, show lo + 1 + len - (lo + 1) = len by omega, List.range'_succ, List.foldlM_cons]

theorem forRange_zero (lo : Nat) (g : σ) (step : Nat → σ → Res σ) : forRange lo (lo + 0) g step = .ok g := by
  unfold forRange
  rw [show lo + 0 - lo = 0 by omega]
  rfl

theorem forRange_sub (b e : Nat) (g : σ) (step : Nat → σ → Res σ) : forRange b e g step = forRange b (b + (e - b)) g step := by
  unfold forRange
  rw [show b + (e - b) - b = e - b by omega]

theorem loopRun_eq {prog : ι → Prog σ Unit} {step : σ → ι → Res σ}
    (h : ∀ i g, (prog i).exec g = (step g i >>= fun g => .ok (g, ()))) (order : List ι) (g : σ) :
    loopRun prog order g = order.foldlM step g := by
  unfold loopRun
  congr 1
  funext g i
  rw [h, bind_assoc]
  simp only [ok_bind]
  exact bind_pure _

theorem exec_collect (s : List Nat × List V) : ∀ (len j : Nat) (acc : List (Nat × V)),
    (collectProg len j acc).exec s = (forRange j (j + len) acc (fun j tosort => do
      let c ← rd s.1 j
      let v ← rd s.2 j
      .ok (tosort ++ [(c, v)])) >>= fun l => .ok (s, l)) := by
  intro len
  induction len with
  | zero => intro j acc; rw [forRange_zero]; rfl
  | succ len ih =>
    intro j acc
    rw [forRange_succ, collectProg]
    simp only [exec_bind, getN, getV, Prog.exec, bind_assoc, ok_bind, ih]

theorem exec_putBack (tosort : List (Nat × V)) : ∀ (len j it : Nat) (s : List Nat × List V),
    (putBackProg tosort len j it).exec s = (forRange j (j + len) (s.1, s.2, it) (fun j (x : List Nat × List V × Nat) => do
      let y ← rd tosort x.2.2
      let ids ← wr x.1 j y.1
      let vals ← wr x.2.1 j y.2
      .ok (ids, vals, x.2.2 + 1)) >>= fun x => .ok ((x.1, x.2.1), ())) := by
  intro len
  induction len with
  | zero => intro j it s; rw [forRange_zero]; rfl
  | succ len ih =>
    intro j it s
    rw [forRange_succ, putBackProg]
    simp only [exec_bind, exec_priv, putN, putV, Prog.exec, bind_assoc, ok_bind, ih]

theorem exec_sortProg (sortf : List (Nat × V) → List (Nat × V)) (ptr : List Nat) (i : Nat) (s : List Nat × List V) :
    (sortProg sortf ptr i).exec s = (Reorder.sortRow sortf ptr s i >>= fun s => .ok (s, ())) := by
  unfold sortProg Reorder.sortRow Reorder.collect Reorder.putBack
  simp only [exec_bind, exec_priv, exec_collect, exec_putBack, bind_assoc, ok_bind, ← forRange_sub]

theorem exec_mergeProg (add : V → V → V) (A B : CSR V) (i : Nat) (s : List Nat × List (List (Nat × V))) :
    (mergeProg add A B i).exec s = (Intersect.mergeRow add A B i >>= fun xs => wr s.2 i xs >>= fun vecs =>
      wr s.1 i xs.length >>= fun rowNz => .ok ((rowNz, vecs), ())) := by
  unfold mergeProg
  simp only [exec_bind, exec_priv, putN, putV, Prog.exec, bind_assoc, ok_bind]

theorem exec_copyProg (vecs : List (List (Nat × V))) (rowptr : List Nat) (i : Nat) (s : List Nat × List V) :
    (copyProg vecs rowptr i).exec s = (rd vecs i >>= fun xs => rd rowptr i >>= fun off =>
      Intersect.copyRow off xs s >>= fun s => .ok (s, ())) := by
  unfold copyProg Intersect.copyRow
  simp only [exec_bind, exec_priv, bind_assoc, ok_bind]
  refine congrArg _ (funext fun xs => ?_)
  refine congrArg _ (funext fun off => ?_)
  rw [exec_loop (step := fun k s => do
    let x ← rd xs k
    let c ← wr s.1 (off + k) x.1
    let v ← wr s.2 (off + k) x.2
    .ok (c, v)), Nat.zero_add]
  intro x o
  simp only [exec_bind, exec_priv, putN, putV, Prog.exec, bind_assoc, ok_bind]

theorem exec_colProg (sortf : List (Nat × V) → List (Nat × V)) (colptr : List Nat) (i : Nat) (s : List (Nat × V) × List Nat × List V) :
    (colProg sortf colptr i).exec s = (rd colptr i >>= fun b => rd colptr (i + 1) >>= fun e =>
      Conv.sortRange sortf s.1 b e >>= fun tosort =>
      forRange b e s.2 (fun ind x => do
        let p ← rd tosort ind
        let rowids ← wr x.1 ind p.1
        let values ← wr x.2 ind p.2
        .ok (rowids, values)) >>= fun x => .ok ((tosort, x), ())) := by
  unfold colProg
  simp only [exec_bind, exec_priv, sortT, Prog.exec, bind_assoc, ok_bind]
  refine congrArg _ (funext fun b => ?_)
  refine congrArg _ (funext fun e => ?_)
  refine congrArg _ (funext fun t => ?_)
  rw [exec_loop (step := fun ind s => do
    let p ← rd s.1 ind
    let rowids ← wr s.2.1 ind p.1
    let values ← wr s.2.2 ind p.2
    .ok (s.1, rowids, values))]
  · rw [forRange_sub b e]
    generalize e - b = len
    generalize s.2 = x
    induction len generalizing b x with
    | zero => rw [forRange_zero, forRange_zero]; rfl
    | succ len ih =>
      rw [forRange_succ, forRange_succ]
      simp only [bind_assoc, ok_bind]
      refine congrArg _ (funext fun p => ?_)
      refine congrArg _ (funext fun r => ?_)
      refine congrArg _ (funext fun v => ?_)
      exact ih (b + 1) (r, v)
  · intro x o
    simp only [exec_bind, getT, putR, putW, Prog.exec, bind_assoc, ok_bind]

theorem exec_edgeProg (sortf : List Nat → List Nat) (colptr : List Nat) (i : Nat) (s : List Nat) :
    (edgeProg sortf colptr i).exec s = (rd colptr i >>= fun b => rd colptr (i + 1) >>= fun e =>
      Conv.sortRange sortf s b e >>= fun t => .ok (t, ())) := by
  unfold edgeProg
  simp only [exec_bind, exec_priv, Prog.exec, bind_assoc, ok_bind]

theorem exec_oneProg (one : V) (k : Nat) (s : List V) : (oneProg one k).exec s = (wr s k one >>= fun t => .ok (t, ())) := by
  unfold oneProg
  simp only [Prog.exec, bind_assoc, ok_bind]

theorem exec_countProg (A : CSR V) (p : Nat × Nat) (s : List Nat × List Nat) :
    (countProg A p).exec s = (Transpose.count A s p >>= fun s => .ok (s, ())) := by
  unfold countProg Transpose.count
  simp only [exec_bind, exec_priv, putV, Prog.exec, bind_assoc, ok_bind]

theorem exec_placeProg (A : CSR V) (colptr dloc : List Nat) (p : Nat × Nat) (s : List Nat × List V) :
    (placeProg A colptr dloc p).exec s = (Transpose.place A colptr dloc s p >>= fun s => .ok (s, ())) := by
  unfold placeProg Transpose.place
  simp only [exec_bind, exec_priv, putN, putV, Prog.exec, bind_assoc, ok_bind]

end Verif.Model.RaceConv
