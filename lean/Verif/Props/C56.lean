import Verif.Lemmas.MatEq
import Verif.Props.Examples
import Mathlib.Tactic.Linarith

/-! # C56: the comparison operators -/

namespace Verif.Props
open Verif MatObj
open _root_.Verif.Spec (Mat WFAny SameUpTo)

variable {V : Type}

theorem holds_of_represents {s : State V} {env : List (Option (Mat V))} (R : Spec.RepresentsVars s env) {x : Nat} {o : Obj}
    {m : Mat V} (hx : s.env[x]? = some (some o)) (vx : env[x]? = some (some m)) : Holds s.heap o m := by
  obtain ⟨h1, h2, h3, h4, h5, h6, h7, h8, h9⟩ := R.reads x o m hx vx
  have inv : ∀ {q : Option Nat} {l : List Nat}, ints s.heap q = .ok l →
      ∃ p, q = some p ∧ s.heap[p]? = some (some (.ints l)) := by
    intro q l e
    unfold ints at e
    cases q with
    | none => simp [use] at e
    | some p =>
      refine ⟨p, rfl, ?_⟩
      simp only [use_some, ok_bind] at e
      split at e <;> simp_all
  have inv' : ∀ {q : Option Nat} {l : List V}, vals s.heap q = .ok l →
      ∃ p, q = some p ∧ s.heap[p]? = some (some (.vals l)) := by
    intro q l e
    unfold vals at e
    cases q with
    | none => simp [use] at e
    | some p =>
      refine ⟨p, rfl, ?_⟩
      simp only [use_some, ok_bind] at e
      split at e <;> simp_all
  exact ⟨h1, h2, h3, h4, h7, h8, h9, fun hn => inv (h5 hn).1, fun hn => inv' (h5 hn).2, fun hn => inv (h6 hn)⟩

/-- C56. For variables `x` and `y` of any program state that hold well-formed matrices with at least one row (CSC:
column), zero-based or one-based: `x == y` returns, and it returns true exactly if the matrices have the same shape and
the same stored positions, with values that count as equal. What is missing for the full claim are
matrices with 0 rows, see `C56_violated_default`. -/
theorem C56_equality_partial {k : Kind} {close : V → V → Bool} {s : State V} {env : List (Option (Mat V))}
    (R : Spec.RepresentsVars s env) {x y : Nat} {o r : Obj} {m m' : Mat V} (hx : s.env[x]? = some (some o))
    (vx : env[x]? = some (some m)) (hy : s.env[y]? = some (some r)) (vy : env[y]? = some (some m'))
    (wx : WFAny m.toCSR) (wy : WFAny m'.toCSR) (px : 0 < m.maj) (py : 0 < m'.maj) (hk : k = .csc → m.zb = m'.zb) :
    ∃ b, eqOp k close s.heap o r = .ok b ∧ (b = true ↔ SameUpTo close m.toCSR m'.toCSR) := by
  obtain ⟨b, e, h⟩ := eqOp_ok (close := close) (holds_of_represents R hx vx) (holds_of_represents R hy vy) px py hk
  exact ⟨b, e, h.trans (sameArrays_iff wx wy)⟩

/-- C56, integer values: for matrices with sorted rows, `x == y` decides whether the two are the same matrix. -/
theorem C56_exact_partial {k : Kind} {s : State Int} {env : List (Option (Mat Int))}
    (R : Spec.RepresentsVars s env) {x y : Nat} {o r : Obj} {m m' : Mat Int} (hx : s.env[x]? = some (some o))
    (vx : env[x]? = some (some m)) (hy : s.env[y]? = some (some r)) (vy : env[y]? = some (some m'))
    (wx : m.toCSR.WF) (wy : m'.toCSR.WF) (sx : m.toCSR.SortedRows) (sy : m'.toCSR.SortedRows) (px : 0 < m.maj)
    (py : 0 < m'.maj) :
    ∃ b, eqOp k closeInt s.heap o r = .ok b ∧ (b = true ↔ m.maj = m'.maj ∧ m.min = m'.min ∧
      ∀ t, t ∈ Spec.triples m.toCSR ↔ t ∈ Spec.triples m'.toCSR) := by
  have hz : m.zb = m'.zb := by
    have h1 := wx.zero
    have h2 := wy.zero
    exact h1.trans h2.symm
  obtain ⟨b, e, h⟩ := C56_equality_partial (close := closeInt) (k := k) R hx vx hy vy ⟨_, wx, Or.inl rfl⟩
    ⟨_, wy, Or.inl rfl⟩ px py (fun _ => hz)
  refine ⟨b, e, h.trans ?_⟩
  have hc : ∀ a b : Int, closeInt a b = true ↔ a = b := by
    intro a b
    unfold closeInt
    by_cases hab : a = b
    · simp [hab]
    · have h1 : ¬ |a - b| < 0 := not_lt.2 (abs_nonneg _)
      have h2 : ¬ Int.tdiv |a - b| (max |a| |b|) < 0 :=
        not_lt.2 (Int.tdiv_nonneg (abs_nonneg _) (le_trans (abs_nonneg a) (le_max_left _ _)))
      simp [hab, h1, h2]
  unfold SameUpTo
  rw [Conv.logical_wf wx, Conv.logical_wf wy, ← triples_eq_iff wx wy sx sy, ← List.forall₂_eq_eq_eq]
  refine and_congr Iff.rfl (and_congr Iff.rfl ?_)
  constructor <;> intro H <;> refine H.imp ?_
  · rintro ⟨a1, a2, a3⟩ ⟨b1, b2, b3⟩ ⟨h1, h2, h3⟩
    simp only [hc] at h1 h2 h3
    subst h1 h2 h3
    rfl
  · rintro a b rfl
    exact ⟨rfl, rfl, (hc _ _).2 rfl⟩

/-- C56, the tolerance: over exact arithmetic two values count as equal if they differ by less than
0.001, absolutely or relative to the larger magnitude. -/
theorem C56_tolerance (a b : ℚ) :
    closeRat a b = true ↔ a = b ∨ |a - b| < 1 / 1000 ∨ 1000 * |a - b| < max |a| |b| := by
  unfold closeRat
  by_cases hab : a = b
  · simp [hab]
  · have hpos : 0 < max |a| |b| := by
      rcases lt_or_eq_of_le (le_trans (abs_nonneg a) (le_max_left |a| |b|)) with h | h
      · exact h
      · exfalso
        apply hab
        have h1 : |a| ≤ 0 := by rw [h]; exact le_max_left _ _
        have h2 : |b| ≤ 0 := by rw [h]; exact le_max_right _ _
        rw [abs_nonpos_iff.1 h1, abs_nonpos_iff.1 h2]
    simp only [hab, if_false, false_or, Bool.or_eq_true, decide_eq_true_eq]
    refine or_congr Iff.rfl ?_
    rw [div_lt_iff₀ hpos]
    constructor <;> intro h <;> linarith

/-- C56, symmetry: with a symmetric comparison of values, `x == y` and `y == x` agree. -/
theorem C56_symm_partial {k : Kind} {close : V → V → Bool} (hc : ∀ a b, close a b = close b a) {s : State V}
    {env : List (Option (Mat V))}
    (R : Spec.RepresentsVars s env) {x y : Nat} {o r : Obj} {m m' : Mat V} (hx : s.env[x]? = some (some o))
    (vx : env[x]? = some (some m)) (hy : s.env[y]? = some (some r)) (vy : env[y]? = some (some m'))
    (wx : WFAny m.toCSR) (wy : WFAny m'.toCSR) (px : 0 < m.maj) (py : 0 < m'.maj) (hk : k = .csc → m.zb = m'.zb) :
    eqOp k close s.heap o r = eqOp k close s.heap r o := by
  obtain ⟨b, e, h⟩ := C56_equality_partial (close := close) R hx vx hy vy wx wy px py hk
  obtain ⟨b', e', h'⟩ := C56_equality_partial (close := close) R hy vy hx vx wy wx py px (fun hh => (hk hh).symm)
  rw [e, e']
  congr 1
  rw [Bool.eq_iff_iff, h, h']
  have sym : ∀ A B : CSR V, SameUpTo close A B → SameUpTo close B A := by
    rintro A B ⟨h1, h2, h3⟩
    refine ⟨h1.symm, h2.symm, ?_⟩
    refine (List.Forall₂.flip h3).imp ?_
    rintro a b ⟨g1, g2, g3⟩
    exact ⟨g1.symm, g2.symm, by rw [hc]; exact g3⟩
  exact ⟨sym _ _, sym _ _⟩

/-- The claim fails for matrices with 0 rows: comparing two default-constructed matrices reads a
pointer that was never set. -/
theorem C56_violated_default (k : Kind) (close : V → V → Bool) (h : Heap V) :
    eqOp k close h MatObj.default MatObj.default = .error .uninit := by
  simp [eqOp, sameIndex, arr, MatObj.default, ints, use]

/-- The same after `make_empty`: comparing a matrix that had rows and was emptied with another such matrix reads freed
memory. -/
theorem C56_violated_emptied (close : Int → Int → Bool) (rows cols : Nat) (hr : rows ≠ 0) :
    ∃ s o r, run .csr 0 [.sized 0 rows cols, .copy 0, .makeEmpty 0, .makeEmpty 1] ⟨[], []⟩ = .ok s ∧
      s.env = [some o, some r] ∧ eqOp .csr close s.heap o r = .error .freed := by
  have h1 : 0 < rows := by omega
  refine ⟨⟨[none, none], [some ⟨0, 0, 0, some 0, none, none, true⟩, some ⟨0, 0, 0, some 1, none, none, true⟩]⟩,
    ⟨0, 0, 0, some 0, none, none, true⟩, ⟨0, 0, 0, some 1, none, none, true⟩, ?_, rfl, ?_⟩
  · simp [run, step, sized, check, hr, h1, alloc, var, copyCtor, dup, makeEmpty, MatObj.free, use, dupInts, ints]
  · simp [eqOp, sameIndex, arr, ints, use]

/-- Values that count as equal do not form an equivalence: 0 and 0.0009, 0.0009 and 0.0018, but not 0 and 0.0018. -/
theorem C56_not_transitive : closeRat 0 (9 / 10000) = true ∧ closeRat (9 / 10000) (18 / 10000) = true ∧
    closeRat 0 (18 / 10000) = false := by decide +kernel

/-- A program state with two equal matrices of different index base and a third one that differs in one value. -/
def eqState : State Int :=
  ⟨[some (.ints [0, 1, 2]), some (.ints [0, 1]), some (.vals [5, 6]),
    some (.ints [1, 2, 3]), some (.ints [1, 2]), some (.vals [5, 6]),
    some (.ints [0, 1, 2]), some (.ints [0, 1]), some (.vals [5, 7])],
   [some ⟨2, 2, 2, some 0, some 1, some 2, true⟩, some ⟨2, 2, 2, some 3, some 4, some 5, false⟩,
    some ⟨2, 2, 2, some 6, some 7, some 8, true⟩]⟩

example : eqOp .csr closeInt eqState.heap ⟨2, 2, 2, some 0, some 1, some 2, true⟩ ⟨2, 2, 2, some 3, some 4, some 5, false⟩
    = .ok true := by decide +kernel

example : eqOp .csr closeInt eqState.heap ⟨2, 2, 2, some 3, some 4, some 5, false⟩ ⟨2, 2, 2, some 6, some 7, some 8, true⟩
    = .ok false := by decide +kernel

/-- A program that leads to two equal matrices, and its values. -/
def eqProg : List (Op Int) :=
  [.sized 2 2 2, .setPtr 0 1 1, .setPtr 0 2 2, .setId 0 1 1, .setVal 0 0 5, .setVal 0 1 6, .copy 0]

def eqMat : Mat Int := ⟨2, 2, 2, [0, 1, 2], [0, 1], [5, 6], true⟩

theorem eqMat_wf : eqMat.toCSR.WF := ⟨rfl, rfl, rfl, by decide, rfl, rfl, rfl, by decide⟩

theorem eqMat_sorted : eqMat.toCSR.SortedRows := by unfold CSR.SortedRows; decide

/-- The hypotheses of `C56_equality_partial` and `C56_exact_partial` are met. -/
example : ∃ s o r, run .csr 0 eqProg ⟨[], []⟩ = .ok s ∧ s.env = [some o, some r] ∧
    eqOp .csr closeInt s.heap o r = .ok true := by
  obtain ⟨s, h1, I⟩ := run_ok (k := .csr) (dflt := (0 : Int)) (ops := eqProg) (Inv.init _)
    (by intro a b c h; simp [eqProg] at h; omega) (env' := [some eqMat, some eqMat]) (by decide)
  have R := I.represents
  obtain ⟨o, ho, _⟩ := I.get (x := 0) (m := eqMat) rfl
  obtain ⟨r, hr, _⟩ := I.get (x := 1) (m := eqMat) rfl
  obtain ⟨b, e, h⟩ := C56_exact_partial (k := .csr) R ho rfl hr rfl eqMat_wf eqMat_wf eqMat_sorted eqMat_sorted
    (by decide) (by decide)
  refine ⟨s, o, r, h1, ?_, ?_⟩
  · have hl := I.length
    apply List.ext_getElem?
    intro i
    rcases i with _ | _ | i
    · rw [ho]; rfl
    · rw [hr]; rfl
    · rw [List.getElem?_eq_none (by rw [hl]; simp), List.getElem?_eq_none (by simp)]
  · rw [e, h.2 ⟨rfl, rfl, fun _ => Iff.rfl⟩]

end Verif.Props
