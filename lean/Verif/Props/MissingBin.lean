import Verif.Props.C98
import Verif.Props.C99
import Verif.Props.C101

/-!
# Missing binary files

The programs for outer products (C98, C99, C101) do not notice that a binary file is missing: `ReadBinary` returns -1, the return value is ignored, and the matrix stays
empty, with no rows and no columns. Without the second file the count of the operations reads behind the row pointers of the second matrix, for every first matrix with a
column. Without both files the programs report 0 operations.
-/

namespace Verif.Props

open Verif.Model Verif.Model.Sample Verif.Model.SampleMain Verif.Model.OuterMain Verif.Model.NumaMain Verif.Model.ProfileMain

variable {R F : Type} [Semiring R] {env : Env R F} {oA oB oF oL oR : List Nat} {rA rB : Nat → Nat} {tmax : Nat}

theorem readB_missing {a : List Char} (h : env.bin a = none) (o : List Nat) : readB env o a = .ok emptyC := by
  unfold readB
  rw [h]
  rfl

theorem csr_emptyC (d : R) : Conv.csrOfCsc d (emptyC : CSC R) =
    .ok { rows := 0, cols := 0, nnz := 0, rowptr := [0], colids := [], values := [], zerobased := true } := rfl

/-- The second matrix that the programs have, if the second file is missing -/
theorem second_missing {a2 a3 : List Char} {rest : List (List Char)} (h : env.bin a3 = none) {x : CSC R × CSC R}
    (hx : setInput env ("binary".toList :: a2 :: a3 :: rest) oA oB = .ok x) : x.2 = emptyC := by
  unfold setInput at hx
  simp only [rd, List.getElem?_cons_zero, List.getElem?_cons_succ, ok_bind] at hx
  rw [if_neg (by decide), if_pos trivial, readB_missing h] at hx
  obtain ⟨A, -, hx⟩ := MatObj.bind_eq_ok hx
  simp only [ok_bind, Except.ok.injEq] at hx
  rw [← hx]

theorem both_missing {a2 a3 : List Char} {rest : List (List Char)} (h2 : env.bin a2 = none) (h3 : env.bin a3 = none) :
    setInput env ("binary".toList :: a2 :: a3 :: rest) oA oB = .ok (emptyC, emptyC) := by
  unfold setInput
  simp only [rd, List.getElem?_cons_zero, List.getElem?_cons_succ, ok_bind]
  rw [if_neg (by decide), if_pos trivial, readB_missing h2, readB_missing h3]
  rfl

/-- The count of the operations reads a row pointer that does not exist. -/
theorem flop_missing {W : Nat} {A : CSC R} {B : CSR R} (hB : B.rowptr.length = 1) {o : List Nat} (ho : o ≠ []) (z : Nat) : Flops.cscCsr W A B o ≠ .ok z := by
  intro h
  unfold Flops.cscCsr at h
  obtain ⟨y, h, -⟩ := MatObj.bind_eq_ok h
  cases o with
  | nil => exact ho rfl
  | cons i o =>
    unfold Flops.cscCsrOnce at h
    rw [List.foldlM_cons] at h
    obtain ⟨u, h, -⟩ := MatObj.bind_eq_ok h
    obtain ⟨_, -, h⟩ := MatObj.bind_eq_ok h
    obtain ⟨_, -, h⟩ := MatObj.bind_eq_ok h
    obtain ⟨_, h, -⟩ := MatObj.bind_eq_ok h
    unfold rd at h
    rw [List.getElem?_eq_none (by omega)] at h
    cases h

theorem shuffle_length {B C : CSR R} {r : Nat → Nat} (h : Reorder.shuffleIds true r B = .ok C) : C.rowptr = B.rowptr := by
  unfold Reorder.shuffleIds at h
  obtain ⟨s, -, h⟩ := MatObj.bind_eq_ok h
  cases h
  rfl

theorem cols_ne_nil {k : Nat} (hk : 0 < k) {o : List Nat} (ho : o.Perm (List.range k)) : o ≠ [] := by
  intro e
  have := ho.length_eq
  rw [e, List.length_range] at this
  simp at this
  omega

variable {a2 a3 : List Char} {rest : List (List Char)} {k : Nat}

/-- C98 is violated if the second binary file is missing, for every first matrix with `k > 0` columns: nothing is printed, and the programs do not come to their end. -/
theorem C98_violated_missing_second (h : env.bin a3 = none) (hk : 0 < k) (hoF : oF.Perm (List.range k)) :
    (∀ sch, (outerMain radixBy env ("binary".toList :: a2 :: a3 :: rest) oA oB oF rA rB sch).events = [] ∧
      (outerMain radixBy env ("binary".toList :: a2 :: a3 :: rest) oA oB oF rA rB sch).status ≠ .ok (some ())) ∧
    (∀ sch, (outer2Main radixBy env ("binary".toList :: a2 :: a3 :: rest) oA oB oF rA rB sch).events = [] ∧
      (outer2Main radixBy env ("binary".toList :: a2 :: a3 :: rest) oA oB oF rA rB sch).status ≠ .ok (some ())) := by
  have hin : ∀ both r, OuterMain.setup both env ("binary".toList :: a2 :: a3 :: rest) oA oB oF rA rB ≠ .ok r := by
    intro both r hr
    unfold OuterMain.setup at hr
    obtain ⟨x, hx, hr⟩ := MatObj.bind_eq_ok hr
    rw [second_missing h hx, csr_emptyC] at hr
    simp only [ok_bind] at hr
    obtain ⟨_, -, hr⟩ := MatObj.bind_eq_ok hr
    obtain ⟨A, -, hr⟩ := MatObj.bind_eq_ok hr
    obtain ⟨B, hB, hr⟩ := MatObj.bind_eq_ok hr
    obtain ⟨z, hz, -⟩ := MatObj.bind_eq_ok hr
    exact flop_missing (by rw [shuffle_length hB]; rfl) (cols_ne_nil hk hoF) z hz
  constructor
  · intro sch
    unfold outerMain
    rw [if_neg (by simp)]
    exact andThen_events_nil (fun x => hin _ _) _
  · intro sch
    unfold outer2Main
    rw [if_neg (by simp)]
    exact andThen_events_nil (fun x => hin _ _) _

/-- C98 is violated if both binary files are missing: the programs do not notice this, and report 0 operations. -/
theorem C98_violated_missing_both (h2 : env.bin a2 = none) (h3 : env.bin a3 = none) :
    (∀ sch, ∃ l, (outerMain radixBy env ("binary".toList :: a2 :: a3 :: rest) oA oB [] rA rB sch).events = .flop 0 :: l) ∧
    (∀ sch, ∃ l, (outer2Main radixBy env ("binary".toList :: a2 :: a3 :: rest) oA oB [] rA rB sch).events = .flop 0 :: l) := by
  have hs : ∀ both, ∃ A B, OuterMain.setup both env ("binary".toList :: a2 :: a3 :: rest) oA oB [] rA rB = .ok (some (A, B, 0)) := by
    intro both
    unfold OuterMain.setup
    rw [both_missing h2 h3]
    cases both <;> exact ⟨_, _, rfl⟩
  constructor
  · intro sch
    obtain ⟨A, B, e⟩ := hs true
    unfold outerMain
    rw [if_neg (by simp), andThen_ok e]
    exact ⟨_, rfl⟩
  · intro sch
    obtain ⟨A, B, e⟩ := hs false
    unfold outer2Main
    rw [if_neg (by simp), andThen_ok e]
    exact ⟨_, rfl⟩

/-- C101 is violated if the second binary file is missing, for every first matrix with `k > 0` columns: nothing is printed, and the programs do not come to their end. -/
theorem C101_violated_missing_second (h : env.bin a3 = none) (hk : 0 < k) (hoF : oF.Perm (List.range k)) :
    (∀ sch, (profileMain radixBy env ("binary".toList :: a2 :: a3 :: rest) oA oB oF oL oR sch).events = [] ∧
      (profileMain radixBy env ("binary".toList :: a2 :: a3 :: rest) oA oB oF oL oR sch).status ≠ .ok (some ())) ∧
    (∀ sch, (profile2Main radixBy env ("binary".toList :: a2 :: a3 :: rest) oA oB oF sch).events = [] ∧
      (profile2Main radixBy env ("binary".toList :: a2 :: a3 :: rest) oA oB oF sch).status ≠ .ok (some ())) := by
  constructor
  · intro sch
    unfold profileMain
    rw [if_neg (by simp)]
    cases hs : ProfileMain.setup env ("binary".toList :: a2 :: a3 :: rest) oA oB oL oR with
    | error e => exact ⟨rfl, by simp [andThen]⟩
    | ok x =>
      cases x with
      | none => exact ⟨rfl, by simp [andThen]⟩
      | some x =>
        rw [andThen_ok rfl]
        refine andThen_events_nil (fun z hz => ?_) _
        unfold ProfileMain.setup at hs
        obtain ⟨y, hy, hs⟩ := MatObj.bind_eq_ok hs
        rw [second_missing h hy, csr_emptyC] at hs
        simp only [ok_bind] at hs
        obtain ⟨_, -, hs⟩ := MatObj.bind_eq_ok hs
        obtain ⟨_, -, hs⟩ := MatObj.bind_eq_ok hs
        obtain ⟨_, -, hs⟩ := MatObj.bind_eq_ok hs
        obtain ⟨_, -, hs⟩ := MatObj.bind_eq_ok hs
        obtain ⟨_, -, hs⟩ := MatObj.bind_eq_ok hs
        obtain ⟨_, -, hs⟩ := MatObj.bind_eq_ok hs
        cases hs
        obtain ⟨w, hw, -⟩ := MatObj.bind_eq_ok hz
        exact flop_missing rfl (cols_ne_nil hk hoF) w hw
  · intro sch
    unfold profile2Main
    rw [if_neg (by simp)]
    cases hs : ProfileMain.setup2 env ("binary".toList :: a2 :: a3 :: rest) oA oB with
    | error e => exact ⟨rfl, by simp [andThen]⟩
    | ok x =>
      cases x with
      | none => exact ⟨rfl, by simp [andThen]⟩
      | some x =>
        rw [andThen_ok rfl]
        refine andThen_events_nil (fun z hz => ?_) _
        unfold ProfileMain.setup2 at hs
        obtain ⟨y, hy, hs⟩ := MatObj.bind_eq_ok hs
        rw [second_missing h hy, csr_emptyC] at hs
        simp only [ok_bind] at hs
        cases hs
        obtain ⟨w, hw, -⟩ := MatObj.bind_eq_ok hz
        exact flop_missing rfl (cols_ne_nil hk hoF) w hw

/-- C101 is violated if both binary files are missing: the programs do not notice this, and report 0 operations. -/
theorem C101_violated_missing_both (h2 : env.bin a2 = none) (h3 : env.bin a3 = none) :
    (∀ sch, ∃ l, (profileMain radixBy env ("binary".toList :: a2 :: a3 :: rest) oA oB [] oL oR sch).events = .flop 0 :: l) ∧
    (∀ sch, ∃ l, (profile2Main radixBy env ("binary".toList :: a2 :: a3 :: rest) oA oB [] sch).events = .flop 0 :: l) := by
  constructor
  · intro sch
    obtain ⟨x, e⟩ : ∃ x, ProfileMain.setup env ("binary".toList :: a2 :: a3 :: rest) oA oB oL oR = .ok (some x) := by
      unfold ProfileMain.setup
      rw [both_missing h2 h3]
      exact ⟨_, rfl⟩
    have e' : ProfileMain.flops x.left x.B [] = .ok (some 0) := rfl
    unfold profileMain
    rw [if_neg (by simp), andThen_ok e, andThen_ok e']
    exact ⟨_, rfl⟩
  · intro sch
    obtain ⟨x, e⟩ : ∃ x, ProfileMain.setup2 env ("binary".toList :: a2 :: a3 :: rest) oA oB = .ok (some x) := by
      unfold ProfileMain.setup2
      rw [both_missing h2 h3]
      exact ⟨_, rfl⟩
    have e' : ProfileMain.flops x.1 x.2 [] = .ok (some 0) := rfl
    unfold profile2Main
    rw [if_neg (by simp), andThen_ok e, andThen_ok e']
    exact ⟨_, rfl⟩

/-- C99 is violated if the second binary file is missing, for every first matrix with `k > 0` columns: only the sizes of the two parts are printed, and the program does not
come to its end. -/
theorem C99_violated_missing_second (h : env.bin a3 = none) (hk : 0 < k) (hoF : oF.Perm (List.range k)) (sch : Nat → Section × Section) :
    (∀ e ∈ (numaMain radixBy env ("binary".toList :: a2 :: a3 :: rest) oA oB oF oL oR rA rB tmax sch).events, ∃ n, e = .part n) ∧
      (numaMain radixBy env ("binary".toList :: a2 :: a3 :: rest) oA oB oF oL oR rA rB tmax sch).status ≠ .ok (some ()) := by
  unfold numaMain
  rw [if_neg (by simp)]
  cases hs : NumaMain.setup env ("binary".toList :: a2 :: a3 :: rest) oA oB oL oR rA rB with
  | error e => exact ⟨by simp [andThen], by simp [andThen]⟩
  | ok x =>
    cases x with
    | none => exact ⟨by simp [andThen], by simp [andThen]⟩
    | some x =>
      have hf : ∀ z, NumaMain.flops x oF ≠ .ok z := by
        intro z hz
        unfold NumaMain.setup at hs
        obtain ⟨y, hy, hs⟩ := MatObj.bind_eq_ok hs
        rw [second_missing h hy, csr_emptyC] at hs
        simp only [ok_bind] at hs
        obtain ⟨_, -, hs⟩ := MatObj.bind_eq_ok hs
        obtain ⟨_, -, hs⟩ := MatObj.bind_eq_ok hs
        obtain ⟨B, hB, hs⟩ := MatObj.bind_eq_ok hs
        obtain ⟨_, -, hs⟩ := MatObj.bind_eq_ok hs
        obtain ⟨_, -, hs⟩ := MatObj.bind_eq_ok hs
        obtain ⟨_, -, hs⟩ := MatObj.bind_eq_ok hs
        obtain ⟨_, -, hs⟩ := MatObj.bind_eq_ok hs
        obtain ⟨_, -, hs⟩ := MatObj.bind_eq_ok hs
        cases hs
        obtain ⟨w, hw, -⟩ := MatObj.bind_eq_ok hz
        exact flop_missing (by rw [shuffle_length hB]; rfl) (cols_ne_nil hk hoF) w hw
      cases hfl : NumaMain.flops x oF with
      | ok z => exact absurd hfl (hf z)
      | error e =>
        constructor
        · intro e he
          simp [andThen, hfl, say, Bench.Out.seq] at he
          rcases he with rfl | rfl
          · exact ⟨_, rfl⟩
          · exact ⟨_, rfl⟩
        · simp [andThen, hfl, say, Bench.Out.seq]

/-- C99 is violated if both binary files are missing: the program does not notice this, and reports two parts without entries and 0 operations. -/
theorem C99_violated_missing_both (h2 : env.bin a2 = none) (h3 : env.bin a3 = none) (sch : Nat → Section × Section) :
    ∃ l, (numaMain radixBy env ("binary".toList :: a2 :: a3 :: rest) oA oB [] oL oR rA rB tmax sch).events = .part 0 :: .part 0 :: .flop 0 :: l := by
  obtain ⟨x, e, e1, e2⟩ : ∃ x, NumaMain.setup env ("binary".toList :: a2 :: a3 :: rest) oA oB oL oR rA rB = .ok (some x) ∧ x.up.length = 0 ∧ x.low.length = 0 := by
    unfold NumaMain.setup
    rw [both_missing h2 h3]
    exact ⟨_, rfl, rfl, rfl⟩
  have e' : NumaMain.flops x [] = .ok (some 0) := rfl
  unfold numaMain
  rw [if_neg (by simp), andThen_ok e, andThen_ok e', e1, e2]
  exact ⟨_, rfl⟩

/-- The hypotheses can be met: no file exists, and the first matrix would have four columns. -/
example : (⟨fun _ => none, fun _ => none, 4, 8, fun _ => 0, fun i => i, (· + ·), id, id, env.ar, env.st, env.parRmat, env.parEr, 0⟩ : Env Int F).bin [] = none ∧ 0 < 4 ∧
    [3, 1, 0, 2].Perm (List.range 4) := ⟨rfl, by decide, by decide⟩

end Verif.Props
