import Verif.Lemmas.Alias
import Verif.Props.C09

/-! # C20, C40: the output object is one of the inputs -/

namespace Verif.Props

open Verif.Model Verif.Spec
open Verif.Model.Alias (Store Obj)

variable {V : Type}

/-- Under every schedule the call makes no error; when it returns, object `c` holds `C` and all other objects are as in
`s`; and it does return when every thread gets enough turns. -/
structure ComputesAt (call : Scheds → Res (Option (Store V))) (rows n : Nat) (s : Store V) (c : Nat) (C : CSR V) :
    Prop where
  safe : ∀ sch, Admissible rows sch → call sch = .ok none ∨
    ∃ s', call sch = .ok (some s') ∧ s' c = .full C ∧ ∀ r, r ≠ c → s' r = s r
  live : ∃ K, ∀ sch, Admissible rows sch → Fair n K sch → call sch ≠ .ok none

/-- The product under the mask or under its complement. -/
def IsProduct (compl : Bool) (mul add : V → V → V) (A B M C : CSR V) : Prop :=
  if compl then IsComplMasked mul add A B M C else IsMasked mul add A B M C

theorem computesAt_of {call : Scheds → Res (Option (CSR V))} {call' : Scheds → Res (Option (Store V))} {rows n : Nat}
    {s : Store V} {c : Nat} {C : CSR V} (h : Computes call rows n C) (e : ∀ sch, call' sch = Alias.put s c (call sch)) :
    ComputesAt call' rows n s c C where
  safe := by
    intro sch hs
    rw [e]
    rcases h.safe sch hs with h | h <;> rw [h]
    · exact .inl rfl
    · refine .inr ⟨_, rfl, upd_same _ _ _, fun r hr => upd_ne _ _ hr⟩
  live := by
    obtain ⟨K, hK⟩ := h.live
    refine ⟨K, fun sch hs hf => ?_⟩
    rw [e, hK sch hs hf]
    intro h; cases h

theorem algoMat_isProduct {a : Algo} {mul add : V → V → V} {A B M : CSR V} {Bc : CSC V} (h : Valid A B M)
    (hr : a.Req add A B Bc M) (zb : Bool) : IsProduct a.compl mul add A B M (algoMat a mul add A B M zb) := by
  unfold IsProduct algoMat
  by_cases hc : a.compl = true
  · rw [if_pos hc, if_pos hc]; exact complMat_isCompl _ _
  · rw [if_neg hc, if_neg hc]; exact maskedMat_isMasked h.shapes.ma _ hr.nodup

/-- C20, one-phase calls of the generic driver: whichever of the references `a`, `b`, `m`, `c` are equal, object `c`
gets the product of the original contents. -/
theorem C20_one_phase (k : Kind) (mul add : V → V → V) {A B M C0 : CSR V} (h : Valid A B M) (hr : k.Req add A B M)
    {s : Store V} {a b m c : Nat} (ha : s a = .full A) (hb : s b = .full B) (hm : s m = .full M)
    (hc : s c = .full C0) {nt dflt : Nat} (hn : 0 < setNumThreads nt dflt) :
    ∃ C, ComputesAt (Alias.spgemm1p k.alg mul add s a b m c nt dflt) A.rows (setNumThreads nt dflt) s c C ∧
      IsProduct k.compl mul add A B M C :=
  ⟨_, computesAt_of (algo_computes (.gen k) false mul add (Bc := ⟨0, 0, 0, [0], [], [], true⟩) h hr C0.zerobased hn)
    (Alias.spgemm1p_eq ha hb hm hc _ _ _ _ _),
    algoMat_isProduct (a := .gen k) (Bc := ⟨0, 0, 0, [0], [], [], true⟩) h hr _⟩

/-- C20, two-phase calls of the generic driver. -/
theorem C20_two_phase (k : Kind) (mul add : V → V → V) {A B M C0 : CSR V} (h : Valid A B M) (hr : k.Req add A B M)
    {s : Store V} {a b m c : Nat} (ha : s a = .full A) (hb : s b = .full B) (hm : s m = .full M)
    (hc : s c = .full C0) {nt dflt : Nat} (hn : 0 < setNumThreads nt dflt) :
    ∃ C, ComputesAt (Alias.spgemm2p k.alg mul add s a b m c nt dflt) A.rows (setNumThreads nt dflt) s c C ∧
      IsProduct k.compl mul add A B M C :=
  ⟨_, computesAt_of (algo_computes (.gen k) true mul add (Bc := ⟨0, 0, 0, [0], [], [], true⟩) h hr C0.zerobased hn)
    (Alias.spgemm2p_eq ha hb hm hc _ _ _ _ _),
    algoMat_isProduct (a := .gen k) (Bc := ⟨0, 0, 0, [0], [], [], true⟩) h hr _⟩

/-- C20, one-phase inner product: `c` may be `a` or `m` (`B` is stored by columns, so it is no candidate). -/
theorem C20_inner_one_phase (mul add : V → V → V) {A B M C0 : CSR V} {Bc : CSC V} (h : Valid A B M)
    (hr : Algo.inner.Req add A B Bc M)
    {s : Store V} {a m c : Nat} (ha : s a = .full A) (hm : s m = .full M)
    (hc : s c = .full C0) {nt dflt : Nat} (hn : 0 < setNumThreads nt dflt) :
    ∃ C, ComputesAt (Alias.inner1p mul add s Bc a m c nt dflt) A.rows (setNumThreads nt dflt) s c C ∧
      IsMasked mul add A B M C :=
  ⟨_, computesAt_of (algo_computes .inner false mul add h hr C0.zerobased hn)
    (Alias.inner1p_eq ha hm hc _ _ _ _ _), algoMat_isProduct (a := .inner) h hr _⟩

/-- C40 is false: whatever the inputs, the thread count and the schedule, a two-phase inner-product call whose output
object is also `A` or `M` never returns a matrix with an entry. In particular it never returns the product of the
original contents if that product has an entry. -/
theorem C40_inner_two_phase_violated (mul add : V → V → V) {A B M R : CSR V} {Bc : CSC V}
    {s : Store V} {a m c : Nat} (hal : a = c ∨ m = c) (nt dflt : Nat)
    (hR : IsMasked mul add A B M R) {i : Nat} (hi : i < A.rows) (hne : R.row i ≠ []) (hw : R.WF) :
    ¬ ∃ sch s', Alias.inner2p mul add s Bc a m c nt dflt sch = .ok (some s') ∧ s' c = .full R := by
  rintro ⟨sch, s', h1, h2⟩
  obtain ⟨R', h3, h4⟩ := Alias.inner2p_alias hal mul add Bc nt dflt sch h1
  rw [h2] at h3
  cases h3
  apply hne
  have : R.colids = [] := List.length_eq_zero_iff.1 (by rw [hw.colLen, h4])
  unfold CSR.row
  rw [this]
  simp [slice]

/-- C40, what holds: with an output object that is neither `A` nor `M` the call computes the product and leaves the
inputs as they are. Missing: `c = a` and `c = m`, where the statement is false. -/
theorem C40_inner_two_phase_partial (mul add : V → V → V) {A B M C0 : CSR V} {Bc : CSC V} (h : Valid A B M)
    (hr : Algo.inner.Req add A B Bc M)
    {s : Store V} {a m c : Nat} (ha : s a = .full A) (hm : s m = .full M)
    (hc : s c = .full C0) (hac : a ≠ c) (hmc : m ≠ c) {nt dflt : Nat} (hn : 0 < setNumThreads nt dflt) :
    ∃ C, ComputesAt (Alias.inner2p mul add s Bc a m c nt dflt) A.rows (setNumThreads nt dflt) s c C ∧
      IsMasked mul add A B M C :=
  ⟨_, computesAt_of (algo_computes .inner true mul add h hr C0.zerobased hn)
    (Alias.inner2p_eq ha hm hc hac hmc _ _ _ _ _), algoMat_isProduct (a := .inner) h hr _⟩

/-! ## Examples -/

/-- Three objects holding the example matrices. -/
def exStore : Store Int
  | 0 => .full Ex.A
  | 1 => .full Ex.B
  | _ => .full Ex.M

/-- `C` is `A`, then `B`, then `M`. -/
example (k : Kind) (hk : k.Req (fun a b : Int => a + b) Ex.A Ex.B Ex.M) (c : Nat) (hc : c < 3) :=
  C20_one_phase k (fun a b : Int => a * b) (fun a b => a + b) (C0 := if c = 0 then Ex.A else if c = 1 then Ex.B else Ex.M)
    Ex.validM hk (s := exStore) (a := 0) (b := 1) (m := 2) (c := c) rfl rfl rfl
    (by match c, hc with
        | 0, _ => rfl
        | 1, _ => rfl
        | 2, _ => rfl) (nt := 2) (dflt := 1) (by decide)

example := C20_two_phase .hash (fun a b : Int => a * b) (fun a b => a + b) Ex.validM Ex.nodupM
  (s := exStore) (a := 0) (b := 1) (m := 2) (c := 2) rfl rfl rfl rfl (nt := 2) (dflt := 1) (by decide)

example := C20_inner_one_phase (fun a b : Int => a * b) (fun a b => a + b) Ex.validM
  (reqM .inner (by simp) (by simp)) (s := exStore) (a := 0) (m := 2) (c := 0) rfl rfl rfl (nt := 2) (dflt := 1) (by decide)

example := C40_inner_two_phase_partial (fun a b : Int => a * b) (fun a b => a + b) Ex.validM
  (reqM .inner (by simp) (by simp)) (s := exStore) (a := 0) (m := 2) (c := 1) rfl rfl rfl (by decide) (by decide)
  (nt := 2) (dflt := 1) (by decide)

example := C40_inner_two_phase_violated (fun a b : Int => a * b) (fun a b => a + b) (A := Ex.A) (B := Ex.B) (M := Ex.M)
  (R := maskedMat (fun a b : Int => a * b) (fun a b => a + b) Ex.A Ex.B Ex.M true) (Bc := Bc)
  (s := exStore) (a := 0) (m := 2) (c := 2) (.inr rfl) 2 1 (maskedMat_isMasked (A := Ex.A) (M := Ex.M) rfl true Ex.nodupM)
  (i := 0) (by decide) (by decide) (maskedMat_wf (A := Ex.A) (M := Ex.M) Ex.wfB)

/-- A concrete run: with `C` being `M`, the call uses unset memory. -/
theorem C40_run : Alias.inner2p (fun a b : Int => a * b) (fun a b => a + b) exStore Bc 0 2 2 2 1 Ex.sched2 =
    .error .uninit := by
  have h : (match Alias.inner2p (fun a b : Int => a * b) (fun a b => a + b) exStore Bc 0 2 2 2 1 Ex.sched2 with
    | .error .uninit => true
    | _ => false) = true := by decide +kernel
  split at h
  · assumption
  · cases h

end Verif.Props
