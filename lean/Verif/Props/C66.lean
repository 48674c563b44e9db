import Verif.Props.C65

/-!
# C66: where reading of triples differs from the claim

`C66_partial` is in `Verif.Props.C65`. Here it is shown that its conditions on the file are needed.
-/

namespace Verif.Props
open Verif Model Model.ReadIO
open _root_.Verif.Spec (IntVal Sym Field banner Lines MMText Describes fullEntries)

variable {V : Type}

/-- The entries that are left if the diagonal is to be removed. -/
def offDiagonal (remove : Bool) (es : List (Nat × Nat × V)) : List (Nat × Nat × V) :=
  es.filter fun e => !(remove && decide (e.1 = e.2.1))

theorem mem_offDiagonal {remove : Bool} {es : List (Nat × Nat × V)} {e : Nat × Nat × V} (he : e ∈ es) (hoff : e.1 ≠ e.2.1) :
    e ∈ offDiagonal remove es := by
  unfold offDiagonal
  rw [List.mem_filter]
  exact ⟨he, by simp [hoff]⟩

/-- C66 is violated by every skew-symmetric file with an entry off the diagonal: the mirror image of an entry gets the same value
instead of the opposite one. -/
theorem C66_violated_skew {ofInt : Int → V} (neg : V → V) (fresh : Nat → Int × Int × V) (rnd : Nat → V) (remove : Bool) {t : MMText}
    {m n : Nat} {es : List (Nat × Nat × V)} (h : Describes (IntVal ofInt) (ofInt 1) t m n es) (hs : ∀ l ∈ t.lines, l.length ≤ 255)
    (hk : t.sym = .skew) {text : List Char} (hl : Lines t.lines text)
    (hnd : (fullEntries neg .symmetric (offDiagonal remove es)).Pairwise fun a b => (a.1, a.2.1) ≠ (b.1, b.2.1))
    {e : Nat × Nat × V} (he : e ∈ es) (hoff : e.1 ≠ e.2.1) (hv : neg e.2.2 ≠ e.2.2) :
    ∃ F : List (Nat × Nat × V), readTriples fresh ofInt false rnd remove (some text) = .ok (((m : Int), (n : Int)), F.map castE) ∧
      ¬F.Perm (fullEntries neg t.sym (offDiagonal remove es)) := by
  have hf : symFlag t = true := by simp [symFlag, hk]
  obtain ⟨es', F, _, h2, _, h4, h5⟩ := triples_run neg fresh false rnd remove (.of_describes h) hs hl
  rw [h2 rfl, hf, if_pos rfl] at h5
  change F.Perm (fullEntries neg .symmetric (offDiagonal remove es)) at h5
  refine ⟨F, h4, fun hp => ?_⟩
  rw [hk] at hp
  have he' := mem_offDiagonal (remove := remove) he hoff
  generalize offDiagonal remove es = es at *
  have hm1 : (e.2.1, e.1, neg e.2.2) ∈ fullEntries neg .skew es := by
    simp only [fullEntries, List.mem_append, List.mem_map, List.mem_filter]
    exact .inr ⟨e, ⟨he', by simpa using hoff⟩, rfl⟩
  have hm2 : (e.2.1, e.1, e.2.2) ∈ fullEntries neg .symmetric es := by
    simp only [fullEntries, List.mem_append, List.mem_map, List.mem_filter]
    exact .inr ⟨e, ⟨he', by simpa using hoff⟩, rfl⟩
  have hm3 := (hp.symm.trans h5).subset hm1
  obtain ⟨i, hi, ei⟩ := List.mem_iff_getElem.mp hm3
  obtain ⟨j, hj, ej⟩ := List.mem_iff_getElem.mp hm2
  rw [List.pairwise_iff_getElem] at hnd
  rcases Nat.lt_trichotomy i j with hij | hij | hij
  · have := hnd i j hi hj hij
    rw [ei, ej] at this
    exact this rfl
  · subst hij
    rw [ei] at ej
    exact hv (Prod.mk.inj (Prod.mk.inj ej).2).2
  · have := hnd j i hj hi hij
    rw [ei, ej] at this
    exact this rfl

/-- C66 is violated by every general file with the word "symmetric" in a comment and an entry off the diagonal, also if the matrix is
not square: the mirror images are added. The number of entries is too large, also with random values. -/
theorem C66_violated_comment {ofInt : Int → V} (neg : V → V) (fresh : Nat → Int × Int × V) (rand : Bool) (rnd : Nat → V) (remove : Bool)
    {t : MMText} {m n : Nat} {es : List (Nat × Nat × V)} (h : Describes (IntVal ofInt) (ofInt 1) t m n es)
    (hs : ∀ l ∈ t.lines, l.length ≤ 255) (hk : MisleadingComment t) {text : List Char} (hl : Lines t.lines text)
    {e : Nat × Nat × V} (he : e ∈ es) (hoff : e.1 ≠ e.2.1) :
    ∃ F : List (Nat × Nat × V), readTriples fresh ofInt rand rnd remove (some text) = .ok (((m : Int), (n : Int)), F.map castE) ∧
      (offDiagonal remove es).length < F.length ∧
      ∃ x ∈ F, (x.1, x.2.1) = (e.2.1, e.1) := by
  have hf : symFlag t = true := by
    obtain ⟨_, c, hc, hin⟩ := hk
    unfold symFlag
    rw [Bool.or_eq_true]
    right
    rw [List.any_eq_true]
    exact ⟨c, hc, decide_eq_true hin⟩
  obtain ⟨es', F, h1, _, _, h4, h5⟩ := triples_run neg fresh rand rnd remove (.of_describes h) hs hl
  rw [hf, if_pos rfl] at h5
  change F.Perm (fullEntries neg .symmetric (offDiagonal remove es')) at h5
  obtain ⟨e', he', ee⟩ : ∃ e' ∈ es', (e'.1, e'.2.1) = (e.1, e.2.1) := by
    have : (e.1, e.2.1) ∈ es'.map (fun e => (e.1, e.2.1)) := by
      rw [h1]
      exact List.mem_map.2 ⟨e, he, rfl⟩
    exact List.mem_map.1 this
  have e1 : e'.1 = e.1 := (Prod.mk.inj ee).1
  have e2 : e'.2.1 = e.2.1 := (Prod.mk.inj ee).2
  have hoff' : e'.1 ≠ e'.2.1 := by rw [e1, e2]; exact hoff
  have hm := mem_offDiagonal (remove := remove) he' hoff'
  have hlen : (offDiagonal remove es').length = (offDiagonal remove es).length := by
    have key : ∀ xs : List (Nat × Nat × V), (offDiagonal remove xs).length =
        ((xs.map fun e => (e.1, e.2.1)).filter fun e => !(remove && decide (e.1 = e.2))).length := by
      intro xs
      unfold offDiagonal
      rw [List.filter_map, List.length_map]
      rfl
    rw [key, key, h1]
  refine ⟨F, h4, ?_, (e'.2.1, e'.1, e'.2.2), ?_, by rw [e1, e2]⟩
  · rw [h5.length_eq]
    simp only [fullEntries, List.length_append, List.length_map]
    have h0 : ((offDiagonal remove es').filter fun e => decide (e.1 ≠ e.2.1)) ≠ [] :=
      List.ne_nil_of_mem (List.mem_filter.mpr ⟨hm, by simpa using hoff'⟩)
    have := List.length_pos_iff.mpr h0
    omega
  · refine h5.symm.subset ?_
    simp only [fullEntries, List.mem_append, List.mem_map, List.mem_filter]
    exact .inr ⟨e', ⟨hm, by simpa using hoff'⟩, rfl⟩

/-- C66 is violated if the file does not exist: the sizes are not set. -/
theorem C66_violated_missing (fresh : Nat → Int × Int × V) (ofInt : Int → V) (rand : Bool) (rnd : Nat → V) (remove : Bool) :
    readTriples fresh ofInt rand rnd remove none = .error .uninit := rfl

/-- C66 is violated by every file for which `ReadASCII` finds no sizes. -/
theorem C66_violated_header (fresh : Nat → Int × Int × V) (ofInt : Int → V) (rand : Bool) (rnd : Nat → V) (remove : Bool)
    {file : Option (List Char)} {e : Err} (h : header file = .error e) : readTriples fresh ofInt rand rnd remove file = .error e := by
  unfold readTriples entries
  rw [h]
  rfl

/-! ## Examples -/

example := C66_violated_skew (fun v : Int => -v) (fun _ => (0, 0, 0)) (fun i => (i : Int)) true skewFile_describes (by decide +kernel) rfl
  (text := banner .integer .skew ++ "\n2 2 1\n2 1 5\n".toList) (.inl ⟨[], by decide +kernel⟩) (by decide)
  (e := (1, 0, 5)) (by decide) (by decide) (by decide)

/-- A file with a misleading comment, whose matrix is not square -/
def wideComFile : MMText :=
  { field := .pattern, sym := .general, comments := ["not symmetric".toList], size := "2 3 1".toList, entries := ["1 3".toList] }

theorem wideComFile_describes : Describes (IntVal (id : Int → Int)) 1 wideComFile 2 3 [(0, 2, 1)] where
  noNewline := by decide +kernel
  size := .mk ['2'] ['3'] ['1'] 2 3 1 (.digit 2 (by decide)) (.digit 3 (by decide)) (.digit 1 (by decide))
  entries := .cons (.pattern ['1'] ['3'] 0 2 (.digit 1 (by decide)) (.digit 3 (by decide))) .nil
  inBounds := by decide
  square := fun h => absurd rfl h

example := C66_violated_comment (fun v : Int => -v) (fun _ => (0, 0, 0)) true (fun i => (i : Int)) true wideComFile_describes
  (by decide +kernel) ⟨rfl, _, List.mem_singleton_self _, by decide +kernel⟩
  (text := banner .pattern .general ++ "\n%not symmetric\n2 3 1\n1 3\n".toList) (.inl ⟨[], by decide +kernel⟩)
  (e := (0, 2, 1)) (by decide) (by decide)

/-- The row 2 of the second entry is outside the matrix with 2 rows. -/
example : readTriples (fun _ => (8, 8, 8)) (id : Int → Int) false (fun i => (i : Int)) true
      (some (banner .pattern .general ++ "\n%not symmetric\n2 3 1\n1 3\n".toList)) =
    .ok ((2, 3), [(0, 2, 1), (2, 0, 1)]) := by decide +kernel

end Verif.Props
